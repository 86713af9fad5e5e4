import Mathlib.Analysis.Convex.Deriv
import Mathlib.Analysis.SpecialFunctions.Gamma.Beta
import Mathlib.Analysis.SpecialFunctions.Gamma.BohrMollerup
import Mathlib.Analysis.SpecialFunctions.Gamma.Deriv
import Mathlib.Analysis.SpecialFunctions.Log.Deriv
import Mathlib.Analysis.SpecialFunctions.Trigonometric.Deriv
import Verif.Lemmas.LnGammaConst
import Verif.Model.Digamma

/-!
# The logarithmic derivative of the gamma function

Recurrence, reflection and an enclosure by the first terms of the asymptotic series.
-/

open Real Filter Topology

namespace Verif.Digamma

/-- The logarithmic derivative of the gamma function. -/
noncomputable def psi (x : ℝ) : ℝ := deriv (fun t => log (Gamma t)) x

theorem pole_free {x : ℝ} (hx : 0 < x) (m : ℕ) : x ≠ -m := by
  have : (0 : ℝ) ≤ m := Nat.cast_nonneg m
  intro h; linarith

theorem hasDerivAt_logGamma {x : ℝ} (hx : ∀ m : ℕ, x ≠ -m) : HasDerivAt (fun t => log (Gamma t)) (psi x) x :=
  ((differentiableAt_Gamma hx).log (Gamma_ne_zero hx)).hasDerivAt

theorem psi_add_one {x : ℝ} (hx : ∀ m : ℕ, x ≠ -m) : psi (x + 1) = psi x + 1 / x := by
  have hx0 : x ≠ 0 := by simpa using hx 0
  have hx1 : ∀ m : ℕ, x + 1 ≠ -m := by
    intro m h
    apply hx (m + 1)
    push_cast
    linarith
  have h1 : HasDerivAt (fun t => log (Gamma (t + 1))) (psi (x + 1)) x :=
    HasDerivAt.comp_add_const x 1 (hasDerivAt_logGamma hx1)
  have h2 : HasDerivAt (fun t => log (Gamma t) + log t) (psi x + 1 / x) x := by
    have := (hasDerivAt_logGamma hx).add (hasDerivAt_log hx0)
    rwa [← one_div] at this
  have h3 : (fun t => log (Gamma (t + 1))) =ᶠ[𝓝 x] fun t => log (Gamma t) + log t := by
    have c1 : ∀ᶠ t in 𝓝 x, t ≠ 0 := isOpen_ne.mem_nhds hx0
    have c2 : ∀ᶠ t in 𝓝 x, Gamma t ≠ 0 :=
      (differentiableAt_Gamma hx).continuousAt.eventually_ne (Gamma_ne_zero hx)
    filter_upwards [c1, c2] with t ht1 ht2
    rw [Gamma_add_one ht1, log_mul ht1 ht2, add_comm]
  exact h1.unique (h2.congr_of_eventuallyEq h3)

theorem psi_reflect {x : ℝ} (hx : ∀ n : ℤ, x ≠ n) : psi x = psi (1 - x) + π / tan (-π * x) := by
  have hm : ∀ m : ℕ, x ≠ -m := fun m h => hx (-m) (by rw [h]; push_cast; rfl)
  have hm' : ∀ m : ℕ, 1 - x ≠ -m := fun m h => hx (m + 1) (by push_cast; linarith)
  have hs : sin (π * x) ≠ 0 := by
    intro h
    obtain ⟨n, hn⟩ := sin_eq_zero_iff.1 h
    exact hx n (by have := pi_pos.ne'; field_simp at hn; linarith)
  have h1 : HasDerivAt (fun t => log (Gamma t) + log (Gamma (1 - t))) (psi x + psi (1 - x) * (-1)) x := by
    refine (hasDerivAt_logGamma hm).add ?_
    exact (hasDerivAt_logGamma hm').comp x ((hasDerivAt_id x).const_sub 1)
  have h2 : HasDerivAt (fun t => log π - log (sin (π * t))) (-(cos (π * x) * π / sin (π * x))) x := by
    have e1 : HasDerivAt (fun t => π * t) π x := by simpa using (hasDerivAt_id x).const_mul π
    have e2 := (((hasDerivAt_sin (π * x)).comp x e1).log hs).const_sub (log π)
    exact e2
  have h3 : (fun t => log (Gamma t) + log (Gamma (1 - t))) =ᶠ[𝓝 x] fun t => log π - log (sin (π * t)) := by
    have c1 : ∀ᶠ t in 𝓝 x, Gamma t ≠ 0 :=
      (differentiableAt_Gamma hm).continuousAt.eventually_ne (Gamma_ne_zero hm)
    have c2 : ∀ᶠ t in 𝓝 x, Gamma (1 - t) ≠ 0 := by
      have : ContinuousAt (fun t => Gamma (1 - t)) x :=
        ContinuousAt.comp (f := fun t => 1 - t) (g := Gamma) (differentiableAt_Gamma hm').continuousAt
          (continuousAt_const.sub continuousAt_id)
      exact this.eventually_ne (Gamma_ne_zero hm')
    have c3 : ∀ᶠ t in 𝓝 x, sin (π * t) ≠ 0 := by
      have : ContinuousAt (fun t => sin (π * t)) x := by fun_prop
      exact this.eventually_ne hs
    filter_upwards [c1, c2, c3] with t h1 h2 h3
    rw [← log_mul h1 h2, Gamma_mul_Gamma_one_sub, log_div pi_pos.ne' h3]
  have h4 := h1.unique (h2.congr_of_eventuallyEq h3)
  have h5 : π / tan (-π * x) = -(cos (π * x) * π / sin (π * x)) := by
    rw [show -π * x = -(π * x) by ring, tan_neg, tan_eq_sin_div_cos]
    by_cases hc : cos (π * x) = 0
    · rw [hc]; simp
    · field_simp
  rw [h5]
  linarith

theorem log_Gamma_succ {x : ℝ} (hx : 0 < x) : log (Gamma (x + 1)) = log (Gamma x) + log x := by
  rw [Gamma_add_one hx.ne', log_mul hx.ne' (Gamma_pos_of_pos hx).ne', add_comm]

theorem psi_le_log {x : ℝ} (hx : 0 < x) : psi x ≤ log x := by
  have h := convexOn_log_Gamma.le_slope_of_hasDerivAt (x := x) (y := x + 1) hx (by show 0 < x + 1; linarith)
    (by linarith) (hasDerivAt_logGamma (pole_free hx))
  rw [slope_def_field] at h
  simp only [Function.comp_apply] at h
  rw [log_Gamma_succ hx] at h
  simpa using h

theorem log_le_psi {x : ℝ} (hx : 0 < x) : log x ≤ psi (x + 1) := by
  have h := convexOn_log_Gamma.slope_le_of_hasDerivAt (x := x) (y := x + 1) hx (by show 0 < x + 1; linarith)
    (by linarith) (hasDerivAt_logGamma (pole_free (by linarith)))
  rw [slope_def_field] at h
  simp only [Function.comp_apply] at h
  rw [log_Gamma_succ hx] at h
  simpa using h

/-! ### The asymptotic series -/

/-- The derivative of `tailPart`. -/
noncomputable def slopePart (x : ℝ) : ℝ :=
  1 / x + 1 / (2 * x ^ 2) + 1 / (6 * x ^ 3) - 1 / (30 * x ^ 5) + 1 / (42 * x ^ 7) - 1 / (30 * x ^ 9) + 5 / (66 * x ^ 11)

theorem tailPart_eq (x : ℝ) : tailPart x = log x - x⁻¹ / 2 - (x⁻¹ ^ 2 / 12 - x⁻¹ ^ 4 / 120 + x⁻¹ ^ 6 / 252 -
    x⁻¹ ^ 8 / 240 + x⁻¹ ^ 10 / 132) := by
  unfold tailPart correction
  rw [one_div x]
  ring

theorem hasDerivAt_tailPart {x : ℝ} (hx : 0 < x) : HasDerivAt tailPart (slopePart x) x := by
  have e : tailPart =ᶠ[𝓝 x] fun x => log x - x⁻¹ / 2 - (x⁻¹ ^ 2 / 12 - x⁻¹ ^ 4 / 120 + x⁻¹ ^ 6 / 252 -
      x⁻¹ ^ 8 / 240 + x⁻¹ ^ 10 / 132) := by
    filter_upwards [lt_mem_nhds hx] with t ht
    exact tailPart_eq t
  have hi := hasDerivAt_inv hx.ne'
  have h := ((hasDerivAt_log hx.ne').sub (hi.div_const 2)).sub
    (((((hi.pow 2).div_const 12).sub ((hi.pow 4).div_const 120)).add ((hi.pow 6).div_const 252)).sub
      ((hi.pow 8).div_const 240) |>.add ((hi.pow 10).div_const 132))
  refine (h.congr_deriv ?_).congr_of_eventuallyEq e
  unfold slopePart
  simp only [inv_pow]
  field_simp
  ring

/-- How far the series is from satisfying the recurrence. -/
noncomputable def gap (x : ℝ) : ℝ := tailPart (x + 1) - tailPart x - 1 / x

/-- The first neglected term. -/
noncomputable def bound (x : ℝ) : ℝ := 691 / 32760 / x ^ 12

theorem hasDerivAt_gap {x : ℝ} (hx : 0 < x) :
    HasDerivAt gap (slopePart (x + 1) - slopePart x + 1 / x ^ 2) x := by
  have h1 : HasDerivAt (fun t => tailPart (t + 1)) (slopePart (x + 1)) x :=
    HasDerivAt.comp_add_const x 1 (hasDerivAt_tailPart (by linarith))
  have h2 : HasDerivAt (fun t : ℝ => 1 / t) (-(1 / x ^ 2)) x := by
    have := hasDerivAt_inv hx.ne'
    simpa [one_div] using this
  exact ((h1.sub (hasDerivAt_tailPart hx)).sub h2).congr_deriv (by ring)

theorem gap_slope {x : ℝ} (hx : 0 < x) : slopePart (x + 1) - slopePart x + 1 / x ^ 2 =
    -((5/66 + 5/6 * x + 62/15 * x ^ 2 + 182/15 * x ^ 3 + 487/21 * x ^ 4 + 625/21 * x ^ 5 + 2654/105 * x ^ 6 +
      1382/105 * x ^ 7 + 691/210 * x ^ 8) / (x ^ 11 * (x + 1) ^ 11)) := by
  have h1 : x + 1 ≠ 0 := by linarith
  unfold slopePart
  field_simp
  ring

theorem hasDerivAt_bound {x : ℝ} (hx : 0 < x) : HasDerivAt bound (-(691 / 2730 / x ^ 13)) x := by
  have h := ((hasDerivAt_inv hx.ne').pow 12).const_mul (691 / 32760 : ℝ)
  have e : bound = fun t : ℝ => 691 / 32760 * t⁻¹ ^ 12 := by
    funext t; unfold bound; rw [inv_pow, ← div_eq_mul_inv]
  rw [e]
  refine h.congr_deriv ?_
  simp only [inv_pow]
  field_simp
  ring

theorem rest_slope {x : ℝ} (hx : 0 < x) : -(691 / 2730 / x ^ 13) - -(691 / 2730 / (x + 1) ^ 13) -
      (slopePart (x + 1) - slopePart x + 1 / x ^ 2) =
    -((691/2730 + 691/210 * x + 45431/2310 * x ^ 2 + 164947/2310 * x ^ 3 + 202241/1155 * x ^ 4 + 6395/21 * x ^ 5 +
      40189/105 * x ^ 6 + 5191/15 * x ^ 7 + 6533/30 * x ^ 8 + 175/2 * x ^ 9 + 35/2 * x ^ 10) /
        (x ^ 13 * (x + 1) ^ 13)) := by
  have h1 : x + 1 ≠ 0 := by linarith
  rw [gap_slope hx]
  field_simp
  ring

/-- A function on the positive axis that falls and tends to zero is not negative. -/
theorem nonneg_of_falling {g g' : ℝ → ℝ} (hd : ∀ t, 0 < t → HasDerivAt g (g' t) t) (hg : ∀ t, 0 < t → g' t ≤ 0)
    (hl : Tendsto g atTop (𝓝 0)) {x : ℝ} (hx : 0 < x) : 0 ≤ g x := by
  have hanti : AntitoneOn g (Set.Ioi 0) := by
    apply antitoneOn_of_deriv_nonpos (convex_Ioi 0)
    · exact fun t ht => (hd t ht).continuousAt.continuousWithinAt
    · intro t ht
      rw [interior_Ioi] at ht
      exact (hd t ht).differentiableAt.differentiableWithinAt
    · intro t ht
      rw [interior_Ioi] at ht
      rw [(hd t ht).deriv]
      exact hg t ht
  refine le_of_tendsto hl ?_
  filter_upwards [eventually_ge_atTop x] with t ht
  exact hanti hx (lt_of_lt_of_le hx ht) ht

theorem tendsto_inv_pow (n : ℕ) (hn : n ≠ 0) : Tendsto (fun x : ℝ => x⁻¹ ^ n) atTop (𝓝 0) := by
  have := (tendsto_inv_atTop_zero (𝕜 := ℝ)).pow n
  rwa [zero_pow hn] at this

theorem tendsto_tail_log : Tendsto (fun x => tailPart x - log x) atTop (𝓝 0) := by
  have h := (((tendsto_inv_atTop_zero (𝕜 := ℝ)).div_const 2).neg).sub
    ((((((tendsto_inv_pow 2 (by norm_num)).div_const 12).sub ((tendsto_inv_pow 4 (by norm_num)).div_const 120)).add
      ((tendsto_inv_pow 6 (by norm_num)).div_const 252)).sub ((tendsto_inv_pow 8 (by norm_num)).div_const 240)).add
      ((tendsto_inv_pow 10 (by norm_num)).div_const 132))
  simp only [zero_div, neg_zero, sub_zero, add_zero] at h
  refine h.congr' ?_
  filter_upwards [eventually_gt_atTop 0] with x hx
  rw [tailPart_eq]
  ring

theorem tendsto_bound : Tendsto bound atTop (𝓝 0) := by
  have h := (tendsto_inv_pow 12 (by norm_num)).const_mul (691 / 32760 : ℝ)
  rw [mul_zero] at h
  refine h.congr fun x => ?_
  unfold bound
  rw [inv_pow, ← div_eq_mul_inv]

theorem tendsto_shift {g : ℝ → ℝ} {l : ℝ} (h : Tendsto g atTop (𝓝 l)) : Tendsto (fun x => g (x + 1)) atTop (𝓝 l) :=
  h.comp (tendsto_atTop_add_const_right _ _ tendsto_id)

theorem tendsto_gap : Tendsto gap atTop (𝓝 0) := by
  have h1 := (tendsto_shift tendsto_tail_log).sub tendsto_tail_log
  have h2 := LnGamma.tendsto_log_ratio 1 0
  have h3 := (h1.add h2).sub (tendsto_inv_atTop_zero (𝕜 := ℝ))
  simp only [sub_zero, add_zero] at h3
  refine h3.congr fun x => ?_
  unfold gap
  rw [one_div]
  ring

theorem gap_nonneg {x : ℝ} (hx : 0 < x) : 0 ≤ gap x := by
  refine nonneg_of_falling (fun t ht => hasDerivAt_gap ht) (fun t ht => ?_) tendsto_gap hx
  rw [gap_slope ht]
  have : 0 ≤ (5/66 + 5/6 * t + 62/15 * t ^ 2 + 182/15 * t ^ 3 + 487/21 * t ^ 4 + 625/21 * t ^ 5 + 2654/105 * t ^ 6 +
      1382/105 * t ^ 7 + 691/210 * t ^ 8) / (t ^ 11 * (t + 1) ^ 11) := by positivity
  linarith

theorem gap_le {x : ℝ} (hx : 0 < x) : gap x ≤ bound x - bound (x + 1) := by
  have h : 0 ≤ bound x - bound (x + 1) - gap x := by
    refine nonneg_of_falling (g := fun t => bound t - bound (t + 1) - gap t)
      (g' := fun t => -(691 / 2730 / t ^ 13) - -(691 / 2730 / (t + 1) ^ 13) -
        (slopePart (t + 1) - slopePart t + 1 / t ^ 2)) (fun t ht => ?_) (fun t ht => ?_) ?_ hx
    · have h1 : HasDerivAt (fun t => bound (t + 1)) (-(691 / 2730 / (t + 1) ^ 13)) t :=
        HasDerivAt.comp_add_const t 1 (hasDerivAt_bound (by linarith))
      exact ((hasDerivAt_bound ht).sub h1).sub (hasDerivAt_gap ht)
    · rw [rest_slope ht]
      have : 0 ≤ (691/2730 + 691/210 * t + 45431/2310 * t ^ 2 + 164947/2310 * t ^ 3 + 202241/1155 * t ^ 4 +
        6395/21 * t ^ 5 + 40189/105 * t ^ 6 + 5191/15 * t ^ 7 + 6533/30 * t ^ 8 + 175/2 * t ^ 9 + 35/2 * t ^ 10) /
        (t ^ 13 * (t + 1) ^ 13) := by positivity
      linarith
    · have := (tendsto_bound.sub (tendsto_shift tendsto_bound)).sub tendsto_gap
      simpa using this
  linarith

theorem psi_tail_step {x : ℝ} (hx : 0 < x) : psi x - tailPart x = psi (x + 1) - tailPart (x + 1) + gap x := by
  rw [psi_add_one (pole_free hx)]
  unfold gap
  ring

theorem tendsto_psi_tail : Tendsto (fun x => psi x - tailPart x) atTop (𝓝 0) := by
  have h1 : Tendsto (fun x => psi x - log x) atTop (𝓝 0) := by
    have hl : Tendsto (fun x : ℝ => -x⁻¹) atTop (𝓝 0) := by
      simpa using (tendsto_inv_atTop_zero (𝕜 := ℝ)).neg
    refine tendsto_of_tendsto_of_tendsto_of_le_of_le' hl tendsto_const_nhds ?_ ?_
    · filter_upwards [eventually_gt_atTop 0] with x hx
      have := log_le_psi hx
      rw [psi_add_one (pole_free hx), one_div] at this
      linarith
    · filter_upwards [eventually_gt_atTop 0] with x hx
      have := psi_le_log hx
      linarith
  have := h1.sub tendsto_tail_log
  simp only [sub_zero] at this
  refine this.congr fun x => ?_
  ring

/-- The series of the code lies below the digamma function, by less than the first term it leaves out. -/
theorem psi_enclosure {x : ℝ} (hx : 0 < x) : tailPart x ≤ psi x ∧ psi x ≤ tailPart x + bound x := by
  have key : ∀ n : ℕ, psi (x + n) - tailPart (x + n) ≤ psi x - tailPart x ∧
      psi x - tailPart x - bound x ≤ psi (x + n) - tailPart (x + n) - bound (x + n) := by
    intro n
    induction n with
    | zero => simp
    | succ n ih =>
      have hp : 0 < x + n := by positivity
      have h1 := psi_tail_step hp
      have h2 := gap_nonneg hp
      have h3 := gap_le hp
      push_cast
      rw [← add_assoc]
      constructor <;> linarith [ih.1, ih.2]
  have ht : Tendsto (fun n : ℕ => x + (n : ℝ)) atTop atTop :=
    tendsto_atTop_add_const_left _ _ tendsto_natCast_atTop_atTop
  have l1 := tendsto_psi_tail.comp ht
  have l2 := (tendsto_psi_tail.sub tendsto_bound).comp ht
  simp only [sub_zero] at l2
  constructor
  · have := le_of_tendsto' l1 fun n => (key n).1
    linarith
  · have := ge_of_tendsto' l2 fun n => (key n).2
    linarith

end Verif.Digamma
