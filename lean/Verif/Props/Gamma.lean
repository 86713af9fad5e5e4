import Mathlib.Analysis.Complex.ExponentialBounds
import Mathlib.Analysis.Real.Pi.Bounds
import Mathlib.MeasureTheory.Integral.Gamma
import Verif.Lemmas.GammaLower
import Verif.Lemmas.GammaReal
import Verif.Props.LnGamma

/-!
# p-values from the gamma survival function: theorems

Claims about the chi-squared p-value compare it with the tail probability, given by the
integral that defines it.
-/

namespace Verif.Gamma

open MeasureTheory Set

namespace Spec

/-- Probability that a gamma variable with shape `a` and rate 1 exceeds `x`. -/
noncomputable def Q (a x : ℝ) : ℝ := (∫ t in Ioi x, Real.exp (-t) * t ^ (a - 1)) / Real.Gamma a

/-- Every long enough run of the loops gives the p-value `p`. -/
def Gives (stat : ℝ) (dof : ℕ) (p : ℝ) : Prop :=
  ∃ N, ∀ fuel, N ≤ fuel → chi2P fuel (some stat) dof = some (some (some p))

end Spec

open Spec

theorem exp_ax {a x : ℝ} (ha : 0 < a) (hx : 0 < x) :
    Real.exp (a * Real.log x - x - Real.log (Real.Gamma a)) = Real.exp (-x) * x ^ a / Real.Gamma a := by
  have hg := Real.Gamma_pos_of_pos ha
  rw [Real.exp_sub, Real.exp_log hg, Real.rpow_def_of_pos hx, ← Real.exp_add]
  congr 2
  ring

theorem exp_ax_near {a x : ℝ} (ha : 0 < a) (hx : 0 < x) :
    ∃ κ, |κ - 1| ≤ 2 / 10 ^ 16 ∧ 0 < κ ∧ Real.exp (a * Real.log x - x - LnGamma.lnGamma a) =
      κ * (Real.exp (-x) * x ^ a / Real.Gamma a) := by
  have h := LnGamma.ln_gamma_accuracy a ha
  refine ⟨Real.exp (Real.log (Real.Gamma a) - LnGamma.lnGamma a), ?_, Real.exp_pos _, ?_⟩
  · rw [abs_sub_comm] at h
    have h1 := Real.abs_exp_sub_one_le (h.trans (by norm_num))
    linarith
  · rw [← exp_ax ha hx, ← Real.exp_add]
    congr 1
    ring

/-- Below the cutoff, whatever the error of `ln_gamma`. -/
theorem exp_cut {κ E : ℝ} (k1 : |κ - 1| ≤ 2 / 10 ^ 16) (hE : 0 < E) (h : κ * E < Real.exp minLog) :
    E < Real.exp (-709) := by
  have h1 := (abs_le.1 k1).1
  have h2 : Real.exp (-709) = Real.exp minLog * Real.exp (-709 - minLog) := by
    rw [← Real.exp_add]
    congr 1
    ring
  have h3 : (3 / 2 : ℝ) ≤ Real.exp (-709 - minLog) := by
    refine le_trans ?_ (Real.add_one_le_exp _)
    unfold minLog
    norm_num
  have h4 := Real.exp_pos minLog
  rw [h2]
  nlinarith

/-- The factor in front of the continued fraction. -/
theorem near_mul {κ E w J c : ℝ} (k1 : |κ - 1| ≤ 2 / 10 ^ 16) (hE : 0 < E) (hw : 0 < w) (c0 : 0 ≤ c) (c1 : c ≤ 1 / 10)
    (h : |w - J| ≤ c * w) : |w * (κ * E) - E * J| ≤ (c + 3 / 10 ^ 16) * (w * (κ * E)) := by
  have e : w * (κ * E) - E * J = (κ - 1) * (w * E) + (w - J) * E := by ring
  have hp : 0 < w * E := mul_pos hw hE
  have h1 : |w * (κ * E) - E * J| ≤ 2 / 10 ^ 16 * (w * E) + c * w * E := by
    rw [e]
    refine (abs_add_le _ _).trans (add_le_add ?_ ?_)
    · rw [abs_mul, abs_of_pos hp]
      exact mul_le_mul_of_nonneg_right k1 hp.le
    · rw [abs_mul, abs_of_pos hE]
      exact mul_le_mul_of_nonneg_right h hE.le
  have h2 := (abs_le.1 k1).1
  have h3 : 2 / 10 ^ 16 + c ≤ (c + 3 / 10 ^ 16) * κ := by nlinarith
  have h4 := mul_le_mul_of_nonneg_right h3 hp.le
  linarith

theorem gam_one {x : ℝ} : gam 1 x = 1 - Real.exp (-x) := by
  unfold gam
  have : ∀ t : ℝ, Real.exp (-t) * t ^ ((1 : ℝ) - 1) = Real.exp (-t) := by intro t; simp
  simp only [this]
  rw [intervalIntegral.integral_comp_neg (fun t => Real.exp t)]
  simp

theorem upper_nat {x : ℝ} (hx : 0 < x) (m : ℕ) :
    Real.Gamma (m + 1) - gam (m + 1) x = Real.exp (-x) * x ^ (m + 1) * J x 0 m := by
  induction m with
  | zero =>
    simp only [Nat.cast_zero, zero_add, Real.Gamma_one, gam_one, J, Nat.factorial_zero, Nat.cast_one, pow_one]
    field_simp
    ring
  | succ m ih =>
    have hm : (0 : ℝ) < m + 1 := by positivity
    have h1 := gam_add_one hm hx.le
    have h2 := Real.Gamma_add_one hm.ne'
    have h3 := (J_rec hx (m + 1)).1
    push_cast at h3 ⊢
    rw [h1, h2]
    have h4 : x ^ ((m : ℝ) + 1) = x ^ (m + 1) := by
      rw [← Nat.cast_succ, Real.rpow_natCast]
    rw [h4, pow_succ x (m + 1)]
    linear_combination ((m : ℝ) + 1) * ih - Real.exp (-x) * x ^ (m + 1) * h3

/-- For a whole shape the tail is elementary. -/
theorem Q_nat {x : ℝ} (hx : 0 < x) (n : ℕ) (hn : 1 ≤ n) :
    Q n x = Real.exp (-x) * x ^ (n : ℝ) / Real.Gamma n * J x 0 (n - 1) := by
  obtain ⟨m, rfl⟩ : ∃ m, n = m + 1 := ⟨n - 1, by omega⟩
  have hpos : (0 : ℝ) < ((m + 1 : ℕ) : ℝ) := by positivity
  have hg := Real.Gamma_pos_of_pos hpos
  unfold Q
  rw [upper_eq hpos hx.le]
  have h := upper_nat hx m
  push_cast at hg h ⊢
  have h4 : x ^ ((m : ℝ) + 1) = x ^ (m + 1) := by rw [← Nat.cast_succ, Real.rpow_natCast]
  rw [h4]
  field_simp
  linarith

theorem Q_one {x : ℝ} (hx : 0 < x) : Q 1 x = Real.exp (-x) := by
  have := Q_nat hx 1 le_rfl
  rw [Nat.cast_one] at this
  rw [this]
  simp [J]
  field_simp

theorem gam_nonneg_le {a x : ℝ} (ha : 0 < a) (hx : 0 ≤ x) : gam a x ≤ Real.Gamma a := by
  have h := upper_eq ha hx
  have hg := Real.Gamma_pos_of_pos ha
  have h0 : 0 ≤ (∫ t in Ioi x, Real.exp (-t) * t ^ (a - 1)) / Real.Gamma a := by
    apply div_nonneg _ hg.le
    apply setIntegral_nonneg measurableSet_Ioi
    intro t ht
    exact mul_nonneg (Real.exp_pos _).le (Real.rpow_nonneg (hx.trans (le_of_lt ht)) _)
  rw [h] at h0
  rw [sub_nonneg, div_le_one hg] at h0
  exact h0

theorem exp_cutoff : Real.exp (-709) ≤ eps / 3 := by
  have h1 : (2 : ℝ) ≤ Real.exp 1 := by
    have := Real.add_one_le_exp (1 : ℝ)
    linarith
  have h2 : Real.exp (-709) ≤ Real.exp (-(100 : ℕ)) := by
    apply Real.exp_le_exp.2
    norm_num
  have h3 : Real.exp (-(100 : ℕ)) = ((Real.exp 1) ^ 100)⁻¹ := by
    rw [Real.exp_neg, ← Real.exp_nat_mul]
    simp
  have h4 : (2 : ℝ) ^ 100 ≤ Real.exp 1 ^ 100 := pow_le_pow_left₀ (by norm_num) h1 100
  have h5 : (Real.exp 1 ^ 100)⁻¹ ≤ ((2 : ℝ) ^ 100)⁻¹ := inv_anti₀ (by norm_num) h4
  have h6 : ((2 : ℝ) ^ 100)⁻¹ ≤ eps / 3 := by unfold eps; norm_num
  linarith [h3 ▸ h2]

theorem gamma_le_inv {a : ℝ} (ha : 0 < a) (h1 : a ≤ 1) : Real.Gamma a ≤ 1 / a := by
  have h := Real.convexOn_Gamma.2 (show (1 : ℝ) ∈ Ioi 0 by norm_num) (show (2 : ℝ) ∈ Ioi 0 by norm_num)
    (show 0 ≤ 1 - a by linarith) ha.le (by ring)
  simp only [smul_eq_mul, Real.Gamma_one, Real.Gamma_two] at h
  have e : (1 - a) * 1 + a * 2 = a + 1 := by ring
  rw [e, Real.Gamma_add_one ha.ne'] at h
  rw [le_div_iff₀ ha]
  linarith

/-- With an exponent below the cutoff the shape is not below the argument. -/
theorem cutoff_not_lt {a x : ℝ} (ha : 1 / 2 ≤ a) (hx : 0 < x) (hx1 : x < 1)
    (h : Real.exp (-x) * x ^ a / Real.Gamma a < Real.exp (-709)) : x ≤ a := by
  by_contra hc
  rw [not_le] at hc
  have ha0 : 0 < a := by linarith
  have hg := Real.Gamma_pos_of_pos ha0
  have hg2 : Real.Gamma a ≤ 2 := by
    have := gamma_le_inv ha0 (by linarith)
    have h2 : 1 / a ≤ 2 := by rw [div_le_iff₀ ha0]; linarith
    linarith
  have h1 : (1 / 2 : ℝ) ≤ x := by linarith
  have h2 : x ^ (1 : ℝ) ≤ x ^ a := Real.rpow_le_rpow_of_exponent_ge hx hx1.le (by linarith)
  rw [Real.rpow_one] at h2
  have h3 : Real.exp (-1) ≤ Real.exp (-x) := Real.exp_le_exp.2 (by linarith)
  have h4 : (1 / 3 : ℝ) ≤ Real.exp (-1) := by
    rw [Real.exp_neg, one_div]
    apply inv_anti₀ (Real.exp_pos _)
    have := Real.exp_one_lt_d9
    linarith
  have h5 : (1 / 3 : ℝ) * (1 / 2) ≤ Real.exp (-x) * x ^ a :=
    mul_le_mul (h4.trans h3) (h1.trans h2) (by norm_num) (Real.exp_pos _).le
  have h6 : (1 / 12 : ℝ) ≤ Real.exp (-x) * x ^ a / Real.Gamma a := by
    rw [le_div_iff₀ hg]
    linarith
  have h7 := exp_cutoff
  have h8 : eps / 3 < 1 / 12 := by unfold eps; norm_num
  linarith

/-- Where the lower function is used: `x < 1` or `x` at most the shape. -/
theorem upper_series {a x : ℝ} (ha : 1 / 2 ≤ a) (hx : precAcc ≤ x)
    (h : x < 1 ∨ x ≤ a) :
    ∃ p N, (∀ fuel, N ≤ fuel → upper fuel a x = some (some p)) ∧ 0 ≤ p ∧ p ≤ 1 ∧
      |p - Q a x| ≤ 13 / 10 * eps * max 1 a := by
  have ha0 : 0 < a := by linarith
  have hpa : (0 : ℝ) < precAcc := by unfold precAcc; norm_num
  have hpa2 : precAcc ≤ 1 / 2 := by unfold precAcc; norm_num
  have hx0 : 0 < x := by linarith
  have hg := Real.Gamma_pos_of_pos ha0
  have hm1 : (1 : ℝ) ≤ max 1 a := le_max_left 1 a
  have hQ : Q a x = 1 - gam a x / Real.Gamma a := upper_eq ha0 hx0.le
  have hP0 : 0 ≤ gam a x / Real.Gamma a := div_nonneg (gam_nonneg hx0.le) hg.le
  have hP1 : gam a x / Real.Gamma a ≤ 1 := by rw [div_le_one hg]; exact gam_nonneg_le ha0 hx0.le
  obtain ⟨κ, k1, k0, hax⟩ := exp_ax_near ha0 hx0
  unfold upper lower
  simp only [if_neg (not_le.2 ha0), if_neg (not_le.2 hx0), if_pos h, abs_of_pos ha0, abs_of_pos hx0,
    if_neg (not_lt.2 (hpa2.trans ha)), if_neg (not_lt.2 hx)]
  by_cases hcut : a * Real.log x - x - LnGamma.lnGamma a < minLog
  · have h1 : Real.exp (-x) * x ^ a / Real.Gamma a < Real.exp (-709) := by
      apply exp_cut k1 (by positivity)
      rw [← hax]; exact Real.exp_lt_exp.2 hcut
    have hle : x ≤ a := by
      rcases h with h | h
      · exact cutoff_not_lt ha hx0 h h1
      · exact h
    refine ⟨1, 0, ?_, by norm_num, le_rfl, ?_⟩
    · intro fuel _
      simp only [if_pos hcut, if_neg (not_lt.2 hle)]
      simp
    · rw [hQ]
      have h2 := (psum_bounds ha0 hx0 0 (by simp; linarith)).2
      simp only [psum, term, Nat.cast_zero, add_zero, one_mul] at h2
      have h3 : x / (a + 1 - x) ≤ a := by
        rw [div_le_iff₀ (by linarith)]
        nlinarith
      have hE : 0 < Real.exp (-x) * x ^ a := mul_pos (Real.exp_pos _) (Real.rpow_pos_of_pos hx0 a)
      have h4 : a * gam a x ≤ Real.exp (-x) * x ^ a * (1 + a) :=
        h2.trans (mul_le_mul_of_nonneg_left (by linarith) hE.le)
      have h5 : gam a x ≤ Real.exp (-x) * x ^ a * 3 := by
        have : a * gam a x ≤ a * (Real.exp (-x) * x ^ a * 3) := by
          have : Real.exp (-x) * x ^ a * (1 + a) ≤ Real.exp (-x) * x ^ a * (3 * a) :=
            mul_le_mul_of_nonneg_left (by linarith) hE.le
          nlinarith
        exact le_of_mul_le_mul_left this ha0
      have h6 : gam a x / Real.Gamma a ≤ Real.exp (-x) * x ^ a / Real.Gamma a * 3 := by
        rw [div_mul_eq_mul_div]
        exact div_le_div_of_nonneg_right h5 hg.le
      have h7 := exp_cutoff
      rw [sub_sub_cancel, abs_of_nonneg hP0]
      have h8 : eps ≤ eps * max 1 a := le_mul_of_one_le_right eps_pos.le hm1
      have := eps_pos
      linarith
  · obtain ⟨s, N, s1, s2, s3, s4⟩ := series_spec ha0 hx0 (h.imp le_of_lt id)
    have e1 : Real.exp (-x) * x ^ a / Real.Gamma a * s / a ≤ gam a x / Real.Gamma a := by
      rw [div_mul_eq_mul_div, div_div, div_le_div_iff₀ (by positivity) hg]
      nlinarith
    have e2 : gam a x / Real.Gamma a ≤ Real.exp (-x) * x ^ a / Real.Gamma a * s / a * (1 + eps * max 1 a) := by
      have e : Real.exp (-x) * x ^ a / Real.Gamma a * s / a * (1 + eps * max 1 a) =
          Real.exp (-x) * x ^ a * (s * (1 + eps * max 1 a)) / (a * Real.Gamma a) := by field_simp
      rw [e, div_le_div_iff₀ hg (by positivity)]
      nlinarith
    have e0 : 0 ≤ Real.exp (-x) * x ^ a / Real.Gamma a * s / a := by positivity
    have q0 : 1 / 200 ≤ Q a x := upper_lower_bound ha hx0 h
    generalize hv : Real.exp (-x) * x ^ a / Real.Gamma a * s / a = v at e0 e1 e2
    obtain ⟨k2, k3⟩ := abs_le.1 k1
    have k4 : |(κ - 1) * v| ≤ 2 / 10 ^ 16 := by
      rw [abs_mul, abs_of_nonneg e0]
      calc |κ - 1| * v ≤ 2 / 10 ^ 16 * 1 := mul_le_mul k1 (e1.trans hP1) e0 (by norm_num)
        _ = _ := mul_one _
    obtain ⟨k5, k6⟩ := abs_le.1 k4
    refine ⟨1 - κ * v, N, ?_, by linarith, by nlinarith, ?_⟩
    · intro fuel hf
      simp only [if_neg hcut, if_pos (h.imp le_of_lt id), s2 fuel hf, hax, ← hv]
      simp only [Option.map_some, Option.some.injEq]
      ring
    · rw [hQ]
      have e3 : v * (eps * max 1 a) ≤ 1 * (eps * max 1 a) :=
        mul_le_mul_of_nonneg_right (e1.trans hP1) (by have := eps_pos; positivity)
      have e4 : 1 / 10 ^ 15 ≤ eps * max 1 a := le_mul_of_one_le_right (by norm_num) hm1
      rw [abs_le]
      constructor <;> linarith

theorem J_le_one {x : ℝ} {n : ℕ} (hx : (n : ℝ) ≤ x) (hn : 1 ≤ n) : J x 0 (n - 1) ≤ 1 := by
  have hx0 : 0 < x := lt_of_lt_of_le (by exact_mod_cast hn) hx
  have key : ∀ m : ℕ, (m : ℝ) + 1 ≤ x → J x 0 m ≤ 1 := by
    intro m
    induction m with
    | zero =>
      intro h
      have := (J_rec hx0 0).1
      simp only [Nat.cast_zero, zero_mul, add_zero, zero_add] at this h
      nlinarith [J_pos hx0 0 0]
    | succ m ih =>
      intro h
      push_cast at h
      have h1 := (J_rec hx0 (m + 1)).1
      rw [show m + 1 - 1 = m from rfl] at h1
      push_cast at h1
      have h2 := ih (by linarith)
      have h3 : x * J x 0 (m + 1) ≤ x * 1 := by
        rw [h1]
        nlinarith
      exact le_of_mul_le_mul_left h3 hx0
  apply key
  have : ((n - 1 : ℕ) : ℝ) + 1 = n := by
    rw [Nat.cast_sub hn]; push_cast; ring
  rw [this]
  exact hx

/-- Where the continued fraction is used, for a whole shape. -/
theorem upper_fraction {n : ℕ} {x : ℝ} (hn : 1 ≤ n) (hx1 : 1 ≤ x)
    (hx : n = 1 ∨ (n : ℝ) < x) (hle : (n : ℝ) ≤ x) (hbr : ¬(x < 1 ∨ x ≤ n)) :
    ∃ p N, (∀ fuel, N ≤ fuel → upper fuel n x = some (some p)) ∧ 0 ≤ p ∧
      (|p - Q n x| ≤ 13 / 10 * eps * p ∨ p = 0 ∧ Q n x ≤ Real.exp (-709)) := by
  have hx0 : 0 < x := by linarith
  have ha0 : (0 : ℝ) < n := by exact_mod_cast hn
  have hg := Real.Gamma_pos_of_pos ha0
  obtain ⟨κ, k1, k0, hax⟩ := exp_ax_near ha0 hx0
  have hQ := Q_nat hx0 n hn
  have hE : 0 < Real.exp (-x) * x ^ (n : ℝ) / Real.Gamma n :=
    div_pos (mul_pos (Real.exp_pos _) (Real.rpow_pos_of_pos hx0 _)) hg
  unfold upper
  simp only [if_neg (not_le.2 ha0), if_neg (not_le.2 hx0), if_neg hbr]
  by_cases hcut : (n : ℝ) * Real.log x - x - LnGamma.lnGamma n < minLog
  · have hlt : (n : ℝ) < x := by
      by_contra hc
      exact hbr (Or.inr (not_lt.1 hc))
    refine ⟨0, 0, ?_, le_rfl, Or.inr ⟨rfl, ?_⟩⟩
    · intro fuel _
      simp only [if_pos hcut, if_pos hlt]
    · rw [hQ]
      have h1 : Real.exp (-x) * x ^ (n : ℝ) / Real.Gamma n ≤ Real.exp (-709) := by
        apply le_of_lt
        apply exp_cut k1 hE
        rw [← hax]; exact Real.exp_lt_exp.2 hcut
      have h2 := J_le_one hle hn
      have h3 := (J_pos hx0 (n - 1) 0).le
      calc _ ≤ Real.exp (-709) * 1 := mul_le_mul h1 h2 h3 (Real.exp_pos _).le
        _ = _ := mul_one _
  · obtain ⟨w, N, w0, w1, w2⟩ := fraction_spec hle hx1 hn hx
    refine ⟨w * (κ * (Real.exp (-x) * x ^ (n : ℝ) / Real.Gamma n)), N, ?_, by positivity, Or.inl ?_⟩
    · intro fuel hf
      simp only [if_neg hcut, w2 fuel hf, hax]
      rfl
    · rw [hQ]
      refine (near_mul k1 hE w0 (by unfold eps; norm_num) (by unfold eps; norm_num) w1).trans ?_
      apply mul_le_mul_of_nonneg_right _ (by positivity)
      unfold eps
      norm_num

/-- For a whole shape at least one the tail probability at a tiny argument is close to one. -/
theorem small_tail {n : ℕ} {x : ℝ} (hn : 1 ≤ n) (hx : 0 < x) (hx1 : x ≤ 1) : 1 - x ≤ Q n x ∧ Q n x ≤ 1 := by
  have ha0 : (0 : ℝ) < n := by exact_mod_cast hn
  have hn1 : (1 : ℝ) ≤ n := by exact_mod_cast hn
  have hg := Real.Gamma_pos_of_pos ha0
  have hQ : Q n x = 1 - gam n x / Real.Gamma n := upper_eq ha0 hx.le
  have hP0 : 0 ≤ gam n x / Real.Gamma n := div_nonneg (gam_nonneg hx.le) hg.le
  rw [hQ]
  refine ⟨?_, by linarith⟩
  have h2 := (psum_bounds ha0 hx 0 (by simp; linarith)).2
  simp only [psum, term, Nat.cast_zero, add_zero, one_mul] at h2
  have hg1 : 1 ≤ n * Real.Gamma n := by
    rw [← Real.Gamma_add_one ha0.ne', Real.Gamma_nat_eq_factorial]
    exact_mod_cast Nat.one_le_iff_ne_zero.2 (Nat.factorial_ne_zero n)
  have h3 : x ^ (n : ℝ) ≤ x := by
    have := Real.rpow_le_rpow_of_exponent_ge hx hx1 hn1
    rwa [Real.rpow_one] at this
  have h4 : Real.exp (-x) * (1 + x / ((n : ℝ) + 1 - x)) ≤ 1 := by
    have e1 : Real.exp (-x) ≤ 1 / (1 + x) := by
      rw [Real.exp_neg, ← one_div]
      apply one_div_le_one_div_of_le (by linarith)
      linarith [Real.add_one_le_exp x]
    have e2 : 1 + x / ((n : ℝ) + 1 - x) ≤ 1 + x := by
      have : x / ((n : ℝ) + 1 - x) ≤ x := by
        rw [div_le_iff₀ (by linarith)]
        nlinarith
      linarith
    calc Real.exp (-x) * (1 + x / ((n : ℝ) + 1 - x)) ≤ 1 / (1 + x) * (1 + x) := by
          apply mul_le_mul e1 e2 _ (by positivity)
          have : 0 ≤ x / ((n : ℝ) + 1 - x) := div_nonneg hx.le (by linarith)
          linarith
      _ = 1 := by field_simp
  have h5 : n * gam n x ≤ x := by
    have e : Real.exp (-x) * x ^ (n : ℝ) * (1 + x / ((n : ℝ) + 1 - x)) =
        Real.exp (-x) * (1 + x / ((n : ℝ) + 1 - x)) * x ^ (n : ℝ) := by ring
    rw [e] at h2
    have h6 : 0 ≤ x ^ (n : ℝ) := Real.rpow_nonneg hx.le _
    nlinarith
  have h6 : gam n x / Real.Gamma n ≤ x := by
    rw [div_le_iff₀ hg]
    have : n * gam n x ≤ n * (x * Real.Gamma n) := by nlinarith
    exact le_of_mul_le_mul_left this ha0
  linarith

theorem chi2P_eq {stat : ℝ} (hs : 0 < stat) (dof fuel : ℕ) :
    chi2P fuel (some stat) dof =
      (upper fuel ((dof : ℝ) / 2) (stat / 2)).map fun r => r.map some := by
  simp only [chi2P, sf]
  rw [if_neg (not_le.2 hs), show stat * (1 / 2) = stat / 2 by ring]

/-! ## The chi-squared p-value -/

/-- With an even number of degrees of freedom the p-value exists for every statistic and is the tail probability of
the chi-squared distribution, up to `2e-15` times the number of degrees of freedom halved. -/
theorem chi2_even (n : ℕ) (hn : 1 ≤ n) (stat : ℝ) (hs : 0 < stat) :
    ∃ p, Gives stat (2 * n) p ∧ 0 ≤ p ∧ |p - Q n (stat / 2)| ≤ 2 / 10 ^ 15 * n := by
  have hn1 : (1 : ℝ) ≤ n := by exact_mod_cast hn
  have hx0 : 0 < stat / 2 := by positivity
  have hd : (((2 * n : ℕ) : ℝ)) / 2 = n := by push_cast; ring
  have heps : eps = 1 / 10 ^ 15 := rfl
  by_cases hbr : stat / 2 < 1 ∨ stat / 2 ≤ n
  · by_cases hp : precAcc ≤ stat / 2
    · obtain ⟨p, N, h1, h2, h3, h4⟩ := upper_series (a := n) (by linarith) hp hbr
      refine ⟨p, ⟨N, ?_⟩, h2, ?_⟩
      · intro fuel hf
        rw [chi2P_eq hs, hd, h1 fuel hf]
        rfl
      · refine h4.trans ?_
        rw [max_eq_right hn1, heps]
        apply mul_le_mul_of_nonneg_right _ (by linarith)
        norm_num
    · rw [not_le] at hp
      have hsm : precAcc ≤ 2 / 10 ^ 15 := by unfold precAcc; norm_num
      have hp1 : precAcc ≤ 1 := by unfold precAcc; norm_num
      refine ⟨1, ⟨0, ?_⟩, by norm_num, ?_⟩
      · intro fuel _
        rw [chi2P_eq hs, hd]
        unfold upper lower
        simp only [if_neg (not_le.2 (lt_of_lt_of_le one_pos hn1)), if_neg (not_le.2 hx0), if_pos hbr, abs_of_pos hx0,
          if_pos hp]
        rw [if_neg]
        · simp
        · rw [abs_of_pos (by linarith)]
          linarith
      · obtain ⟨t1, t2⟩ := small_tail hn hx0 (by linarith)
        rw [abs_of_nonneg (by linarith)]
        nlinarith
  · have hge : 1 ≤ stat / 2 := by
      by_contra hc
      exact hbr (Or.inl (not_le.1 hc))
    have hgt : (n : ℝ) < stat / 2 := by
      by_contra hc
      exact hbr (Or.inr (not_lt.1 hc))
    obtain ⟨p, N, h1, h2, h3⟩ := upper_fraction hn hge (Or.inr hgt) hgt.le hbr
    refine ⟨p, ⟨N, ?_⟩, h2, ?_⟩
    · intro fuel hf
      rw [chi2P_eq hs, hd, h1 fuel hf]
      rfl
    · have hg := Real.Gamma_pos_of_pos (show (0 : ℝ) < n by linarith)
      have hQ : Q n (stat / 2) = 1 - gam n (stat / 2) / Real.Gamma n := upper_eq (by linarith) hx0.le
      have hP0 : 0 ≤ gam n (stat / 2) / Real.Gamma n := div_nonneg (gam_nonneg hx0.le) hg.le
      have hP1 : gam n (stat / 2) / Real.Gamma n ≤ 1 := by
        rw [div_le_one hg]; exact gam_nonneg_le (by linarith) hx0.le
      have hb : |p - Q n (stat / 2)| ≤ 2 / 10 ^ 15 := by
        rcases h3 with h3 | ⟨rfl, h3⟩
        · have h4 := (abs_le.1 h3).2
          have hp2 : p ≤ 3 / 2 := by
            rw [heps] at h4
            linarith
          refine h3.trans ?_
          rw [heps]
          linarith
        · have h7 := exp_cutoff
          rw [zero_sub, abs_neg, abs_of_nonneg (by linarith), ]
          rw [heps] at h7
          linarith
      refine hb.trans ?_
      exact le_mul_of_one_le_right (by norm_num) hn1

/-- In the tail (statistic above the degrees of freedom, even) the relative error is at most `13e-16`, except that
some probabilities below `e^-709` are reported as zero. -/
theorem chi2_tail (n : ℕ) (hn : 1 ≤ n) (stat : ℝ) (hs : 2 * (n : ℝ) < stat) :
    ∃ p, Gives stat (2 * n) p ∧
      (|p - Q n (stat / 2)| ≤ 13 / 10 ^ 16 * p ∨ p = 0 ∧ Q n (stat / 2) ≤ Real.exp (-709)) := by
  have hn1 : (1 : ℝ) ≤ n := by exact_mod_cast hn
  have hgt : (n : ℝ) < stat / 2 := by linarith
  have hd : (((2 * n : ℕ) : ℝ)) / 2 = n := by push_cast; ring
  have hbr : ¬(stat / 2 < 1 ∨ stat / 2 ≤ n) := by rintro (h | h) <;> linarith
  obtain ⟨p, N, h1, h2, h3⟩ := upper_fraction hn (by linarith) (Or.inr hgt) hgt.le hbr
  refine ⟨p, ⟨N, ?_⟩, ?_⟩
  · intro fuel hf
    rw [chi2P_eq (by linarith), hd, h1 fuel hf]
    rfl
  · rw [show (13 : ℝ) / 10 ^ 16 = 13 / 10 * eps by unfold eps; norm_num]
    exact h3

/-- The regularised tail in terms of the integral the continued fraction converges to. -/
theorem Q_I {a x : ℝ} (hx : 0 < x) : Q a x = Real.exp (-x) * x ^ a / Real.Gamma a * I x 0 (a - 1) := by
  unfold Q
  rw [upper_I hx]
  ring

/-- Where the continued fraction is used, for any shape. -/
theorem upper_fraction_any {a x : ℝ} (ha : 0 < a)
    (hbr : ¬(x < 1 ∨ x ≤ a)) :
    ∃ p N, (∀ fuel, N ≤ fuel → upper fuel a x = some (some p)) ∧ 0 ≤ p ∧
      (|p - Q a x| ≤ 21 * eps * p ∨ p = 0 ∧ Q a x ≤ Real.exp (-709)) := by
  have hx1 : 1 ≤ x := by by_contra hc; exact hbr (Or.inl (not_le.1 hc))
  have hax : a < x := by by_contra hc; exact hbr (Or.inr (not_lt.1 hc))
  have hx0 : 0 < x := by linarith
  have hg := Real.Gamma_pos_of_pos ha
  obtain ⟨κ, k1, k0, hexp⟩ := exp_ax_near ha hx0
  have hQ := Q_I (a := a) hx0
  have hE : 0 < Real.exp (-x) * x ^ a / Real.Gamma a :=
    div_pos (mul_pos (Real.exp_pos _) (Real.rpow_pos_of_pos hx0 _)) hg
  unfold upper
  simp only [if_neg (not_le.2 ha), if_neg (not_le.2 hx0), if_neg hbr]
  by_cases hcut : a * Real.log x - x - LnGamma.lnGamma a < minLog
  · refine ⟨0, 0, ?_, le_rfl, Or.inr ⟨rfl, ?_⟩⟩
    · intro fuel _
      simp only [if_pos hcut, if_pos hax]
    · rw [hQ]
      have h1 : Real.exp (-x) * x ^ a / Real.Gamma a ≤ Real.exp (-709) := by
        apply le_of_lt
        apply exp_cut k1 hE
        rw [← hexp]; exact Real.exp_lt_exp.2 hcut
      calc _ ≤ Real.exp (-709) * 1 := mul_le_mul h1 (I_le_one hx1 hax.le) (I_pos hx0 _ _).le (Real.exp_pos _).le
        _ = _ := mul_one _
  · obtain ⟨w, N, w0, w1, w2⟩ := fraction_specR ha hax hx1
    refine ⟨w * (κ * (Real.exp (-x) * x ^ a / Real.Gamma a)), N, ?_, by positivity, Or.inl ?_⟩
    · intro fuel hf
      simp only [if_neg hcut, w2 fuel hf, hexp]
      rfl
    · rw [hQ]
      refine (near_mul k1 hE w0 (by unfold eps; norm_num) (by unfold eps; norm_num) w1).trans ?_
      apply mul_le_mul_of_nonneg_right _ (by positivity)
      unfold eps
      norm_num

/-- For any number of degrees of freedom, when the statistic is at most that number (or below 2) the p-value is the
tail probability up to `13e-16` times half the degrees of freedom. -/
theorem chi2_body (dof : ℕ) (hd : 1 ≤ dof) (stat : ℝ)
    (hs : 3 / 10 ^ 15 ≤ stat) (h : stat < 2 ∨ stat ≤ dof) :
    ∃ p, Gives stat dof p ∧ 0 ≤ p ∧ p ≤ 1 ∧
      |p - Q ((dof : ℝ) / 2) (stat / 2)| ≤ 13 / 10 ^ 16 * max 1 ((dof : ℝ) / 2) := by
  have hd1 : (1 : ℝ) ≤ dof := by exact_mod_cast hd
  have hs0 : 0 < stat := lt_of_lt_of_le (by norm_num) hs
  obtain ⟨p, N, h1, h2, h3, h4⟩ := upper_series (a := (dof : ℝ) / 2) (x := stat / 2) (by linarith)
    (by unfold precAcc; linarith) (h.imp (fun h => by linarith) (fun h => by linarith))
  refine ⟨p, ⟨N, ?_⟩, h2, h3, ?_⟩
  · intro fuel hf
    rw [chi2P_eq hs0, h1 fuel hf]
    rfl
  · rw [show (13 : ℝ) / 10 ^ 16 = 13 / 10 * eps by unfold eps; norm_num]
    exact h4

/-- For any number of degrees of freedom, even or odd, when the statistic is above both that number and 2 the loop of
the continued fraction ends, and the p-value is the tail probability with a relative error of at most `21e-15`, except
that some probabilities below `e^-709` are reported as zero. -/
theorem chi2_any_tail (dof : ℕ) (hd : 1 ≤ dof) (stat : ℝ)
    (h2 : 2 ≤ stat) (hs : (dof : ℝ) < stat) :
    ∃ p, Gives stat dof p ∧ 0 ≤ p ∧
      (|p - Q ((dof : ℝ) / 2) (stat / 2)| ≤ 21 / 10 ^ 15 * p ∨
        p = 0 ∧ Q ((dof : ℝ) / 2) (stat / 2) ≤ Real.exp (-709)) := by
  have hd1 : (1 : ℝ) ≤ dof := by exact_mod_cast hd
  obtain ⟨p, N, h1, h3, h4⟩ := upper_fraction_any (a := (dof : ℝ) / 2) (x := stat / 2) (by linarith)
    (by rintro (h | h) <;> linarith)
  refine ⟨p, ⟨N, ?_⟩, h3, ?_⟩
  · intro fuel hf
    rw [chi2P_eq (by linarith), h1 fuel hf]
    rfl
  · rw [show (21 : ℝ) / 10 ^ 15 = 21 * eps by unfold eps; norm_num]
    exact h4

/-- For any number of degrees of freedom and any statistic from `3e-15` on the p-value exists and is the tail
probability of the chi-squared distribution, up to `3e-14` times half the degrees of freedom. -/
theorem chi2_any (dof : ℕ) (hd : 1 ≤ dof) (stat : ℝ)
    (hs : 3 / 10 ^ 15 ≤ stat) :
    ∃ p, Gives stat dof p ∧ 0 ≤ p ∧
      |p - Q ((dof : ℝ) / 2) (stat / 2)| ≤ 3 / 10 ^ 14 * max 1 ((dof : ℝ) / 2) := by
  have hd1 : (1 : ℝ) ≤ dof := by exact_mod_cast hd
  have hs0 : 0 < stat := lt_of_lt_of_le (by norm_num) hs
  have hm : (1 : ℝ) ≤ max 1 ((dof : ℝ) / 2) := le_max_left _ _
  by_cases h : stat < 2 ∨ stat ≤ dof
  · obtain ⟨p, p1, p2, -, p4⟩ := chi2_body dof hd stat hs h
    refine ⟨p, p1, p2, p4.trans ?_⟩
    apply mul_le_mul_of_nonneg_right (by norm_num) (by linarith)
  · push Not at h
    obtain ⟨p, p1, p2, p3⟩ := chi2_any_tail dof hd stat h.1 h.2
    refine ⟨p, p1, p2, ?_⟩
    have ha : (0 : ℝ) < (dof : ℝ) / 2 := by linarith
    have hg := Real.Gamma_pos_of_pos ha
    have hQ : Q ((dof : ℝ) / 2) (stat / 2) = 1 - gam ((dof : ℝ) / 2) (stat / 2) / Real.Gamma ((dof : ℝ) / 2) :=
      upper_eq ha (by linarith)
    have hP0 : 0 ≤ gam ((dof : ℝ) / 2) (stat / 2) / Real.Gamma ((dof : ℝ) / 2) :=
      div_nonneg (gam_nonneg (by linarith)) hg.le
    have hP1 : gam ((dof : ℝ) / 2) (stat / 2) / Real.Gamma ((dof : ℝ) / 2) ≤ 1 := by
      rw [div_le_one hg]; exact gam_nonneg_le ha (by linarith)
    have hb : |p - Q ((dof : ℝ) / 2) (stat / 2)| ≤ 3 / 10 ^ 14 := by
      rcases p3 with p3 | ⟨rfl, p3⟩
      · have h4 := (abs_le.1 p3).2
        have hp2 : p ≤ 3 / 2 := by linarith
        linarith
      · have h7 := exp_cutoff
        unfold eps at h7
        rw [zero_sub, abs_neg, abs_of_nonneg (by linarith)]
        linarith
    exact hb.trans (le_mul_of_one_le_right (by norm_num) hm)

/-- The bound on the statistic is needed: with one degree of freedom a statistic of `2e-15` gives a p-value of exactly
one, while the tail probability is below one by more than `3e-8`. -/
theorem chi2_tiny_wrong (fuel : ℕ) :
    chi2P fuel (some (2 / 10 ^ 15)) 1 = some (some (some 1)) ∧
    Q (1 / 2) (1 / 10 ^ 15) < 1 - 3 / 10 ^ 8 := by
  constructor
  · rw [chi2P_eq (by norm_num)]
    unfold upper lower
    have h1 : ¬ (((1 : ℕ) : ℝ) / 2 ≤ 0) := by norm_num
    have h2 : ¬ ((2 : ℝ) / 10 ^ 15 / 2 ≤ 0) := by norm_num
    have h3 : (2 : ℝ) / 10 ^ 15 / 2 < 1 ∨ (2 : ℝ) / 10 ^ 15 / 2 ≤ ((1 : ℕ) : ℝ) / 2 := by left; norm_num
    have h4 : ¬ |((1 : ℕ) : ℝ) / 2| < precAcc := by unfold precAcc; norm_num [abs_of_pos]
    have h5 : |(2 : ℝ) / 10 ^ 15 / 2| < precAcc := by
      rw [abs_of_pos (by norm_num)]; unfold precAcc; norm_num
    simp only [if_neg h1, if_neg h2, if_pos h3, if_neg h4, if_pos h5]
    simp
  · have hQ : Q (1 / 2) (1 / 10 ^ 15) = 1 - gam (1 / 2) (1 / 10 ^ 15) / Real.Gamma (1 / 2) :=
      upper_eq (by norm_num) (by norm_num)
    have hb := (psum_bounds (a := 1 / 2) (x := 1 / 10 ^ 15) (by norm_num) (by norm_num) 0 (by norm_num)).1
    have hg : Real.Gamma (1 / 2) ≤ 18 / 10 := by
      rw [Real.Gamma_one_half_eq, Real.sqrt_le_left (by norm_num)]
      have := Real.pi_lt_d2
      norm_num at this ⊢
      linarith
    have hg0 : 0 < Real.Gamma (1 / 2) := Real.Gamma_pos_of_pos (by norm_num)
    have he : 1 - 1 / 10 ^ 15 ≤ Real.exp (-(1 / 10 ^ 15)) := by
      have := Real.add_one_le_exp (-(1 / 10 ^ 15 : ℝ))
      linarith
    have hr : (31 / 10 ^ 9 : ℝ) ≤ (1 / 10 ^ 15 : ℝ) ^ (1 / 2 : ℝ) := by
      rw [← Real.sqrt_eq_rpow]
      apply Real.le_sqrt_of_sq_le
      norm_num
    have hm : (1 - 1 / 10 ^ 15) * (31 / 10 ^ 9) ≤ Real.exp (-(1 / 10 ^ 15)) * (1 / 10 ^ 15 : ℝ) ^ (1 / 2 : ℝ) :=
      mul_le_mul he hr (by norm_num) (Real.exp_pos _).le
    simp only [psum, mul_one] at hb
    have h6 : (3 / 10 ^ 8 : ℝ) < gam (1 / 2) (1 / 10 ^ 15) / Real.Gamma (1 / 2) := by
      rw [lt_div_iff₀ hg0]
      have : (3 / 10 ^ 8 : ℝ) * Real.Gamma (1 / 2) ≤ 3 / 10 ^ 8 * (18 / 10) := by
        apply mul_le_mul_of_nonneg_left hg (by norm_num)
      norm_num at *
      linarith
    rw [hQ]
    linarith

/-- A statistic of zero has p-value one for any degrees of freedom, NaN gives NaN. -/
theorem chi2_edge (fuel dof : ℕ) :
    chi2P fuel (some 0) dof = some (some (some 1)) ∧ chi2P fuel none dof = some (some none) := by
  refine ⟨?_, rfl⟩
  unfold chi2P sf
  simp

/-- Two degrees of freedom: the p-value of a statistic of 6 is within `1e-15` (relative) of `e^-3`. -/
example : ∃ p, Gives 6 2 p ∧ |p - Real.exp (-3)| ≤ 2 / 10 ^ 15 := by
  obtain ⟨p, h1, _, h3⟩ := chi2_even 1 le_rfl 6 (by norm_num)
  refine ⟨p, h1, ?_⟩
  rw [Nat.cast_one, mul_one, Q_one (by norm_num)] at h3
  norm_num at h3 ⊢
  exact h3

example : ∃ p, Gives 9 4 p ∧
    (|p - Real.exp (-(9 / 2)) * (1 + 9 / 2)| ≤ 13 / 10 ^ 16 * p ∨
      p = 0 ∧ Real.exp (-(9 / 2)) * (1 + 9 / 2) ≤ Real.exp (-709)) := by
  obtain ⟨p, h1, h2⟩ := chi2_tail 2 (by norm_num) 9 (by norm_num)
  refine ⟨p, h1, ?_⟩
  have hq := Q_nat (x := 9 / 2) (by norm_num) 2 (by norm_num)
  have : Q ((2 : ℕ) : ℝ) (9 / 2) = Real.exp (-(9 / 2)) * (1 + 9 / 2) := by
    rw [hq, Real.rpow_natCast]
    simp only [Nat.add_one_sub_one, J, Nat.factorial_zero, Nat.cast_ofNat, Real.Gamma_two]
    norm_num
    ring
  rw [this] at h2
  exact h2

example : ∃ p, Gives 2 3 p ∧ 0 ≤ p ∧ p ≤ 1 ∧
    |p - Q (3 / 2) 1| ≤ 13 / 10 ^ 16 * (3 / 2) := by
  have := chi2_body 3 (by norm_num) 2 (by norm_num) (Or.inr (by norm_num))
  norm_num at this ⊢
  exact this

/-- One degree of freedom, statistic 9: a tail the continued fraction answers. -/
example : ∃ p, Gives 9 1 p ∧ 0 ≤ p ∧
    (|p - Q (1 / 2) (9 / 2)| ≤ 21 / 10 ^ 15 * p ∨
      p = 0 ∧ Q (1 / 2) (9 / 2) ≤ Real.exp (-709)) := by
  have := chi2_any_tail 1 (by norm_num) 9 (by norm_num) (by norm_num)
  rw [Nat.cast_one] at this
  exact this

example : ∃ p, Gives 30 7 p ∧ 0 ≤ p ∧
    |p - Q (7 / 2) 15| ≤ 3 / 10 ^ 14 * (7 / 2) := by
  have := chi2_any 7 (by norm_num) 30 (by norm_num)
  norm_num at this ⊢
  exact this

example : chi2P 0 (some 0) 0 = some (some (some 1)) := (chi2_edge 0 0).1

/-- The lower and the upper function add up to one wherever both end; at `x = 1 > a` they use different
expansions. -/
theorem lower_add_upper {fuel : ℕ} {a x l u : ℝ} (ha : precAcc ≤ a) (hx : x ≠ 1 ∨ 1 ≤ a)
    (hl : lower fuel a x = some (some l)) (hu : upper fuel a x = some (some u)) : l + u = 1 := by
  have hp : (0 : ℝ) < precAcc := by unfold precAcc; norm_num
  have ha0 : ¬ a ≤ 0 := by linarith
  by_cases hx0 : x ≤ 0
  · simp [lower, ha0, hx0] at hl
  · by_cases hbr : x < 1 ∨ x ≤ a
    · simp only [upper, if_neg ha0, if_neg hx0, if_pos hbr, hl, Option.map_some, Option.some.injEq] at hu
      linarith
    · push Not at hbr
      have hx1 : ¬ (x ≤ 1 ∨ x ≤ a) := by
        rintro (h | h)
        · rcases hx with h' | h'
          · exact h' (le_antisymm h hbr.1)
          · linarith [hbr.2]
        · linarith [hbr.2]
      have hp1 : precAcc < 1 := by unfold precAcc; norm_num
      have hn1 : ¬ |a| < precAcc := by rw [abs_of_pos (by linarith)]; linarith
      have hn2 : ¬ |x| < precAcc := by rw [abs_of_pos (by linarith)]; linarith
      simp only [lower, if_neg ha0, if_neg hx0, if_neg hn1, if_neg hn2, if_pos hbr.2, if_neg hx1] at hl
      simp only [upper, if_neg ha0, if_neg hx0, if_neg (show ¬(x < 1 ∨ x ≤ a) by push Not; exact hbr),
        if_pos hbr.2] at hu
      split at hl <;> rename_i hc
      · rw [if_pos hc] at hu
        simp only [Option.some.injEq] at hl hu
        linarith
      · rw [if_neg hc] at hu
        cases hf : fraction fuel (start a x) with
        | none => simp [hf] at hl
        | some f =>
          simp only [hf, Option.map_some, Option.some.injEq] at hl hu
          rw [← hl, ← hu]
          ring

example : (lower 0 1 4000 = some (some 1) ∧ upper 0 1 4000 = some (some 0)) := by
  have h : 1 * Real.log 4000 - 4000 - LnGamma.lnGamma 1 < minLog := by
    have hg := (abs_le.1 (LnGamma.ln_gamma_accuracy 1 one_pos)).1
    rw [Real.Gamma_one, Real.log_one, sub_zero] at hg
    have := Real.log_le_sub_one_of_pos (show (0 : ℝ) < 4000 / 2000 by norm_num)
    have h2 := Real.log_le_sub_one_of_pos (show (0 : ℝ) < 2000 by norm_num)
    have h3 : Real.log 4000 = Real.log (4000 / 2000) + Real.log 2000 := by
      rw [← Real.log_mul (by norm_num) (by norm_num)]
      norm_num
    unfold minLog
    rw [h3]
    norm_num at this h2 ⊢
    linarith
  constructor
  · simp only [lower]
    rw [if_neg (by norm_num), if_neg (by norm_num), if_neg (by norm_num [precAcc]), if_neg (by norm_num [precAcc]),
      if_pos h, if_pos (by norm_num)]
  · simp only [upper]
    rw [if_neg (by norm_num), if_neg (by norm_num), if_neg (by norm_num), if_pos h, if_pos (by norm_num)]

end Verif.Gamma
