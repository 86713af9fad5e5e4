import Mathlib.Analysis.Calculus.MeanValue
import Verif.Lemmas.Digamma

/-!
# Accuracy of the loop and of the formula for small arguments
-/

open Real Filter Topology

namespace Verif.Digamma

theorem bound_anti {a b : ℝ} (ha : 0 < a) (hab : a ≤ b) : bound b ≤ bound a := by
  unfold bound
  gcongr

theorem climb_accuracy (r z : ℝ) (hz : 0 < z) : r + psi z - bound 12 ≤ climb r z ∧ climb r z ≤ r + psi z := by
  induction r, z using climb.induct with
  | case1 r z h ih =>
    rw [climb, if_pos h]
    have := ih (by linarith)
    rw [psi_add_one (pole_free hz)] at this
    constructor <;> linarith [this.1, this.2]
  | case2 r z h =>
    rw [climb, if_neg h]
    have h12 : (12 : ℝ) ≤ z := not_lt.1 h
    have := psi_enclosure hz
    have := bound_anti (a := 12) (b := z) (by norm_num) h12
    constructor <;> linarith

/-- `psi` moved up by eight. -/
theorem psi_eight {x : ℝ} (hx : 0 < x) : psi x = psi (8 + x) - (1 / x + 1 / (1 + x) + 1 / (2 + x) + 1 / (3 + x) +
    1 / (4 + x) + 1 / (5 + x) + 1 / (6 + x) + 1 / (7 + x)) := by
  have h0 := psi_add_one (pole_free hx)
  have h1 := psi_add_one (x := 1 + x) (pole_free (by linarith))
  have h2 := psi_add_one (x := 2 + x) (pole_free (by linarith))
  have h3 := psi_add_one (x := 3 + x) (pole_free (by linarith))
  have h4 := psi_add_one (x := 4 + x) (pole_free (by linarith))
  have h5 := psi_add_one (x := 5 + x) (pole_free (by linarith))
  have h6 := psi_add_one (x := 6 + x) (pole_free (by linarith))
  have h7 := psi_add_one (x := 7 + x) (pole_free (by linarith))
  rw [show x + 1 = 1 + x by ring] at h0
  rw [show 1 + x + 1 = 2 + x by ring] at h1
  rw [show 2 + x + 1 = 3 + x by ring] at h2
  rw [show 3 + x + 1 = 4 + x by ring] at h3
  rw [show 4 + x + 1 = 5 + x by ring] at h4
  rw [show 5 + x + 1 = 6 + x by ring] at h5
  rw [show 6 + x + 1 = 7 + x by ring] at h6
  rw [show 7 + x + 1 = 8 + x by ring] at h7
  linarith

/-- What the formula for small arguments leaves out, up to the error of the series at 8. -/
noncomputable def small (x : ℝ) : ℝ := tailPart (x + 8) - ((x + 1)⁻¹ + (x + 2)⁻¹ + (x + 3)⁻¹ +
    (x + 4)⁻¹ + (x + 5)⁻¹ + (x + 6)⁻¹ + (x + 7)⁻¹) - (d1 + d2 * x)

noncomputable def small' (x : ℝ) : ℝ := slopePart (x + 8) + (1 / (x + 1) ^ 2 + 1 / (x + 2) ^ 2 + 1 / (x + 3) ^ 2 +
    1 / (x + 4) ^ 2 + 1 / (x + 5) ^ 2 + 1 / (x + 6) ^ 2 + 1 / (x + 7) ^ 2) - d2

theorem hasDerivAt_small {x : ℝ} (hx : 0 ≤ x) : HasDerivAt small (small' x) x := by
  have hi : ∀ k : ℝ, 0 < k → HasDerivAt (fun t : ℝ => (t + k)⁻¹) (-(1 / (x + k) ^ 2)) x := by
    intro k hk
    have := HasDerivAt.comp_add_const x k (hasDerivAt_inv (x := x + k) (by positivity))
    simpa [one_div] using this
  have h8 : HasDerivAt (fun t => tailPart (t + 8)) (slopePart (x + 8)) x :=
    HasDerivAt.comp_add_const x 8 (hasDerivAt_tailPart (by linarith))
  have hl : HasDerivAt (fun t : ℝ => (d1 : ℝ) + d2 * t) d2 x := by
    simpa using ((hasDerivAt_id x).const_mul (d2 : ℝ)).const_add (d1 : ℝ)
  have h := (h8.sub (((((((hi 1 (by norm_num)).add (hi 2 (by norm_num))).add (hi 3 (by norm_num))).add
    (hi 4 (by norm_num))).add (hi 5 (by norm_num))).add (hi 6 (by norm_num))).add (hi 7 (by norm_num)))).sub hl
  refine h.congr_deriv ?_
  unfold small'
  ring

theorem power_between {k x : ℝ} (hk : 0 < k) (hx : 0 ≤ x) (hx1 : x ≤ 1 / 10 ^ 6) (m : ℕ) :
    1 / (k + 1 / 10 ^ 6) ^ m ≤ 1 / (x + k) ^ m ∧ 1 / (x + k) ^ m ≤ 1 / k ^ m := by
  constructor
  · apply one_div_le_one_div_of_le (by positivity)
    exact pow_le_pow_left₀ (by positivity) (by linarith) m
  · apply one_div_le_one_div_of_le (by positivity)
    exact pow_le_pow_left₀ (by positivity) (by linarith) m

theorem small'_bound {x : ℝ} (hx : 0 ≤ x) (hx1 : x ≤ 1 / 10 ^ 6) : |small' x| ≤ 25 / 10 ^ 7 := by
  have e : slopePart (x + 8) = 1 / (x + 8) ^ 1 + 1 / 2 * (1 / (x + 8) ^ 2) + 1 / 6 * (1 / (x + 8) ^ 3) -
      1 / 30 * (1 / (x + 8) ^ 5) + 1 / 42 * (1 / (x + 8) ^ 7) - 1 / 30 * (1 / (x + 8) ^ 9) +
      5 / 66 * (1 / (x + 8) ^ 11) := by
    unfold slopePart
    have : x + 8 ≠ 0 := by linarith
    field_simp
  have p1 := power_between (k := 1) (by norm_num) hx hx1 2
  have p2 := power_between (k := 2) (by norm_num) hx hx1 2
  have p3 := power_between (k := 3) (by norm_num) hx hx1 2
  have p4 := power_between (k := 4) (by norm_num) hx hx1 2
  have p5 := power_between (k := 5) (by norm_num) hx hx1 2
  have p6 := power_between (k := 6) (by norm_num) hx hx1 2
  have p7 := power_between (k := 7) (by norm_num) hx hx1 2
  have q1 := power_between (k := 8) (by norm_num) hx hx1 1
  have q2 := power_between (k := 8) (by norm_num) hx hx1 2
  have q3 := power_between (k := 8) (by norm_num) hx hx1 3
  have q5 := power_between (k := 8) (by norm_num) hx hx1 5
  have q7 := power_between (k := 8) (by norm_num) hx hx1 7
  have q9 := power_between (k := 8) (by norm_num) hx hx1 9
  have q11 := power_between (k := 8) (by norm_num) hx hx1 11
  unfold small'
  rw [e, abs_le]
  generalize 1 / (x + 1) ^ 2 = a1 at *
  generalize 1 / (x + 2) ^ 2 = a2 at *
  generalize 1 / (x + 3) ^ 2 = a3 at *
  generalize 1 / (x + 4) ^ 2 = a4 at *
  generalize 1 / (x + 5) ^ 2 = a5 at *
  generalize 1 / (x + 6) ^ 2 = a6 at *
  generalize 1 / (x + 7) ^ 2 = a7 at *
  generalize 1 / (x + 8) ^ 1 = b1 at *
  generalize 1 / (x + 8) ^ 2 = b2 at *
  generalize 1 / (x + 8) ^ 3 = b3 at *
  generalize 1 / (x + 8) ^ 5 = b5 at *
  generalize 1 / (x + 8) ^ 7 = b7 at *
  generalize 1 / (x + 8) ^ 9 = b9 at *
  generalize 1 / (x + 8) ^ 11 = b11 at *
  clear e
  unfold d2
  push_cast
  norm_num at *
  constructor <;> linarith

theorem small_zero : |small 0| ≤ 4 / 10 ^ 13 := by
  obtain ⟨l1, l2⟩ := LnGamma.log_two
  have e : log (0 + 8) = 3 * log ((2 : ℚ) : ℝ) := by
    rw [zero_add, show (8 : ℝ) = 2 ^ 3 by norm_num, log_pow]
    push_cast
    ring
  unfold small
  rw [tailPart_eq, e, abs_le]
  generalize log ((2 : ℚ) : ℝ) = l at *
  unfold d1
  push_cast at *
  norm_num at *
  constructor <;> linarith

theorem small_bound {x : ℝ} (hx : 0 ≤ x) (hx1 : x ≤ 1 / 10 ^ 6) : |small x| ≤ 3 / 10 ^ 12 := by
  have h := (convex_Icc (0 : ℝ) (1 / 10 ^ 6)).norm_image_sub_le_of_norm_hasDerivWithin_le (f := small) (f' := small')
    (C := 25 / 10 ^ 7) (x := 0) (y := x) (fun t ht => (hasDerivAt_small ht.1).hasDerivWithinAt)
    (fun t ht => small'_bound ht.1 ht.2) ⟨le_refl _, by norm_num⟩ ⟨hx, hx1⟩
  rw [norm_eq_abs, norm_eq_abs, sub_zero, abs_of_nonneg hx] at h
  have h0 := small_zero
  have h1 : |small x| ≤ |small x - small 0| + |small 0| := by
    have := abs_add_le (small x - small 0) (small 0)
    rwa [sub_add_cancel] at this
  have h2 : (25 / 10 ^ 7 : ℝ) * x ≤ 25 / 10 ^ 7 * (1 / 10 ^ 6) := by gcongr
  norm_num at *
  linarith

theorem small_formula {x : ℝ} (hx : 0 < x) (hx1 : x ≤ 1 / 10 ^ 6) :
    |(d1 : ℝ) - 1 / x + d2 * x - psi x| ≤ 4 / 10 ^ 12 := by
  have h1 := psi_enclosure (x := 8 + x) (by linarith)
  have h2 : bound (8 + x) ≤ bound 8 := bound_anti (by norm_num) (by linarith)
  have h3 : bound 8 ≤ 4 / 10 ^ 13 := by unfold bound; norm_num
  have h4 := abs_le.1 (small_bound hx.le hx1)
  have h5 := psi_eight hx
  have h6 : small x = tailPart (8 + x) - (1 / (1 + x) + 1 / (2 + x) + 1 / (3 + x) +
    1 / (4 + x) + 1 / (5 + x) + 1 / (6 + x) + 1 / (7 + x)) - (d1 + d2 * x) := by
    unfold small
    simp only [one_div, add_comm x]
  rw [abs_le]
  norm_num at *
  constructor <;> linarith

end Verif.Digamma
