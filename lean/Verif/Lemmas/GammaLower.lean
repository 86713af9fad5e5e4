import Mathlib.Analysis.Complex.ExponentialBounds
import Verif.Lemmas.Gamma

/-! # The upper incomplete gamma function is not small up to the shape -/

namespace Verif.Gamma

open MeasureTheory Set

theorem exp_two_le : Real.exp 2 ≤ 9 := by
  have h := Real.exp_one_lt_d9
  have e : Real.exp 2 = Real.exp 1 * Real.exp 1 := by rw [← Real.exp_add]; norm_num
  rw [e]
  nlinarith [Real.exp_pos 1]

theorem upper_integrable {a x : ℝ} (ha : 0 < a) (hx : 0 ≤ x) :
    IntegrableOn (fun t : ℝ => Real.exp (-t) * t ^ (a - 1)) (Ioi x) :=
  (Real.GammaIntegral_convergent ha).mono_set (Ioi_subset_Ioi hx)

/-- A piece of the tail. -/
theorem piece_le {a x y z : ℝ} (ha : 0 < a) (hx : 0 ≤ x) (hxy : x ≤ y) (hyz : y ≤ z) :
    ∫ t in y..z, Real.exp (-t) * t ^ (a - 1) ≤ ∫ t in Ioi x, Real.exp (-t) * t ^ (a - 1) := by
  rw [intervalIntegral.integral_of_le hyz]
  refine setIntegral_mono_set (upper_integrable ha hx) ?_ ?_
  · filter_upwards [ae_restrict_mem measurableSet_Ioi] with t ht
    exact mul_nonneg (Real.exp_pos _).le (Real.rpow_nonneg (hx.trans (le_of_lt ht)) _)
  · exact Filter.Eventually.of_forall fun t ht => lt_of_le_of_lt hxy ht.1

/-- Reflection at the argument. -/
theorem reflect {a x t : ℝ} (h1 : 1 ≤ a) (hxa : x ≤ a) (ht : 0 < t) (htx : t < x) :
    Real.exp (-t) * t ^ (a - 1) ≤ 9 * (Real.exp (-(2 * x - t)) * (2 * x - t) ^ (a - 1)) := by
  have hx : 0 < x := ht.trans htx
  have hp : 0 < 2 * x - t := by linarith
  have y0 : 0 ≤ (x - t) / x := div_nonneg (by linarith) hx.le
  have y1 : (x - t) / x < 1 := by rw [div_lt_one hx]; linarith
  have h := Real.sum_range_le_log_div y0 y1 1
  have e : (1 + (x - t) / x) / (1 - (x - t) / x) = (2 * x - t) / t := by
    have e1 : 1 + (x - t) / x = (2 * x - t) / x := by field_simp; ring
    have e2 : 1 - (x - t) / x = t / x := by field_simp; ring
    rw [e1, e2, div_div_div_cancel_right₀ hx.ne']
  rw [e, Real.log_div hp.ne' ht.ne'] at h
  simp only [Finset.sum_range_one, mul_zero, zero_add, pow_one, Nat.cast_zero, div_one] at h
  have h2 : (x - 1) * (2 * ((x - t) / x)) ≤ (a - 1) * (Real.log (2 * x - t) - Real.log t) := by
    calc _ ≤ (a - 1) * (2 * ((x - t) / x)) := by
          apply mul_le_mul_of_nonneg_right (by linarith) (by positivity)
      _ ≤ _ := mul_le_mul_of_nonneg_left (by linarith) (by linarith)
  have h3 : (x - 1) * (2 * ((x - t) / x)) = 2 * (x - t) - 2 * ((x - t) / x) := by field_simp
  rw [Real.rpow_def_of_pos ht, Real.rpow_def_of_pos hp, ← Real.exp_add, ← Real.exp_add]
  calc _ ≤ Real.exp (2 + (-(2 * x - t) + Real.log (2 * x - t) * (a - 1))) := by
        apply Real.exp_le_exp.2
        nlinarith
    _ = Real.exp 2 * Real.exp (-(2 * x - t) + Real.log (2 * x - t) * (a - 1)) := Real.exp_add _ _
    _ ≤ _ := mul_le_mul_of_nonneg_right exp_two_le (Real.exp_pos _).le

theorem gam_le_upper {a x : ℝ} (h1 : 1 ≤ a) (hx : 0 < x) (hxa : x ≤ a) :
    gam a x ≤ 9 * ∫ t in Ioi x, Real.exp (-t) * t ^ (a - 1) := by
  have ha : 0 < a := by linarith
  have hp := piece_le ha hx.le le_rfl (by linarith : x ≤ 2 * x)
  have hr : ∫ t in (0 : ℝ)..x, Real.exp (-(2 * x - t)) * (2 * x - t) ^ (a - 1) =
      ∫ t in x..2 * x, Real.exp (-t) * t ^ (a - 1) := by
    rw [intervalIntegral.integral_comp_sub_left (fun t => Real.exp (-t) * t ^ (a - 1)) (2 * x)]
    congr 1 <;> ring
  have hi : IntervalIntegrable (fun t => Real.exp (-(2 * x - t)) * (2 * x - t) ^ (a - 1)) volume 0 x := by
    apply ContinuousOn.intervalIntegrable
    apply ContinuousOn.mul
    · fun_prop
    · apply ContinuousOn.rpow_const
      · fun_prop
      · intro t ht
        rw [uIcc_of_le hx.le] at ht
        left
        linarith [ht.2]
  have hm : gam a x ≤ ∫ t in (0 : ℝ)..x, 9 * (Real.exp (-(2 * x - t)) * (2 * x - t) ^ (a - 1)) := by
    unfold gam
    apply intervalIntegral.integral_mono_on_of_le_Ioo hx.le (gam_integrable ha) (hi.const_mul 9)
    intro t ht
    exact reflect h1 hxa ht.1 ht.2
  rw [intervalIntegral.integral_const_mul, hr] at hm
  linarith

/-- Where the code takes one minus the lower function, that is not a small number. -/
theorem upper_lower_bound {a x : ℝ} (ha : 1 / 2 ≤ a) (hx : 0 < x) (h : x < 1 ∨ x ≤ a) :
    1 / 200 ≤ (∫ t in Ioi x, Real.exp (-t) * t ^ (a - 1)) / Real.Gamma a := by
  have ha0 : 0 < a := by linarith
  have hg := Real.Gamma_pos_of_pos ha0
  have hu := upper_eq ha0 hx.le
  have hs : gam a x + (∫ t in Ioi x, Real.exp (-t) * t ^ (a - 1)) = Real.Gamma a := by
    field_simp at hu
    linarith
  have key : gam a x ≤ 199 * ∫ t in Ioi x, Real.exp (-t) * t ^ (a - 1) := by
    by_cases h1 : 1 ≤ a
    · have hxa : x ≤ a := h.elim (fun h => by linarith) id
      have := gam_le_upper h1 hx hxa
      have := gam_nonneg (a := a) hx.le
      linarith
    · push Not at h1
      have hx1 : x < 1 := h.elim id (fun h => by linarith)
      have h2 : gam a x ≤ 2 := by
        have hm : gam a x ≤ ∫ t in (0 : ℝ)..x, t ^ (a - 1) := by
          unfold gam
          apply intervalIntegral.integral_mono_on hx.le (gam_integrable ha0)
            (intervalIntegral.intervalIntegrable_rpow' (by linarith))
          intro t ht
          have e1 : Real.exp (-t) ≤ 1 := Real.exp_le_one_iff.2 (by linarith [ht.1])
          have e2 : 0 ≤ t ^ (a - 1) := Real.rpow_nonneg ht.1 _
          nlinarith
        rw [integral_rpow (Or.inl (by linarith)), sub_add_cancel, Real.zero_rpow ha0.ne', sub_zero] at hm
        refine hm.trans ?_
        rw [div_le_iff₀ ha0]
        have : x ^ a ≤ 1 := Real.rpow_le_one hx.le hx1.le ha0.le
        linarith
      have h3 : (1 / 18 : ℝ) ≤ ∫ t in Ioi x, Real.exp (-t) * t ^ (a - 1) := by
        refine le_trans ?_ (piece_le ha0 hx.le hx1.le (by norm_num : (1 : ℝ) ≤ 2))
        have hc : ∫ _ in (1 : ℝ)..2, (1 / 18 : ℝ) = 1 / 18 := by simp; norm_num
        rw [← hc]
        apply intervalIntegral.integral_mono_on (by norm_num) intervalIntegrable_const
        · apply ContinuousOn.intervalIntegrable
          apply ContinuousOn.mul
          · fun_prop
          · apply ContinuousOn.rpow_const
            · fun_prop
            · intro t ht
              rw [uIcc_of_le (by norm_num)] at ht
              left
              linarith [ht.1]
        · intro t ht
          have e1 : (1 / 9 : ℝ) ≤ Real.exp (-t) := by
            have : Real.exp (-2) ≤ Real.exp (-t) := Real.exp_le_exp.2 (by linarith [ht.2])
            refine le_trans ?_ this
            rw [Real.exp_neg, one_div]
            exact inv_anti₀ (Real.exp_pos _) exp_two_le
          have e2 : (1 / 2 : ℝ) ≤ t ^ (a - 1) := by
            have t0 : 0 < t := by linarith [ht.1]
            have : t ^ (-1 : ℝ) ≤ t ^ (a - 1) := Real.rpow_le_rpow_of_exponent_le ht.1 (by linarith)
            refine le_trans ?_ this
            rw [Real.rpow_neg_one, one_div]
            exact inv_anti₀ t0 ht.2
          calc (1 / 18 : ℝ) = 1 / 9 * (1 / 2) := by norm_num
            _ ≤ _ := mul_le_mul e1 e2 (by norm_num) (Real.exp_pos _).le
      linarith
  rw [le_div_iff₀ hg]
  linarith

end Verif.Gamma
