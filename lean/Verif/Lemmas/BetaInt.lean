import Mathlib.Analysis.SpecialFunctions.Integrals.Basic
import Mathlib.Analysis.SpecialFunctions.Pow.Deriv
import Mathlib.MeasureTheory.Integral.IntervalIntegral.FundThmCalculus

/-! # The integrals behind the continued fraction of the incomplete beta function -/

namespace Verif.BetaFrac

open MeasureTheory Set intervalIntegral

/-- The integrand `s^u (1-s)^v (1-xs)^w`. -/
noncomputable def kb (x : ℝ) (u : ℕ) (v w s : ℝ) : ℝ := s ^ u * (1 - s) ^ v * (1 - x * s) ^ w

/-- Its integral from 0 to 1. -/
noncomputable def K (x : ℝ) (u : ℕ) (v w : ℝ) : ℝ := ∫ s in (0 : ℝ)..1, kb x u v w s

theorem one_sub_pos {x s : ℝ} (hx1 : x < 1) (hs0 : 0 ≤ s) (hs1 : s ≤ 1) : 0 < 1 - x * s := by
  rcases le_or_gt x 0 with h | h
  · nlinarith [mul_nonneg (neg_nonneg.2 h) hs0]
  · nlinarith [mul_nonneg h.le (sub_nonneg.2 hs1)]

theorem kb_pos {x v w s : ℝ} (hx1 : x < 1) (u : ℕ) (hs : s ∈ Ioo (0 : ℝ) 1) : 0 < kb x u v w s := by
  have h1 := one_sub_pos hx1 hs.1.le hs.2.le
  have h2 : 0 < 1 - s := by linarith [hs.2]
  unfold kb
  exact mul_pos (mul_pos (pow_pos hs.1 u) (Real.rpow_pos_of_pos h2 v)) (Real.rpow_pos_of_pos h1 w)

theorem kb_int {x v : ℝ} (hx1 : x < 1) (u : ℕ) (hv : -1 < v) (w : ℝ) :
    IntervalIntegrable (kb x u v w) volume 0 1 := by
  have h1 : IntervalIntegrable (fun s : ℝ => s ^ v) volume 0 1 := intervalIntegrable_rpow' hv
  have h2 : IntervalIntegrable (fun s : ℝ => (1 - s) ^ v) volume 0 1 := by
    have := h1.comp_sub_left 1
    simpa using this.symm
  have h3 : IntervalIntegrable (fun s : ℝ => (1 - s) ^ v * (s ^ u * (1 - x * s) ^ w)) volume 0 1 := by
    apply h2.mul_continuousOn
    apply ContinuousOn.mul (by fun_prop)
    intro s hs
    rw [uIcc_of_le zero_le_one] at hs
    have := one_sub_pos hx1 hs.1 hs.2
    exact ContinuousWithinAt.rpow_const (by fun_prop) (Or.inl this.ne')
  refine h3.congr ?_
  intro s _
  unfold kb
  ring

theorem K_pos {x v : ℝ} (hx1 : x < 1) (u : ℕ) (hv : -1 < v) (w : ℝ) : 0 < K x u v w :=
  intervalIntegral_pos_of_pos_on (kb_int hx1 u hv w) (fun _ hs => kb_pos hx1 u hs) zero_lt_one

theorem K_congr {x : ℝ} {f : ℝ → ℝ} {u : ℕ} {v w : ℝ} (h : ∀ s ∈ Ioo (0 : ℝ) 1, kb x u v w s = f s) :
    K x u v w = ∫ s in (0 : ℝ)..1, f s := by
  unfold K
  apply intervalIntegral.integral_congr_ae
  have : ∀ᵐ s : ℝ, s ≠ 1 := by
    simp [ae_iff, measure_singleton]
  filter_upwards [this] with s h1 hs
  rw [uIoc_of_le zero_le_one] at hs
  exact h s ⟨hs.1, lt_of_le_of_ne hs.2 h1⟩

theorem K_split_v {x v : ℝ} (hx1 : x < 1) (u : ℕ) (hv : -1 < v) (w : ℝ) :
    K x u (v + 1) w = K x u v w - K x (u + 1) v w := by
  conv_rhs => unfold K
  rw [← integral_sub (kb_int hx1 u hv w) (kb_int hx1 (u + 1) hv w)]
  apply K_congr
  intro s hs
  have h2 : 0 < 1 - s := by linarith [hs.2]
  simp only [kb, Real.rpow_add_one h2.ne', pow_succ]
  ring

theorem K_split_w {x v : ℝ} (hx1 : x < 1) (u : ℕ) (hv : -1 < v) (w : ℝ) :
    K x u v (w + 1) = K x u v w - x * K x (u + 1) v w := by
  conv_rhs => unfold K
  rw [← intervalIntegral.integral_const_mul, ← integral_sub (kb_int hx1 u hv w) ((kb_int hx1 (u + 1) hv w).const_mul x)]
  apply K_congr
  intro s hs
  have h2 := one_sub_pos hx1 hs.1.le hs.2.le
  simp only [kb, Real.rpow_add_one h2.ne', pow_succ]
  ring

/-- Integration by parts. -/
theorem K_parts {x v : ℝ} (hx1 : x < 1) (u : ℕ) (hv : 0 < v) (w : ℝ) :
    (u : ℝ) * K x (u - 1) v w - v * K x u (v - 1) w - w * x * K x u v (w - 1) = if u = 0 then -1 else 0 := by
  have hc : ContinuousOn (kb x u v w) (Icc 0 1) := by
    unfold kb
    apply ContinuousOn.mul
    · apply ContinuousOn.mul (by fun_prop)
      intro s _
      exact ContinuousWithinAt.rpow_const (by fun_prop) (Or.inr hv.le)
    · intro s hs
      exact ContinuousWithinAt.rpow_const (by fun_prop) (Or.inl (one_sub_pos hx1 hs.1 hs.2).ne')
  have hd : ∀ s ∈ Ioo (0 : ℝ) 1, HasDerivAt (kb x u v w)
      (u * kb x (u - 1) v w s - v * kb x u (v - 1) w s - w * x * kb x u v (w - 1) s) s := by
    intro s hs
    have h2 : 1 - s ≠ 0 := by linarith [hs.2]
    have h3 := (one_sub_pos hx1 hs.1.le hs.2.le).ne'
    have d1 : HasDerivAt (fun s : ℝ => s ^ u) (u * s ^ (u - 1) * 1) s := (hasDerivAt_id s).pow u
    have d2 : HasDerivAt (fun s : ℝ => (1 - s) ^ v) (-1 * v * (1 - s) ^ (v - 1)) s :=
      ((hasDerivAt_id s).const_sub 1).rpow_const (Or.inl h2)
    have d3 : HasDerivAt (fun s : ℝ => (1 - x * s) ^ w) (-(x * 1) * w * (1 - x * s) ^ (w - 1)) s :=
      (((hasDerivAt_id s).const_mul x).const_sub 1).rpow_const (Or.inl h3)
    have := (d1.mul d2).mul d3
    refine HasDerivAt.congr_deriv (f := kb x u v w) this ?_
    simp only [kb, Pi.mul_apply]
    ring
  have i1 := (kb_int hx1 (u - 1) (by linarith : -1 < v) w).const_mul (u : ℝ)
  have i2 := (kb_int hx1 u (by linarith : -1 < v - 1) w).const_mul v
  have i3 := (kb_int hx1 u (by linarith : -1 < v) (w - 1)).const_mul (w * x)
  have h := integral_eq_sub_of_hasDerivAt_of_le zero_le_one hc hd ((i1.sub i2).sub i3)
  rw [integral_sub (i1.sub i2) i3, integral_sub i1 i2, intervalIntegral.integral_const_mul, intervalIntegral.integral_const_mul,
    intervalIntegral.integral_const_mul] at h
  unfold K
  rw [h]
  unfold kb
  rw [sub_self, Real.zero_rpow hv.ne']
  by_cases hu : u = 0
  · simp [hu]
  · simp [hu]

end Verif.BetaFrac
