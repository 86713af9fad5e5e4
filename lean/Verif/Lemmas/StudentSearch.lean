import Verif.Lemmas.StudentStart
import Mathlib.Analysis.SpecialFunctions.Log.Deriv
import Mathlib.Analysis.Real.Pi.Bounds

/-!
# The search for the quantile 0.975 of Student's distribution, by degrees of freedom
-/

namespace Verif.StudentPpf

open Verif.TTest Verif.BetaTail.Spec Verif.BetaFrac Real

variable {a : ℝ}

theorem log_series {y : ℝ} (h0 : 0 ≤ y) (h1 : y < 1) : log (1 - y) ≤ -(y + y ^ 2 / 2 + y ^ 3 / 3) := by
  have h := hasSum_pow_div_log_of_abs_lt_one (show |y| < 1 by rwa [abs_of_nonneg h0])
  have h2 := sum_le_hasSum (Finset.range 3) (fun i _ => by positivity) h
  simp [Finset.sum_range_succ] at h2
  norm_num at h2
  linarith

theorem neg_log_le {p : ℝ} (hp : 0 < p) (hp1 : p ≤ 1) : -log p ≤ (1 - p) / √p := by
  have hs := sqrt_pos.2 hp
  have h : -log √p ≤ sinh (-log √p) := by
    rw [self_le_sinh_iff]
    have : √p ≤ 1 := Real.sqrt_le_one.2 hp1
    linarith [log_nonpos hs.le this]
  rw [sinh_eq, neg_neg, exp_neg, exp_log hs, log_sqrt hp.le] at h
  have e : (√p)⁻¹ - √p = (1 - p) / √p := by
    rw [eq_div_iff hs.ne', sub_mul, inv_mul_cancel₀ hs.ne', mul_self_sqrt hp.le]
  rw [e] at h
  linarith

theorem exp_44 : 81.1 ≤ exp 4.4 := by
  have h : (81.1 : ℝ) ^ 5 ≤ exp 4.4 ^ 5 := by
    rw [← exp_nat_mul]
    have e : ((5 : ℕ) : ℝ) * 4.4 = (22 : ℕ) * 1 := by norm_num
    rw [e, exp_nat_mul]
    calc (81.1 : ℝ) ^ 5 ≤ 2.7182818283 ^ 22 := by norm_num
      _ ≤ _ := by gcongr; exact exp_one_gt_d9.le
  exact le_of_pow_le_pow_left₀ (by norm_num) (exp_pos _).le h

theorem exp_235 : exp 2.35 ≤ 10.49 := by
  have h : exp 2.35 ^ 20 ≤ (10.49 : ℝ) ^ 20 := by
    rw [← exp_nat_mul]
    have e : ((20 : ℕ) : ℝ) * 2.35 = (47 : ℕ) * 1 := by norm_num
    rw [e, exp_nat_mul]
    calc exp 1 ^ 47 ≤ 2.7182818286 ^ 47 := by gcongr; exact exp_one_lt_d9.le
      _ ≤ _ := by norm_num
  exact le_of_pow_le_pow_left₀ (by norm_num) (by norm_num) h

theorem exp_141 : exp 1.41 ≤ 4.1 := by
  have h : exp 1.41 ^ 100 ≤ (4.1 : ℝ) ^ 100 := by
    rw [← exp_nat_mul]
    have e : ((100 : ℕ) : ℝ) * 1.41 = (141 : ℕ) * 1 := by norm_num
    rw [e, exp_nat_mul]
    calc exp 1 ^ 141 ≤ 2.7182818286 ^ 141 := by gcongr; exact exp_one_lt_d9.le
      _ ≤ _ := by norm_num
  exact le_of_pow_le_pow_left₀ (by norm_num) (by norm_num) h

/-- A point left of the root. -/
theorem left_point (ha : 5 / 2 ≤ a) :
    (1 - 2.2 / (a + 1)) * w a (1 - 2.2 / (a + 1)) ≤ 1 / 20 * a * B a (1 / 2) := by
  have ha0 : 0 < a := by linarith
  set y := 2.2 / (a + 1) with hy
  have hya : y * (a + 1) = 2.2 := by rw [hy]; field_simp
  have hy0 : 0 < y := by rw [hy]; positivity
  have hy1 : y ≤ 0.63 := by rw [hy, div_le_iff₀ (by linarith)]; linarith
  have hp : 0 < 1 - y := by linarith
  rw [mul_w hp (by linarith), sub_sub_cancel]
  have h1 : (1 - y) ^ a ≤ exp (-2.2) := by
    rw [rpow_def_of_pos hp]
    apply exp_le_exp.2
    have h2 := log_series hy0.le (by linarith)
    have h3 : log (1 - y) * a ≤ -(y + y ^ 2 / 2 + y ^ 3 / 3) * a := mul_le_mul_of_nonneg_right h2 ha0.le
    have h4 : (y + y ^ 2 / 2 + y ^ 3 / 3) * a = (1 + y / 2 + y ^ 2 / 3) * (2.2 - y) := by
      have : y * a = 2.2 - y := by linarith
      calc _ = (1 + y / 2 + y ^ 2 / 3) * (y * a) := by ring
        _ = _ := by rw [this]
    nlinarith [mul_pos hy0 hy0]
  have h2 : exp (-2.2) / √y ≤ 1 / 20 * a * √(π / a) := by
    rw [div_le_iff₀ (sqrt_pos.2 hy0)]
    have e : 1 / 20 * a * √(π / a) * √y = √((1 / 20 * a) ^ 2 * (π / a) * y) := by
      rw [sqrt_mul (by positivity), sqrt_mul (by positivity), sqrt_sq (by positivity)]
    rw [e]
    apply Real.le_sqrt_of_sq_le
    have e2 : (1 / 20 * a) ^ 2 * (π / a) * y = π * (2.2 - y) / 400 := by
      have : y * a = 2.2 - y := by linarith
      rw [← this]
      field_simp
      ring
    have e3 : exp (-2.2) ^ 2 = 1 / exp 4.4 := by
      rw [← exp_nat_mul, one_div, ← exp_neg]
      norm_num
    have h3 : 1 / exp 4.4 ≤ 1 / 81.1 := div_le_div_of_nonneg_left zero_le_one (by norm_num) exp_44
    have hy2 : y ≤ 4.4 / 7 := by rw [hy, div_le_iff₀ (by linarith)]; linarith
    rw [e2, e3]
    nlinarith [pi_gt_d6]
  calc (1 - y) ^ a / √y ≤ exp (-2.2) / √y := div_le_div_of_nonneg_right h1 (sqrt_nonneg _)
    _ ≤ _ := h2
    _ ≤ _ := mul_le_mul_of_nonneg_left (B_lower ha0) (by positivity)

/-- The start of the search. -/
theorem start_value {c : ℝ} (ha : 5 / 2 ≤ a) (hc : 3.74 ≤ c) (hc1 : c ≤ 3.75) :
    7.48 / (4 * a + 2.74) ≤ 2 * c / (4 * a - 1 + c) ∧ 2 * c / (4 * a - 1 + c) ≤ 7.5 / (4 * a + 2.75) := by
  constructor <;> rw [div_le_div_iff₀ (by linarith) (by linarith)] <;> nlinarith

theorem start_integral {y : ℝ} (ha : 5 / 2 ≤ a) (hy0 : 0 < y) (hy : y ≤ 7.5 / (4 * a + 2.75)) :
    3 / 100 ≤ J a (1 / 2) (1 - y) / B a (1 / 2) := by
  have ha0 : 0 < a := by linarith
  have hB := B_pos ha0 (show (0 : ℝ) < 1 / 2 by norm_num)
  rw [le_div_iff₀ (by linarith)] at hy
  have hp : 0 < 1 - y := by nlinarith
  have hp1 : 1 - y < 1 := by linarith
  have h1 : exp (-2.35) ≤ (1 - y) ^ a := by
    rw [rpow_def_of_pos hp]
    apply exp_le_exp.2
    have h2 := neg_log_le hp hp1.le
    rw [sub_sub_cancel] at h2
    have h3 : y / √(1 - y) * a ≤ 2.35 := by
      rw [div_mul_eq_mul_div, div_le_iff₀ (sqrt_pos.2 hp)]
      have e : 2.35 * √(1 - y) = √(2.35 ^ 2 * (1 - y)) := by
        rw [sqrt_mul (by positivity), sqrt_sq (by norm_num)]
      rw [e]
      apply Real.le_sqrt_of_sq_le
      have h4 : 0 < 4 * a + 2.75 := by linarith
      have h5 : (y * (4 * a + 2.75)) ^ 2 ≤ 7.5 ^ 2 := pow_le_pow_left₀ (by positivity) hy 2
      have h6 : (y * a) ^ 2 * (4 * a + 2.75) ^ 2 ≤ 2.35 ^ 2 * (1 - y) * (4 * a + 2.75) ^ 2 := by
        calc (y * a) ^ 2 * (4 * a + 2.75) ^ 2 = (y * (4 * a + 2.75)) ^ 2 * a ^ 2 := by ring
          _ ≤ 7.5 ^ 2 * a ^ 2 := mul_le_mul_of_nonneg_right h5 (by positivity)
          _ ≤ 2.35 ^ 2 * ((4 * a + 2.75) - 7.5) * (4 * a + 2.75) := by nlinarith
          _ ≤ 2.35 ^ 2 * ((4 * a + 2.75) - y * (4 * a + 2.75)) * (4 * a + 2.75) := by
            apply mul_le_mul_of_nonneg_right _ h4.le
            linarith
          _ = _ := by ring
      exact le_of_mul_le_mul_right h6 (by positivity)
    have h4 : -log (1 - y) * a ≤ y / √(1 - y) * a := mul_le_mul_of_nonneg_right h2 ha0.le
    linarith
  have h2 : 1 / 10.49 ≤ (1 - y) ^ a := by
    refine le_trans ?_ h1
    rw [exp_neg, one_div]
    exact inv_anti₀ (exp_pos _) exp_235
  have h3 := J_lower (a := a) (by linarith) hp hp1
  have hay : a * y ≤ 1.875 := by nlinarith
  have hm : 1 - a * (1 - y) / (a + 1) = (1 + a * y) / (a + 1) := by
    field_simp
    ring
  have hm0 : 0 < (1 + a * y) / (a + 1) := by positivity
  rw [hm, half_pow hm0] at h3
  have h4 : √((a + 1) / 2.875) ≤ 1 / √((1 + a * y) / (a + 1)) := by
    rw [le_div_iff₀ (sqrt_pos.2 hm0), ← sqrt_mul (by positivity)]
    apply Real.sqrt_le_one.2
    have : (a + 1) / 2.875 * ((1 + a * y) / (a + 1)) = (1 + a * y) / 2.875 := by field_simp
    rw [this, div_le_one (by norm_num)]
    linarith
  rw [le_div_iff₀ hB]
  refine le_trans ?_ h3
  have h5 : 3 / 100 * √(π / (a - 1 / 2)) ≤ 1 / 10.49 / a * √((a + 1) / 2.875) := by
    have hs : 0 < a - 1 / 2 := by linarith
    have e1 : 3 / 100 * √(π / (a - 1 / 2)) = √((3 / 100) ^ 2 * (π / (a - 1 / 2))) := by
      rw [sqrt_mul (by positivity), sqrt_sq (by norm_num)]
    have e2 : 1 / 10.49 / a * √((a + 1) / 2.875) = √((1 / 10.49 / a) ^ 2 * ((a + 1) / 2.875)) := by
      rw [sqrt_mul (by positivity), sqrt_sq (by positivity)]
    rw [e1, e2]
    apply Real.sqrt_le_sqrt
    have e3 : (3 / 100 : ℝ) ^ 2 * (π / (a - 1 / 2)) = (3 / 100) ^ 2 * π / (a - 1 / 2) := by ring
    have e4 : (1 / 10.49 / a) ^ 2 * ((a + 1) / 2.875) = (a + 1) / (10.49 ^ 2 * 2.875 * a ^ 2) := by
      field_simp
    rw [e3, e4, div_le_div_iff₀ hs (by positivity)]
    nlinarith [pi_lt_d6]
  calc 3 / 100 * B a (1 / 2) ≤ 3 / 100 * √(π / (a - 1 / 2)) :=
        mul_le_mul_of_nonneg_left (B_upper (by linarith)) (by norm_num)
    _ ≤ 1 / 10.49 / a * √((a + 1) / 2.875) := h5
    _ ≤ (1 - y) ^ a / a * (1 / √((1 + a * y) / (a + 1))) :=
        mul_le_mul (div_le_div_of_nonneg_right h2 ha0.le) h4 (sqrt_nonneg _) (by positivity)

theorem start_ratio {lo hi : ℝ} (ha : 5 / 2 ≤ a) (h1 : 1 - 2.21 / (a + 1) ≤ lo) (h2 : lo ≤ hi) (h3 : hi ≤ 1 - 1 / (a + 1)) :
    w a hi ≤ 8 * w a lo := by
  have ha1 : 0 < a + 1 := by linarith
  have e1 : 1 - 2.21 / (a + 1) = (a - 1.21) / (a + 1) := by field_simp; ring
  have e2 : 1 - 1 / (a + 1) = a / (a + 1) := by field_simp; ring
  rw [e1] at h1
  have hlo : 0 < lo := lt_of_lt_of_le (div_pos (by linarith) ha1) h1
  have hhi : hi < 1 := lt_of_le_of_lt h3 (by have : 0 < 1 / (a + 1) := by positivity
                                             linarith)
  have hl1 : 1 - lo ≤ 2.21 / (a + 1) := by
    have : (a - 1.21) / (a + 1) = 1 - 2.21 / (a + 1) := e1.symm
    linarith
  have hh1 : 1 / (a + 1) ≤ 1 - hi := by linarith
  rw [w_eq hhi, w_eq (by linarith)]
  have r1 : hi / lo ≤ a / (a - 1.21) := by
    rw [e2] at h3
    calc hi / lo ≤ (a / (a + 1)) / ((a - 1.21) / (a + 1)) :=
          div_le_div₀ (by positivity) h3 (div_pos (by linarith) ha1) h1
      _ = _ := by field_simp
  have r2 : (hi / lo) ^ (a - 1) ≤ 4.1 := by
    have hq : 0 < hi / lo := div_pos (by linarith) hlo
    rw [rpow_def_of_pos hq]
    refine le_trans (exp_le_exp.2 ?_) exp_141
    have l1 := log_le_sub_one_of_pos hq
    have l2 : a / (a - 1.21) - 1 = 1.21 / (a - 1.21) := by
      have : a - 1.21 ≠ 0 := by linarith
      field_simp
      ring
    calc log (hi / lo) * (a - 1) ≤ 1.21 / (a - 1.21) * (a - 1) := mul_le_mul_of_nonneg_right (by linarith) (by linarith)
      _ ≤ 1.41 := by
        rw [div_mul_eq_mul_div, div_le_iff₀ (by linarith)]
        linarith
  rw [div_rpow (by linarith) hlo.le, div_le_iff₀ (rpow_pos_of_pos hlo _)] at r2
  have r3 : √(1 - lo) ≤ 1.49 * √(1 - hi) := by
    have e : 1.49 * √(1 - hi) = √(1.49 ^ 2 * (1 - hi)) := by
      rw [sqrt_mul (by norm_num), sqrt_sq (by norm_num)]
    rw [e]
    apply Real.sqrt_le_sqrt
    have : 2.21 / (a + 1) = 2.21 * (1 / (a + 1)) := by ring
    nlinarith
  have s1 : 0 < √(1 - lo) := sqrt_pos.2 (by linarith)
  have s2 : 0 < √(1 - hi) := sqrt_pos.2 (by linarith)
  have hlp := rpow_pos_of_pos hlo (a - 1)
  rw [← mul_div_assoc, div_le_div_iff₀ s2 s1]
  calc hi ^ (a - 1) * √(1 - lo) ≤ (4.1 * lo ^ (a - 1)) * (1.49 * √(1 - hi)) :=
        mul_le_mul r2 r3 s1.le (by positivity)
    _ ≤ 8 * lo ^ (a - 1) * √(1 - hi) := by nlinarith [mul_pos hlp s2]

set_option maxHeartbeats 1000000 in
/-- Five degrees of freedom or more. -/
theorem search_general {E : BetaEnv} (hE : Standard E) (ha : 5 / 2 ≤ a) (ha1 : a ≤ 18500) {ε : ℝ} (hε : 3 / 10 ^ 10 ≤ ε)
    (hε1 : ε ≤ 1 / 10 ^ 7) {c : ℝ} (hc : 3.74 ≤ c) (hc1 : c ≤ 3.75) :
    (0.0001 ≤ 1 - 2 * c / (4 * a - 1 + c) ∧ 1 - 2 * c / (4 * a - 1 + c) ≤ 0.9999) ∧
    ∃ r N, |J a (1 / 2) r / B a (1 / 2) - 1 / 20| ≤ 4 / 10 ^ 13 + 4 * a ^ 2 * ε ^ 2 ∧ 0 < r ∧ r < 1 ∧
      ∀ fuel, N < fuel → newton E (lnBeta E a (1 / 2)) a (1 / 2) (1 / 20) (ε ^ 2) fuel
        (1 - 2 * c / (4 * a - 1 + c)) 0 1 1 = some (.ok r) := by
  have ha0 : 0 < a := by linarith
  obtain ⟨y1, y2⟩ := start_value ha hc hc1
  set y := 2 * c / (4 * a - 1 + c) with hy
  have hy0 : 0 < y := lt_of_lt_of_le (by positivity) y1
  have hI := start_integral ha hy0 y2
  have hysm : y ≤ 0.6 := y2.trans (by rw [div_le_iff₀ (by linarith)]; linarith)
  have hyl : 0.0001 ≤ y := le_trans (by rw [le_div_iff₀ (by linarith)]; linarith) y1
  refine ⟨⟨by linarith, by linarith⟩, ?_⟩
  have hylo : y ≤ 2.2 / (a + 1) := by
    refine y2.trans ?_
    rw [div_le_div_iff₀ (by linarith) (by linarith)]
    linarith
  set lo := 1 - 2.2 / (a + 1) - 2 / 10 ^ 7 with hlod
  set hi := 1 - y + (1 / 20 / (3 / 100) - 1) * (1 - y) / a + 2 / 10 ^ 7 with hhid
  have t1 : (2 : ℝ) / 10 ^ 7 ≤ 0.01 / (a + 1) := by
    rw [div_le_div_iff₀ (by norm_num) (by linarith)]
    linarith
  have t2 : (2 : ℝ) / 10 ^ 7 + 1 / 10 ^ 8 ≤ 0.004 / a := by
    rw [le_div_iff₀ ha0]
    linarith
  have hlo1 : 1 - 2.21 / (a + 1) ≤ lo := by
    have : 2.21 / (a + 1) = 2.2 / (a + 1) + 0.01 / (a + 1) := by rw [← add_div]; norm_num
    rw [hlod]
    linarith
  have hlo2 : 0.3685 ≤ lo := by
    have : 2.21 / (a + 1) ≤ 0.6315 := by rw [div_le_iff₀ (by linarith)]; linarith
    linarith
  have hhi1 : hi + 1 / 10 ^ 8 ≤ 1 - 1 / (a + 1) := by
    have h1 : (1 / 20 / (3 / 100) - 1) * (1 - y) / a ≤ 0.667 / a := by
      apply div_le_div_of_nonneg_right _ ha0.le
      norm_num
      linarith
    have h2 : 0.671 / a + 1 / (a + 1) ≤ 7.48 / (4 * a + 2.74) := by
      rw [div_add_div _ _ (by linarith) (by linarith), div_le_div_iff₀ (by positivity) (by linarith)]
      nlinarith
    have h3 : 0.671 / a = 0.667 / a + 0.004 / a := by rw [← add_div]; norm_num
    rw [hhid]
    linarith
  have hinv : 0 < 1 / (a + 1) := by positivity
  have hlohi : lo ≤ hi := by
    have : 0 ≤ (1 / 20 / (3 / 100) - 1) * (1 - y) / a := by
      apply div_nonneg _ ha0.le
      norm_num
      linarith
    rw [hlod, hhid]
    linarith
  refine beta_search hE (by linarith) (by linarith) (lo := lo) (hi := hi) (R := 8) (i0 := 3 / 100)
    (zl := 1 - 2.2 / (a + 1)) (by linarith) ?_ (left_point ha) (by rw [hlod]; linarith) (by rw [hlod]; linarith)
    (by norm_num) (by norm_num) hI le_rfl (by linarith) (start_ratio ha hlo1 hlohi (by linarith)) (by linarith) ?_ hε hε1
  · have : 0 < 2.2 / (a + 1) := by positivity
    linarith
  · have hil : 1 / lo ≤ 2.72 := by rw [div_le_iff₀ (by linarith)]; linarith
    have hil0 : 0 < 1 / lo := by apply div_pos <;> linarith
    have hih : 1 / (1 - hi) ≤ a + 1 := by
      rw [div_le_comm₀ (by linarith) (by linarith)]
      linarith
    have e1 : 8 * (1 / 20 * a / lo) * ((a - 1) / lo + 1 / 2 / (1 - hi)) =
        2 / 5 * a * (1 / lo) * ((a - 1) * (1 / lo) + 1 / 2 * (1 / (1 - hi))) := by ring
    rw [e1]
    have h1 : (a - 1) * (1 / lo) + 1 / 2 * (1 / (1 - hi)) ≤ (a - 1) * 2.72 + 1 / 2 * (a + 1) := by
      have := mul_le_mul_of_nonneg_left hil (show 0 ≤ a - 1 by linarith)
      linarith
    have h0 : 0 ≤ (a - 1) * 2.72 + 1 / 2 * (a + 1) := by linarith
    calc 2 / 5 * a * (1 / lo) * ((a - 1) * (1 / lo) + 1 / 2 * (1 / (1 - hi)))
        ≤ 2 / 5 * a * (1 / lo) * ((a - 1) * 2.72 + 1 / 2 * (a + 1)) := mul_le_mul_of_nonneg_left h1 (by positivity)
      _ ≤ 2 / 5 * a * 2.72 * ((a - 1) * 2.72 + 1 / 2 * (a + 1)) :=
          mul_le_mul_of_nonneg_right (mul_le_mul_of_nonneg_left hil (by positivity)) h0
      _ ≤ 4 * a ^ 2 := by nlinarith

theorem B_one : B 1 (1 / 2) = 2 := by
  unfold B
  have h : Gamma (1 + 1 / 2) = 1 / 2 * Gamma (1 / 2) := by rw [add_comm, Gamma_add_one (by norm_num)]
  have g : Gamma (1 / 2) ≠ 0 := (Gamma_pos_of_pos (by norm_num)).ne'
  rw [h, Gamma_one]
  field_simp

theorem B_three_halves : B (3 / 2) (1 / 2) = π / 2 := by
  unfold B
  have h : Gamma (3 / 2) = 1 / 2 * Gamma (1 / 2) := by
    rw [show (3 / 2 : ℝ) = 1 / 2 + 1 by norm_num, Gamma_add_one (by norm_num)]
  rw [h, show (3 / 2 : ℝ) + 1 / 2 = 2 by norm_num, Gamma_two, Gamma_one_half_eq]
  have := mul_self_sqrt pi_pos.le
  linarith

theorem B_two : B 2 (1 / 2) = 4 / 3 := by
  unfold B
  have h : Gamma (2 + 1 / 2) = 3 / 2 * (1 / 2 * Gamma (1 / 2)) := by
    rw [show (2 + 1 / 2 : ℝ) = 1 / 2 + 1 + 1 by norm_num, Gamma_add_one (by norm_num), Gamma_add_one (by norm_num)]
    norm_num
  have g : Gamma (1 / 2) ≠ 0 := (Gamma_pos_of_pos (by norm_num)).ne'
  rw [h, Gamma_two]
  field_simp
  norm_num

theorem J_simple {p : ℝ} (ha : 1 ≤ a) (hp : 0 < p) (hp1 : p < 1) : p ^ a / a ≤ J a (1 / 2) p := by
  refine le_trans ?_ (J_lower ha hp hp1)
  have h0 : 0 < 1 - a * p / (a + 1) := by
    rw [sub_pos, div_lt_one (by linarith)]
    nlinarith
  have h1 : 1 ≤ (1 - a * p / (a + 1)) ^ ((1 : ℝ) / 2 - 1) := by
    refine one_le_rpow_of_pos_of_le_one_of_nonpos h0 ?_ (by norm_num)
    have : 0 ≤ a * p / (a + 1) := by positivity
    linarith
  have h2 : 0 ≤ p ^ a / a := div_nonneg (rpow_nonneg hp.le _) (by linarith)
  nlinarith

/-- Two degrees of freedom. -/
theorem search_two {E : BetaEnv} (hE : Standard E) {ε p : ℝ} (hε : 3 / 10 ^ 10 ≤ ε) (hε1 : ε ≤ 1 / 10 ^ 7)
    (hp : 0.0999 ≤ p) (hp1 : p ≤ 0.1001) :
    ∃ r N, |J 1 (1 / 2) r / B 1 (1 / 2) - 1 / 20| ≤ 4 / 10 ^ 13 + 4 * 1 ^ 2 * ε ^ 2 ∧ 0 < r ∧ r < 1 ∧
      ∀ fuel, N < fuel → newton E (lnBeta E 1 (1 / 2)) 1 (1 / 2) (1 / 20) (ε ^ 2) fuel p 0 1 1 = some (.ok r) := by
  have s1 : 0.951 ≤ √(1 - 0.095) := Real.le_sqrt_of_sq_le (by norm_num)
  have w0 : ∀ q : ℝ, q < 1 → w 1 q = 1 / √(1 - q) := fun q hq => by rw [w_eq hq, sub_self, rpow_zero]
  refine beta_search hE le_rfl (by norm_num) (lo := 0.09) (hi := 0.12) (R := 2) (i0 := 0.049) (zl := 0.095)
    (by norm_num) (by norm_num) ?_ (by norm_num) (by linarith) (by norm_num) (by norm_num) ?_ ?_ (by norm_num) ?_ (by norm_num)
    (by norm_num) hε hε1
  · rw [B_one, w0 _ (by norm_num), mul_one_div, div_le_iff₀ (by linarith)]
    linarith
  · rw [B_one, le_div_iff₀ (by norm_num)]
    have := J_simple (a := 1) le_rfl (show 0 < p by linarith) (by linarith)
    rw [rpow_one, div_one] at this
    linarith
  · norm_num
    linarith
  · rw [w0 _ (by norm_num), w0 _ (by norm_num), mul_one_div]
    have s2 : 0.9 ≤ √(1 - 0.12) := Real.le_sqrt_of_sq_le (by norm_num)
    have s3 : √(1 - 0.09) ≤ 1 := Real.sqrt_le_one.2 (by norm_num)
    have s4 : 0 < √(1 - 0.09 : ℝ) := Real.sqrt_pos.2 (by norm_num)
    rw [div_le_div_iff₀ (by linarith) s4]
    linarith

/-- Three degrees of freedom. -/
theorem search_three {E : BetaEnv} (hE : Standard E) {ε p : ℝ} (hε : 3 / 10 ^ 10 ≤ ε) (hε1 : ε ≤ 1 / 10 ^ 7)
    (hp : 0.1428 ≤ p) (hp1 : p ≤ 0.1442) :
    ∃ r N, |J (3 / 2) (1 / 2) r / B (3 / 2) (1 / 2) - 1 / 20| ≤ 4 / 10 ^ 13 + 4 * (3 / 2) ^ 2 * ε ^ 2 ∧ 0 < r ∧ r < 1 ∧
      ∀ fuel, N < fuel →
        newton E (lnBeta E (3 / 2) (1 / 2)) (3 / 2) (1 / 2) (1 / 20) (ε ^ 2) fuel p 0 1 1 = some (.ok r) := by
  have w0 : ∀ q : ℝ, q < 1 → w (3 / 2) q = √q / √(1 - q) := fun q hq => by
    rw [w_eq hq, sqrt_eq_rpow q]; norm_num
  refine beta_search hE (by norm_num) (by norm_num) (lo := 0.13) (hi := 0.28) (R := 2) (i0 := 0.022) (zl := 0.2)
    (by norm_num) (by norm_num) ?_ (by norm_num) (by linarith) (by norm_num) (by norm_num) ?_ ?_ (by norm_num) ?_ (by norm_num)
    (by norm_num) hε hε1
  · have s1 : 0.89 ≤ √(1 - 0.2) := Real.le_sqrt_of_sq_le (by norm_num)
    have s2 : √(0.2 : ℝ) ≤ 0.45 := (Real.sqrt_le_left (by norm_num)).2 (by norm_num)
    rw [B_three_halves, w0 _ (by norm_num), ← mul_div_assoc, div_le_iff₀ (by linarith)]
    nlinarith [pi_gt_d6]
  · rw [B_three_halves, le_div_iff₀ (by positivity)]
    have h1 := J_simple (a := 3 / 2) (by norm_num) (show 0 < p by linarith) (by linarith)
    have h2 : p ^ (3 / 2 : ℝ) = p * √p := by
      rw [sqrt_eq_rpow, show (3 / 2 : ℝ) = 1 / 2 + 1 by norm_num, rpow_add_one (by linarith)]
      ring
    have s2 : 0.377 ≤ √p := Real.le_sqrt_of_sq_le (by linarith [show (0.377 : ℝ) ^ 2 ≤ 0.1428 by norm_num])
    rw [h2] at h1
    have h3 : 0.1428 * 0.377 ≤ p * √p := mul_le_mul hp s2 (by norm_num) (by linarith)
    nlinarith [pi_lt_d6]
  · norm_num
    linarith
  · rw [w0 _ (by norm_num), w0 _ (by norm_num), ← mul_div_assoc]
    have s1 : √(0.28 : ℝ) ≤ 0.53 := (Real.sqrt_le_left (by norm_num)).2 (by norm_num)
    have s2 : 0.84 ≤ √(1 - 0.28) := Real.le_sqrt_of_sq_le (by norm_num)
    have s3 : √(1 - 0.13) ≤ 0.94 := (Real.sqrt_le_left (by norm_num)).2 (by norm_num)
    have s4 : 0 < √(1 - 0.13 : ℝ) := Real.sqrt_pos.2 (by norm_num)
    have s5 : 0.36 ≤ √(0.13 : ℝ) := Real.le_sqrt_of_sq_le (by norm_num)
    rw [div_le_div_iff₀ (by linarith) s4]
    have h1 : √(0.28 : ℝ) * √(1 - 0.13) ≤ 0.53 * 0.94 := mul_le_mul s1 s3 s4.le (by norm_num)
    have h2 : 0.36 * 0.84 ≤ √(0.13 : ℝ) * √(1 - 0.28) := mul_le_mul s5 s2 (by norm_num) (by linarith)
    nlinarith

/-- Four degrees of freedom. -/
theorem search_four {E : BetaEnv} (hE : Standard E) {ε p : ℝ} (hε : 3 / 10 ^ 10 ≤ ε) (hε1 : ε ≤ 1 / 10 ^ 7)
    (hp : 0.302 ≤ p) (hp1 : p ≤ 0.304) :
    ∃ r N, |J 2 (1 / 2) r / B 2 (1 / 2) - 1 / 20| ≤ 4 / 10 ^ 13 + 4 * 2 ^ 2 * ε ^ 2 ∧ 0 < r ∧ r < 1 ∧
      ∀ fuel, N < fuel → newton E (lnBeta E 2 (1 / 2)) 2 (1 / 2) (1 / 20) (ε ^ 2) fuel p 0 1 1 = some (.ok r) := by
  have w0 : ∀ q : ℝ, q < 1 → w 2 q = q / √(1 - q) := fun q hq => by
    rw [w_eq hq, show (2 : ℝ) - 1 = 1 by norm_num, rpow_one]
  refine beta_search hE (by norm_num) (by norm_num) (lo := 0.29) (hi := 0.42) (R := 2) (i0 := 0.03) (zl := 0.3)
    (by norm_num) (by norm_num) ?_ (by norm_num) (by linarith) (by norm_num) (by norm_num) ?_ ?_ (by norm_num) ?_ (by norm_num)
    (by norm_num) hε hε1
  · have s1 : 0.83 ≤ √(1 - 0.3) := Real.le_sqrt_of_sq_le (by norm_num)
    rw [B_two, w0 _ (by norm_num), ← mul_div_assoc, div_le_iff₀ (by linarith)]
    linarith
  · rw [B_two, le_div_iff₀ (by norm_num)]
    have h1 := J_simple (a := 2) (by norm_num) (show 0 < p by linarith) (by linarith)
    rw [rpow_two] at h1
    nlinarith
  · norm_num
    linarith
  · rw [w0 _ (by norm_num), w0 _ (by norm_num), ← mul_div_assoc]
    have s2 : 0.76 ≤ √(1 - 0.42) := Real.le_sqrt_of_sq_le (by norm_num)
    have s3 : √(1 - 0.29) ≤ 0.85 := (Real.sqrt_le_left (by norm_num)).2 (by norm_num)
    have s4 : 0 < √(1 - 0.29 : ℝ) := Real.sqrt_pos.2 (by norm_num)
    rw [div_le_div_iff₀ (by linarith) s4]
    linarith

theorem clamp_id {p : ℝ} (h : 0.0001 ≤ p) (h1 : p ≤ 0.9999) : clampP p = p := by
  unfold clampP
  rw [min_eq_right h1, max_eq_right h]

/-- The search in `inv_beta_reg` for two to 37000 degrees of freedom. -/
theorem inverse_near {E : BetaEnv} (hE : Standard E) (n : ℕ) (hn : 2 ≤ n) (hn1 : n ≤ 37000) :
    ∃ r N, |J (1 / 2 * n) (1 / 2) r / B (1 / 2 * n) (1 / 2) - 1 / 20| ≤ 4 / 10 ^ 13 + n ^ 2 / 10 ^ 14 ∧ 0 < r ∧ r < 1 ∧
      ∀ fuel, N < fuel → invBetaReg E fuel (1 / 2 * n) (1 / 2) (1 / 20) = some (.ok r) := by
  have hn' : (2 : ℝ) ≤ n := by exact_mod_cast hn
  have hn1' : (n : ℝ) ≤ 37000 := by exact_mod_cast hn1
  obtain ⟨c, c1, c2, hg⟩ := guess_eq
  obtain ⟨ε, e1, e2, e3⟩ := acu_eq (show (1 : ℝ) ≤ 1 / 2 * n by linarith)
  have key : ∃ r N, |J (1 / 2 * n) (1 / 2) r / B (1 / 2 * n) (1 / 2) - 1 / 20| ≤
      4 / 10 ^ 13 + 4 * (1 / 2 * n : ℝ) ^ 2 * ε ^ 2 ∧ 0 < r ∧ r < 1 ∧
      ∀ fuel, N < fuel → newton E (lnBeta E (1 / 2 * n) (1 / 2)) (1 / 2 * n) (1 / 2) (1 / 20) (ε ^ 2) fuel
        (clampP (guess (lnBeta E (1 / 2 * n) (1 / 2)) (1 / 2 * n) (1 / 2) (1 / 20))) 0 1 1 = some (.ok r) := by
    rcases Nat.lt_or_ge n 5 with h5 | h5
    · have hc : n = 2 ∨ n = 3 ∨ n = 4 := by omega
      rcases hc with rfl | rfl | rfl
      · have e : (1 / 2 * ((2 : ℕ) : ℝ)) = 1 := by norm_num
        rw [e, hg, if_pos (by rw [div_le_one (by linarith)]; linarith)]
        obtain ⟨κ, k1, k2⟩ := exp_lnBeta hE (show (0 : ℝ) < 1 by norm_num) (show (0 : ℝ) < 1 / 2 by norm_num)
        obtain ⟨k3, k4⟩ := abs_le.1 k1
        have e4 : exp ((log (1 / 20 * 1) + lnBeta E 1 (1 / 2)) / 1) = κ / 10 := by
          rw [div_one, exp_add, exp_log (by norm_num), k2, B_one]
          ring
        rw [e4, clamp_id (by linarith) (by linarith)]
        exact search_two hE e2 e3 (by linarith) (by linarith)
      · have e : (1 / 2 * ((3 : ℕ) : ℝ)) = 3 / 2 := by norm_num
        have hd : 0 < 4 * (3 / 2) - 1 + c := by linarith
        have u1 : 2 * c / (4 * (3 / 2) - 1 + c) ≤ 0.8572 := by rw [div_le_iff₀ hd]; linarith
        have u2 : 0.8558 ≤ 2 * c / (4 * (3 / 2) - 1 + c) := by rw [le_div_iff₀ hd]; linarith
        rw [e, hg, if_neg (by rw [div_le_one (by linarith)]; linarith), clamp_id (by linarith) (by linarith)]
        exact search_three hE e2 e3 (by linarith) (by linarith)
      · have e : (1 / 2 * ((4 : ℕ) : ℝ)) = 2 := by norm_num
        have hd : 0 < 4 * 2 - 1 + c := by linarith
        have u1 : 2 * c / (4 * 2 - 1 + c) ≤ 0.698 := by rw [div_le_iff₀ hd]; linarith
        have u2 : 0.696 ≤ 2 * c / (4 * 2 - 1 + c) := by rw [le_div_iff₀ hd]; linarith
        rw [e, hg, if_neg (by rw [div_le_one (by linarith)]; linarith), clamp_id (by linarith) (by linarith)]
        exact search_four hE e2 e3 (by linarith) (by linarith)
    · have h5' : (5 : ℝ) ≤ n := by exact_mod_cast h5
      obtain ⟨⟨m1, m2⟩, h⟩ := search_general hE (a := 1 / 2 * n) (by linarith) (by linarith) e2 e3 c1 c2
      rw [hg, if_neg (by rw [div_le_one (by linarith)]; linarith), clamp_id m1 m2]
      exact h
  obtain ⟨r, N, r1, r2, r3, r4⟩ := key
  refine ⟨r, N, r1.trans ?_, r2, r3, fun fuel hf => ?_⟩
  · have h1 : ε ^ 2 ≤ 1 / 10 ^ 14 := by
      have : (1 : ℝ) / 10 ^ 14 = (1 / 10 ^ 7) ^ 2 := by norm_num
      rw [this]
      exact pow_le_pow_left₀ (by linarith) e3 2
    have h2 : 4 * (1 / 2 * n : ℝ) ^ 2 * ε ^ 2 ≤ 4 * (1 / 2 * n : ℝ) ^ 2 * (1 / 10 ^ 14) :=
      mul_le_mul_of_nonneg_left h1 (by positivity)
    have h3 : 4 * (1 / 2 * n : ℝ) ^ 2 * (1 / 10 ^ 14) = (n : ℝ) ^ 2 / 10 ^ 14 := by ring
    linarith
  · unfold invBetaReg
    simp only
    rw [if_neg (by norm_num), if_neg (by norm_num), if_neg (by norm_num), e1]
    exact r4 fuel hf

end Verif.StudentPpf
