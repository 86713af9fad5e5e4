import Verif.Model.ConfDbl
import Verif.Lemmas.Doubles

/-!
# Lemmas on rounding used for the confusion matrix in doubles
-/

namespace Verif.ConfDbl
open Verif Verif.Doubles Verif.Ieee Verif.Ieee.Spec Verif.Confusion
open Verif.FloatBits (f64)

theorem ulp_eq {x : ℝ} {e k : ℤ} (h1 : (2 : ℝ) ^ e ≤ x) (h2 : x < 2 ^ (e + 1)) (h3 : e - (f64.frac : ℤ) = k) (h4 : f64.low ≤ k) :
    ulp f64 x = k := by
  have hp : 0 < x := lt_of_lt_of_le (by positivity) h1
  have hlog : Int.log 2 x = e := by
    refine le_antisymm ?_ ?_
    · have := (Int.lt_zpow_iff_log_lt (b := 2) (by norm_num) (x := e + 1) hp).1 (by exact_mod_cast h2)
      omega
    · exact (Int.zpow_le_iff_le_log (b := 2) (by norm_num) hp).1 (by exact_mod_cast h1)
  rw [ulp, abs_of_pos hp, hlog, h3, max_eq_left h4]

/-- The rounded value of a number, from its place between two powers of two. -/
theorem rd_at {x : ℝ} (k m : ℤ) (h1 : (2 : ℝ) ^ (k + 52) ≤ x) (h2 : x < 2 ^ (k + 53)) (h4 : -1074 ≤ k)
    (h : |x / 2 ^ k - m| < 1 / 2) : rd x = m * 2 ^ k := by
  have hu : ulp f64 x = k := ulp_eq (e := k + 52) h1 (by rwa [show k + 52 + 1 = k + 53 by ring]) (by simp [f64]) (by simpa [f64] using h4)
  unfold rd fl
  rw [hu, rne_eq h]

/-- The rounded root of a number. -/
theorem rd_sqrt_at {w : ℝ} (k m : ℤ) (hm : 1 ≤ m) (h1 : ((2 : ℝ) ^ (k + 52)) ^ 2 ≤ w) (h2 : w < ((2 : ℝ) ^ (k + 53)) ^ 2) (h4 : -1074 ≤ k)
    (h5 : ((m - 1 / 2) * 2 ^ k) ^ 2 < w) (h6 : w < (((m : ℝ) + 1 / 2) * 2 ^ k) ^ 2) : rd (Real.sqrt w) = m * 2 ^ k := by
  have hk := two_zpow_pos k
  have m1 : (1 : ℝ) ≤ m := by exact_mod_cast hm
  refine rd_at k m (Real.le_sqrt_of_sq_le h1) ((Real.sqrt_lt' (two_zpow_pos _)).2 h2) h4 ?_
  have a1 : ((m : ℝ) - 1 / 2) * 2 ^ k < Real.sqrt w := Real.lt_sqrt_of_sq_lt h5
  have a2 : Real.sqrt w < ((m : ℝ) + 1 / 2) * 2 ^ k := (Real.sqrt_lt' (by positivity)).2 h6
  rw [← lt_div_iff₀ hk] at a1
  rw [← div_lt_iff₀ hk] at a2
  rw [abs_lt]
  constructor <;> linarith

theorem rd_rel {x : ℝ} (h : (2 : ℝ) ^ (-1000 : ℤ) ≤ |x|) : |rd x - x| ≤ 2 ^ (-53 : ℤ) * |x| := by
  have h0 : x ≠ 0 := by
    rintro rfl
    have := two_zpow_pos (-1000)
    simp only [abs_zero] at h
    linarith
  have hl : f64.low < ulp f64 x := by
    refine lt_of_lt_of_le ?_ (le_max_left _ _)
    have := (Int.zpow_le_iff_le_log (b := 2) (by norm_num) (abs_pos.2 h0) (x := -1000)).1 (by exact_mod_cast h)
    simp only [f64]
    omega
  have := fl_err_normal f64 h0 hl
  rwa [show unit f64 = 2 ^ (-53 : ℤ) by simp [unit, f64]] at this

/-- Numbers up to one are rounded by at most `2 ^ -54`. -/
theorem rd_abs_err {x : ℝ} (h : |x| < 1) : |rd x - x| ≤ 2 ^ (-54 : ℤ) := by
  by_cases h0 : x = 0
  · rw [h0, rd_zero]; simp
  have hu : ulp f64 x ≤ -53 := ulp_of_lt f64 h0 (by simp [f64]) (by simpa [f64] using h)
  refine (fl_err f64 x).trans ?_
  have := zpow_le_zpow_right₀ (by norm_num : (1 : ℝ) ≤ 2) hu
  have e : (2 : ℝ) ^ (-53 : ℤ) / 2 = 2 ^ (-54 : ℤ) := by norm_num
  rw [← e]
  exact div_le_div_of_nonneg_right this (by norm_num)

theorem rd_abs_err' {x : ℝ} (h : |x| ≤ 1) : |rd x - x| ≤ 2 ^ (-54 : ℤ) := by
  rcases h.lt_or_eq with h | h
  · exact rd_abs_err h
  · have : rd x = x := by
      rcases abs_choice x with c | c <;> rw [c] at h
      · rw [h, rd_one]
      · rw [show x = -1 by linarith, rd_neg, rd_one]
    rw [this]; simp

theorem isRep (x : ℝ) : Rep f64 (rd x) := rep_fl f64 x
theorem rd_idem (x : ℝ) : rd (rd x) = rd x := fl_idem f64 x

theorem ulp_scale {x : ℝ} (k : ℤ) (h0 : x ≠ 0) (h1 : f64.low ≤ Int.log 2 |x| - f64.frac)
    (h2 : f64.low ≤ Int.log 2 |x| + k - f64.frac) : ulp f64 (2 ^ k * x) = ulp f64 x + k := by
  have hl : Int.log 2 |2 ^ k * x| = Int.log 2 |x| + k := by
    have ha := abs_pos.2 h0
    rw [abs_mul, abs_of_pos (two_zpow_pos k)]
    have hp : (0 : ℝ) < 2 ^ k * |x| := mul_pos (two_zpow_pos k) ha
    refine le_antisymm ?_ ?_
    · have h3 := Int.lt_zpow_succ_log_self (b := 2) (by norm_num) |x|
      have := (Int.lt_zpow_iff_log_lt (b := 2) (by norm_num) (x := Int.log 2 |x| + k + 1) hp).1 (by
        push_cast at h3 ⊢
        rw [show Int.log 2 |x| + k + 1 = k + (Int.log 2 |x| + 1) by ring, zpow_add₀ (by norm_num : (2 : ℝ) ≠ 0)]
        exact mul_lt_mul_of_pos_left h3 (two_zpow_pos k))
      omega
    · have h3 := Int.zpow_log_le_self (b := 2) (by norm_num) ha
      refine (Int.zpow_le_iff_le_log (b := 2) (by norm_num) hp).1 ?_
      push_cast at h3 ⊢
      rw [add_comm, zpow_add₀ (by norm_num : (2 : ℝ) ≠ 0)]
      exact mul_le_mul_of_nonneg_left h3 (two_zpow_pos k).le
  unfold ulp
  rw [hl, max_eq_left h1, max_eq_left (by linarith)]
  ring

/-- Powers of two pass through rounding, away from the subnormal numbers. -/
theorem rd_scale {x : ℝ} (k : ℤ) (h1 : (2 : ℝ) ^ (-1000 : ℤ) ≤ |x|) (h2 : (2 : ℝ) ^ (-1000 : ℤ) ≤ 2 ^ k * |x|) :
    rd (2 ^ k * x) = 2 ^ k * rd x := by
  have h0 : 0 < |x| := (two_zpow_pos _).trans_le h1
  have l1 := (Int.zpow_le_iff_le_log (b := 2) (by norm_num) h0 (x := -1000)).1 (by exact_mod_cast h1)
  have l2 : -1000 - k ≤ Int.log 2 |x| := (Int.zpow_le_iff_le_log (b := 2) (by norm_num) h0).1 (by
    push_cast
    rw [zpow_sub₀ (by norm_num : (2 : ℝ) ≠ 0), div_le_iff₀ (two_zpow_pos k)]
    linarith)
  have hu := ulp_scale (x := x) k (abs_pos.1 h0) (by simp only [f64]; omega) (by simp only [f64]; omega)
  unfold rd fl
  rw [hu, zpow_add₀ (by norm_num : (2 : ℝ) ≠ 0), mul_comm ((2 : ℝ) ^ ulp f64 x), mul_div_mul_left _ _ (two_zpow_pos k).ne']
  ring

/-- Twice a double is a double. -/
theorem rd_two_mul {x : ℝ} (h : Rep f64 x) : rd (2 * x) = 2 * x := by
  obtain ⟨m, e, hm, he, rfl⟩ := h
  exact fl_rep f64 ⟨m, e + 1, hm, by linarith, by rw [zpow_add₀ (by norm_num : (2 : ℝ) ≠ 0)]; ring⟩

/-- The root of the square of a double is the double. -/
theorem sqrt_sq' {x : ℝ} (hx : Rep f64 x) (h : (2 : ℝ) ^ (-400 : ℤ) ≤ x) :
    rd (Real.sqrt (rd (x * x))) = x := by
  obtain ⟨m, e, hm, he, rfl⟩ := hx
  have hx0 : (0 : ℝ) < m * 2 ^ e := (two_zpow_pos _).trans_le h
  have hm0 : 0 < m := by
    have := (mul_pos_iff_of_pos_right (two_zpow_pos e)).1 hx0
    exact_mod_cast this
  obtain ⟨n, rfl⟩ := Int.eq_ofNat_of_zero_le hm0.le
  have hn : n < 2 ^ 53 := by
    rw [abs_of_pos hm0] at hm
    simp only [f64] at hm
    exact_mod_cast hm
  have hn0 : 0 < n := by exact_mod_cast hm0
  have n1 : (1 : ℝ) ≤ n := by exact_mod_cast hn0
  have hn53 : (n : ℝ) ≤ 2 ^ (53 : ℤ) := by exact_mod_cast hn.le
  push_cast at *
  have small : (2 : ℝ) ^ (-1000 : ℤ) ≤ 1 := zpow_le_one_of_nonpos₀ (by norm_num) (by norm_num)
  have hnn : (1 : ℝ) ≤ n * n := by nlinarith
  have e1 : (n : ℝ) * 2 ^ e * (n * 2 ^ e) = 2 ^ (2 * e) * (n * n) := by
    rw [two_mul, zpow_add₀ (by norm_num : (2 : ℝ) ≠ 0)]; ring
  have hsq : (2 : ℝ) ^ (-800 : ℤ) ≤ n * 2 ^ e * (n * 2 ^ e) := by
    rw [show (-800 : ℤ) = -400 + -400 by norm_num, zpow_add₀ (by norm_num : (2 : ℝ) ≠ 0)]
    exact mul_le_mul h h (two_zpow_pos _).le hx0.le
  have h81 : (2 : ℝ) ^ (-1000 : ℤ) ≤ 2 ^ (-800 : ℤ) := zpow_le_zpow_right₀ (by norm_num) (by norm_num)
  rw [e1, rd_scale (2 * e) (by rw [abs_of_pos (by linarith)]; linarith) (by
    rw [abs_of_pos (by linarith), ← e1]; linarith)]
  have r1 : (1 : ℝ) ≤ rd ((n : ℝ) * n) := one_le_rd hnn
  rw [Real.sqrt_mul (two_zpow_pos _).le, show Real.sqrt ((2 : ℝ) ^ (2 * e)) = 2 ^ e by
    rw [two_mul, zpow_add₀ (by norm_num : (2 : ℝ) ≠ 0), Real.sqrt_mul_self (two_zpow_pos e).le]]
  have r2 : (1 : ℝ) ≤ Real.sqrt (rd ((n : ℝ) * n)) := Real.one_le_sqrt.2 r1
  rw [rd_scale e (by rw [abs_of_pos (by linarith)]; linarith) (by
    rw [abs_of_pos (by linarith)]
    have h453 : (2 : ℝ) ^ (-453 : ℤ) ≤ 2 ^ e := by
      have h5 : (2 : ℝ) ^ (-400 : ℤ) ≤ 2 ^ (53 : ℤ) * 2 ^ e := h.trans (mul_le_mul_of_nonneg_right hn53 (two_zpow_pos e).le)
      rw [show (-400 : ℤ) = 53 + -453 by norm_num, zpow_add₀ (by norm_num : (2 : ℝ) ≠ 0)] at h5
      exact le_of_mul_le_mul_left h5 (two_zpow_pos _)
    have h5 : (2 : ℝ) ^ (-1000 : ℤ) ≤ 2 ^ (-453 : ℤ) := zpow_le_zpow_right₀ (by norm_num) (by norm_num)
    have h6 : (2 : ℝ) ^ e * 1 ≤ 2 ^ e * Real.sqrt (rd ((n : ℝ) * n)) := mul_le_mul_of_nonneg_left r2 (two_zpow_pos e).le
    generalize (2 : ℝ) ^ (-1000 : ℤ) = A at *
    linarith), sqrt_sq hn]
  ring

end Verif.ConfDbl
