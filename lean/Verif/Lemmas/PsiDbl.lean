import Verif.Model.PsiDbl
import Verif.Props.SplitDbl
import Verif.Lemmas.ConfDbl
import Mathlib.Analysis.SpecialFunctions.Log.Basic

/-!
# Quotients of neighbouring doubles
-/

namespace Verif.PsiDbl
open Verif.Doubles Verif.Ieee Verif.FloatBits

/-- Two doubles are at least half a unit in the last place of the smaller one apart. -/
theorem gap {x y : ℝ} (hx : rd x = x) (hy : rd y = y) (h0 : 0 < x) (h : x < y) : x * 2 ^ (-53 : ℤ) < y - x := by
  have hu := lt_ulp f64 x
  rw [abs_of_pos h0] at hu
  have hm : ulp f64 x ≤ ulp f64 y := ulp_mono f64 h0.ne' (by rw [abs_of_pos h0, abs_of_pos (h0.trans h)]; exact h.le)
  have ex : x = rne (x / 2 ^ ulp f64 x) * 2 ^ ulp f64 x := hx.symm
  have ey : y = rne (y / 2 ^ ulp f64 y) * 2 ^ ulp f64 y := hy.symm
  obtain ⟨n, hn⟩ := Int.eq_ofNat_of_zero_le (sub_nonneg.2 hm)
  generalize rne (x / 2 ^ ulp f64 x) = p at ex
  generalize rne (y / 2 ^ ulp f64 y) = q at ey
  generalize ulp f64 x = u at *
  generalize ulp f64 y = v at *
  obtain rfl : v = u + n := by linarith
  have hp := two_zpow_pos u
  have ey2 : y = ((q * 2 ^ n : ℤ) : ℝ) * 2 ^ u := by
    rw [ey, zpow_add₀ (by norm_num)]; push_cast; rw [zpow_natCast]; ring
  have hd : y - x = ((q * 2 ^ n - p : ℤ) : ℝ) * 2 ^ u := by rw [Int.cast_sub, sub_mul, ← ey2, ← ex]
  have h1 : (1 : ℤ) ≤ q * 2 ^ n - p := by
    by_contra hc
    have : ((q * 2 ^ n - p : ℤ) : ℝ) ≤ 0 := by exact_mod_cast (by omega : q * 2 ^ n - p ≤ 0)
    nlinarith
  have h2 : (1 : ℝ) ≤ ((q * 2 ^ n - p : ℤ) : ℝ) := by exact_mod_cast h1
  have h3 : (2 : ℝ) ^ u ≤ y - x := by rw [hd]; nlinarith
  rw [show u + ((f64.frac : ℤ) + 1) = u + 53 by simp [f64], zpow_add₀ (by norm_num)] at hu
  have : x * 2 ^ (-53 : ℤ) < 2 ^ u := by
    rw [zpow_neg, ← div_eq_mul_inv, div_lt_iff₀ (by positivity)]; exact hu
  linarith

theorem quot_above {a b : ℝ} (ha : rd a = a) (hb : rd b = b) (h0 : 0 < b) (h : b < a) : 1 < rd (a / b) := by
  have hg := gap hb ha h0 h
  have h1 : 1 + 2 ^ (-53 : ℤ) < a / b := by rw [lt_div_iff₀ h0]; linarith
  by_cases h2 : a / b < 2
  · have hp : 0 < a / b := by linarith [two_zpow_pos (-53)]
    have he := fl_err f64 (a / b)
    have hu : ulp f64 (a / b) ≤ -52 := ulp_of_lt f64 hp.ne' (by simp [f64]) (by
      rw [abs_of_pos hp]; simpa [f64] using h2)
    have : (2 : ℝ) ^ ulp f64 (a / b) ≤ 2 ^ (-52 : ℤ) := zpow_le_zpow_right₀ (by norm_num) hu
    have e : (2 : ℝ) ^ (-52 : ℤ) / 2 = 2 ^ (-53 : ℤ) := by norm_num
    have := (abs_le.1 he).1
    change 1 < fl f64 (a / b)
    linarith
  · have := rd_mono (not_lt.1 h2)
    have e : rd (2 : ℝ) = 2 := by have := rd_nat (n := 2) (by norm_num); simpa using this
    linarith

theorem quot_below {a b : ℝ} (ha : rd a = a) (hb : rd b = b) (h0 : 0 < a) (h : a < b) : rd (a / b) < 1 := by
  have hg := gap ha hb h0 h
  have hb0 := h0.trans h
  have h1 : a / b < 1 - 2 ^ (-54 : ℤ) := by
    rw [div_lt_iff₀ hb0]
    have e : (2 : ℝ) ^ (-53 : ℤ) = 2 * 2 ^ (-54 : ℤ) := by norm_num
    rw [e] at hg
    have hs : (2 : ℝ) ^ (-54 : ℤ) < 1 / 2 := by norm_num
    have ht := two_zpow_pos (-54)
    generalize (2 : ℝ) ^ (-54 : ℤ) = t at *
    by_contra hc
    have h2 : (1 - t) * (a + a * (2 * t)) < (1 - t) * b := mul_lt_mul_of_pos_left (by linarith) (by linarith)
    have h3 : 0 ≤ a * t * (1 - 2 * t) := mul_nonneg (mul_nonneg h0.le ht.le) (by linarith)
    nlinarith
  have he := ConfDbl.rd_abs_err (x := a / b) (by
    rw [abs_of_pos (div_pos h0 hb0)]; linarith [two_zpow_pos (-54)])
  linarith [(abs_le.1 he).2]

end Verif.PsiDbl
