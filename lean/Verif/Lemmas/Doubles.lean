import Verif.Model.Doubles
import Verif.Lemmas.Ieee

/-!
# Lemmas on quotients of counts and on roots in double arithmetic
-/

namespace Verif.Doubles
open Verif Verif.FloatBits Verif.Ieee Verif.Ieee.Spec

theorem rd_mono {x y : ℝ} (h : x ≤ y) : rd x ≤ rd y := fl_mono f64 h
theorem rd_zero : rd 0 = 0 := fl_zero f64
theorem rd_one : rd 1 = 1 := fl_rep f64 ⟨1, 0, by norm_num [f64], by norm_num [f64], by norm_num⟩
theorem rd_neg (x : ℝ) : rd (-x) = -rd x := fl_neg f64 x
theorem rd_nonneg {x : ℝ} (h : 0 ≤ x) : 0 ≤ rd x := by have := rd_mono h; rwa [rd_zero] at this
theorem rd_le_one {x : ℝ} (h : x ≤ 1) : rd x ≤ 1 := by have := rd_mono h; rwa [rd_one] at this
theorem one_le_rd {x : ℝ} (h : 1 ≤ x) : 1 ≤ rd x := by have := rd_mono h; rwa [rd_one] at this

theorem rd_int {n : ℤ} (h : |n| ≤ 2 ^ 53) : rd n = n := by
  have := fl_rep f64 (rep_le f64 (m := n) (e := 0) (by simpa [f64] using h) (by norm_num [f64]))
  simpa using this

theorem rd_nat {n : ℕ} (h : n ≤ 2 ^ 53) : rd n = n := by
  have h1 : |(n : ℤ)| ≤ 2 ^ 53 := by rw [abs_of_nonneg (by positivity)]; exact_mod_cast h
  have := rd_int h1
  simpa using this

theorem rd_nat_pos {n : ℕ} (h : 0 < n) : 1 ≤ rd n := one_le_rd (by exact_mod_cast h)

theorem rd_abs (x : ℝ) : |rd x| = rd |x| := by
  rcases le_total 0 x with h | h
  · rw [abs_of_nonneg h, abs_of_nonneg (rd_nonneg h)]
  · rw [abs_of_nonpos h, rd_neg, abs_of_nonpos]
    have := rd_nonneg (neg_nonneg.2 h)
    rw [rd_neg] at this
    linarith

/-- The double below one. -/
theorem rd_below : rd (1 - 2 ^ (-53 : ℤ)) = 1 - 2 ^ (-53 : ℤ) := by
  refine fl_rep f64 ⟨2 ^ 53 - 1, -53, by norm_num [f64], by norm_num [f64], ?_⟩
  push_cast
  norm_num

theorem rd_two53 : rd (2 ^ (-53 : ℤ)) = 2 ^ (-53 : ℤ) :=
  fl_rep f64 ⟨1, -53, by norm_num [f64], by norm_num [f64], by norm_num⟩

theorem quot_nonneg (a b : ℕ) : 0 ≤ quot a b :=
  rd_nonneg (div_nonneg (rd_nonneg (Nat.cast_nonneg a)) (rd_nonneg (Nat.cast_nonneg b)))

theorem quot_le_one {a b : ℕ} (h : a ≤ b) : quot a b ≤ 1 :=
  rd_le_one (div_le_one_of_le₀ (rd_mono (by exact_mod_cast h)) (rd_nonneg (Nat.cast_nonneg b)))

theorem quot_self {a : ℕ} (h : 0 < a) : quot a a = 1 := by
  unfold quot
  rw [div_self (by have := rd_nat_pos h; linarith), rd_one]

theorem quot_zero (b : ℕ) : quot 0 b = 0 := by
  unfold quot
  rw [Nat.cast_zero, rd_zero, zero_div, rd_zero]

/-- The quotient of small counts is rounded once. -/
theorem quot_eq {a b : ℕ} (ha : a ≤ 2 ^ 53) (hb : b ≤ 2 ^ 53) : quot a b = rd ((a : ℝ) / b) := by
  unfold quot
  rw [rd_nat ha, rd_nat hb]

theorem quot_lt_one {a b : ℕ} (h : a < b) (hb : b ≤ 2 ^ 53) : quot a b ≤ 1 - 2 ^ (-53 : ℤ) := by
  rw [quot_eq (by omega) hb, ← rd_below]
  apply rd_mono
  have hb0 : (0 : ℝ) < b := by exact_mod_cast (by omega : 0 < b)
  have h1 : (a : ℝ) + 1 ≤ b := by exact_mod_cast h
  have h2 : (b : ℝ) ≤ 2 ^ 53 := by exact_mod_cast hb
  rw [div_le_iff₀ hb0, zpow_neg]
  have h3 : ((2 : ℝ) ^ (53 : ℤ))⁻¹ * b ≤ 1 := by
    rw [inv_mul_le_one₀ (by positivity)]
    exact_mod_cast h2
  linarith

theorem quot_pos {a b : ℕ} (ha : 0 < a) (hab : a ≤ b) (hb : b ≤ 2 ^ 53) : 2 ^ (-53 : ℤ) ≤ quot a b := by
  rw [quot_eq (by omega) hb, ← rd_two53]
  apply rd_mono
  have hb0 : (0 : ℝ) < b := by exact_mod_cast (by omega : 0 < b)
  have h1 : (1 : ℝ) ≤ a := by exact_mod_cast ha
  have h2 : (b : ℝ) ≤ 2 ^ 53 := by exact_mod_cast hb
  rw [le_div_iff₀ hb0, zpow_neg]
  have h3 : ((2 : ℝ) ^ (53 : ℤ))⁻¹ * b ≤ 1 := by
    rw [inv_mul_le_one₀ (by positivity)]
    exact_mod_cast h2
  linarith

theorem quot_eq_one_iff {a b : ℕ} (hab : a ≤ b) (hb : b ≤ 2 ^ 53) (h0 : 0 < b) : quot a b = 1 ↔ a = b := by
  constructor
  · intro h
    by_contra hc
    have := quot_lt_one (lt_of_le_of_ne hab hc) hb
    rw [h] at this
    have h2 := two_zpow_pos (-53)
    linarith
  · rintro rfl
    exact quot_self h0

theorem quot_eq_zero_iff {a b : ℕ} (hab : a ≤ b) (hb : b ≤ 2 ^ 53) : quot a b = 0 ↔ a = 0 := by
  constructor
  · intro h
    by_contra hc
    have := quot_pos (Nat.pos_of_ne_zero hc) hab hb
    rw [h] at this
    have h2 := two_zpow_pos (-53)
    linarith
  · rintro rfl
    exact quot_zero b

theorem quot_mono {a b c d : ℕ} (hb : b ≤ 2 ^ 53) (hd : d ≤ 2 ^ 53) (ha : a ≤ 2 ^ 53) (hc : c ≤ 2 ^ 53)
    (h : (a : ℝ) / b ≤ c / d) : quot a b ≤ quot c d := by
  rw [quot_eq ha hb, quot_eq hc hd]
  exact rd_mono h

theorem rne_eq {y : ℝ} {m : ℤ} (h : |y - m| < 1 / 2) : rne y = m := by
  have h1 := rne_err y
  rw [abs_le] at h1
  rw [abs_lt] at h
  have h2 : (rne y : ℝ) < m + 1 := by linarith
  have h3 : (m : ℝ) < rne y + 1 := by linarith
  have h4 : rne y < m + 1 := by exact_mod_cast h2
  have h5 : m < rne y + 1 := by exact_mod_cast h3
  omega

/-- The root of the square of a count is the count, in doubles. -/
theorem sqrt_sq {n : ℕ} (hn : n < 2 ^ 53) : rd (Real.sqrt (rd ((n : ℝ) * n))) = n := by
  rcases Nat.eq_zero_or_pos n with h0 | h0
  · subst h0
    rw [Nat.cast_zero, mul_zero, rd_zero, Real.sqrt_zero, rd_zero]
  obtain ⟨k, hk1, hk2⟩ : ∃ k, 2 ^ k ≤ n ∧ n < 2 ^ (k + 1) :=
    ⟨Nat.log 2 n, Nat.pow_log_le_self 2 (by omega), Nat.lt_pow_succ_log_self (by norm_num) n⟩
  have hk : k ≤ 52 := by
    by_contra hc
    have : 2 ^ 53 ≤ 2 ^ k := Nat.pow_le_pow_right (by norm_num) (by omega)
    omega
  rcases hk1.eq_or_lt with he | hlt
  · -- a power of two
    have e : (n : ℝ) * n = ((1 : ℤ) : ℝ) * 2 ^ ((2 * k : ℕ) : ℤ) := by
      rw [← he, zpow_natCast]; push_cast; ring
    rw [show rd ((n : ℝ) * n) = n * n from
      fl_rep f64 ⟨1, ((2 * k : ℕ) : ℤ), by norm_num [f64], by simp only [f64]; omega, e⟩,
      Real.sqrt_mul_self (Nat.cast_nonneg n), rd_nat hn.le]
  · -- not a power of two
    obtain ⟨j, hj⟩ : ∃ j, k + j = 52 := ⟨52 - k, by omega⟩
    -- numbers
    have n1 : (2 : ℝ) ^ k + 1 ≤ n := by exact_mod_cast hlt
    have n2 : (n : ℝ) + 1 ≤ 2 * 2 ^ k := by
      have : n + 1 ≤ 2 * 2 ^ k := by rw [pow_succ] at hk2; omega
      exact_mod_cast this
    have hPJ : (2 : ℝ) ^ k * 2 ^ j = 2 ^ 52 := by rw [← pow_add, hj]
    have hJ1 : (1 : ℝ) ≤ 2 ^ j := one_le_pow₀ (by norm_num)
    have hP1 : (1 : ℝ) ≤ 2 ^ k := one_le_pow₀ (by norm_num)
    have ezp : (2 : ℝ) ^ (-(j : ℤ)) = (2 ^ j)⁻¹ := by rw [zpow_neg, zpow_natCast]
    -- the square
    have hx0 : (n : ℝ) * n ≠ 0 := by nlinarith
    have hu : ulp f64 ((n : ℝ) * n) ≤ 2 * (k : ℤ) - 51 := by
      refine ulp_of_lt f64 hx0 (by simp only [f64]; omega) ?_
      rw [abs_of_nonneg (by positivity), show (2 * (k : ℤ) - 51 + ((f64.frac : ℤ) + 1)) = ((2 * k + 2 : ℕ) : ℤ) by
        simp only [f64]; push_cast; ring, zpow_natCast, pow_add, pow_mul']
      nlinarith
    have hy : |rd ((n : ℝ) * n) - n * n| ≤ 2 ^ k * (2 ^ j)⁻¹ := by
      refine (fl_err f64 _).trans ?_
      have h1 : (2 : ℝ) ^ ulp f64 ((n : ℝ) * n) ≤ 2 ^ (2 * (k : ℤ) - 51) := zpow_le_zpow_right₀ (by norm_num) hu
      have h2 : (2 : ℝ) ^ (2 * (k : ℤ) - 51) = 2 * (2 ^ k * (2 ^ j)⁻¹) := by
        rw [← ezp, ← zpow_natCast, ← zpow_add₀ (by norm_num : (2 : ℝ) ≠ 0),
          show 2 * (k : ℤ) - 51 = 1 + (k + -(j : ℤ)) by omega, zpow_add₀ (by norm_num : (2 : ℝ) ≠ 0), zpow_one]
      rw [h2] at h1
      linarith
    generalize rd ((n : ℝ) * n) = y at hy
    generalize hJ : (2 : ℝ) ^ j = J at *
    generalize hP : (2 : ℝ) ^ k = P at *
    have hJ0 : 0 < J := by linarith
    have hi0 : 0 < J⁻¹ := inv_pos.2 hJ0
    have hi1 : J⁻¹ ≤ 1 := inv_le_one_of_one_le₀ hJ1
    rw [abs_le] at hy
    have s1 : (n : ℝ) - J⁻¹ / 2 < Real.sqrt y := by
      rw [Real.lt_sqrt (by linarith)]
      nlinarith [mul_le_mul_of_nonneg_right n1 hi0.le]
    have s2 : Real.sqrt y < (n : ℝ) + J⁻¹ / 2 := by
      rw [Real.sqrt_lt' (by linarith)]
      nlinarith [mul_le_mul_of_nonneg_right n1 hi0.le]
    generalize Real.sqrt y = s at s1 s2
    have hs0 : 0 < s := by linarith
    have hus : ulp f64 s = -(j : ℤ) := by
      apply le_antisymm
      · refine ulp_of_lt f64 hs0.ne' (by simp only [f64]; omega) ?_
        rw [abs_of_pos hs0, show (-(j : ℤ) + ((f64.frac : ℤ) + 1)) = ((k + 1 : ℕ) : ℤ) by
          simp only [f64]; push_cast; omega, zpow_natCast, pow_succ, hP]
        linarith
      · refine le_max_of_le_left ?_
        have h1 : (k : ℤ) ≤ Int.log 2 |s| := by
          refine (Int.zpow_le_iff_le_log (b := 2) (by norm_num) (abs_pos.2 hs0.ne')).1 ?_
          rw [abs_of_pos hs0]
          push_cast
          rw [zpow_natCast, hP]
          linarith
        simp only [f64]
        push_cast
        omega
    have hr : rne (s / 2 ^ (-(j : ℤ))) = (n : ℤ) * 2 ^ j := by
      apply rne_eq
      push_cast
      rw [ezp, hJ, div_inv_eq_mul, ← sub_mul, abs_mul, abs_of_pos hJ0]
      have h1 : |s - n| < J⁻¹ / 2 := abs_lt.2 ⟨by linarith, by linarith⟩
      have h2 := mul_lt_mul_of_pos_right h1 hJ0
      rwa [div_mul_eq_mul_div, inv_mul_cancel₀ hJ0.ne'] at h2
    change (rne (s / 2 ^ ulp f64 s) : ℝ) * 2 ^ ulp f64 s = n
    rw [hus, hr, ezp]
    push_cast
    rw [hJ, mul_assoc, mul_inv_cancel₀ hJ0.ne', mul_one]

end Verif.Doubles
