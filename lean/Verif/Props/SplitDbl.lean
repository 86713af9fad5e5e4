import Verif.Model.SplitDbl
import Verif.Lemmas.ConfDbl
import Verif.Props.AucDbl
import Verif.Props.LossDbl
import Verif.Props.Split
import Mathlib.Tactic.Linarith
import Mathlib.Tactic.FieldSimp
import Mathlib.Tactic.LinearCombination

/-! # C169: ratios in double arithmetic -/

namespace Verif.SplitDbl
open Verif Verif.Ieee Verif.Ieee.Spec Verif.ConfDbl
open Verif.FloatBits (f64)
open Verif.Doubles (rd rd_zero rd_one rd_neg rd_mono rd_nonneg)
variable {α : Type}

namespace Spec

/-- A ratio written with `k` decimals: the fraction, and the double Python reads. -/
noncomputable def decimal (p k : ℕ) : ℝ := (p : ℝ) / 10 ^ k

/-- The rows of the parts together. -/
def total (parts : List (List α)) : ℕ := parts.flatten.length

end Spec

theorem rd_exact (m k : ℤ) (h : |m| < 2 ^ 53) (hk : -1074 ≤ k) : rd ((m : ℝ) * 2 ^ k) = m * 2 ^ k :=
  fl_rep f64 ⟨m, k, by simpa [f64] using h, by simpa [f64] using hk, rfl⟩

/-- The error of the rounded product. -/
theorem prod_err (n : ℕ) (d : ℝ) (hn : n < 2 ^ 32) (h0 : (2 : ℝ) ^ (-900 : ℤ) ≤ d) (h1 : d < 1) :
    |rd ((n : ℝ) * rd d) - n * d| < 1 / 10 ^ 6 := by
  have hd : 0 < d := (two_zpow_pos _).trans_le h0
  have hs : (2 : ℝ) ^ (-1000 : ℤ) ≤ 2 ^ (-900 : ℤ) := zpow_le_zpow_right₀ (by norm_num) (by norm_num)
  have e1 := rd_rel (x := d) (by rw [abs_of_pos hd]; exact hs.trans h0)
  rw [abs_of_pos hd] at e1
  rcases Nat.eq_zero_or_pos n with rfl | hp
  · have : ((0 : ℕ) : ℝ) = 0 := by norm_num
    rw [this, zero_mul, zero_mul, rd_zero]; norm_num
  have hn1 : (1 : ℝ) ≤ n := by exact_mod_cast hp
  have hn2 : (n : ℝ) ≤ 2 ^ 32 := by exact_mod_cast hn.le
  have hdge : (2 : ℝ) ^ (-900 : ℤ) ≤ rd d := by
    have := rd_mono h0
    rwa [show rd ((2 : ℝ) ^ (-900 : ℤ)) = 2 ^ (-900 : ℤ) by simpa using rd_exact 1 (-900) (by norm_num) (by norm_num)] at this
  have hrp : 0 < rd d := (two_zpow_pos _).trans_le hdge
  have hq : (2 : ℝ) ^ (-1000 : ℤ) ≤ (n : ℝ) * rd d := by
    refine hs.trans (hdge.trans ?_)
    nlinarith
  have e2 := rd_rel (x := (n : ℝ) * rd d) (by rw [abs_of_pos (by positivity)]; exact hq)
  rw [abs_of_pos (show 0 < (n : ℝ) * rd d by positivity)] at e2
  have hr1 : rd d ≤ 1 := Doubles.rd_le_one h1.le
  have hnd : (n : ℝ) * rd d ≤ 2 ^ 32 := by nlinarith
  have hnd' : (n : ℝ) * d ≤ 2 ^ 32 := by nlinarith
  have t1 : |rd ((n : ℝ) * rd d) - n * rd d| ≤ 2 ^ (-53 : ℤ) * 2 ^ 32 :=
    e2.trans (mul_le_mul_of_nonneg_left hnd (two_zpow_pos _).le)
  have t2 : |(n : ℝ) * rd d - n * d| ≤ 2 ^ (-53 : ℤ) * 2 ^ 32 := by
    rw [← mul_sub, abs_mul, abs_of_pos (by linarith : (0 : ℝ) < n)]
    calc (n : ℝ) * |rd d - d| ≤ n * (2 ^ (-53 : ℤ) * d) := mul_le_mul_of_nonneg_left e1 (by linarith)
      _ = 2 ^ (-53 : ℤ) * (n * d) := by ring
      _ ≤ _ := mul_le_mul_of_nonneg_left hnd' (two_zpow_pos _).le
  have t3 := abs_sub_le (rd ((n : ℝ) * rd d)) (n * rd d) (n * d)
  have : (2 : ℝ) ^ (-53 : ℤ) * 2 ^ 32 + 2 ^ (-53 : ℤ) * 2 ^ 32 < 1 / 10 ^ 6 := by norm_num
  exact lt_of_le_of_lt (t3.trans (add_le_add t1 t2)) this

/-- **C169, the part that holds.**  For a ratio with up to six decimals and any frame polars can count, the number of
rows is the whole part of `n * ratio`, except that it may be one less when `n * ratio` is a whole number. -/
theorem rows_of_ratio_partial (n p k : ℕ) (hn : n < 2 ^ 32) (hk : k ≤ 6) (hp : 0 < p) (hpk : p < 10 ^ k) :
    (¬ 10 ^ k ∣ n * p → truncRows n (rd (Spec.decimal p k)) = n * p / 10 ^ k) ∧
    (10 ^ k ∣ n * p → truncRows n (rd (Spec.decimal p k)) = n * p / 10 ^ k ∨
      truncRows n (rd (Spec.decimal p k)) + 1 = n * p / 10 ^ k) := by
  have h10 : (0 : ℝ) < 10 ^ k := by positivity
  have hk6 : (10 : ℝ) ^ k ≤ 10 ^ 6 := pow_le_pow_right₀ (by norm_num) hk
  have hp1 : (1 : ℝ) ≤ p := by exact_mod_cast hp
  have hd0 : (2 : ℝ) ^ (-900 : ℤ) ≤ Spec.decimal p k := by
    calc (2 : ℝ) ^ (-900 : ℤ) ≤ 2 ^ (-20 : ℤ) := zpow_le_zpow_right₀ (by norm_num) (by norm_num)
      _ ≤ 1 / 10 ^ 6 := by norm_num
      _ ≤ 1 / 10 ^ k := one_div_le_one_div_of_le h10 hk6
      _ ≤ _ := div_le_div_of_nonneg_right hp1 h10.le
  have hd1 : Spec.decimal p k < 1 := by
    unfold Spec.decimal
    rw [div_lt_one h10]
    exact_mod_cast hpk
  have he := prod_err n _ hn hd0 hd1
  have hnd : (n : ℝ) * Spec.decimal p k = ((n * p : ℕ) : ℝ) / 10 ^ k := by unfold Spec.decimal; push_cast; ring
  rw [hnd] at he
  have hk' : (1 : ℝ) / 10 ^ 6 ≤ 1 / 10 ^ k := one_div_le_one_div_of_le h10 hk6
  have hdm : ((n * p : ℕ) : ℝ) = 10 ^ k * ((n * p / 10 ^ k : ℕ) : ℝ) + ((n * p % 10 ^ k : ℕ) : ℝ) := by
    exact_mod_cast (Nat.div_add_mod (n * p) (10 ^ k)).symm
  have hml : n * p % 10 ^ k + 1 ≤ 10 ^ k := Nat.mod_lt _ (by positivity)
  have hml' : ((n * p % 10 ^ k : ℕ) : ℝ) + 1 ≤ 10 ^ k := by exact_mod_cast hml
  have hv0 : 0 ≤ rd ((n : ℝ) * rd (Spec.decimal p k)) :=
    rd_nonneg (mul_nonneg (by positivity) (rd_nonneg (by unfold Spec.decimal; positivity)))
  have hdiv : ((n * p : ℕ) : ℝ) / 10 ^ k = ((n * p / 10 ^ k : ℕ) : ℝ) + ((n * p % 10 ^ k : ℕ) : ℝ) / 10 ^ k := by
    rw [hdm]; field_simp
  rw [hdiv] at he
  unfold truncRows
  generalize rd ((n : ℝ) * rd (Spec.decimal p k)) = v at *
  generalize n * p / 10 ^ k = q at *
  have hab := abs_lt.1 he
  have hup : ((n * p % 10 ^ k : ℕ) : ℝ) / 10 ^ k ≤ 1 - 1 / 10 ^ k := by
    rw [div_le_iff₀ h10, sub_mul, one_div_mul_cancel h10.ne']
    linarith
  constructor
  · intro hnd
    have hm : 1 ≤ n * p % 10 ^ k := Nat.pos_of_ne_zero fun h => hnd (Nat.dvd_of_mod_eq_zero h)
    have hm' : (1 : ℝ) / 10 ^ k ≤ ((n * p % 10 ^ k : ℕ) : ℝ) / 10 ^ k :=
      div_le_div_of_nonneg_right (by exact_mod_cast hm) h10.le
    rw [Nat.floor_eq_iff hv0]
    constructor <;> linarith
  · intro hdv
    rw [Nat.mod_eq_zero_of_dvd hdv] at hab
    simp only [Nat.cast_zero, zero_div, add_zero] at hab
    rcases le_or_gt (q : ℝ) v with h | h
    · left
      rw [Nat.floor_eq_iff hv0]
      constructor
      · exact h
      · have : (1 : ℝ) / 10 ^ 6 < 1 := by norm_num
        linarith
    · right
      have hq : 1 ≤ q := by
        rcases Nat.eq_zero_or_pos q with rfl | hq
        · simp only [Nat.cast_zero] at h; linarith
        · exact hq
      have : ⌊v⌋₊ = q - 1 := by
        rw [Nat.floor_eq_iff hv0]
        push_cast [hq]
        constructor
        · have : (1 : ℝ) / 10 ^ 6 < 1 := by norm_num
          linarith
        · linarith
      omega

/-- A third of ten rows, in two decimals. -/
example : truncRows 10 (rd (Spec.decimal 33 2)) = 3 :=
  (rows_of_ratio_partial 10 33 2 (by norm_num) (by norm_num) (by norm_num) (by norm_num)).1 (by norm_num)

theorem rd29 : rd (29 / 100) = 5224175567749775 * 2 ^ (-54 : ℤ) := by
  have := rd_at (x := 29 / 100) (-54) 5224175567749775 (by norm_num) (by norm_num) (by norm_num) (by norm_num [abs_lt])
  exact_mod_cast this

theorem rd58 : rd (58 / 100) = 5224175567749775 * 2 ^ (-53 : ℤ) := by
  have := rd_at (x := 58 / 100) (-53) 5224175567749775 (by norm_num) (by norm_num) (by norm_num) (by norm_num [abs_lt])
  exact_mod_cast this

theorem rd42 : rd (42 / 100) = 7566047373982433 * 2 ^ (-54 : ℤ) := by
  have := rd_at (x := 42 / 100) (-54) 7566047373982433 (by norm_num) (by norm_num) (by norm_num) (by norm_num [abs_lt])
  exact_mod_cast this

theorem trunc29 : truncRows 100 (rd (29 / 100)) = 28 := by
  unfold truncRows
  rw [rd29]
  have := rd_at (x := ((100 : ℕ) : ℝ) * (5224175567749775 * 2 ^ (-54 : ℤ))) (-48) 8162774324609023 (by norm_num) (by norm_num)
    (by norm_num) (by norm_num [abs_lt])
  rw [this]
  rw [Nat.floor_eq_iff (by norm_num)]
  norm_num

theorem trunc58 : truncRows 100 (rd (58 / 100)) = 57 := by
  unfold truncRows
  rw [rd58]
  have := rd_at (x := ((100 : ℕ) : ℝ) * (5224175567749775 * 2 ^ (-53 : ℤ))) (-47) 8162774324609023 (by norm_num) (by norm_num)
    (by norm_num) (by norm_num [abs_lt])
  rw [this]
  rw [Nat.floor_eq_iff (by norm_num)]
  norm_num

theorem trunc42 : truncRows 100 (rd (42 / 100)) = 42 := by
  unfold truncRows
  rw [rd42]
  have := rd_at (x := ((100 : ℕ) : ℝ) * (7566047373982433 * 2 ^ (-54 : ℤ))) (-47) 5910974510923776 (by norm_num) (by norm_num)
    (by norm_num) (by norm_num [abs_lt])
  rw [this]
  rw [Nat.floor_eq_iff (by norm_num)]
  norm_num

/-- **C169, violated.**  29 percent of 100 rows are 28 rows, for the split and for the sample, with every shuffle. -/
theorem ratio_29_of_100 (ids : List ℕ) (rows : List α) (hl : rows.length = 100) (h : ids.Perm (List.range 100)) :
    (sampleFrac (rd (Spec.decimal 29 2)) ids rows).length = 28 ∧
    ∀ sum s, ∃ train test, splitList sum [rd (Spec.decimal 29 2)] ids rows s = .ok [train, test] ∧ train.length = 28 := by
  have e : Spec.decimal 29 2 = 29 / 100 := by norm_num [Spec.decimal]
  rw [e]
  have ht : truncRows rows.length (rd (29 / 100)) = 28 := by rw [hl]; exact trunc29
  obtain ⟨train, test, h1, -, -, -, h5⟩ := (Split.split_ratio_partition_partial truncRows (rd (29 / 100)) ids rows
    (by rw [hl]; exact h)).1 (by rw [ht, hl]; norm_num)
  have hr : ¬ (rd ((29 : ℝ) / 100) ≤ 0 ∨ 1 ≤ rd ((29 : ℝ) / 100)) := by rw [rd29]; norm_num
  refine ⟨?_, fun sum s => ⟨train, test, ?_, by rw [h5, ht]⟩⟩
  · have : Split.sample (truncRows rows.length (rd (29 / 100))) ids rows = train := by
      unfold Split.splitOne at h1
      simp only at h1
      split at h1
      · cases h1
      · simp only [Option.some.injEq, Prod.mk.injEq] at h1
        exact h1.1
    unfold sampleFrac
    rw [this, h5, ht]
  · unfold splitList
    simp only [hr, if_false, h1]

example : (List.range 100).Perm (List.range 100) := List.Perm.refl _

/-! ### Sums of ratios -/

theorem near_one {x : ℝ} (h1 : 1 - 2 ^ (-54 : ℤ) ≤ x) (h2 : x ≤ 1 + 2 ^ (-54 : ℤ)) : rd x = 1 := by
  apply le_antisymm
  · refine (rd_mono h2).trans (le_of_eq ?_)
    have := rd_at (x := 1 + 2 ^ (-54 : ℤ)) (-52) 4503599627370496 (by norm_num) (by norm_num) (by norm_num) (by norm_num [abs_lt])
    rw [this]; norm_num
  · refine le_trans (le_of_eq ?_) (rd_mono h1)
    have := LossDbl.rd_tie_odd (x := 1 - 2 ^ (-54 : ℤ)) (-53) 9007199254740991 (by norm_num) (by norm_num) (by norm_num)
      (by norm_num) (by decide)
    rw [this]; norm_num

/-- The doubles next to `d` and `1 - d` differ from a split of 1 by at most half a step. -/
theorem complement {d : ℝ} (h0 : 1 / 2 ≤ d) (h1 : d < 1) :
    1 - 2 ^ (-54 : ℤ) ≤ rd d + rd (1 - d) ∧ rd d + rd (1 - d) ≤ 1 + 2 ^ (-54 : ℤ) := by
  have he := rd_abs_err (x := d) (by rw [abs_of_pos (by linarith)]; exact h1)
  have hr1 : rd d ≤ 1 := Doubles.rd_le_one h1.le
  have hr0 : 1 / 2 ≤ rd d := by
    have := rd_mono h0
    rwa [show rd ((1 : ℝ) / 2) = 1 / 2 by
      have := rd_exact 1 (-1) (by norm_num) (by norm_num)
      norm_num at this ⊢; exact this] at this
  -- `rd d` is a multiple of `2 ^ -53`
  obtain ⟨m, hm⟩ : ∃ m : ℤ, rd d = m * 2 ^ (-53 : ℤ) := by
    have hu : ulp f64 d = -53 := ulp_eq (e := -1) (by norm_num; linarith) (by norm_num; linarith) (by simp [f64]) (by simp [f64])
    exact ⟨rne (d / 2 ^ (-53 : ℤ)), by unfold rd fl; rw [hu]⟩
  have hm1 : m ≤ 2 ^ 53 := by
    have : (m : ℝ) * 2 ^ (-53 : ℤ) ≤ (2 ^ 53 : ℤ) * 2 ^ (-53 : ℤ) := by rw [← hm]; norm_num; linarith
    exact_mod_cast le_of_mul_le_mul_right this (two_zpow_pos _)
  have hm0 : 2 ^ 52 ≤ m := by
    have : ((2 ^ 52 : ℤ) : ℝ) * 2 ^ (-53 : ℤ) ≤ m * 2 ^ (-53 : ℤ) := by rw [← hm]; norm_num; linarith
    exact_mod_cast le_of_mul_le_mul_right this (two_zpow_pos _)
  have hab := abs_le.1 he
  have e53 : (2 : ℝ) ^ (-53 : ℤ) = 2 * 2 ^ (-54 : ℤ) := by norm_num
  have hone : (1 : ℝ) = 2 ^ 54 * 2 ^ (-54 : ℤ) := by norm_num
  have lo : 1 - rd d - 2 ^ (-54 : ℤ) ≤ rd (1 - d) := by
    have hx : 1 - rd d - 2 ^ (-54 : ℤ) = ((2 ^ 54 - 2 * m - 1 : ℤ) : ℝ) * 2 ^ (-54 : ℤ) := by
      rw [hm, e53]; push_cast; linear_combination hone
    have := rd_mono (show 1 - rd d - 2 ^ (-54 : ℤ) ≤ 1 - d by linarith)
    rw [hx, rd_exact _ _ (by rw [abs_lt]; constructor <;> omega) (by norm_num)] at this
    rw [hx]; exact this
  have hi : rd (1 - d) ≤ 1 - rd d + 2 ^ (-54 : ℤ) := by
    have hx : 1 - rd d + 2 ^ (-54 : ℤ) = ((2 ^ 54 - 2 * m + 1 : ℤ) : ℝ) * 2 ^ (-54 : ℤ) := by
      rw [hm, e53]; push_cast; linear_combination hone
    have := rd_mono (show 1 - d ≤ 1 - rd d + 2 ^ (-54 : ℤ) by linarith)
    rcases hm0.eq_or_lt with he | hlt
    · have : rd (1 - d) ≤ 1 / 2 := by
        have := rd_mono (show 1 - d ≤ 1 / 2 by linarith)
        rwa [show rd ((1 : ℝ) / 2) = 1 / 2 by
          have := rd_exact 1 (-1) (by norm_num) (by norm_num)
          norm_num at this ⊢; exact this] at this
      have h3 : rd d = 1 / 2 := by rw [hm, ← he]; norm_num
      have := two_zpow_pos (-54)
      rw [h3]; linarith
    · rw [hx, rd_exact _ _ (by rw [abs_lt]; constructor <;> omega) (by norm_num)] at this
      rw [hx]; exact this
  constructor <;> linarith

theorem rd_half {x : ℝ} (h : 1 / 2 ≤ x) : 1 / 2 ≤ rd x := by
  have := rd_mono h
  rwa [show rd ((1 : ℝ) / 2) = 1 / 2 by
    have := rd_exact 1 (-1) (by norm_num) (by norm_num)
    norm_num at this ⊢; exact this] at this

/-- From a half on the distance to 1 is a double. -/
theorem sub_one_exact {y : ℝ} (h0 : 1 / 2 ≤ rd y) (h1 : rd y ≤ 1) : rd (rd y - 1) = rd y - 1 := by
  rcases h1.eq_or_lt with h | h
  · rw [h, sub_self, rd_zero]
  · obtain ⟨m, hm⟩ : ∃ m : ℤ, rd y = m * 2 ^ (-53 : ℤ) := by
      have hu : ulp f64 (rd y) = -53 :=
        ulp_eq (e := -1) (by norm_num; linarith) (by norm_num; linarith) (by simp [f64]) (by simp [f64])
      refine ⟨rne (rd y / 2 ^ (-53 : ℤ)), ?_⟩
      conv_lhs => rw [← rd_idem]
      conv_lhs => unfold rd
      rw [fl, show fl f64 y = rd y from rfl, hu]
    have hone : (1 : ℝ) = 2 ^ 53 * 2 ^ (-53 : ℤ) := by norm_num
    have hx : rd y - 1 = ((m - 2 ^ 53 : ℤ) : ℝ) * 2 ^ (-53 : ℤ) := by rw [hm]; push_cast; linear_combination -hone
    have hm1 : m ≤ 2 ^ 53 := by
      have : (m : ℝ) * 2 ^ (-53 : ℤ) ≤ (2 ^ 53 : ℤ) * 2 ^ (-53 : ℤ) := by rw [← hm]; norm_num; linarith
      exact_mod_cast le_of_mul_le_mul_right this (two_zpow_pos _)
    have hm0 : 2 ^ 52 ≤ m := by
      have : ((2 ^ 52 : ℤ) : ℝ) * 2 ^ (-53 : ℤ) ≤ m * 2 ^ (-53 : ℤ) := by rw [← hm]; norm_num; linarith
      exact_mod_cast le_of_mul_le_mul_right this (two_zpow_pos _)
    rw [hx, rd_exact _ _ (by rw [abs_lt]; constructor <;> omega) (by norm_num)]

/-- **C169, holds for two ratios.**  Two ratios that add up to 1 are accepted, whatever the number of decimals, in both
orders and in every version of Python. -/
theorem two_ratios_accepted (d : ℝ) (h0 : 0 < d) (h1 : d < 1) (ids : List ℕ) (rows s : List α) :
    (∃ parts, splitList sumPlain [rd d, rd (1 - d)] ids rows s = .ok parts) ∧
    ∃ parts, splitList sumComp [rd d, rd (1 - d)] ids rows s = .ok parts := by
  have key : 1 - 2 ^ (-54 : ℤ) ≤ rd d + rd (1 - d) ∧ rd d + rd (1 - d) ≤ 1 + 2 ^ (-54 : ℤ) := by
    rcases le_or_gt (1 / 2) d with h | h
    · exact complement h h1
    · have := complement (d := 1 - d) (by linarith) (by linarith)
      rw [sub_sub_cancel, add_comm] at this
      exact this
  have hp : rd (rd d + rd (1 - d)) = 1 := near_one key.1 key.2
  have small : ∀ {x : ℝ}, |x| ≤ 2 ^ (-54 : ℤ) → |rd x| ≤ 2 ^ (-54 : ℤ) := by
    intro x hx
    rw [Doubles.rd_abs]
    have := rd_mono hx
    rwa [show rd ((2 : ℝ) ^ (-54 : ℤ)) = 2 ^ (-54 : ℤ) by simpa using rd_exact 1 (-54) (by norm_num) (by norm_num)] at this
  have hs : sumPlain [rd d, rd (1 - d)] = 1 := by
    simp only [sumPlain, List.foldl_cons, List.foldl_nil, zero_add, rd_idem, hp]
  have ha0 : 0 ≤ rd d := rd_nonneg h0.le
  have hb0 : 0 ≤ rd (1 - d) := rd_nonneg (by linarith)
  have hc : sumComp [rd d, rd (1 - d)] = 1 := by
    have first : compAdd (0, 0) (rd d) = (rd d, 0) := by
      unfold compAdd
      simp only [zero_add, rd_idem]
      split
      · rename_i hle
        have : rd d = 0 := by simpa using hle
        simp [this, rd_zero]
      · simp [rd_zero]
    have second : ∃ lo, compAdd (rd d, 0) (rd (1 - d)) = (1, lo) ∧ |lo| ≤ 2 ^ (-54 : ℤ) := by
      unfold compAdd
      simp only [hp, zero_add, rd_idem]
      split
      · rename_i hle
        rw [abs_of_nonneg hb0, abs_of_nonneg ha0] at hle
        have hbig : 1 / 2 ≤ rd d := by
          rcases le_or_gt (1 / 2) d with h | h
          · exact rd_half h
          · exact (rd_half (by linarith)).trans hle
        refine ⟨_, rfl, ?_⟩
        rw [sub_one_exact hbig (Doubles.rd_le_one h1.le)]
        apply small
        rw [abs_le]
        constructor <;> linarith
      · rename_i hle
        rw [abs_of_nonneg hb0, abs_of_nonneg ha0, not_le] at hle
        have hbig : 1 / 2 ≤ rd (1 - d) := by
          rcases le_or_gt (1 / 2) d with h | h
          · exact (rd_half h).trans hle.le
          · exact rd_half (by linarith)
        refine ⟨_, rfl, ?_⟩
        rw [sub_one_exact hbig (Doubles.rd_le_one (by linarith))]
        apply small
        rw [abs_le]
        constructor <;> linarith
    obtain ⟨lo, h2, h3⟩ := second
    have h4 := abs_le.1 h3
    unfold sumComp
    simp only [List.foldl_cons, List.foldl_nil, first, h2]
    exact near_one (by linarith) (by linarith)
  constructor
  · refine ⟨Split.splitMany truncRows [rd d, rd (1 - d)] s, ?_⟩
    simp only [splitList, hs, ne_eq, not_true, if_false]
  · refine ⟨Split.splitMany truncRows [rd d, rd (1 - d)] s, ?_⟩
    simp only [splitList, hc, ne_eq, not_true, if_false]

example : (0 : ℝ) < 58 / 100 ∧ (58 / 100 : ℝ) < 1 := by norm_num

/-- **C169, violated.**  100 rows in the ratios 0.58 and 0.42: although both numbers of rows are whole, one row is in
neither part. -/
theorem split_58_42 (ids : List ℕ) (rows s : List α) (hl : s.length = 100) :
    (∃ parts, splitList sumPlain [rd (58 / 100), rd (42 / 100)] ids rows s = .ok parts ∧ Spec.total parts = 99) ∧
    ∃ parts, splitList sumComp [rd (58 / 100), rd (42 / 100)] ids rows s = .ok parts ∧ Spec.total parts = 99 := by
  have h := two_ratios_accepted (58 / 100) (by norm_num) (by norm_num) ids rows s
  rw [show (1 : ℝ) - 58 / 100 = 42 / 100 by norm_num] at h
  have ht : ∀ parts, .ok parts = (.ok (Split.splitMany truncRows [rd (58 / 100), rd (42 / 100)] s) : Except String (List (List α))) →
      Spec.total parts = 99 := by
    intro parts he
    cases he
    simp only [Spec.total, Split.splitMany, Split.sliceLoop, hl, trunc58, trunc42]
    simp [hl]
  have cases : ∀ sum parts, splitList sum [rd (58 / 100), rd (42 / 100)] ids rows s = .ok parts → Spec.total parts = 99 := by
    intro sum parts hp
    simp only [splitList] at hp
    split at hp
    · cases hp
    · exact ht parts hp.symm
  obtain ⟨⟨p1, h1⟩, p2, h2⟩ := h
  exact ⟨⟨p1, h1, cases _ _ h1⟩, p2, h2, cases _ _ h2⟩

example : (List.range 100).length = 100 := by simp

/-! ### Three ratios -/

theorem rd57 : rd (57 / 100) = 5134103575202365 * 2 ^ (-53 : ℤ) := by
  have := rd_at (x := 57 / 100) (-53) 5134103575202365 (by norm_num) (by norm_num) (by norm_num) (by norm_num [abs_lt])
  exact_mod_cast this

theorem rd35 : rd (35 / 100) = 6305039478318694 * 2 ^ (-54 : ℤ) := by
  have := rd_at (x := 35 / 100) (-54) 6305039478318694 (by norm_num) (by norm_num) (by norm_num) (by norm_num [abs_lt])
  exact_mod_cast this

theorem rd08 : rd (8 / 100) = 5764607523034235 * 2 ^ (-56 : ℤ) := by
  have := rd_at (x := 8 / 100) (-56) 5764607523034235 (by norm_num) (by norm_num) (by norm_num) (by norm_num [abs_lt])
  exact_mod_cast this

/-- **C169, violated.**  The ratios 0.57, 0.35 and 0.08 are rejected by every version of Python, with any frame. -/
theorem three_ratios_rejected (ids : List ℕ) (rows s : List α) :
    splitList sumPlain [rd (57 / 100), rd (35 / 100), rd (8 / 100)] ids rows s = .error "ValueError" ∧
    splitList sumComp [rd (57 / 100), rd (35 / 100), rd (8 / 100)] ids rows s = .error "ValueError" := by
  have s1 : rd ((5134103575202365 : ℝ) * 2 ^ (-53 : ℤ) + 6305039478318694 * 2 ^ (-54 : ℤ)) = 8286623314361712 * 2 ^ (-53 : ℤ) := by
    have := rd_at (x := (5134103575202365 : ℝ) * 2 ^ (-53 : ℤ) + 6305039478318694 * 2 ^ (-54 : ℤ)) (-53) 8286623314361712
      (by norm_num) (by norm_num) (by norm_num) (by norm_num)
    exact_mod_cast this
  have s2 : rd ((8286623314361712 : ℝ) * 2 ^ (-53 : ℤ) + 5764607523034235 * 2 ^ (-56 : ℤ)) = 9007199254740991 * 2 ^ (-53 : ℤ) := by
    have := rd_at (x := (8286623314361712 : ℝ) * 2 ^ (-53 : ℤ) + 5764607523034235 * 2 ^ (-56 : ℤ)) (-53) 9007199254740991
      (by norm_num) (by norm_num) (by norm_num) (by norm_num [abs_lt])
    exact_mod_cast this
  have i1 : rd (5134103575202365 * 2 ^ (-53 : ℤ)) = (5134103575202365 : ℝ) * 2 ^ (-53 : ℤ) := by
    exact_mod_cast rd_exact 5134103575202365 (-53) (by norm_num) (by norm_num)
  have hp : sumPlain [rd (57 / 100), rd (35 / 100), rd (8 / 100)] ≠ 1 := by
    simp only [sumPlain, List.foldl_cons, List.foldl_nil, zero_add, rd57, rd35, rd08, i1, s1, s2]
    norm_num
  have c1 : compAdd (0, 0) (rd (57 / 100)) = (5134103575202365 * 2 ^ (-53 : ℤ), 0) := by
    rw [rd57]
    unfold compAdd
    simp only [zero_add, i1, sub_self, rd_zero, add_zero]
    simp
  have c2 : compAdd (5134103575202365 * 2 ^ (-53 : ℤ), 0) (rd (35 / 100)) = (8286623314361712 * 2 ^ (-53 : ℤ), 0) := by
    rw [rd35]
    unfold compAdd
    simp only [s1]
    rw [if_pos (by norm_num [abs_of_pos])]
    have : rd ((5134103575202365 : ℝ) * 2 ^ (-53 : ℤ) - 8286623314361712 * 2 ^ (-53 : ℤ)) = -(6305039478318694 * 2 ^ (-54 : ℤ)) := by
      have h := rd_exact (-6305039478318694) (-54) (by norm_num) (by norm_num)
      rw [show (5134103575202365 : ℝ) * 2 ^ (-53 : ℤ) - 8286623314361712 * 2 ^ (-53 : ℤ) =
        ((-6305039478318694 : ℤ) : ℝ) * 2 ^ (-54 : ℤ) by norm_num, h]
      push_cast; ring
    rw [this, neg_add_cancel, rd_zero, add_zero, rd_zero]
  have c3 : compAdd (8286623314361712 * 2 ^ (-53 : ℤ), 0) (rd (8 / 100)) = (9007199254740991 * 2 ^ (-53 : ℤ), 3 * 2 ^ (-56 : ℤ)) := by
    rw [rd08]
    unfold compAdd
    simp only [s2]
    rw [if_pos (by norm_num [abs_of_pos])]
    have : rd ((8286623314361712 : ℝ) * 2 ^ (-53 : ℤ) - 9007199254740991 * 2 ^ (-53 : ℤ)) = -(5764607523034232 * 2 ^ (-56 : ℤ)) := by
      have h := rd_exact (-5764607523034232) (-56) (by norm_num) (by norm_num)
      rw [show (8286623314361712 : ℝ) * 2 ^ (-53 : ℤ) - 9007199254740991 * 2 ^ (-53 : ℤ) =
        ((-5764607523034232 : ℤ) : ℝ) * 2 ^ (-56 : ℤ) by norm_num, h]
      push_cast; ring
    have h3 : rd (3 * 2 ^ (-56 : ℤ)) = 3 * 2 ^ (-56 : ℤ) := by exact_mod_cast rd_exact 3 (-56) (by norm_num) (by norm_num)
    rw [this, show -((5764607523034232 : ℝ) * 2 ^ (-56 : ℤ)) + 5764607523034235 * 2 ^ (-56 : ℤ) = 3 * 2 ^ (-56 : ℤ) by ring,
      zero_add, h3, h3]
  have hc : sumComp [rd (57 / 100), rd (35 / 100), rd (8 / 100)] ≠ 1 := by
    unfold sumComp
    simp only [List.foldl_cons, List.foldl_nil, c1, c2, c3]
    have := rd_at (x := (9007199254740991 : ℝ) * 2 ^ (-53 : ℤ) + 3 * 2 ^ (-56 : ℤ)) (-53) 9007199254740991
      (by norm_num) (by norm_num) (by norm_num) (by norm_num [abs_lt])
    rw [this]
    norm_num
  constructor
  · simp only [splitList, ne_eq, hp, not_false_eq_true, if_true]
  · simp only [splitList, ne_eq, hc, not_false_eq_true, if_true]

/-- The ratios do add up to 1. -/
example : Spec.decimal 57 2 + Spec.decimal 35 2 + Spec.decimal 8 2 = 1 := by norm_num [Spec.decimal]

end Verif.SplitDbl
