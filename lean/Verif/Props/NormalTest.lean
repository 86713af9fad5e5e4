import Mathlib.Analysis.SpecialFunctions.Arsinh
import Mathlib.Analysis.Convex.SpecificFunctions.Basic
import Verif.Model.NormalTest
import Verif.Props.Gamma

/-!
# D'Agostino–Pearson normality test: theorems
-/

namespace Verif.NormalTest

open Verif.Confusion (Val)
open Verif.Gamma.Spec (Q)

namespace Spec

/-- D'Agostino's `β₂(√b₁)`. -/
noncomputable def beta2 (n : ℝ) : ℝ :=
  3 * (n ^ 2 + 27 * n - 70) * (n + 1) * (n + 3) / ((n - 2) * (n + 5) * (n + 7) * (n + 9))

/-- D'Agostino's normal score of the skewness: `asinh(Y / α) / √(ln W)`. -/
noncomputable def Z1 (s n : ℝ) : ℝ :=
  let W := Real.sqrt (Real.sqrt (2 * (beta2 n - 1)) - 1)
  Real.arsinh (s * Real.sqrt ((n + 1) * (n + 3) / (6 * (n - 2))) * Real.sqrt ((W ^ 2 - 1) / 2)) / Real.sqrt (Real.log W)

/-- `A` of Anscombe and Glynn, from the third moment `B` of the kurtosis. -/
noncomputable def A (n : ℝ) : ℝ :=
  let B := 6 * (n ^ 2 - 5 * n + 2) / ((n + 7) * (n + 9)) * Real.sqrt (6 * (n + 3) * (n + 5) / (n * (n - 2) * (n - 3)))
  6 + 8 / B * (2 / B + Real.sqrt (1 + 4 / B ^ 2))

/-- The denominator under the cube root. -/
noncomputable def D (k n : ℝ) : ℝ :=
  1 + (k - 3 * (n - 1) / (n + 1)) /
    Real.sqrt (24 * n * (n - 2) * (n - 3) / ((n + 1) ^ 2 * (n + 3) * (n + 5))) * Real.sqrt (2 / (A n - 4))

/-- `z` is the normal score of Anscombe and Glynn of the kurtosis `k`: `r` is the (signed) cube root. -/
def IsZ2 (k n z : ℝ) : Prop :=
  ∃ r : ℝ, r ^ 3 * D k n = 1 - 2 / A n ∧ z * Real.sqrt (2 / (9 * A n)) = 1 - 2 / (9 * A n) - r

/-- Central moment. -/
noncomputable def M (l : List ℝ) (k : ℕ) : ℝ := (l.map fun v => (v - l.sum / l.length) ^ k).sum / l.length

/-- `l` are the values of the column that are present and finite, in order. -/
inductive Values : List (Option (Val ℝ)) → List ℝ → Prop
  | nil : Values [] []
  | keep (x : ℝ) {c l} : Values c l → Values (some (.num x) :: c) (x :: l)
  | null {c l} : Values c l → Values (none :: c) l
  | nan {c l} : Values c l → Values (some .nan :: c) l
  | inf (b : Bool) {c l} : Values c l → Values (some (.inf b) :: c) l

/-- `a*v + b` on a column. -/
noncomputable def affine (a b : ℝ) (col : List (Option (Val ℝ))) : List (Option (Val ℝ)) :=
  col.map fun v => v.map fun v => match v with
    | .num x => .num (a * x + b)
    | .inf p => .inf (p == decide (0 < a))
    | .nan => .nan

/-- Every long enough run of the p-value's loops gives `r`. -/
def Gives (col : List (Option (Val ℝ))) (r : Res) : Prop :=
  ∃ N, ∀ fuel, N ≤ fuel → normalTest fuel col = some r

end Spec

open Spec

/-! ## Skewness -/

theorem beta2_gt {n : ℝ} (hn : 20 ≤ n) : 3 < beta2 n := by
  have h1 : 0 < (n - 2) * (n + 5) * (n + 7) * (n + 9) := by
    have : 0 < n - 2 := by linarith
    positivity
  unfold beta2
  rw [lt_div_iff₀ h1]
  obtain ⟨m, rfl⟩ : ∃ m, n = m + 20 := ⟨n - 20, by ring⟩
  have hm : 0 ≤ m := by linarith
  nlinarith [mul_nonneg hm hm, mul_nonneg hm (mul_nonneg hm hm)]

theorem w2_gt {n : ℝ} (hn : 20 ≤ n) : 1 < w2 n := by
  have h := beta2_gt hn
  have h2 : 2 < Real.sqrt (2 * (beta2 n - 1)) := by
    rw [Real.lt_sqrt (by norm_num)]
    linarith
  have : w2 n = Real.sqrt (2 * (beta2 n - 1)) - 1 := rfl
  linarith

/-- The skewness statistic is D'Agostino's normal score; no root or logarithm of it is taken of a negative number. -/
theorem skew_value (s n : ℝ) (hn : 20 ≤ n) :
    1 < w2 n ∧ 0 < Real.log (w2 n) ∧ skewStat s n = Z1 s n := by
  have hw := w2_gt hn
  have hw0 : 0 < w2 n := by linarith
  refine ⟨hw, Real.log_pos hw, ?_⟩
  have hW : Real.sqrt (2 * (beta2 n - 1)) - 1 = w2 n := rfl
  simp only [skewStat, Z1, hW]
  rw [Real.sq_sqrt hw0.le, Real.log_sqrt hw0.le, Real.arsinh]
  have e1 : Real.sqrt ((w2 n - 1) / 2) = (Real.sqrt (2 / (w2 n - 1)))⁻¹ := by
    rw [← Real.sqrt_inv, inv_div]
  rw [e1, ← div_eq_mul_inv, add_comm (_ ^ 2) 1]
  congr 2
  ring

/-- It is zero at zero skewness, changes sign with the skewness, and grows with it. -/
theorem skew_order (n : ℝ) (hn : 20 ≤ n) :
    StrictMono (fun s => skewStat s n) ∧ ∀ s, skewStat (-s) n = -skewStat s n := by
  have hw := w2_gt hn
  have hl := Real.log_pos hw
  have hc1 : 0 < Real.sqrt ((n + 1) * (n + 3) / (6 * (n - 2))) := by
    apply Real.sqrt_pos.2
    have : 0 < n - 2 := by linarith
    positivity
  have hW : Real.sqrt (2 * (beta2 n - 1)) - 1 = w2 n := rfl
  have hc2 : 0 < Real.sqrt ((w2 n - 1) / 2) := Real.sqrt_pos.2 (by linarith)
  have hd : 0 < Real.sqrt (Real.log (w2 n) / 2) := Real.sqrt_pos.2 (by linarith)
  have hv : ∀ s, skewStat s n = Real.arsinh (s * Real.sqrt ((n + 1) * (n + 3) / (6 * (n - 2))) *
      Real.sqrt ((w2 n - 1) / 2)) / Real.sqrt (Real.log (w2 n) / 2) := by
    intro s
    rw [(skew_value s n hn).2.2]
    simp only [Z1, hW]
    rw [Real.sq_sqrt (by linarith), Real.log_sqrt (by linarith)]
  refine ⟨?_, ?_⟩
  · intro a b hab
    simp only [hv]
    apply div_lt_div_of_pos_right _ hd
    apply Real.arsinh_lt_arsinh.2
    exact mul_lt_mul_of_pos_right (mul_lt_mul_of_pos_right hab hc1) hc2
  · intro s
    rw [hv, hv, neg_mul, neg_mul, Real.arsinh_neg, neg_div]

example : (fun s => skewStat s 20) 0 < (fun s => skewStat s 20) 1 ∧ skewStat (-1) 20 = -skewStat 1 20 :=
  ⟨(skew_order 20 le_rfl).1 one_pos, (skew_order 20 le_rfl).2 1⟩

example : skewStat (1 / 2) 50 = Z1 (1 / 2) 50 := (skew_value _ _ (by norm_num)).2.2

/-! ## Kurtosis -/

/-- `B` is positive. -/
theorem B_pos {n : ℝ} (hn : 20 ≤ n) :
    0 < 6 * (n ^ 2 - 5 * n + 2) / ((n + 7) * (n + 9)) * Real.sqrt (6 * (n + 3) * (n + 5) / (n * (n - 2) * (n - 3))) := by
  have h1 : 0 < n ^ 2 - 5 * n + 2 := by nlinarith
  have h2 : 0 < n - 2 := by linarith
  have h3 : 0 < n - 3 := by linarith
  have h4 : 0 < Real.sqrt (6 * (n + 3) * (n + 5) / (n * (n - 2) * (n - 3))) := Real.sqrt_pos.2 (by positivity)
  positivity

theorem A_gt {n : ℝ} (hn : 20 ≤ n) : 6 < A n := by
  have hB := B_pos hn
  unfold A
  simp only
  generalize 6 * (n ^ 2 - 5 * n + 2) / ((n + 7) * (n + 9)) *
    Real.sqrt (6 * (n + 3) * (n + 5) / (n * (n - 2) * (n - 3))) = B at hB ⊢
  have : 0 < 8 / B * (2 / B + Real.sqrt (1 + 4 / B ^ 2)) := by positivity
  linarith

theorem kurt_eq {k n : ℝ} (hn : 20 ≤ n) (hd : D k n ≠ 0) :
    ∃ r : ℝ, 0 < r ∧ r ^ 3 * |D k n| = 1 - 2 / A n ∧
      kurtStat k n = some ((1 - 2 / (9 * A n) - r) / Real.sqrt (2 / (9 * A n))) := by
  have hA := A_gt hn
  have hpos : 0 < (1 - 2 / A n) / |D k n| := by
    apply div_pos _ (abs_pos.2 hd)
    have : 2 / A n < 1 := by rw [div_lt_one (by linarith)]; linarith
    linarith
  refine ⟨((1 - 2 / A n) / |D k n|) ^ (1 / 3 : ℝ), Real.rpow_pos_of_pos hpos _, ?_, ?_⟩
  · rw [← Real.rpow_natCast, ← Real.rpow_mul hpos.le]
    norm_num
    field_simp
  · have h1 : kurDenom k n = D k n := rfl
    have h2 : kurA n = A n := rfl
    unfold kurtStat
    simp only [h1, h2]
    rw [if_neg hd]

/-- When the denominator is positive — for every kurtosis at least the one expected of a normal sample, and some way
below — the statistic is the normal score of Anscombe and Glynn.  For a negative one see `kurt_sign_lost`. -/
theorem kurt_value_partial (k n : ℝ) (hn : 20 ≤ n) (hd : 0 < D k n) : ∃ z, kurtStat k n = some z ∧ IsZ2 k n z := by
  obtain ⟨r, _, h1, h2⟩ := kurt_eq hn hd.ne'
  refine ⟨_, h2, r, ?_, ?_⟩
  · rw [abs_of_pos hd] at h1
    exact h1
  · have : 0 < Real.sqrt (2 / (9 * A n)) := Real.sqrt_pos.2 (by have := A_gt hn; positivity)
    field_simp

/-- The normal score is unique. -/
theorem z2_unique {k n z z' : ℝ} (hn : 20 ≤ n) (hd : D k n ≠ 0) (h : IsZ2 k n z) (h' : IsZ2 k n z') : z = z' := by
  obtain ⟨r, h1, h2⟩ := h
  obtain ⟨r', h1', h2'⟩ := h'
  have h3 : r ^ 3 = r' ^ 3 := mul_right_cancel₀ hd (h1.trans h1'.symm)
  have h4 : r = r' := (Odd.strictMono_pow (by decide : Odd 3)).injective h3
  have : 0 < Real.sqrt (2 / (9 * A n)) := Real.sqrt_pos.2 (by have := A_gt hn; positivity)
  apply mul_right_cancel₀ this.ne'
  rw [h2, h2', h4]

theorem sd_pos {n : ℝ} (hn : 20 ≤ n) :
    0 < Real.sqrt (24 * n * (n - 2) * (n - 3) / ((n + 1) ^ 2 * (n + 3) * (n + 5))) ∧ 0 < Real.sqrt (2 / (A n - 4)) := by
  have hA := A_gt hn
  have h2 : 0 < n - 2 := by linarith
  have h3 : 0 < n - 3 := by linarith
  refine ⟨Real.sqrt_pos.2 (by positivity), Real.sqrt_pos.2 (div_pos two_pos (by linarith))⟩

theorem D_lt {k k' n : ℝ} (hn : 20 ≤ n) (h : k < k') : D k n < D k' n := by
  obtain ⟨h1, h2⟩ := sd_pos hn
  unfold D
  have : (k - 3 * (n - 1) / (n + 1)) / Real.sqrt (24 * n * (n - 2) * (n - 3) / ((n + 1) ^ 2 * (n + 3) * (n + 5))) <
      (k' - 3 * (n - 1) / (n + 1)) / Real.sqrt (24 * n * (n - 2) * (n - 3) / ((n + 1) ^ 2 * (n + 3) * (n + 5))) :=
    div_lt_div_of_pos_right (by linarith) h1
  have := mul_lt_mul_of_pos_right this h2
  linarith

/-- The condition of `kurt_value_partial` holds for every kurtosis from the expected one on. -/
theorem D_pos_of_le {k n : ℝ} (hn : 20 ≤ n) (h : 3 * (n - 1) / (n + 1) ≤ k) : 0 < D k n := by
  obtain ⟨h1, h2⟩ := sd_pos hn
  unfold D
  have : 0 ≤ (k - 3 * (n - 1) / (n + 1)) / Real.sqrt (24 * n * (n - 2) * (n - 3) / ((n + 1) ^ 2 * (n + 3) * (n + 5))) :=
    div_nonneg (by linarith) h1.le
  have := mul_nonneg this h2.le
  linarith

/-- Where the denominator is positive a larger kurtosis has a larger statistic; where it is negative, a smaller one. -/
theorem kurt_order (k k' n : ℝ) (hn : 20 ≤ n) (h : k < k') :
    (0 < D k n → ∃ z z', kurtStat k n = some z ∧ kurtStat k' n = some z' ∧ z < z') ∧
    (D k' n < 0 → ∃ z z', kurtStat k n = some z ∧ kurtStat k' n = some z' ∧ z' < z) := by
  have hD := D_lt hn h
  have hs : 0 < Real.sqrt (2 / (9 * A n)) := Real.sqrt_pos.2 (by have := A_gt hn; positivity)
  have hA : 0 < 1 - 2 / A n := by
    have := A_gt hn
    have : 2 / A n < 1 := by rw [div_lt_one (by linarith)]; linarith
    linarith
  have key : ∀ r r' d d' : ℝ, 0 < r → 0 < r' → 0 < d → d < d' → r ^ 3 * d = 1 - 2 / A n → r' ^ 3 * d' = 1 - 2 / A n →
      r' < r := by
    intro r r' d d' hr hr' hd hdd e e'
    by_contra hc
    rw [not_lt] at hc
    have h1 : r ^ 3 ≤ r' ^ 3 := pow_le_pow_left₀ hr.le hc 3
    have h2 : 0 < r' ^ 3 := by positivity
    nlinarith
  refine ⟨?_, ?_⟩
  · intro hd
    obtain ⟨r, r0, e, f⟩ := kurt_eq hn hd.ne'
    obtain ⟨r', r0', e', f'⟩ := kurt_eq (k := k') hn (by linarith)
    refine ⟨_, _, f, f', ?_⟩
    rw [abs_of_pos hd] at e
    rw [abs_of_pos (hd.trans hD)] at e'
    have := key r r' _ _ r0 r0' hd hD e e'
    exact div_lt_div_of_pos_right (by linarith) hs
  · intro hd
    obtain ⟨r, r0, e, f⟩ := kurt_eq (k := k) hn (by linarith)
    obtain ⟨r', r0', e', f'⟩ := kurt_eq (k := k') hn hd.ne
    refine ⟨_, _, f, f', ?_⟩
    rw [abs_of_neg (hD.trans hd)] at e
    rw [abs_of_neg hd] at e'
    have := key r' r _ _ r0' r0 (by linarith : 0 < -D k' n) (by linarith) e' e
    exact div_lt_div_of_pos_right (by linarith) hs

example : ∃ z z', kurtStat 3 100 = some z ∧ kurtStat 4 100 = some z' ∧ z < z' :=
  (kurt_order 3 4 100 (by norm_num) (by norm_num)).1 (D_pos_of_le (by norm_num) (by norm_num))

/-- With a negative denominator the sign under the cube root is dropped and the statistic is not the normal score. -/
theorem kurt_sign_lost (k n : ℝ) (hn : 20 ≤ n) (hd : D k n < 0) : ∃ z, kurtStat k n = some z ∧ ¬IsZ2 k n z := by
  obtain ⟨r, hr, h1, h2⟩ := kurt_eq hn hd.ne
  refine ⟨_, h2, ?_⟩
  rintro ⟨r', e1, e2⟩
  have hs : 0 < Real.sqrt (2 / (9 * A n)) := Real.sqrt_pos.2 (by have := A_gt hn; positivity)
  rw [div_mul_cancel₀ _ hs.ne'] at e2
  have : r' = r := by linarith
  subst this
  rw [abs_of_neg hd] at h1
  have h3 : 0 < r' ^ 3 := by positivity
  nlinarith

/-- This happens to real samples: for 40 or more values, half of them equal to one number and half to another
(kurtosis 1), the denominator is negative. -/
theorem kurt_negative (n : ℝ) (hn : 40 ≤ n) : D 1 n < 0 := by
  have hn' : 20 ≤ n := by linarith
  obtain ⟨hs1, hs2⟩ := sd_pos hn'
  have hA := A_gt hn'
  have hB := B_pos hn'
  have hAB : A n ≤ 8 + 4 * (n + 7) ^ 2 * (n + 9) ^ 2 * (n * (n - 2) * (n - 3)) /
      (27 * (n ^ 2 - 5 * n + 2) ^ 2 * (n + 3) * (n + 5)) := by
    have h1 : 0 < n ^ 2 - 5 * n + 2 := by nlinarith
    have h2 : 0 < n - 2 := by linarith
    have h3 : 0 < n - 3 := by linarith
    have hsq : (6 * (n ^ 2 - 5 * n + 2) / ((n + 7) * (n + 9)) *
        Real.sqrt (6 * (n + 3) * (n + 5) / (n * (n - 2) * (n - 3)))) ^ 2 =
        (6 * (n ^ 2 - 5 * n + 2) / ((n + 7) * (n + 9))) ^ 2 * (6 * (n + 3) * (n + 5) / (n * (n - 2) * (n - 3))) := by
      rw [mul_pow, Real.sq_sqrt (by positivity)]
    unfold A
    simp only
    generalize 6 * (n ^ 2 - 5 * n + 2) / ((n + 7) * (n + 9)) *
      Real.sqrt (6 * (n + 3) * (n + 5) / (n * (n - 2) * (n - 3))) = B at hB hsq ⊢
    have hle : Real.sqrt (1 + 4 / B ^ 2) ≤ 2 / B + B / 4 := by
      apply Real.sqrt_le_iff.2
      refine ⟨by positivity, ?_⟩
      have : (2 / B + B / 4) ^ 2 = 4 / B ^ 2 + 1 + B ^ 2 / 16 := by field_simp; ring
      rw [this]
      have : 0 ≤ B ^ 2 / 16 := by positivity
      linarith
    have h8 : 0 < 8 / B := by positivity
    have h9 : 8 / B * (2 / B + Real.sqrt (1 + 4 / B ^ 2)) ≤ 8 / B * (2 / B + (2 / B + B / 4)) :=
      mul_le_mul_of_nonneg_left (by linarith) h8.le
    have h10 : 8 / B * (2 / B + (2 / B + B / 4)) = 2 + 32 / B ^ 2 := by field_simp; ring
    have h11 : 32 / B ^ 2 = 4 * (n + 7) ^ 2 * (n + 9) ^ 2 * (n * (n - 2) * (n - 3)) /
        (27 * (n ^ 2 - 5 * n + 2) ^ 2 * (n + 3) * (n + 5)) := by
      rw [hsq]
      field_simp
      ring
    linarith
  have h2 : 0 < n - 2 := by linarith
  have h3 : 0 < n - 3 := by linarith
  have h1 : 0 < n ^ 2 - 5 * n + 2 := by nlinarith
  -- the polynomial inequality
  have hpoly : 4 + 4 * (n + 7) ^ 2 * (n + 9) ^ 2 * (n * (n - 2) * (n - 3)) /
      (27 * (n ^ 2 - 5 * n + 2) ^ 2 * (n + 3) * (n + 5)) < (n - 2) * (n + 3) * (n + 5) / (3 * n * (n - 3)) := by
    rw [← sub_pos]
    have e : (n - 2) * (n + 3) * (n + 5) / (3 * n * (n - 3)) - (4 + 4 * (n + 7) ^ 2 * (n + 9) ^ 2 * (n * (n - 2) * (n - 3)) /
        (27 * (n ^ 2 - 5 * n + 2) ^ 2 * (n + 3) * (n + 5))) =
        ((n - 2) * (n + 3) * (n + 5) * (9 * (n ^ 2 - 5 * n + 2) ^ 2 * (n + 3) * (n + 5)) -
          4 * (n * (n - 3)) * (27 * (n ^ 2 - 5 * n + 2) ^ 2 * (n + 3) * (n + 5)) -
          4 * (n + 7) ^ 2 * (n + 9) ^ 2 * (n * (n - 2) * (n - 3)) * (n * (n - 3))) /
        (27 * (n ^ 2 - 5 * n + 2) ^ 2 * (n + 3) * (n + 5) * (n * (n - 3))) := by
      generalize n ^ 2 - 5 * n + 2 = q at h1
      have hn0 : n ≠ 0 := by linarith
      have hn5 : n + 5 ≠ 0 := by linarith
      have hn3 : n + 3 ≠ 0 := by linarith
      field_simp
      ring
    rw [e]
    apply div_pos _ (by positivity)
    obtain ⟨m, rfl⟩ : ∃ m, n = m + 40 := ⟨n - 40, by ring⟩
    have hm : 0 ≤ m := by linarith
    ring_nf
    positivity
  have hx : (1 - 3 * (n - 1) / (n + 1)) / Real.sqrt (24 * n * (n - 2) * (n - 3) / ((n + 1) ^ 2 * (n + 3) * (n + 5))) *
      Real.sqrt (2 / (A n - 4)) < -1 := by
    have hneg : 1 - 3 * (n - 1) / (n + 1) = -(2 * (n - 2) / (n + 1)) := by
      have : n + 1 ≠ 0 := by linarith
      field_simp
      ring
    rw [hneg, neg_div, neg_mul]
    have hmain : 1 < 2 * (n - 2) / (n + 1) /
        Real.sqrt (24 * n * (n - 2) * (n - 3) / ((n + 1) ^ 2 * (n + 3) * (n + 5))) * Real.sqrt (2 / (A n - 4)) := by
      have hp : 0 < 2 * (n - 2) / (n + 1) /
          Real.sqrt (24 * n * (n - 2) * (n - 3) / ((n + 1) ^ 2 * (n + 3) * (n + 5))) * Real.sqrt (2 / (A n - 4)) := by
        positivity
      rw [← one_lt_sq_iff₀ hp.le, mul_pow, div_pow, Real.sq_sqrt (by positivity),
        Real.sq_sqrt (div_nonneg two_pos.le (by linarith))]
      have e : (2 * (n - 2) / (n + 1)) ^ 2 / (24 * n * (n - 2) * (n - 3) / ((n + 1) ^ 2 * (n + 3) * (n + 5))) *
          (2 / (A n - 4)) = (n - 2) * (n + 3) * (n + 5) / (3 * n * (n - 3)) / (A n - 4) := by
        have : A n - 4 ≠ 0 := by linarith
        field_simp
        ring
      rw [e, lt_div_iff₀ (by linarith)]
      linarith
    linarith
  unfold D
  linarith

example : ∃ z, kurtStat 1 64 = some z ∧ ¬IsZ2 1 64 z := kurt_sign_lost 1 64 (by norm_num) (kurt_negative 64 (by norm_num))

/-! ## The test -/

theorem valid_of_values {col : List (Option (Val ℝ))} {l : List ℝ} (h : Values col l) : valid col = l := by
  induction h with
  | nil => rfl
  | keep x _ ih => simp only [valid, List.filterMap_cons] at ih ⊢; rw [ih]
  | null _ ih => simpa [valid] using ih
  | nan _ ih => simpa [valid] using ih
  | inf b _ ih => simpa [valid] using ih

theorem values_exists (col : List (Option (Val ℝ))) : Values col (valid col) := by
  induction col with
  | nil => exact .nil
  | cons v c ih =>
    match v with
    | none => exact .null ih
    | some .nan => exact .nan ih
    | some (.inf b) => exact .inf b ih
    | some (.num x) => exact .keep x ih

theorem pvalue (k2 : ℝ) (hk : 0 ≤ k2) :
    ∃ p N, (∀ fuel, N ≤ fuel → Gamma.sf fuel k2 1 (1 / 2) = some (some p)) ∧
      0 ≤ p ∧ |p - Real.exp (-(k2 / 2))| ≤ 2 / 10 ^ 15 := by
  rcases hk.eq_or_lt with rfl | hk
  · refine ⟨1, 0, ?_, by norm_num, by norm_num⟩
    intro fuel _
    simp [Gamma.sf]
  · obtain ⟨p, ⟨N, hN⟩, hp, hc⟩ := Gamma.chi2_even 1 le_rfl k2 hk
    rw [Nat.cast_one, mul_one, Gamma.Q_one (by positivity)] at hc
    refine ⟨p, N, ?_, hp, hc⟩
    intro fuel hf
    have h := hN fuel hf
    simp only [Gamma.chi2P] at h
    rw [show ((2 * 1 : ℕ) : ℝ) / 2 = 1 by norm_num] at h
    cases hs : Gamma.sf fuel k2 1 (1 / 2) with
    | none => rw [hs] at h; simp at h
    | some r =>
      rw [hs] at h
      cases r with
      | none => simp at h
      | some q => simpa using h

/-- With at least 20 finite values that are not all equal, the statistic is the sum of the squared normal scores of
skewness and kurtosis, and the p-value is its chi-squared tail with two degrees of freedom (`e^(-x/2)`) up to `2e-15`;
provided the kurtosis is not so small that the denominator is negative. -/
theorem normal_value_partial (col : List (Option (Val ℝ))) (l : List ℝ)
    (hv : Values col l) (hn : 20 ≤ l.length) (h2 : M l 2 ≠ 0) (hd : 0 < D (M l 4 / M l 2 ^ 2) l.length) :
    ∃ z p, IsZ2 (M l 4 / M l 2 ^ 2) l.length z ∧ 0 ≤ p ∧
      |p - Real.exp (-((Z1 (M l 3 / M l 2 ^ (3 / 2 : ℝ)) l.length ^ 2 + z ^ 2) / 2))| ≤ 2 / 10 ^ 15 ∧
      Spec.Gives col (.ok (some (Z1 (M l 3 / M l 2 ^ (3 / 2 : ℝ)) l.length ^ 2 + z ^ 2)) (some p)) := by
  have hn' : (20 : ℝ) ≤ l.length := by exact_mod_cast hn
  obtain ⟨z, hz, hz2⟩ := kurt_value_partial _ _ hn' hd
  obtain ⟨p, N, hp, hp0, hpc⟩ := pvalue (Z1 (M l 3 / M l 2 ^ (3 / 2 : ℝ)) l.length ^ 2 + z ^ 2) (by positivity)
  refine ⟨z, p, hz2, hp0, hpc, N, ?_⟩
  intro fuel hf
  have hne : l ≠ [] := by rintro rfl; simp at hn
  have hs := (skew_value (M l 3 / M l 2 ^ (3 / 2 : ℝ)) _ hn').2.2
  have e1 : skew l = some (some (M l 3 / M l 2 ^ (3 / 2 : ℝ))) := by
    unfold skew; rw [if_neg hne, if_neg (show ¬moment l 2 = 0 from h2)]; rfl
  have e2 : kurtosis l = some (some (M l 4 / M l 2 ^ 2)) := by
    unfold kurtosis; rw [if_neg hne, if_neg (show ¬moment l 2 = 0 from h2)]; rfl
  unfold normalTest
  rw [valid_of_values hv, e1, e2]
  simp only [plugin, if_neg (not_lt.2 hn), Option.bind_some, hz, hs]
  rw [← sq, ← sq, hp fuel hf]
  rfl

/-- No finite values: the expression panics.  Fewer than 20: an error.  20 or more equal values: NaN. -/
theorem normal_edges (fuel : ℕ) (col : List (Option (Val ℝ))) (l : List ℝ) (hv : Values col l) :
    (l = [] → normalTest fuel col = some .panic) ∧
    (l ≠ [] → l.length < 20 → normalTest fuel col = some .err) ∧
    (∀ m c, 20 ≤ m → l = List.replicate m c → normalTest fuel col = some (.ok none none)) := by
  unfold normalTest
  rw [valid_of_values hv]
  refine ⟨?_, ?_, ?_⟩
  · rintro rfl
    simp [skew, kurtosis, plugin]
  · intro hne hlt
    have : ∃ a b, skew l = some a ∧ kurtosis l = some b := by
      unfold skew kurtosis
      rw [if_neg hne, if_neg hne]
      split
      · exact ⟨_, _, rfl, rfl⟩
      · exact ⟨_, _, rfl, rfl⟩
    obtain ⟨a, b, ha, hb⟩ := this
    rw [ha, hb]
    simp [plugin, hlt]
  · rintro m c hm rfl
    have hm0 : (m : ℝ) ≠ 0 := by
      have : m ≠ 0 := by omega
      exact_mod_cast this
    have h2 : moment (List.replicate m c) 2 = 0 := by
      unfold moment
      simp only [List.map_replicate, List.sum_replicate, List.length_replicate, nsmul_eq_mul]
      rw [mul_div_cancel_left₀ c hm0]
      simp
    have hne : List.replicate m c ≠ [] := by
      intro h
      have := congrArg List.length h
      simp at this
      omega
    have e1 : skew (List.replicate m c) = some none := by
      unfold skew; rw [if_neg hne, if_pos h2]
    have e2 : kurtosis (List.replicate m c) = some none := by
      unfold kurtosis; rw [if_neg hne, if_pos h2]
    rw [e1, e2]
    simp [plugin, hm]

/-! ### Invariance -/

theorem sum_affine (a b : ℝ) (l : List ℝ) : (l.map fun x => a * x + b).sum = a * l.sum + l.length * b := by
  induction l with
  | nil => simp
  | cons x l ih => simp only [List.map_cons, List.sum_cons, List.length_cons, ih]; push_cast; ring

theorem moment_affine (a b : ℝ) (l : List ℝ) (k : ℕ) :
    moment (l.map fun x => a * x + b) k = a ^ k * moment l k := by
  by_cases hne : l = []
  · subst hne; simp [moment]
  have hlen : (l.length : ℝ) ≠ 0 := by
    have : l.length ≠ 0 := by simpa using hne
    exact_mod_cast this
  unfold moment
  rw [List.length_map, sum_affine, List.map_map]
  have : ((fun v => (v - (a * l.sum + l.length * b) / l.length) ^ k) ∘ fun x => a * x + b) =
      fun v => a ^ k * (v - l.sum / l.length) ^ k := by
    funext v
    simp only [Function.comp]
    rw [← mul_pow]
    congr 1
    field_simp
    ring
  rw [this, List.sum_map_mul_left, mul_div_assoc]

theorem valid_affine (a b : ℝ) (col : List (Option (Val ℝ))) :
    valid (affine a b col) = (valid col).map fun x => a * x + b := by
  induction col with
  | nil => rfl
  | cons v c ih =>
    match v with
    | none => simpa [valid, affine] using ih
    | some .nan => simpa [valid, affine] using ih
    | some (.inf p) => simpa [valid, affine] using ih
    | some (.num x) =>
      simp only [valid, affine, List.map_cons, Option.map_some, List.filterMap_cons] at ih ⊢
      rw [ih]

theorem rpow_sq_cube (a : ℝ) (ha : a ≠ 0) (m : ℝ) (hm : 0 ≤ m) :
    (a ^ 2 * m) ^ (3 / 2 : ℝ) = |a| ^ 3 * m ^ (3 / 2 : ℝ) := by
  rw [Real.mul_rpow (sq_nonneg a) hm]
  congr 1
  rw [← sq_abs, ← Real.rpow_natCast, ← Real.rpow_mul (abs_nonneg a), ← Real.rpow_natCast]
  norm_num

theorem moment_two_nonneg (l : List ℝ) : 0 ≤ moment l 2 := by
  unfold moment
  apply div_nonneg _ (Nat.cast_nonneg _)
  apply List.sum_nonneg
  intro x hx
  obtain ⟨v, _, rfl⟩ := List.mem_map.1 hx
  exact sq_nonneg _

/-- Changing the unit or the origin of the column (in either direction) changes neither statistic nor p-value. -/
theorem normal_affine (fuel : ℕ) (col : List (Option (Val ℝ))) (a b : ℝ) (ha : a ≠ 0) :
    normalTest fuel (affine a b col) = normalTest fuel col := by
  unfold normalTest
  rw [valid_affine]
  generalize valid col = l
  have hk : kurtosis (l.map fun x => a * x + b) = kurtosis l := by
    unfold kurtosis
    rw [moment_affine, moment_affine]
    by_cases hne : l = []
    · simp [hne]
    · rw [if_neg (by simpa using hne), if_neg hne]
      by_cases h2 : moment l 2 = 0
      · rw [if_pos h2, if_pos (by rw [h2, mul_zero])]
      · rw [if_neg h2, if_neg (mul_ne_zero (pow_ne_zero 2 ha) h2)]
        congr 2
        field_simp
  have hs : skew (l.map fun x => a * x + b) = skew l ∨
      ∃ s, skew l = some (some s) ∧ skew (l.map fun x => a * x + b) = some (some (-s)) := by
    unfold skew
    rw [moment_affine, moment_affine]
    by_cases hne : l = []
    · simp [hne]
    · rw [if_neg (by simpa using hne), if_neg hne]
      by_cases h2 : moment l 2 = 0
      · rw [if_pos h2, if_pos (by rw [h2, mul_zero])]
        exact Or.inl rfl
      · rw [if_neg h2, if_neg (mul_ne_zero (pow_ne_zero 2 ha) h2), rpow_sq_cube a ha _ (moment_two_nonneg l)]
        rcases lt_or_gt_of_ne ha with h | h
        · right
          refine ⟨_, rfl, ?_⟩
          rw [abs_of_neg h]
          congr 2
          have e : (-a) ^ 3 = -(a ^ 3) := by ring
          rw [e, neg_mul, div_neg, mul_div_mul_left _ _ (pow_ne_zero 3 ha)]
        · left
          rw [abs_of_pos h]
          congr 2
          rw [mul_div_mul_left _ _ (pow_ne_zero 3 ha)]
  rw [hk, List.length_map]
  rcases hs with hs | ⟨s, hs, hs'⟩
  · rw [hs]
  · rw [hs, hs']
    cases hkk : kurtosis l with
    | none => rfl
    | some k =>
      simp only [plugin]
      by_cases hn : l.length < 20
      · rw [if_pos hn, if_pos hn]
      · rw [if_neg hn, if_neg hn]
        have hn' : (20 : ℝ) ≤ l.length := by exact_mod_cast (not_lt.1 hn)
        cases k.bind fun k => kurtStat k l.length with
        | none => rfl
        | some z =>
          simp only
          rw [(skew_order _ hn').2 s, neg_mul_neg]

/-- The order of the rows does not matter. -/
theorem normal_perm (fuel : ℕ) (col col' : List (Option (Val ℝ))) (h : col.Perm col') :
    normalTest fuel col = normalTest fuel col' := by
  have hv : (valid col).Perm (valid col') := h.filterMap _
  unfold normalTest
  generalize valid col = l at hv
  generalize valid col' = l' at hv
  have hm : ∀ k, moment l k = moment l' k := by
    intro k
    unfold moment
    rw [hv.length_eq, hv.sum_eq, (hv.map _).sum_eq]
  have hne : l = [] ↔ l' = [] := by
    rw [← List.length_eq_zero_iff, ← List.length_eq_zero_iff, hv.length_eq]
  unfold skew kurtosis
  simp only [hm, hv.length_eq, hne]

/-! ### A sample -/

/-- A null, a NaN, -1, 1 and 22 times 0. -/
def Spec.exCol : List (Option (Val ℝ)) :=
  none :: some .nan :: some (.num (-1)) :: some (.num 1) :: List.replicate 22 (some (.num 0))

/-- Kurtosis 12, skewness 0. -/
example : ∃ z p, IsZ2 12 24 z ∧ 0 ≤ p ∧ |p - Real.exp (-((Z1 0 24 ^ 2 + z ^ 2) / 2))| ≤ 2 / 10 ^ 15 ∧
    Spec.Gives exCol (.ok (some (Z1 0 24 ^ 2 + z ^ 2)) (some p)) := by
  have hv : Values exCol (-1 :: 1 :: List.replicate 22 0) := by
    have h := values_exists exCol
    have e : valid exCol = -1 :: 1 :: List.replicate 22 0 := by simp [exCol, valid, List.replicate]
    rwa [e] at h
  have hlen : (-1 :: 1 :: List.replicate 22 (0 : ℝ)).length = 24 := by simp
  have h2 : M (-1 :: 1 :: List.replicate 22 0) 2 = 1 / 12 := by
    simp [M, List.sum_replicate, List.map_replicate]
    norm_num
  have h3 : M (-1 :: 1 :: List.replicate 22 0) 3 = 0 := by
    simp [M, List.sum_replicate, List.map_replicate]
    norm_num
  have h4 : M (-1 :: 1 :: List.replicate 22 0) 4 = 1 / 12 := by
    simp [M, List.sum_replicate, List.map_replicate]
    norm_num
  have h := normal_value_partial exCol _ hv (by rw [hlen]; norm_num) (by rw [h2]; norm_num)
    (by rw [h2, h4, hlen]; exact D_pos_of_le (by norm_num) (by norm_num))
  rw [h2, h3, h4, hlen, zero_div] at h
  norm_num at h ⊢
  exact h

example : normalTest 0 [none, some .nan] = some .panic :=
  (normal_edges 0 _ [] (.null (.nan .nil))).1 rfl

example : normalTest 0 [none, some (.num 1)] = some .err :=
  (normal_edges 0 _ [1] (.null (.keep 1 .nil))).2.1 (by simp) (by simp)

example (fuel : ℕ) : normalTest fuel (affine (-2) 5 exCol) = normalTest fuel exCol :=
  normal_affine fuel exCol (-2) 5 (by norm_num)

example (fuel : ℕ) : normalTest fuel exCol.reverse = normalTest fuel exCol :=
  normal_perm fuel _ _ (List.reverse_perm _)

end Verif.NormalTest
