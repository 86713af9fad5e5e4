import Verif.Model.Weighted
import Mathlib.Algebra.QuadraticDiscriminant
import Mathlib.Analysis.MeanInequalities
import Mathlib.Tactic.Linarith
import Mathlib.Tactic.FieldSimp
import Mathlib.Tactic.NormNum
import Mathlib.Tactic.Positivity
import Mathlib.Tactic.LinearCombination

/-!
# Weighted statistics: what they mean, and where they do not

The specification works on rows `(x, w)` or `(x, y, w)` of plain numbers; `colOf` turns a component into a
column without nulls.
-/

namespace Verif.Weighted
open Verif.Pl

namespace Spec

/-- A column without nulls made of one component of the rows. -/
def colOf {R : Type} (f : R → ℝ) (rows : List R) : Col ℝ := rows.map fun r => some (f r)

/-- Sum of a quantity over the rows. -/
def total {R : Type} (f : R → ℝ) (rows : List R) : ℝ := (rows.map f).sum

/-- Repeat every row as often as its frequency says. -/
def expand {R : Type} (freq : R → Nat) (rows : List R) : List R :=
  rows.flatMap fun r => List.replicate (freq r) r

/-- Arithmetic mean of a component over the rows. -/
noncomputable def avg {R : Type} (f : R → ℝ) (rows : List R) : ℝ := total f rows / rows.length

/-- Textbook weighted Pearson correlation. -/
noncomputable def pearson (rows : List (ℝ × ℝ × ℝ)) : ℝ :=
  let W := total (fun r => r.2.2) rows
  let mx := total (fun r => r.2.2 * r.1) rows / W
  let my := total (fun r => r.2.2 * r.2.1) rows / W
  total (fun r => r.2.2 * ((r.1 - mx) * (r.2.1 - my))) rows /
    √(total (fun r => r.2.2 * (r.1 - mx) ^ 2) rows * total (fun r => r.2.2 * (r.2.1 - my) ^ 2) rows)

/-- Cosine of the angle between two vectors. -/
noncomputable def cosine (rows : List (ℝ × ℝ)) : ℝ :=
  total (fun r => r.1 * r.2) rows /
    (√(total (fun r => r.1 * r.1) rows) * √(total (fun r => r.2 * r.2) rows))

/-- Weighted harmonic mean: total weight over the weighted sum of reciprocals. -/
noncomputable def wharm (rows : List (ℝ × ℝ)) : ℝ :=
  total (fun r => r.2) rows / total (fun r => r.2 / r.1) rows

/-- The median: the mean of the two middle values of the sorted list, which are one and the same for an odd number. -/
def IsMedian (l : List ℝ) (m : ℝ) : Prop :=
  ∃ s : List ℝ, s.Perm l ∧ s.Pairwise (· ≤ ·) ∧ m = (s.getD ((l.length - 1) / 2) 0 + s.getD (l.length / 2) 0) / 2

/-- Tukey's biweight. -/
noncomputable def tukey (u : ℝ) : ℝ := if |u| < 1 then (1 - u ^ 2) ^ 2 else 0

end Spec

open Spec

/-! ## Reading the expressions on columns without nulls -/

section Lemmas
variable {R : Type}

theorem vals_colOf (f : R → ℝ) (rows : List R) : vals (colOf f rows) = rows.map f := by
  induction rows with
  | nil => rfl
  | cons r rs ih => simp only [vals, colOf, List.map_cons, List.filterMap_cons, id] at ih ⊢; rw [ih]

theorem sum_colOf (f : R → ℝ) (rows : List R) : Pl.sum (colOf f rows) = total f rows := by
  simp [Pl.sum, vals_colOf, total]

theorem count_colOf (f : R → ℝ) (rows : List R) : count (colOf f rows) = rows.length := by
  simp [count, vals_colOf]

theorem map1_colOf (g : ℝ → ℝ) (f : R → ℝ) (rows : List R) :
    map1 g (colOf f rows) = colOf (fun r => g (f r)) rows := by
  simp [map1, colOf, Function.comp_def]

theorem map2_colOf (g : ℝ → ℝ → ℝ) (f h : R → ℝ) (rows : List R) :
    map2 g (colOf f rows) (colOf h rows) = colOf (fun r => g (f r) (h r)) rows := by
  induction rows with
  | nil => rfl
  | cons r rs ih =>
    simp only [map2, colOf, List.map_cons, List.zipWith_cons_cons, opt2] at ih ⊢
    rw [ih]

theorem dot_colOf (f h : R → ℝ) (rows : List R) :
    dot (colOf f rows) (colOf h rows) = total (fun r => f r * h r) rows := by
  rw [dot, map2_colOf, sum_colOf]

theorem total_nil (f : R → ℝ) : total f [] = 0 := rfl

theorem total_cons (f : R → ℝ) (r : R) (rs : List R) : total f (r :: rs) = f r + total f rs := by
  simp [total]

theorem total_congr {f g : R → ℝ} {rows : List R} (h : ∀ r ∈ rows, f r = g r) :
    total f rows = total g rows := by
  unfold total; rw [List.map_congr_left h]

theorem total_add (f g : R → ℝ) (rows : List R) :
    total (fun r => f r + g r) rows = total f rows + total g rows := by
  induction rows with
  | nil => simp [total]
  | cons r rs ih => simp only [total_cons, ih]; ring

theorem total_sub (f g : R → ℝ) (rows : List R) :
    total (fun r => f r - g r) rows = total f rows - total g rows := by
  induction rows with
  | nil => simp [total]
  | cons r rs ih => simp only [total_cons, ih]; ring

theorem total_mul (c : ℝ) (f : R → ℝ) (rows : List R) :
    total (fun r => c * f r) rows = c * total f rows := by
  induction rows with
  | nil => simp [total]
  | cons r rs ih => simp only [total_cons, ih]; ring

theorem total_const (c : ℝ) (rows : List R) : total (fun _ => c) rows = rows.length * c := by
  induction rows with
  | nil => simp [total]
  | cons r rs ih => simp only [total_cons, ih, List.length_cons]; push_cast; ring

theorem total_nonneg {f : R → ℝ} {rows : List R} (h : ∀ r ∈ rows, 0 ≤ f r) : 0 ≤ total f rows := by
  induction rows with
  | nil => simp [total]
  | cons r rs ih =>
    rw [total_cons]
    exact add_nonneg (h r (by simp)) (ih fun q hq => h q (by simp [hq]))

theorem total_le {f g : R → ℝ} {rows : List R} (h : ∀ r ∈ rows, f r ≤ g r) :
    total f rows ≤ total g rows := by
  have := total_nonneg (f := fun r => g r - f r) (rows := rows) fun r hr => sub_nonneg.2 (h r hr)
  rw [total_sub] at this
  linarith

theorem total_expand (freq : R → Nat) (f : R → ℝ) (rows : List R) :
    total f (expand freq rows) = total (fun r => (freq r : ℝ) * f r) rows := by
  induction rows with
  | nil => rfl
  | cons r rs ih =>
    have : total f (expand freq (r :: rs)) =
        total f (List.replicate (freq r) r) + total f (expand freq rs) := by
      simp [total, expand]
    rw [this, ih, total_cons]
    simp [total]

theorem length_expand (freq : R → Nat) (rows : List R) :
    ((expand freq rows).length : ℝ) = total (fun r => (freq r : ℝ)) rows := by
  have := total_expand freq (fun _ => (1 : ℝ)) rows
  rw [total_const] at this
  simpa using this

/-- Cauchy-Schwarz for non-negative weights. -/
theorem cauchy {w f g : R → ℝ} {rows : List R} (hw : ∀ r ∈ rows, 0 ≤ w r) :
    (total (fun r => w r * (f r * g r)) rows) ^ 2 ≤
      total (fun r => w r * f r ^ 2) rows * total (fun r => w r * g r ^ 2) rows := by
  have key : ∀ t : ℝ, 0 ≤ total (fun r => w r * f r ^ 2) rows * (t * t)
      + (2 * total (fun r => w r * (f r * g r)) rows) * t + total (fun r => w r * g r ^ 2) rows := by
    intro t
    have h := total_nonneg (f := fun r => w r * (f r * t + g r) ^ 2) (rows := rows)
      fun r hr => mul_nonneg (hw r hr) (sq_nonneg _)
    have e : total (fun r => w r * (f r * t + g r) ^ 2) rows =
        total (fun r => w r * f r ^ 2) rows * (t * t)
        + (2 * total (fun r => w r * (f r * g r)) rows) * t + total (fun r => w r * g r ^ 2) rows := by
      induction rows with
      | nil => simp [total]
      | cons r rs ih =>
        simp only [total_cons]
        rw [ih (fun q hq => hw q (by simp [hq])) (total_nonneg fun q hq =>
          mul_nonneg (hw q (by simp [hq])) (sq_nonneg _))]
        ring
    rwa [e] at h
  have d := discrim_le_zero key
  unfold discrim at d
  nlinarith [d]

theorem div_sqrt_mem {a b c : ℝ} (hb : 0 ≤ b) (hc : 0 ≤ c) (h : a ^ 2 ≤ b * c) :
    |a / √(b * c)| ≤ 1 := by
  rw [abs_div, abs_of_nonneg (Real.sqrt_nonneg _)]
  apply div_le_one_of_le₀ _ (Real.sqrt_nonneg _)
  rw [← Real.sqrt_sq_eq_abs]
  exact Real.sqrt_le_sqrt h

end Lemmas

/-! ## Weighted mean -/

/-- **C64.** `weighted_mean` balances the deviations: the weighted sum of `x - mean` is zero, and it is the
only number that does. -/
theorem weighted_mean_balance (rows : List (ℝ × ℝ)) (hW : total (fun r => r.2) rows ≠ 0) (m : ℝ) :
    weightedMean (colOf (fun r => r.1) rows) (colOf (fun r => r.2) rows) false = m ↔
      total (fun r => r.2 * (r.1 - m)) rows = 0 := by
  have e : total (fun r : ℝ × ℝ => r.2 * (r.1 - m)) rows =
      total (fun r => r.1 * r.2) rows - m * total (fun r => r.2) rows := by
    rw [← total_mul, ← total_sub]
    exact total_congr fun r _ => by ring
  simp only [weightedMean, dot_colOf, sum_colOf, e, Bool.false_eq_true, if_false]
  rw [div_eq_iff hW, sub_eq_zero]

example : total (fun r : ℝ × ℝ => r.2) [(1, 1), (4, 3)] ≠ 0 := by norm_num [total]

/-- **C64.** With non-negative weights of positive sum, `weighted_mean` lies between the smallest and the
largest value. -/
theorem weighted_mean_between (rows : List (ℝ × ℝ)) (lo hi : ℝ)
    (hw : ∀ r ∈ rows, 0 ≤ r.2) (hx : ∀ r ∈ rows, lo ≤ r.1 ∧ r.1 ≤ hi)
    (hW : 0 < total (fun r => r.2) rows) :
    lo ≤ weightedMean (colOf (fun r => r.1) rows) (colOf (fun r => r.2) rows) false ∧
      weightedMean (colOf (fun r => r.1) rows) (colOf (fun r => r.2) rows) false ≤ hi := by
  simp only [weightedMean, dot_colOf, sum_colOf, Bool.false_eq_true, if_false]
  rw [le_div_iff₀ hW, div_le_iff₀ hW, ← total_mul, ← total_mul]
  exact ⟨total_le fun r hr => mul_le_mul_of_nonneg_right (hx r hr).1 (hw r hr),
    total_le fun r hr => mul_le_mul_of_nonneg_right (hx r hr).2 (hw r hr)⟩

example : (∀ r ∈ [((1 : ℝ), (1 : ℝ)), (4, 3)], 0 ≤ r.2) ∧
    (∀ r ∈ [((1 : ℝ), (1 : ℝ)), (4, 3)], 1 ≤ r.1 ∧ r.1 ≤ 4) ∧
    0 < total (fun r : ℝ × ℝ => r.2) [(1, 1), (4, 3)] := by
  norm_num [total]

/-- **C64.** When the weights already sum to one, the flag `is_normalized` changes nothing. -/
theorem weighted_mean_normalized (rows : List (ℝ × ℝ)) (hW : total (fun r => r.2) rows = 1) :
    weightedMean (colOf (fun r => r.1) rows) (colOf (fun r => r.2) rows) true =
      weightedMean (colOf (fun r => r.1) rows) (colOf (fun r => r.2) rows) false := by
  simp [weightedMean, sum_colOf, hW]

example : total (fun r : ℝ × ℝ => r.2) [(7, 1 / 4), (9, 3 / 4)] = 1 := by norm_num [total]

/-- **C64.** Integer weights are frequencies: `weighted_mean` is the plain mean of the sample in which every
row is repeated as often as its weight says. -/
theorem weighted_mean_expand (rows : List (ℝ × Nat)) :
    weightedMean (colOf (fun r => r.1) rows) (colOf (fun r => (r.2 : ℝ)) rows) false =
      avg (fun r => r.1) (expand (fun r => r.2) rows) := by
  simp only [weightedMean, dot_colOf, sum_colOf, avg, total_expand, length_expand, Bool.false_eq_true,
    if_false]
  congr 1
  exact total_congr fun r _ => by ring

example : avg (fun r : ℝ × Nat => r.1) (expand (fun r => r.2) [(1, 1), (4, 3)]) = 13 / 4 := by
  norm_num [avg, expand, total, List.replicate]

/-- **C64.** `weighted_var(freq_weights=True)` is the sample variance (divisor `n - 1`) of the expanded
sample, and without the flag it is the population variance (divisor `n`). -/
theorem weighted_var_expand (rows : List (ℝ × Nat)) (freq : Bool) :
    weightedVar (colOf (fun r => r.1) rows) (colOf (fun r => (r.2 : ℝ)) rows) freq =
      total (fun r => (r.1 - avg (fun q => q.1) (expand (fun q => q.2) rows)) ^ 2)
          (expand (fun r => r.2) rows) /
        ((expand (fun r => r.2) rows).length - if freq then 1 else 0) := by
  simp only [weightedVar, weighted_mean_expand, sqDev, map1_colOf, dot_colOf, sum_colOf, total_expand,
    length_expand]
  cases freq <;> simp

example : weightedVar (colOf (fun r : ℝ × Nat => r.1) [(1, 1), (4, 3)])
    (colOf (fun r : ℝ × Nat => (r.2 : ℝ)) [(1, 1), (4, 3)]) true = 9 / 4 := by
  rw [weighted_var_expand]
  norm_num [avg, expand, total, List.replicate]

/-- **C64.** `weighted_cov` is symmetric, and its square is at most the product of the two weighted variances
(non-negative weights). -/
theorem weighted_cov_cauchy (rows : List (ℝ × ℝ × ℝ)) (hw : ∀ r ∈ rows, 0 ≤ r.2.2) :
    let x := colOf (fun r => r.1) rows
    let y := colOf (fun r => r.2.1) rows
    let w := colOf (fun r => r.2.2) rows
    weightedCov x y w = weightedCov y x w ∧
      weightedCov x x w = weightedVar x w false ∧
      weightedCov x y w ^ 2 ≤ weightedVar x w false * weightedVar y w false := by
  intro x y w
  refine ⟨?_, ?_, ?_⟩
  · simp only [weightedCov, x, y, w, map1_colOf, map2_colOf, dot_colOf]
    congr 1
    exact total_congr fun r _ => by ring
  · simp only [weightedCov, weightedVar, sqDev, x, w, map1_colOf, map2_colOf, dot_colOf,
      Bool.false_eq_true, if_false]
    congr 1
    exact total_congr fun r _ => by ring
  · simp only [weightedCov, weightedVar, sqDev, x, y, w, map1_colOf, map2_colOf, dot_colOf,
      Bool.false_eq_true, if_false, div_pow, div_mul_div_comm]
    rw [← sq]
    exact div_le_div_of_nonneg_right (cauchy hw) (sq_nonneg _)

example : ∀ r ∈ [((1 : ℝ), (2 : ℝ), (1 : ℝ)), (4, 1, 3)], 0 ≤ r.2.2 := by norm_num

/-! ## Weighted correlation -/

/-- `weighted_corr` on rows without nulls, written out. -/
theorem weightedCorr_rows (rows : List (ℝ × ℝ × ℝ)) :
    weightedCorr (colOf (fun r => r.1) rows) (colOf (fun r => r.2.1) rows) (colOf (fun r => r.2.2) rows) =
      total (fun r => r.2.2 * ((r.1 - total (fun r => r.1 * r.2.2) rows / total (fun r => r.2.2) rows) *
          (r.2.1 - total (fun r => r.2.1 * r.2.2) rows / total (fun r => r.2.2) rows))) rows
        / total (fun r => r.2.2) rows * total (fun r => r.2.2) rows /
      √(total (fun r => r.2.2 *
            (r.1 - total (fun r => r.1 * r.2.2) rows / total (fun r => r.2.2) rows) ^ 2) rows *
          total (fun r => r.2.2 *
            (r.1 - total (fun r => r.2.1 * r.2.2) rows / total (fun r => r.2.2) rows) ^ 2) rows) := by
  simp only [weightedCorr, weightedCov, weightedMean, sqDev, map1_colOf, map2_colOf, dot_colOf,
    sum_colOf, Bool.false_eq_true, if_false]

/-- **C64 (disagreement).** `weighted_corr` is not the weighted Pearson correlation: on these three rows of
weight one, with `y = -x`, Pearson's coefficient is `-1` and the function does not return it. -/
theorem weighted_corr_wrong :
    pearson [(0, 0, 1), (1, -1, 1), (2, -2, 1)] = -1 ∧
    weightedCorr [some 0, some 1, some 2] [some 0, some (-1), some (-2)] [some 1, some 1, some 1] ≠ -1 := by
  constructor
  · norm_num [pearson, total]
    rw [show (4 : ℝ) = 2 ^ 2 by norm_num, Real.sqrt_sq (by norm_num)]
    norm_num
  · have e := weightedCorr_rows [(0, 0, 1), (1, -1, 1), (2, -2, 1)]
    simp only [colOf, List.map_cons, List.map_nil] at e
    rw [e]
    norm_num [total]
    intro h
    have hs : √(28 : ℝ) ≠ 0 := by positivity
    rw [div_eq_iff hs] at h
    have h2 : √(28 : ℝ) * √28 = 28 := Real.mul_self_sqrt (by norm_num)
    nlinarith [h2]

/-- **C64 (disagreement).** `weighted_corr` leaves `[-1, 1]`. -/
theorem weighted_corr_out_of_range :
    1 < weightedCorr [some 0, some 1] [some (-10), some 10] [some 1, some 1] := by
  have e := weightedCorr_rows [(0, -10, 1), (1, 10, 1)]
  simp only [colOf, List.map_cons, List.map_nil] at e
  rw [e]
  norm_num [total]
  have hs : 0 < √(2 : ℝ) := by positivity
  have h2 : √(2 : ℝ) * √2 = 2 := Real.mul_self_sqrt (by norm_num)
  nlinarith [h2]

/-- **C64 (part).** `weighted_corr` is right when the spread of `x` around the mean of `y` happens to equal
the spread of `y`; in particular for `y = x`.  Missing: every other input, see `weighted_corr_wrong`. -/
theorem weighted_corr_partial (rows : List (ℝ × ℝ × ℝ))
    (hW : total (fun r => r.2.2) rows ≠ 0)
    (my : ℝ) (hmy : my = total (fun r => r.2.2 * r.2.1) rows / total (fun r => r.2.2) rows)
    (h : total (fun r => r.2.2 * (r.1 - my) ^ 2) rows =
      total (fun r => r.2.2 * (r.2.1 - my) ^ 2) rows) :
    weightedCorr (colOf (fun r => r.1) rows) (colOf (fun r => r.2.1) rows)
      (colOf (fun r => r.2.2) rows) = pearson rows := by
  have ex : total (fun r : ℝ × ℝ × ℝ => r.1 * r.2.2) rows = total (fun r => r.2.2 * r.1) rows :=
    total_congr fun r _ => mul_comm _ _
  have ey : total (fun r : ℝ × ℝ × ℝ => r.2.1 * r.2.2) rows = total (fun r => r.2.2 * r.2.1) rows :=
    total_congr fun r _ => mul_comm _ _
  rw [weightedCorr_rows]
  simp only [pearson, ex, ey, ← hmy]
  rw [h, div_mul_cancel₀ _ hW]

example : let rows : List (ℝ × ℝ × ℝ) := [(0, 0, 1), (1, 1, 2), (5, 5, 1)]
    total (fun r => r.2.2) rows ≠ 0 ∧
    (7 / 4 : ℝ) = total (fun r => r.2.2 * r.2.1) rows / total (fun r => r.2.2) rows ∧
    total (fun r => r.2.2 * (r.1 - 7 / 4) ^ 2) rows = total (fun r => r.2.2 * (r.2.1 - 7 / 4) ^ 2) rows := by
  norm_num [total]

/-! ## Cosine similarity -/

/-- **C64.** `weighted_cosine_sim` stays in `[-1, 1]` for non-negative weights. -/
theorem weighted_cosine_range (rows : List (ℝ × ℝ × ℝ)) (hw : ∀ r ∈ rows, 0 ≤ r.2.2) :
    |weightedCosineSim (colOf (fun r => r.1) rows) (colOf (fun r => r.2.1) rows)
      (colOf (fun r => r.2.2) rows)| ≤ 1 := by
  simp only [weightedCosineSim, map1_colOf, map2_colOf, dot_colOf]
  have e1 : total (fun r : ℝ × ℝ × ℝ => r.1 ^ 2 * r.2.2) rows = total (fun r => r.2.2 * r.1 ^ 2) rows :=
    total_congr fun r _ => mul_comm _ _
  have e2 : total (fun r : ℝ × ℝ × ℝ => r.2.1 ^ 2 * r.2.2) rows =
      total (fun r => r.2.2 * r.2.1 ^ 2) rows := total_congr fun r _ => mul_comm _ _
  have e3 : total (fun r : ℝ × ℝ × ℝ => r.2.2 * r.1 * r.2.1) rows =
      total (fun r => r.2.2 * (r.1 * r.2.1)) rows := total_congr fun r _ => by ring
  rw [e1, e2, e3]
  exact div_sqrt_mem (total_nonneg fun r hr => mul_nonneg (hw r hr) (sq_nonneg _))
    (total_nonneg fun r hr => mul_nonneg (hw r hr) (sq_nonneg _)) (cauchy hw)

example : ∀ r ∈ [((1 : ℝ), (2 : ℝ), (1 : ℝ)), (4, 1, 3)], 0 ≤ r.2.2 := by norm_num

/-- **C64.** `weighted_cosine_sim` of a vector with a positive multiple of itself is `1`. -/
theorem weighted_cosine_self (rows : List (ℝ × ℝ)) (c : ℝ) (hc : 0 < c)
    (hpos : 0 < total (fun r => r.2 * r.1 ^ 2) rows) :
    weightedCosineSim (colOf (fun r => r.1) rows) (colOf (fun r => c * r.1) rows)
      (colOf (fun r => r.2) rows) = 1 := by
  simp only [weightedCosineSim, map1_colOf, map2_colOf, dot_colOf]
  set S := total (fun r : ℝ × ℝ => r.2 * r.1 ^ 2) rows with hS
  have e1 : total (fun r : ℝ × ℝ => r.1 ^ 2 * r.2) rows = S := total_congr fun r _ => mul_comm _ _
  have e2 : total (fun r : ℝ × ℝ => (c * r.1) ^ 2 * r.2) rows = c ^ 2 * S := by
    rw [hS, ← total_mul]; exact total_congr fun r _ => by ring
  have e3 : total (fun r : ℝ × ℝ => r.2 * r.1 * (c * r.1)) rows = c * S := by
    rw [hS, ← total_mul]; exact total_congr fun r _ => by ring
  rw [e1, e2, e3, show S * (c ^ 2 * S) = (c * S) ^ 2 by ring, Real.sqrt_sq (by positivity)]
  exact div_self (by positivity)

example : (0 : ℝ) < 2 ∧ 0 < total (fun r : ℝ × ℝ => r.2 * r.1 ^ 2) [(1, 1), (-4, 3)] := by
  norm_num [total]

/-- **C64 (disagreement).** `cosine_sim` returns the cosine multiplied by the square root of the product of
the two norms, for all non-zero vectors. -/
theorem cosine_sim_scaled (rows : List (ℝ × ℝ))
    (hx : 0 < total (fun r => r.1 * r.1) rows) (hy : 0 < total (fun r => r.2 * r.2) rows) :
    cosineSim (colOf (fun r => r.1) rows) (colOf (fun r => r.2) rows) =
      cosine rows * √(√(total (fun r => r.1 * r.1) rows) * √(total (fun r => r.2 * r.2) rows)) := by
  simp only [cosineSim, cosine, dot_colOf]
  set N := √(total (fun r : ℝ × ℝ => r.1 * r.1) rows) * √(total (fun r => r.2 * r.2) rows) with hN
  have hNpos : 0 < N := mul_pos (Real.sqrt_pos.2 hx) (Real.sqrt_pos.2 hy)
  have hs : √N ≠ 0 := (Real.sqrt_pos.2 hNpos).ne'
  have h2 : √N * √N = N := Real.mul_self_sqrt hNpos.le
  rw [div_mul_eq_mul_div, div_eq_div_iff hs hNpos.ne', mul_assoc, h2]

example : 0 < total (fun r : ℝ × ℝ => r.1 * r.1) [(3, 1), (4, 0)] ∧
    0 < total (fun r : ℝ × ℝ => r.2 * r.2) [(3, 1), (4, 0)] := by norm_num [total]

/-- **C64 (disagreement).** The similarity of `(3, 4)` with itself comes out as `5`. -/
theorem cosine_sim_wrong :
    cosineSim [some 3, some 4] [some 3, some 4] = 5 := by
  have h := cosine_sim_scaled [(3, 3), (4, 4)] (by norm_num [total]) (by norm_num [total])
  have e : total (fun r : ℝ × ℝ => r.1 * r.1) [(3, 3), (4, 4)] = 5 ^ 2 := by norm_num [total]
  have e2 : total (fun r : ℝ × ℝ => r.2 * r.2) [(3, 3), (4, 4)] = 5 ^ 2 := by norm_num [total]
  have e3 : total (fun r : ℝ × ℝ => r.1 * r.2) [(3, 3), (4, 4)] = 25 := by norm_num [total]
  unfold cosine at h
  rw [e, e2, e3, Real.sqrt_sq (by norm_num), Real.sqrt_mul_self (by norm_num)] at h
  norm_num at h
  simpa [colOf] using h

/-- **C64 (part).** `cosine_sim` is the cosine when the product of the norms is one.  Missing: all other
vectors (`cosine_sim_scaled` says exactly how far off they are). -/
theorem cosine_sim_partial (rows : List (ℝ × ℝ))
    (h1 : √(total (fun r => r.1 * r.1) rows) * √(total (fun r => r.2 * r.2) rows) = 1) :
    cosineSim (colOf (fun r => r.1) rows) (colOf (fun r => r.2) rows) = cosine rows := by
  simp only [cosineSim, cosine, dot_colOf, h1, Real.sqrt_one]

example : √(total (fun r : ℝ × ℝ => r.1 * r.1) [(1, 0), (0, 1)]) *
    √(total (fun r : ℝ × ℝ => r.2 * r.2) [(1, 0), (0, 1)]) = 1 := by norm_num [total]

/-! ## Harmonic and geometric means -/

/-- **C64 (disagreement).** `weighted_hmean` does not depend on the data: for every column without zeros it
is the sum of the weights divided by the number of rows. -/
theorem weighted_hmean_ignores_data (rows : List (ℝ × ℝ)) (h0 : ∀ r ∈ rows, r.1 ≠ 0) :
    weightedHmean (colOf (fun r => r.1) rows) (colOf (fun r => r.2) rows) false =
      total (fun r => r.2) rows / rows.length := by
  simp only [weightedHmean, map1_colOf, dot_colOf, sum_colOf, Bool.false_eq_true, if_false]
  have : total (fun r : ℝ × ℝ => r.1 * (1 / r.1)) rows = rows.length := by
    rw [total_congr (g := fun _ => 1) fun r hr => by rw [mul_one_div, div_self (h0 r hr)], total_const,
      mul_one]
  rw [this, one_div_div]

example : ∀ r ∈ [((2 : ℝ), (1 : ℝ)), (8, 1)], r.1 ≠ 0 := by norm_num

/-- **C64 (disagreement).** On `x = (2, 8)` with equal weights the harmonic mean is `16/5`; the function
returns `1`. -/
theorem weighted_hmean_wrong :
    wharm [(2, 1), (8, 1)] = 16 / 5 ∧
    weightedHmean [some 2, some 8] [some 1, some 1] false = 1 := by
  refine ⟨by norm_num [wharm, total], ?_⟩
  have h := weighted_hmean_ignores_data [(2, 1), (8, 1)] (by norm_num)
  norm_num [total] at h
  simpa [colOf] using h

/-- **C64 (part).** `weighted_hmean` is right when every value equals the mean weight.  Missing: everything
else. -/
theorem weighted_hmean_partial (rows : List (ℝ × ℝ)) (v : ℝ) (hv : v ≠ 0)
    (hx : ∀ r ∈ rows, r.1 = v) (hW : total (fun r => r.2) rows = rows.length * v) :
    weightedHmean (colOf (fun r => r.1) rows) (colOf (fun r => r.2) rows) false = wharm rows := by
  rw [weighted_hmean_ignores_data rows fun r hr => by rw [hx r hr]; exact hv, wharm]
  have : total (fun r : ℝ × ℝ => r.2 / r.1) rows = rows.length := by
    rw [total_congr (g := fun r => v⁻¹ * r.2) fun r hr => by rw [hx r hr]; ring, total_mul, hW]
    field_simp
  rw [this]

example : (2 : ℝ) ≠ 0 ∧ (∀ r ∈ [((2 : ℝ), (1 : ℝ)), (2, 3)], r.1 = 2) ∧
    total (fun r : ℝ × ℝ => r.2) [(2, 1), (2, 3)] = ([((2 : ℝ), (1 : ℝ)), (2, 3)].length : ℝ) * 2 := by
  norm_num [total]

/-- A weighted arithmetic mean of logarithms is at most the logarithm of the weighted mean. -/
theorem jensen_log (rows : List (ℝ × ℝ)) (hw : ∀ r ∈ rows, 0 ≤ r.2) (hx : ∀ r ∈ rows, 0 < r.1)
    (hW : 0 < total (fun r => r.2) rows) :
    Real.exp (total (fun r => Real.log r.1 * r.2) rows / total (fun r => r.2) rows) ≤
      total (fun r => r.1 * r.2) rows / total (fun r => r.2) rows := by
  set W := total (fun r : ℝ × ℝ => r.2) rows with hWd
  have hMpos : 0 < total (fun r : ℝ × ℝ => r.1 * r.2) rows / W := by
    apply div_pos _ hW
    by_contra hneg
    push Not at hneg
    have hz : ∀ l : List (ℝ × ℝ), (∀ r ∈ l, 0 ≤ r.2) → (∀ r ∈ l, 0 < r.1) →
        total (fun r => r.1 * r.2) l ≤ 0 → total (fun r => r.2) l ≤ 0 := by
      intro l
      induction l with
      | nil => intros; simp [total]
      | cons r rs ih =>
        intro h1 h2 h3
        rw [total_cons] at h3 ⊢
        have hr1 := h1 r (by simp)
        have hr2 := h2 r (by simp)
        have hrs : 0 ≤ total (fun r : ℝ × ℝ => r.1 * r.2) rs :=
          total_nonneg fun q hq => mul_nonneg (h2 q (by simp [hq])).le (h1 q (by simp [hq]))
        have hp : 0 ≤ r.1 * r.2 := mul_nonneg hr2.le hr1
        have h0 : r.1 * r.2 ≤ 0 := by linarith
        have : r.2 ≤ 0 := by
          by_contra hc
          push Not at hc
          exact absurd h0 (not_le.2 (mul_pos hr2 hc))
        have := ih (fun q hq => h1 q (by simp [hq])) (fun q hq => h2 q (by simp [hq])) (by linarith)
        linarith
    exact absurd (hz rows hw hx hneg) (not_le.2 hW)
  set M := total (fun r : ℝ × ℝ => r.1 * r.2) rows / W with hM
  rw [← Real.le_log_iff_exp_le hMpos, div_le_iff₀ hW]
  -- log t ≤ log M + (t - M) / M
  have h : total (fun r : ℝ × ℝ => Real.log r.1 * r.2) rows ≤
      total (fun r => (Real.log M + (r.1 / M - 1)) * r.2) rows := by
    refine total_le fun r hr => mul_le_mul_of_nonneg_right ?_ (hw r hr)
    have := Real.log_le_sub_one_of_pos (div_pos (hx r hr) hMpos)
    rw [Real.log_div (hx r hr).ne' hMpos.ne'] at this
    linarith
  refine h.trans (le_of_eq ?_)
  have e : total (fun r : ℝ × ℝ => (Real.log M + (r.1 / M - 1)) * r.2) rows =
      Real.log M * W + (M⁻¹ * total (fun r => r.1 * r.2) rows - W) := by
    rw [hWd, ← total_mul, ← total_mul, ← total_sub, ← total_add]
    exact total_congr fun r _ => by ring
  rw [e]
  have : M⁻¹ * total (fun r : ℝ × ℝ => r.1 * r.2) rows = W := by
    rw [show total (fun r : ℝ × ℝ => r.1 * r.2) rows = M * W by rw [hM]; field_simp]
    field_simp
  rw [this]; ring

/-- **C64.** The weighted geometric mean is at most the weighted mean (positive data, non-negative weights of
positive sum) and it lies between the extremes of the data. -/
theorem weighted_gmean_bounds (rows : List (ℝ × ℝ)) (lo hi : ℝ) (hlo : 0 < lo)
    (hw : ∀ r ∈ rows, 0 ≤ r.2) (hx : ∀ r ∈ rows, lo ≤ r.1 ∧ r.1 ≤ hi)
    (hW : 0 < total (fun r => r.2) rows) :
    let x := colOf (fun r : ℝ × ℝ => r.1) rows
    let w := colOf (fun r : ℝ × ℝ => r.2) rows
    lo ≤ weightedGmean x w false ∧ weightedGmean x w false ≤ weightedMean x w false ∧
      weightedMean x w false ≤ hi := by
  intro x w
  have hmean := weighted_mean_between rows lo hi hw hx hW
  refine ⟨?_, ?_, hmean.2⟩
  · simp only [weightedGmean, x, w, map1_colOf, dot_colOf, sum_colOf, Bool.false_eq_true, if_false]
    rw [← Real.log_le_iff_le_exp hlo, le_div_iff₀ hW, ← total_mul]
    exact total_le fun r hr => mul_le_mul_of_nonneg_right (Real.log_le_log hlo (hx r hr).1) (hw r hr)
  · simp only [weightedGmean, weightedMean, x, w, map1_colOf, dot_colOf, sum_colOf, Bool.false_eq_true,
      if_false]
    exact jensen_log rows hw (fun r hr => hlo.trans_le (hx r hr).1) hW

example : (0 : ℝ) < 1 ∧ (∀ r ∈ [((1 : ℝ), (1 : ℝ)), (4, 3)], 0 ≤ r.2) ∧
    (∀ r ∈ [((1 : ℝ), (1 : ℝ)), (4, 3)], 1 ≤ r.1 ∧ r.1 ≤ 4) ∧
    0 < total (fun r : ℝ × ℝ => r.2) [(1, 1), (4, 3)] := by
  norm_num [total]

/-- **C64.** For positive data, `hmean ≤ gmean ≤ mean`; nulls are skipped by all three, so `rows` are the
values that are not null. -/
theorem hmean_gmean_mean (x : Col ℝ) (hne : vals x ≠ []) (hx : ∀ v ∈ vals x, 0 < v) :
    ∃ g, gmean x = some g ∧ hmean x ≤ g ∧ ∃ m, Pl.mean x = some m ∧ g ≤ m := by
  have hv : ∀ f : ℝ → ℝ, vals (map1 f x) = (vals x).map f := by
    intro f
    clear hne hx
    induction x with
    | nil => rfl
    | cons a as ih =>
      cases a with
      | none => simpa [vals, map1] using ih
      | some a => simpa [vals, map1] using ih
  set l := vals x with hl
  have hlen : 0 < l.length := List.length_pos_iff.2 hne
  have hlen' : (0 : ℝ) < l.length := by exact_mod_cast hlen
  have hc : count x = l.length := rfl
  have key : ∀ l : List ℝ, l ≠ [] → (∀ v ∈ l, 0 < v) →
      Real.exp ((l.map Real.log).sum / l.length) ≤ l.sum / l.length := by
    intro l hne hx
    have hlen' : (0 : ℝ) < l.length := by exact_mod_cast List.length_pos_iff.2 hne
    have h := jensen_log (l.map fun v => (v, 1)) (by simp) (by simpa using hx) (by
      simp only [total, List.map_map, Function.comp_def]
      simpa using List.length_pos_iff.2 hne)
    simpa [total, List.map_map, Function.comp_def] using h
  refine ⟨Real.exp ((l.map Real.log).sum / l.length), ?_, ?_, l.sum / l.length, ?_, key l hne hx⟩
  · simp only [gmean, Pl.mean, count, Pl.sum, hv Real.log, List.length_map]
    rw [if_neg (by omega)]; rfl
  · have h := key (l.map fun v => 1 / v) (by simpa using hne) (by
      intro v hv'
      obtain ⟨u, hu, rfl⟩ := List.mem_map.1 hv'
      exact one_div_pos.2 (hx u hu))
    rw [List.map_map, List.length_map] at h
    have e : (l.map (Real.log ∘ fun v => 1 / v)).sum = - (l.map Real.log).sum := by
      clear_value l
      clear hne hx hlen hlen' hc key h hl hv
      induction l with
      | nil => simp
      | cons a as ih =>
        simp only [List.map_cons, List.sum_cons, ih]
        simp only [Function.comp, one_div, Real.log_inv]; ring
    rw [e, neg_div, Real.exp_neg] at h
    simp only [hmean, Pl.sum, hv, hc]
    have hp : 0 < Real.exp ((l.map Real.log).sum / l.length) := Real.exp_pos _
    have hs : (0 : ℝ) < (l.map fun v => 1 / v).sum / (l.length : ℝ) := (inv_pos.2 hp).trans_le h
    have hs' : 0 < (l.map fun v => 1 / v).sum := by
      have := mul_pos hs hlen'
      rwa [div_mul_cancel₀ _ hlen'.ne'] at this
    rw [← one_div_div]
    rw [one_div_le hs hp, one_div]
    exact h
  · simp only [Pl.mean, Pl.sum]
    rw [if_neg (by rw [hc]; omega)]; rfl

example : vals ([some 1, none, some 4] : Col ℝ) ≠ [] ∧ ∀ v ∈ vals ([some 1, none, some 4] : Col ℝ), 0 < v := by
  constructor <;> simp [vals]

/-! ## Nulls -/

/-- **C64 (disagreement).** A null in the data is left out of the weighted sum but its weight stays in the
divisor: the weighted mean of `[null, 2]` under equal weights is `1`, outside the range of the data. -/
theorem weighted_mean_null_wrong : weightedMean [none, some 2] [some 1, some 1] false = 1 := by
  simp only [weightedMean, dot, Pl.sum, map2, vals, opt2, List.zipWith_cons_cons, List.zipWith_nil_left,
    List.filterMap_cons, List.filterMap_nil, id]
  norm_num

/-! ## Biweight midcorrelation -/

/-- Cauchy-Schwarz on columns, nulls allowed in both as long as they sit in the same rows. -/
theorem dot_cauchy (a b : Col ℝ) (h : List.Forall₂ (fun u v => u.isSome = v.isSome) a b) :
    dot a b ^ 2 ≤ dot a a * dot b b ∧ 0 ≤ dot a a ∧ 0 ≤ dot b b := by
  have key : ∃ rows : List (ℝ × ℝ), dot a b = total (fun r => r.1 * r.2) rows ∧
      dot a a = total (fun r => r.1 * r.1) rows ∧ dot b b = total (fun r => r.2 * r.2) rows := by
    induction h with
    | nil => exact ⟨[], rfl, rfl, rfl⟩
    | @cons u v us vs huv _ ih =>
      obtain ⟨rows, h1, h2, h3⟩ := ih
      cases u with
      | none =>
        cases v with
        | none => exact ⟨rows, by simpa [dot, Pl.sum, map2, vals, opt2] using h1,
            by simpa [dot, Pl.sum, map2, vals, opt2] using h2,
            by simpa [dot, Pl.sum, map2, vals, opt2] using h3⟩
        | some v => simp at huv
      | some u =>
        cases v with
        | none => simp at huv
        | some v =>
          refine ⟨(u, v) :: rows, ?_, ?_, ?_⟩
          · rw [total_cons, ← h1]; simp [dot, Pl.sum, map2, vals, opt2]
          · rw [total_cons, ← h2]; simp [dot, Pl.sum, map2, vals, opt2]
          · rw [total_cons, ← h3]; simp [dot, Pl.sum, map2, vals, opt2]
  obtain ⟨rows, h1, h2, h3⟩ := key
  rw [h1, h2, h3]
  refine ⟨?_, total_nonneg fun r _ => mul_self_nonneg _, total_nonneg fun r _ => mul_self_nonneg _⟩
  have := cauchy (w := fun _ => 1) (f := fun r : ℝ × ℝ => r.1) (g := fun r => r.2) (rows := rows)
    fun _ _ => zero_le_one
  simpa [sq] using this

theorem bicorDev_isSome (a : Col ℝ) (c : ℝ) :
    (bicorDev a c).map Option.isSome = a.map Option.isSome := by
  simp [bicorDev, map1, Function.comp_def]

/-- Cauchy-Schwarz on any two columns: products with a null are left out. -/
theorem dot_cauchy_any (a b : Col ℝ) : dot a b ^ 2 ≤ dot a a * dot b b ∧ 0 ≤ dot a a ∧ 0 ≤ dot b b := by
  have nn : ∀ a : Col ℝ, 0 ≤ dot a a := fun a => (dot_cauchy a a (List.forall₂_same.2 fun _ _ => rfl)).2.1
  have key : ∃ rows : List (ℝ × ℝ), dot a b = total (fun r => r.1 * r.2) rows ∧
      total (fun r => r.1 * r.1) rows ≤ dot a a ∧ total (fun r => r.2 * r.2) rows ≤ dot b b := by
    induction a generalizing b with
    | nil => exact ⟨[], by simp [dot, Pl.sum, map2, vals, total], by simp [dot, Pl.sum, map2, vals, total], nn b⟩
    | cons u us ih =>
      cases b with
      | nil => exact ⟨[], by simp [dot, Pl.sum, map2, vals, total], nn _, by simp [dot, Pl.sum, map2, vals, total]⟩
      | cons v vs =>
        obtain ⟨rows, h1, h2, h3⟩ := ih vs
        have hu : ∀ x : ℝ, 0 ≤ x * x := mul_self_nonneg
        cases u with
        | none =>
          cases v with
          | none => exact ⟨rows, by simpa [dot, Pl.sum, map2, vals, opt2] using h1,
              by simpa [dot, Pl.sum, map2, vals, opt2] using h2,
              by simpa [dot, Pl.sum, map2, vals, opt2] using h3⟩
          | some v =>
            refine ⟨rows, by simpa [dot, Pl.sum, map2, vals, opt2] using h1,
              by simpa [dot, Pl.sum, map2, vals, opt2] using h2, h3.trans ?_⟩
            simp [dot, Pl.sum, map2, vals, opt2, hu v]
        | some u =>
          cases v with
          | none =>
            refine ⟨rows, by simpa [dot, Pl.sum, map2, vals, opt2] using h1, h2.trans ?_,
              by simpa [dot, Pl.sum, map2, vals, opt2] using h3⟩
            simp [dot, Pl.sum, map2, vals, opt2, hu u]
          | some v =>
            refine ⟨(u, v) :: rows, ?_, ?_, ?_⟩
            · rw [total_cons, ← h1]; simp [dot, Pl.sum, map2, vals, opt2]
            · rw [total_cons]; simpa [dot, Pl.sum, map2, vals, opt2] using h2
            · rw [total_cons]; simpa [dot, Pl.sum, map2, vals, opt2] using h3
  obtain ⟨rows, h1, h2, h3⟩ := key
  refine ⟨?_, nn a, nn b⟩
  have := cauchy (w := fun _ => 1) (f := fun r : ℝ × ℝ => r.1) (g := fun r => r.2) (rows := rows)
    fun _ _ => zero_le_one
  rw [h1]
  refine le_trans (by simpa [sq] using this) (mul_le_mul h2 h3 (total_nonneg fun r _ => mul_self_nonneg _) (nn a))

/-- **C65.** `bicor` is symmetric and stays in `[-1, 1]` for every tuning constant and all data, with nulls anywhere. -/
theorem bicor_range (a b : Col ℝ) (c : ℝ) : bicor a b c = bicor b a c ∧ |bicor a b c| ≤ 1 := by
  obtain ⟨h1, h2, h3⟩ := dot_cauchy_any (bicorDev a c) (bicorDev b c)
  refine ⟨?_, ?_⟩
  · have e : ∀ u v : Col ℝ, dot u v = dot v u := by
      intro u v
      have : map2 (· * ·) u v = map2 (· * ·) v u := by
        unfold map2
        rw [List.zipWith_comm]
        congr 1
        funext s t
        cases s <;> cases t <;> simp [opt2, mul_comm]
      simp [dot, this]
    simp only [bicor]
    rw [e (bicorDev a c) (bicorDev b c), mul_comm (dot (bicorDev a c) (bicorDev a c))]
  · exact div_sqrt_mem h2 h3 h1

example : |bicor [some 1, none, some 5] [none, some 2, some 0] 9| ≤ 1 := (bicor_range _ _ _).2

theorem median_value (c : Col ℝ) (m : ℝ) (h : IsMedian (vals c) m) : median c = m := by
  obtain ⟨s, hp, hs, rfl⟩ := h
  have he : (vals c).mergeSort (fun a b => decide (a ≤ b)) = s := by
    have hsort : ((vals c).mergeSort (fun a b => decide (a ≤ b))).Pairwise (fun a b : ℝ => a ≤ b) := by
      have := List.pairwise_mergeSort (le := fun a b : ℝ => decide (a ≤ b)) (by simpa using fun a b c => le_trans)
        (by simpa using fun a b => le_total a b) (vals c)
      simpa using this
    exact ((List.mergeSort_perm _ _).trans hp.symm).eq_of_pairwise (fun a b _ _ h1 h2 => le_antisymm h1 h2) hsort hs
  unfold median
  simp only [he, hp.length_eq]
  have hl := hp.length_eq
  by_cases ho : (vals c).length % 2 = 1
  · rw [if_pos ho]
    have : ((vals c).length - 1) / 2 = (vals c).length / 2 := by omega
    rw [this]
    ring
  · rw [if_neg ho]
    have : ((vals c).length - 1) / 2 = (vals c).length / 2 - 1 := by omega
    rw [this]

/-- **C65.** The value: with `mx`, `my` the medians and `sx`, `sy` the medians of the absolute deviations, `bicor` is
the cosine of the deviations weighted by Tukey's biweight of the deviation over `c` times the median deviation. -/
theorem bicor_value (rows : List (ℝ × ℝ)) (c mx my sx sy : ℝ)
    (h1 : IsMedian (rows.map fun r => r.1) mx) (h2 : IsMedian (rows.map fun r => r.2) my)
    (h3 : IsMedian (rows.map fun r => |r.1 - mx|) sx) (h4 : IsMedian (rows.map fun r => |r.2 - my|) sy) :
    bicor (colOf (fun r => r.1) rows) (colOf (fun r => r.2) rows) c =
      total (fun r => ((r.1 - mx) * tukey ((r.1 - mx) / (c * sx))) * ((r.2 - my) * tukey ((r.2 - my) / (c * sy)))) rows /
        √(total (fun r => ((r.1 - mx) * tukey ((r.1 - mx) / (c * sx))) * ((r.1 - mx) * tukey ((r.1 - mx) / (c * sx)))) rows *
          total (fun r => ((r.2 - my) * tukey ((r.2 - my) / (c * sy))) * ((r.2 - my) * tukey ((r.2 - my) / (c * sy)))) rows) := by
  have hv : ∀ f : ℝ × ℝ → ℝ, vals (colOf f rows) = rows.map f := by
    intro f
    simp [vals, colOf, List.filterMap_map, Function.comp_def]
  have hdev : ∀ (f : ℝ × ℝ → ℝ) (m s : ℝ), IsMedian (rows.map f) m → IsMedian (rows.map fun r => |f r - m|) s →
      bicorDev (colOf f rows) c = colOf (fun r => (f r - m) * tukey ((f r - m) / (c * s))) rows := by
    intro f m s hm hs
    unfold bicorDev
    simp only
    rw [median_value (colOf f rows) m (by rwa [hv])]
    have e1 : map1 (fun v => v - m) (colOf f rows) = colOf (fun r => f r - m) rows := by
      simp [map1, colOf]
    rw [e1]
    have e2 : map1 (fun v => |v|) (colOf (fun r => f r - m) rows) = colOf (fun r => |f r - m|) rows := by
      simp [map1, colOf]
    rw [e2, median_value _ s (by rwa [hv])]
    unfold map1 colOf
    rw [List.map_map]
    apply List.map_congr_left
    intro r _
    simp only [Function.comp_apply, Option.map_some, Option.some.injEq]
    unfold tukey
    by_cases hu : |(f r - m) / (c * s)| < 1
    · rw [if_pos hu, if_pos (by linarith)]; ring
    · rw [if_neg hu, if_neg (by linarith)]; ring
  unfold bicor
  simp only
  rw [hdev _ mx sx h1 h3, hdev _ my sy h2 h4, dot_colOf, dot_colOf, dot_colOf]

example : IsMedian ([(0, 3), (1, 5)] : List (ℝ × ℝ)).unzip.1 (1 / 2) ∧ IsMedian [4, 1, 2] 2 :=
  ⟨⟨[0, 1], by simp, by simp, by norm_num⟩, ⟨[1, 2, 4], by
    simpa using (List.perm_append_comm (l₁ := [1, 2]) (l₂ := [(4 : ℝ)])), by norm_num, by norm_num⟩⟩

/-- **C65.** `bicor` of a column with itself is `1`, unless all weighted deviations vanish. -/
theorem bicor_self (a : Col ℝ) (c : ℝ) (h : dot (bicorDev a c) (bicorDev a c) ≠ 0) :
    bicor a a c = 1 := by
  have h0 : 0 ≤ dot (bicorDev a c) (bicorDev a c) :=
    (dot_cauchy _ _ (List.forall₂_same.2 fun _ _ => rfl)).2.1
  simp only [bicor]
  rw [Real.sqrt_mul_self h0]
  exact div_self h

example : dot (bicorDev [some 0, some 1] 9) (bicorDev [some 0, some 1] 9) ≠ 0 := by
  have m : ∀ a b : ℝ, a ≤ b → median [some a, some b] = (a + b) / 2 := by
    intro a b hab
    simp only [median, vals, List.filterMap_cons, List.filterMap_nil, id]
    rw [List.mergeSort_of_pairwise (by simpa using hab)]
    simp
  have h1 := m 0 1 (by norm_num)
  have h2 := m (1 / 2) (1 / 2) le_rfl
  simp only [bicorDev, map1, List.map_cons, List.map_nil, Option.map_some, h1]
  norm_num at h2 ⊢
  rw [h2]
  simp only [dot, Pl.sum, map2, vals, opt2, List.zipWith_cons_cons, List.zipWith_nil_left,
    List.filterMap_cons, List.filterMap_nil, id]
  norm_num [abs_div]

end Verif.Weighted
