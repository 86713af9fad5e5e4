import Verif.Model.Pca
import Mathlib.LinearAlgebra.Matrix.Trace
import Mathlib.LinearAlgebra.Matrix.NonsingularInverse
import Mathlib.Algebra.Order.BigOperators.Group.List
import Mathlib.Tactic.Ring
import Mathlib.Tactic.Linarith
import Mathlib.Tactic.FieldSimp
import Mathlib.Tactic.Positivity
import Mathlib.Tactic.NormNum

/-!
# Principal components: theorems (C85)
-/

namespace Verif.Pca
open Verif.Pl Verif.Confusion Matrix

namespace Spec
/-- Squared length of a vector. -/
def normSq {n : Nat} (v : Fin n → ℝ) : ℝ := ∑ i, v i ^ 2
/-- Inner product. -/
def inner {n : Nat} (v w : Fin n → ℝ) : ℝ := ∑ i, v i * w i
/-- Column `j`. -/
def col {m p : Nat} (X : Matrix (Fin m) (Fin p) ℝ) (j : Fin p) : Fin m → ℝ := fun i => X i j
/-- The documented explained variance of one component. -/
noncomputable def explained (n : Nat) (s : ℝ) : ℝ := s ^ 2 / ((n : ℝ) - 1)
end Spec

variable {m p : Nat} {X : Matrix (Fin m) (Fin p) ℝ} {s : Fin p → ℝ} {V : Matrix (Fin p) (Fin p) ℝ}

theorem gram_eq (h : Svd X s V) : Xᵀ * X = V * diagonal (fun i => s i ^ 2) * Vᵀ := by
  obtain ⟨U, hU, rfl⟩ := h.left
  rw [transpose_mul, transpose_mul, transpose_transpose, diagonal_transpose]
  calc V * (diagonal s * Uᵀ) * (U * diagonal s * Vᵀ)
      = V * diagonal s * (Uᵀ * U) * diagonal s * Vᵀ := by simp only [Matrix.mul_assoc]
    _ = V * (diagonal s * diagonal s) * Vᵀ := by rw [hU]; simp only [Matrix.mul_assoc, Matrix.one_mul]
    _ = _ := by rw [diagonal_mul_diagonal]; simp only [sq]

/-- **C85.** The squared singular values add up to the total sum of squares of the data. -/
theorem singular_values_total (h : Svd X s V) : ∑ j, s j ^ 2 = ∑ i, ∑ j, X i j ^ 2 := by
  have h1 : (Xᵀ * X).trace = ∑ i, ∑ j, X i j ^ 2 := by
    rw [Finset.sum_comm]
    simp only [trace, diag_apply, mul_apply, transpose_apply, sq]
  have h2 : (Xᵀ * X).trace = ∑ j, s j ^ 2 := by
    rw [gram_eq h, trace_mul_comm, ← Matrix.mul_assoc, h.right, Matrix.one_mul, trace_diagonal]
  rw [← h2, h1]

theorem comp_gram (h : Svd X s V) : (components X V)ᵀ * components X V = diagonal fun i => s i ^ 2 := by
  unfold components
  rw [transpose_mul, Matrix.mul_assoc, ← Matrix.mul_assoc Xᵀ X V, gram_eq h]
  calc Vᵀ * (V * diagonal (fun i => s i ^ 2) * Vᵀ * V)
      = (Vᵀ * V) * diagonal (fun i => s i ^ 2) * (Vᵀ * V) := by simp only [Matrix.mul_assoc]
    _ = _ := by rw [h.right]; simp

/-- **C85.** Principal components: different components are orthogonal (uncorrelated for centered data), and the
squared length of component `j` is the square of the `j`-th singular value. -/
theorem components_orthogonal (h : Svd X s V) (i j : Fin p) :
    Spec.inner (Spec.col (components X V) i) (Spec.col (components X V) j) = if i = j then s i ^ 2 else 0 := by
  have := congrFun (congrFun (comp_gram h) i) j
  simp only [mul_apply, transpose_apply, diagonal_apply] at this
  exact this

theorem apply_normSq (h : Svd X s V) (w : Fin p → ℝ) :
    Spec.normSq (X.mulVec w) = ∑ i, s i ^ 2 * (Vᵀ.mulVec w) i ^ 2 := by
  have e1 : Spec.normSq (X.mulVec w) = dotProduct w ((Xᵀ * X).mulVec w) := by
    rw [← mulVec_mulVec, dotProduct_mulVec, vecMul_transpose]
    simp [Spec.normSq, dotProduct, sq]
  rw [e1, gram_eq h, ← mulVec_mulVec, ← mulVec_mulVec, dotProduct_mulVec, ← mulVec_transpose]
  simp only [dotProduct, mulVec_diagonal]
  apply Finset.sum_congr rfl
  intro i _
  ring

theorem rotate_normSq (h : Svd X s V) (w : Fin p → ℝ) : Spec.normSq (Vᵀ.mulVec w) = Spec.normSq w := by
  have hV : V * Vᵀ = 1 := mul_eq_one_comm.1 h.right
  have e1 : Spec.normSq (Vᵀ.mulVec w) = dotProduct w ((V * Vᵀ).mulVec w) := by
    rw [← mulVec_mulVec, dotProduct_mulVec, ← mulVec_transpose]
    simp [Spec.normSq, dotProduct, sq]
  rw [e1, hV, one_mulVec]
  simp [Spec.normSq, dotProduct, sq]

/-- **C85.** Each principal direction is optimal: among all directions orthogonal to the first `j` ones, none
captures more than the `j`-th component. -/
theorem components_optimal (h : Svd X s V) (j : Fin p) (w : Fin p → ℝ)
    (horth : ∀ i < j, Spec.inner (Spec.col V i) w = 0) :
    Spec.normSq (X.mulVec w) ≤ s j ^ 2 * Spec.normSq w := by
  rw [apply_normSq h, ← rotate_normSq h w, Spec.normSq, Finset.mul_sum]
  apply Finset.sum_le_sum
  intro i _
  rcases lt_or_ge i j with hij | hij
  · have : (Vᵀ.mulVec w) i = 0 := by
      have := horth i hij
      simpa [Spec.inner, Spec.col, mulVec, dotProduct, transpose_apply] using this
    rw [this]; simp
  · have h1 := h.anti j i hij
    have h2 := h.nonneg i
    apply mul_le_mul_of_nonneg_right _ (sq_nonneg _)
    exact pow_le_pow_left₀ h2 h1 2

/-- **C85.** With at least as many rows as features and as `k`, the result has the `k` first components; with
fewer rows than `k` it is NaN as documented. -/
theorem principal_components_partial (k : Nat) (hk : k ≤ p) (X : Matrix (Fin m) (Fin p) ℝ)
    (V : Matrix (Fin p) (Fin p) ℝ) :
    (m < k → principalComponents k X V = .nan) ∧
    (p ≤ m → ∃ cols, principalComponents k X V = .cols cols ∧ cols.length = k ∧
      ∀ (j : Nat) (hj : j < k), cols[j]? =
        some ((List.finRange m).map (Spec.col (components X V) ⟨j, by omega⟩))) := by
  refine ⟨fun h => by simp [principalComponents, h], fun h => ?_⟩
  refine ⟨((List.finRange p).take k).map fun j => (List.finRange m).map fun i => components X V i j, ?_, ?_, ?_⟩
  · rw [principalComponents, if_neg (by omega), if_neg (by omega)]
  · simp [hk]
  · intro j hj
    rw [List.getElem?_map, List.getElem?_take_of_lt hj, List.getElem?_eq_getElem (by simp; omega)]
    simp [Spec.col]

/-- **C85.** The claim fails for `k ≤ rows < features`: the call panics. -/
theorem principal_components_wide (k : Nat) (h1 : k ≤ m) (h2 : m < p) (X : Matrix (Fin m) (Fin p) ℝ)
    (V : Matrix (Fin p) (Fin p) ℝ) : principalComponents k X V = .panic := by
  rw [principalComponents, if_neg (by omega), if_pos h2]

/-! ### Explained variance -/

/-- **C85.** The explained variance is divided by the number of features minus one instead of the number of rows
minus one: it is right only when these agree (or the singular value is zero). -/
theorem explained_var_wrong (s : List ℝ) (n : Nat) (hn : 2 ≤ n) (hp : 2 ≤ s.length) (i : Nat) (v : ℝ)
    (hi : s[i]? = some v) (hv : v ≠ 0) :
    (explainedVar s)[i]? = some (.num (Spec.explained n v)) ↔ n = s.length := by
  have h1 : (s.length : ℝ) - 1 ≠ 0 := by
    have : (2 : ℝ) ≤ s.length := by exact_mod_cast hp
    linarith
  have h2 : (n : ℝ) - 1 ≠ 0 := by
    have : (2 : ℝ) ≤ n := by exact_mod_cast hn
    linarith
  unfold explainedVar Spec.explained
  simp only [List.getElem?_map, hi, Option.map_some, Val.fdiv, if_neg h1, Option.some.injEq, Val.num.injEq]
  have hv2 : v ^ 2 ≠ 0 := pow_ne_zero _ hv
  rw [div_eq_div_iff h1 h2]
  constructor
  · intro h
    have := mul_left_cancel₀ hv2 h
    have : (n : ℝ) = s.length := by linarith
    exact_mod_cast this
  · rintro rfl; rfl

/-- **C85.** With a single feature the explained variance is infinite (or NaN for a zero singular value). -/
theorem explained_var_single (v : ℝ) (hv : v ≠ 0) : explainedVar [v] = [.inf true] := by
  have : 0 < v ^ 2 := by positivity
  simp [explainedVar, Val.fdiv, hv, this]

/-- **C85.** As ratios the divisor cancels: the shares are those of the squared singular values, lie in `[0, 1]`
and add up to one. -/
theorem explained_ratio (s : List ℝ) (hp : 2 ≤ s.length) (hpos : ∃ v ∈ s, v ≠ 0) :
    ∃ r : List ℝ, explainedRatio s = r.map .num ∧ r = s.map (fun v => v ^ 2 / (s.map fun v => v ^ 2).sum) ∧
      r.sum = 1 ∧ ∀ x ∈ r, 0 ≤ x ∧ x ≤ 1 := by
  have h1 : 0 < (s.length : ℝ) - 1 := by
    have : (2 : ℝ) ≤ s.length := by exact_mod_cast hp
    linarith
  have hnn : ∀ x ∈ s.map (fun v => v ^ 2), 0 ≤ x := by
    simp only [List.mem_map]; rintro _ ⟨v, _, rfl⟩; positivity
  have hS : 0 < (s.map fun v => v ^ 2).sum := by
    obtain ⟨v, hv, h0⟩ := hpos
    have := List.single_le_sum hnn _ (List.mem_map_of_mem hv)
    have : 0 < v ^ 2 := by positivity
    linarith
  have hdiv : ∀ (l : List ℝ) (c : ℝ), (l.map fun z => z / c).sum = l.sum / c := by
    intro l c
    induction l with
    | nil => simp
    | cons a l ih => simp only [List.map_cons, List.sum_cons, ih]; ring
  have hsum : (s.map fun v => v ^ 2 / ((s.length : ℝ) - 1)).sum = (s.map fun v => v ^ 2).sum / ((s.length : ℝ) - 1) := by
    have := hdiv (s.map fun v => v ^ 2) ((s.length : ℝ) - 1)
    simpa [Function.comp_def] using this
  refine ⟨s.map (fun v => v ^ 2 / (s.map fun v => v ^ 2).sum), ?_, rfl, ?_, ?_⟩
  · unfold explainedRatio asRatio
    simp only [hsum, List.map_map]
    apply List.map_congr_left
    intro v _
    simp only [Function.comp_apply, Val.fdiv]
    rw [if_neg (div_pos hS h1).ne']
    congr 1
    field_simp
  · have := hdiv (s.map fun v => v ^ 2) (s.map fun v => v ^ 2).sum
    rw [div_self hS.ne'] at this
    simpa [Function.comp_def] using this
  · simp only [List.mem_map]
    rintro _ ⟨v, hv, rfl⟩
    refine ⟨by positivity, ?_⟩
    rw [div_le_one hS]
    exact List.single_le_sum hnn _ (List.mem_map_of_mem hv)

/-- **C85.** Without nulls the centered columns sum to zero. -/
theorem centered_clean (l : List ℝ) (hl : l ≠ []) : (vals (centerCol (l.map some))).sum = 0 := by
  have hv : ∀ l : List ℝ, vals (l.map some) = l := by
    intro l
    induction l with
    | nil => rfl
    | cons a l ih => simpa [vals] using ih
  have hc : count (l.map some) ≠ 0 := by
    unfold count; rw [hv]; simpa using hl
  have hm : mean (l.map some) = some (l.sum / l.length) := by
    simp only [mean, if_neg hc]
    simp only [Pl.sum, count, hv]
  have : centerCol (l.map some) = (l.map fun x => x - l.sum / l.length).map some := by
    unfold centerCol
    rw [hm]
    simp [opt2]
  rw [this, hv]
  have : ∀ (l : List ℝ) (m : ℝ), (l.map fun x => x - m).sum = l.sum - l.length * m := by
    intro l m
    induction l with
    | nil => simp
    | cons a l ih => simp only [List.map_cons, List.sum_cons, ih, List.length_cons]; push_cast; ring
  rw [this]
  have : (l.length : ℝ) ≠ 0 := by
    have := List.length_pos_iff.2 hl
    positivity
  field_simp
  ring

/-- **C85.** With nulls the claim fails: means are taken before incomplete rows are dropped, so the matrix that is
decomposed is not centered. -/
theorem centering_null_wrong :
    dropNulls2 (centerCol [some 0, some 3, some 6]) (centerCol [some 1, some 3, none]) =
      [(-3, -1), (0, 1)] ∧
    ((dropNulls2 (centerCol [some 0, some 3, some 6]) (centerCol [some 1, some 3, none])).map Prod.fst).sum ≠ 0 := by
  have e1 : centerCol [some 0, some 3, some 6] = [some (-3), some 0, some 3] := by
    have h : mean ([some 0, some 3, some 6] : Col ℝ) = some 3 := by
      have hv : vals ([some 0, some 3, some 6] : Col ℝ) = [0, 3, 6] := rfl
      simp only [mean, count, Pl.sum, hv]
      norm_num
    unfold centerCol
    rw [h]
    norm_num [opt2]
  have e2 : centerCol [some 1, some 3, none] = [some (-1), some 1, none] := by
    have h : mean ([some 1, some 3, none] : Col ℝ) = some 2 := by
      have hv : vals ([some 1, some 3, none] : Col ℝ) = [1, 3] := rfl
      simp only [mean, count, Pl.sum, hv]
      norm_num
    unfold centerCol
    rw [h]
    norm_num [opt2]
  rw [e1, e2]
  have : dropNulls2 [some (-3), some 0, some 3] [some (-1), some 1, none] = [(-3, -1), (0, 1)] := rfl
  rw [this]
  exact ⟨rfl, by norm_num⟩

/-- The identity matrix scaled: a decomposition exists. -/
example : Svd (Matrix.diagonal ![3, 2] : Matrix (Fin 2) (Fin 2) ℝ) ![3, 2] 1 where
  left := ⟨1, by simp, by simp⟩
  right := by simp
  nonneg := by intro i; fin_cases i <;> simp
  anti := by
    intro i j h
    fin_cases i <;> fin_cases j <;> simp at h ⊢
    norm_num

example : explainedVar [3, 1] = [.num 9, .num 1] := by
  norm_num [explainedVar, Val.fdiv]

end Verif.Pca
