import Verif.Lemmas.LinReg
import Verif.Props.LinReg
import Verif.Model.CoordDescent
import Verif.Spec.CoordDescent
import Mathlib.Algebra.Order.Group.Abs
import Mathlib.Tactic.LinearCombination
import Mathlib.Tactic.FieldSimp

/-! # Lemmas: coordinate descent -/
set_option linter.unusedSectionVars false

namespace Verif.CD
open Verif.LinReg Verif.LinReg.Spec Verif.CD.Spec
variable {K : Type} [Field K] [LinearOrder K] [IsStrictOrderedRing K] {d : Nat}

/-- Objective with a penalty per coordinate. -/
def gobj (rows : List ((Fin d → K) × K)) (a1 a2 : Fin d → K) (b : Fin d → K) : K :=
  sse rows b / 2 + ∑ i, a1 i * |b i| + ∑ i, a2 i / 2 * b i ^ 2

/-- Gradient of the residual part, negated: `x_jᵀ (y - X b)`. -/
def grad (rows : List ((Fin d → K) × K)) (b : Fin d → K) (j : Fin d) : K :=
  (rows.map fun r => r.1 j * (r.2 - dot r.1 b)).sum

/-- The subgradient condition at one coordinate. -/
def Stationary (rows : List ((Fin d → K) × K)) (a1 a2 b : Fin d → K) (j : Fin d) : Prop :=
  |grad rows b j - a2 j * b j| ≤ a1 j ∧ (grad rows b j - a2 j * b j) * b j = a1 j * |b j|

theorem sse_diff (rows : List ((Fin d → K) × K)) (b v : Fin d → K) :
    sse rows (b + v) = sse rows b - 2 * ∑ j, v j * grad rows b j + (rows.map fun r => dot r.1 v ^ 2).sum := by
  have h := wsse_add (unit rows) b v
  rw [wsse_unit, wsse_unit] at h
  rw [h]
  have h1 := sum_swap (unit rows) (fun r => r.1 * (r.2.2 - dot r.2.1 b)) v
  rw [← h1]
  unfold grad unit
  simp only [List.map_map, Function.comp_def, one_mul]
  congr 3
  apply Finset.sum_congr rfl
  intro i _
  congr 2
  apply List.map_congr_left
  intro r _
  ring

/-- Lower bound on the change of the objective along `v` when every moved coordinate is stationary. -/
theorem gobj_lower (rows : List ((Fin d → K) × K)) (a1 a2 b v : Fin d → K)
    (h : ∀ j, v j ≠ 0 → Stationary rows a1 a2 b j) :
    gobj rows a1 a2 b + (rows.map fun r => dot r.1 v ^ 2).sum / 2 + ∑ i, a2 i / 2 * v i ^ 2 ≤
      gobj rows a1 a2 (b + v) := by
  have key : ∀ j, v j * grad rows b j + a1 j * |b j| + a2 j / 2 * b j ^ 2 + a2 j / 2 * v j ^ 2 ≤
      a1 j * |b j + v j| + a2 j / 2 * (b j + v j) ^ 2 := by
    intro j
    by_cases hv : v j = 0
    · rw [hv]; simp
    · obtain ⟨h1, h2⟩ := h j hv
      set s := grad rows b j - a2 j * b j with hs
      have h3 : s * (b j + v j) ≤ a1 j * |b j + v j| := by
        calc s * (b j + v j) ≤ |s * (b j + v j)| := le_abs_self _
          _ = |s| * |b j + v j| := abs_mul _ _
          _ ≤ a1 j * |b j + v j| := mul_le_mul_of_nonneg_right h1 (abs_nonneg _)
      have hg : grad rows b j = s + a2 j * b j := by rw [hs]; ring
      rw [hg]
      nlinarith [h2, h3]
  have hsum := Finset.sum_le_sum fun j (_ : j ∈ Finset.univ) => key j
  simp only [Finset.sum_add_distrib] at hsum
  unfold gobj
  rw [sse_diff]
  simp only [Pi.add_apply]
  linarith

theorem grad_update (rows : List ((Fin d → K) × K)) (b : Fin d → K) (j : Fin d) (t : K) :
    grad rows (Function.update b j t) j =
      (xty rows j - ∑ k, xtx rows j k * Function.update b j 0 k) - (rows.map fun r => r.1 j * r.1 j).sum * t := by
  have hsplit : Function.update b j t = Function.update b j 0 + Pi.single j t := by
    funext k
    by_cases hk : k = j
    · subst hk; simp
    · simp [hk]
  have hdot : ∀ x : Fin d → K, dot x (Pi.single j t) = x j * t := by
    intro x
    unfold dot
    rw [Finset.sum_eq_single j]
    · simp
    · intro k _ hk; simp [hk]
    · simp
  rw [hsplit]
  generalize Function.update b j 0 = c
  unfold grad xty xtx
  simp only [dot_add, hdot]
  induction rows with
  | nil => simp
  | cons r rows ih =>
    simp only [List.map_cons, List.sum_cons] at ih ⊢
    rw [ih]
    have : ∑ k, (r.1 j * r.1 k + (rows.map fun r => r.1 j * r.1 k).sum) * c k =
        r.1 j * dot r.1 c + ∑ k, (rows.map fun r => r.1 j * r.1 k).sum * c k := by
      unfold dot
      rw [Finset.mul_sum, ← Finset.sum_add_distrib]
      apply Finset.sum_congr rfl
      intro k _
      ring
    rw [this]
    ring

theorem soft_spec (z lam : K) (hl : 0 ≤ lam) :
    |z - softThreshold z lam| ≤ lam ∧
    ∀ N : K, 0 < N → (z - softThreshold z lam) * (softThreshold z lam / N) = lam * |softThreshold z lam / N| := by
  unfold softThreshold
  by_cases hz : 0 ≤ z
  · rw [if_pos hz, abs_of_nonneg hz]
    rcases le_total (z - lam) 0 with h | h
    · rw [max_eq_right h]
      simp only [mul_zero, sub_zero, zero_div, abs_zero, mul_zero, implies_true, and_true]
      rw [abs_of_nonneg hz]; linarith
    · rw [max_eq_left h]
      refine ⟨by rw [abs_of_nonneg] <;> linarith, fun N hN => ?_⟩
      rw [abs_of_nonneg (div_nonneg (by linarith) hN.le)]
      ring
  · push Not at hz
    rw [if_neg (not_le.2 hz), abs_of_neg hz]
    rcases le_total (-z - lam) 0 with h | h
    · rw [max_eq_right h]
      simp only [mul_zero, sub_zero, zero_div, abs_zero, mul_zero, implies_true, and_true]
      rw [abs_of_neg hz]; linarith
    · rw [max_eq_left h]
      refine ⟨by rw [abs_of_nonpos] <;> linarith, fun N hN => ?_⟩
      rw [abs_of_nonpos (div_nonpos_of_nonpos_of_nonneg (by linarith) hN.le)]
      ring

/-- A coordinate set to the soft-threshold value is stationary. -/
theorem stationary_update (rows : List ((Fin d → K) × K)) (a1 a2 b : Fin d → K) (j : Fin d) (h1 : 0 ≤ a1 j)
    (hN : 0 < (rows.map fun r => r.1 j * r.1 j).sum + a2 j) :
    Stationary rows a1 a2 (Function.update b j (softThreshold
      (xty rows j - ∑ k, xtx rows j k * Function.update b j 0 k) (a1 j) /
        ((rows.map fun r => r.1 j * r.1 j).sum + a2 j))) j := by
  set z := xty rows j - ∑ k, xtx rows j k * Function.update b j 0 k with hz
  set n := (rows.map fun r => r.1 j * r.1 j).sum with hn
  obtain ⟨s1, s2⟩ := soft_spec z (a1 j) h1
  unfold Stationary
  rw [grad_update, ← hz, ← hn]
  simp only [Function.update_self]
  have : z - n * (softThreshold z (a1 j) / (n + a2 j)) - a2 j * (softThreshold z (a1 j) / (n + a2 j)) =
      z - softThreshold z (a1 j) := by
    have h0 : n + a2 j ≠ 0 := hN.ne'
    field_simp
    ring
  rw [this]
  exact ⟨s1, s2 _ hN⟩

/-- Moving one stationary coordinate elsewhere costs at least a multiple of the squared distance. -/
theorem coord_optimal (rows : List ((Fin d → K) × K)) (a1 a2 b : Fin d → K) (j : Fin d)
    (hst : Stationary rows a1 a2 b j) (t : K) :
    gobj rows a1 a2 b + ((rows.map fun r => r.1 j * r.1 j).sum + a2 j) / 2 * (t - b j) ^ 2 ≤
      gobj rows a1 a2 (Function.update b j t) := by
  have hsplit : Function.update b j t = b + Pi.single j (t - b j) := by
    funext k
    by_cases hk : k = j
    · subst hk; simp
    · simp [hk]
  have hdot : ∀ x : Fin d → K, dot x (Pi.single j (t - b j)) = x j * (t - b j) := by
    intro x
    unfold dot
    rw [Finset.sum_eq_single j]
    · simp
    · intro k _ hk; simp [hk]
    · simp
  have := gobj_lower rows a1 a2 b (Pi.single j (t - b j)) (by
    intro k hk
    by_cases hkj : k = j
    · rw [hkj]; exact hst
    · simp [hkj] at hk)
  rw [hsplit]
  have e1 : (rows.map fun r => dot r.1 (Pi.single j (t - b j)) ^ 2).sum =
      (rows.map fun r => r.1 j * r.1 j).sum * (t - b j) ^ 2 := by
    simp only [hdot]
    clear this hst hsplit
    generalize t - b j = q
    induction rows with
    | nil => simp
    | cons r rows ih =>
      simp only [List.map_cons, List.sum_cons, ih]
      ring
  have e2 : ∑ i, a2 i / 2 * (Pi.single j (t - b j) : Fin d → K) i ^ 2 = a2 j / 2 * (t - b j) ^ 2 := by
    rw [Finset.sum_eq_single j]
    · simp
    · intro k _ hk; simp [hk]
    · simp
  rw [e1, e2] at this
  linarith

theorem global_optimal (rows : List ((Fin d → K) × K)) (a1 a2 b : Fin d → K) (h2 : ∀ j, 0 ≤ a2 j)
    (hst : ∀ j, Stationary rows a1 a2 b j) (c : Fin d → K) : gobj rows a1 a2 b ≤ gobj rows a1 a2 c := by
  have := gobj_lower rows a1 a2 b (c - b) (fun j _ => hst j)
  rw [add_sub_cancel] at this
  have h3 : 0 ≤ (rows.map fun r => dot r.1 (c - b) ^ 2).sum := by
    apply List.sum_nonneg
    intro a ha
    obtain ⟨r, _, rfl⟩ := List.mem_map.1 ha
    exact sq_nonneg _
  have h4 : 0 ≤ ∑ i, a2 i / 2 * (c - b) i ^ 2 :=
    Finset.sum_nonneg fun i _ => mul_nonneg (div_nonneg (h2 i) zero_le_two) (sq_nonneg _)
  linarith

end Verif.CD
