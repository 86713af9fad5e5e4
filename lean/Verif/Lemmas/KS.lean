import Verif.Model.KS
import Verif.Spec.KS
import Mathlib.Data.List.Basic
import Mathlib.Data.List.Sort
import Mathlib.Data.List.Perm.Basic
import Mathlib.Order.Lattice
import Mathlib.Tactic.Linarith
import Mathlib.Tactic.Positivity

set_option linter.unusedSectionVars false

namespace Verif.KS
open Verif
variable {K : Type} [Field K] [LinearOrder K]

theorem countP_eq_of_split (arr : List K) (t : K) (k : Nat) (hk : k ≤ arr.length)
    (h1 : ∀ i v, i < k → arr[i]? = some v → v ≤ t) (h2 : ∀ i v, k ≤ i → arr[i]? = some v → t < v) :
    arr.countP (fun x => decide (x ≤ t)) = k := by
  rw [← List.take_append_drop k arr, List.countP_append]
  have e1 : (arr.take k).countP (fun x => decide (x ≤ t)) = k := by
    rw [List.countP_eq_length.2, List.length_take, Nat.min_eq_left hk]
    intro v hv
    obtain ⟨i, hi⟩ := List.mem_iff_getElem?.1 hv
    rw [List.getElem?_take] at hi
    split at hi
    · simpa using h1 i v ‹_› hi
    · cases hi
  have e2 : (arr.drop k).countP (fun x => decide (x ≤ t)) = 0 := by
    rw [List.countP_eq_zero]
    intro v hv
    obtain ⟨i, hi⟩ := List.mem_iff_getElem?.1 hv
    rw [List.getElem?_drop] at hi
    simpa using h2 (k + i) v (by omega) hi
  omega

theorem bsearchRight_spec (arr : List K) (t : K) (hs : arr.Pairwise (· ≤ ·)) :
    ∀ left right, left ≤ right → right ≤ arr.length →
    (∀ i v, i < left → arr[i]? = some v → v ≤ t) →
    (∀ i v, right ≤ i → arr[i]? = some v → t < v) →
    bsearchRight arr t left right = some (arr.countP fun x => decide (x ≤ t)) := by
  intro left right
  induction left, right using bsearchRight.induct (arr := arr) (t := t) with
  | case1 left right hlr hnone =>
    intro h1 h2 _ _
    rw [List.getElem?_eq_none_iff] at hnone
    omega
  | case2 left right hlr v hv hlt ih =>
    intro h1 h2 h3 h4
    rw [bsearchRight, if_pos hlr]
    simp only [hv, hlt, if_true]
    refine ih (by omega) (by omega) h3 ?_
    intro i w hi hw
    rcases Nat.eq_or_lt_of_le hi with rfl | hi
    · rw [hv] at hw; cases hw; exact hlt
    · have := List.pairwise_iff_getElem.1 hs (left + (right - left) / 2) i
        (List.getElem?_eq_some_iff.1 hv).1 (List.getElem?_eq_some_iff.1 hw).1 hi
      rw [(List.getElem?_eq_some_iff.1 hv).2, (List.getElem?_eq_some_iff.1 hw).2] at this
      exact lt_of_lt_of_le hlt this
  | case3 left right hlr v hv hlt ih =>
    intro h1 h2 h3 h4
    rw [bsearchRight, if_pos hlr]
    simp only [hv, hlt, if_false]
    refine ih (by omega) (by omega) ?_ h4
    intro i w hi hw
    rcases Nat.eq_or_lt_of_le (Nat.lt_succ_iff.1 hi) with rfl | hi
    · rw [hv] at hw; cases hw; exact not_lt.1 hlt
    · have := List.pairwise_iff_getElem.1 hs i (left + (right - left) / 2)
        (List.getElem?_eq_some_iff.1 hw).1 (List.getElem?_eq_some_iff.1 hv).1 hi
      rw [(List.getElem?_eq_some_iff.1 hv).2, (List.getElem?_eq_some_iff.1 hw).2] at this
      exact le_trans this (not_lt.1 hlt)
  | case4 left right hlr =>
    intro h1 h2 h3 h4
    rw [bsearchRight, if_neg hlr]
    have : left = right := by omega
    subst this
    rw [countP_eq_of_split arr t left h2 h3 h4]

theorem gapAt_spec (v1 v2 : List K) (h1 : v1.Pairwise (· ≤ ·)) (h2 : v2.Pairwise (· ≤ ·)) (x : K) :
    gapAt v1 v2 x = some |Spec.ecdf v1 x - Spec.ecdf v2 x| := by
  have e : ∀ v : List K, v.Pairwise (· ≤ ·) →
      bsearchRight v x 0 v.length = some (v.countP fun y => decide (y ≤ x)) := fun v hv =>
    bsearchRight_spec v x hv 0 v.length (by omega) (by omega) (by intro i w hi; omega)
      (by intro i w hi hw; rw [List.getElem?_eq_none hi] at hw; cases hw)
  simp only [gapAt, e v1 h1, e v2 h2, Spec.ecdf]

theorem mapM_some {α β : Type} (f : α → Option β) (g : α → β) (l : List α) (h : ∀ a, f a = some (g a)) :
    l.mapM f = some (l.map g) := by
  induction l with
  | nil => rfl
  | cons a l ih => simp [List.mapM_cons, h, ih]

theorem foldl_max_spec : ∀ (l : List K) (c : K),
    (c ≤ l.foldl max c) ∧ (∀ x ∈ l, x ≤ l.foldl max c) ∧ (l.foldl max c = c ∨ l.foldl max c ∈ l) := by
  intro l
  induction l with
  | nil => intro c; simp
  | cons a l ih =>
    intro c
    obtain ⟨h1, h2, h3⟩ := ih (max c a)
    simp only [List.foldl_cons]
    refine ⟨le_trans (le_max_left c a) h1, ?_, ?_⟩
    · intro x hx
      rcases List.mem_cons.1 hx with rfl | hx
      · exact le_trans (le_max_right c x) h1
      · exact h2 x hx
    · rcases h3 with h3 | h3
      · rcases max_choice c a with h | h
        · left; rw [h3, h]
        · right; rw [h3, h]; simp
      · right; simp [h3]

theorem ecdf_perm {a b : List K} (h : a.Perm b) (t : K) : Spec.ecdf a t = Spec.ecdf b t := by
  unfold Spec.ecdf
  rw [h.countP_eq, h.length_eq]

theorem ecdf_congr {l : List K} {s t : K} (h : ∀ x ∈ l, x ≤ s ↔ x ≤ t) :
    Spec.ecdf l s = Spec.ecdf l t := by
  unfold Spec.ecdf
  rw [List.countP_congr (q := fun x => decide (x ≤ t)) (fun x hx => by simpa using h x hx)]

/-- The largest element at or below `t`, if any. -/
theorem exists_pred (l : List K) (t : K) :
    (∀ x ∈ l, t < x) ∨ ∃ s ∈ l, s ≤ t ∧ ∀ x ∈ l, x ≤ t → x ≤ s := by
  induction l with
  | nil => left; simp
  | cons a l ih =>
    rcases le_or_gt a t with ha | ha
    · right
      rcases ih with h | ⟨s, hs, hst, h⟩
      · refine ⟨a, by simp, ha, fun x hx hxt => ?_⟩
        rcases List.mem_cons.1 hx with rfl | hx
        · exact le_refl _
        · exact absurd hxt (not_le.2 (h x hx))
      · rcases le_total a s with has | has
        · refine ⟨s, by simp [hs], hst, fun x hx hxt => ?_⟩
          rcases List.mem_cons.1 hx with rfl | hx
          · exact has
          · exact h x hx hxt
        · refine ⟨a, by simp, ha, fun x hx hxt => ?_⟩
          rcases List.mem_cons.1 hx with rfl | hx
          · exact le_refl _
          · exact le_trans (h x hx hxt) has
    · rcases ih with h | ⟨s, hs, hst, h⟩
      · left
        intro x hx
        rcases List.mem_cons.1 hx with rfl | hx
        · exact ha
        · exact h x hx
      · right
        refine ⟨s, by simp [hs], hst, fun x hx hxt => ?_⟩
        rcases List.mem_cons.1 hx with rfl | hx
        · exact absurd hxt (not_le.2 ha)
        · exact h x hx hxt

variable [IsStrictOrderedRing K]

theorem ecdf_bounds (l : List K) (t : K) : 0 ≤ Spec.ecdf l t ∧ Spec.ecdf l t ≤ 1 := by
  unfold Spec.ecdf
  refine ⟨by positivity, ?_⟩
  apply div_le_one_of_le₀ _ (by positivity)
  exact_mod_cast List.countP_le_length

end Verif.KS
