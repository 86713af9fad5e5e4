import Verif.Model.Jaccard
import Mathlib.Data.Finset.Card
import Mathlib.Data.Finset.Basic
import Mathlib.Algebra.Order.Field.Basic
import Mathlib.Algebra.Order.Ring.Rat
import Mathlib.Algebra.Field.Rat
import Mathlib.Tactic.NormNum

/-!
# Jaccard similarity: theorems
-/

namespace Verif.Jaccard.Spec
variable {α K : Type} [DecidableEq α] [Field K]

/-- `|A ∩ B| / |A ∪ B|` of two finite sets, NaN if both are empty. -/
def jaccard (A B : Finset α) : FDiv K :=
  if (A ∪ B).card = 0 then .nan else .val (((A ∩ B).card : K) / ((A ∪ B).card : K))

end Verif.Jaccard.Spec

namespace Verif.Jaccard
open Verif.Jaccard.Spec
set_option linter.unusedSectionVars false
variable {α K : Type} [DecidableEq α] [Field K] [LinearOrder K] [IsStrictOrderedRing K]

theorem dedup_sets (a b : List α) :
    a.dedup.length = a.toFinset.card ∧
    ((a.dedup).filter fun x => decide (x ∈ b.dedup)).length = (a.toFinset ∩ b.toFinset).card := by
  constructor
  · rw [List.card_toFinset]
  · rw [← List.toFinset_card_of_nodup ((List.nodup_dedup a).filter _)]
    congr 1
    ext x
    simp

theorem inter_zero (A B : Finset α) (h : (A ∪ B).card = 0) : (A ∩ B).card = 0 := by
  rw [Finset.card_eq_zero] at h ⊢
  rw [Finset.union_eq_empty] at h
  rw [h.1, Finset.empty_inter]

/-- For columns without nulls the value is the quotient of the set sizes, NaN for two empty columns; `count_null` has
no effect.  (With nulls the claim fails, see below.) -/
theorem jaccard_col_sets_partial (s1 s2 : List (Bool × α)) (countNull : Bool) (h1 : ∀ p ∈ s1, p.1 = true)
    (h2 : ∀ p ∈ s2, p.1 = true) :
    jaccardCol (K := K) s1 s2 countNull = jaccard (s1.map Prod.snd).toFinset (s2.map Prod.snd).toFinset := by
  have hadj : (if countNull then ((s1.any fun p => !p.1) && (s2.any fun p => !p.1)).toNat else 0) = 0 := by
    have : (s1.any fun p => !p.1) = false := by
      rw [List.any_eq_false]
      intro p hp
      rw [h1 p hp]
      simp
    rw [this]
    simp
  have e1 := dedup_sets (s1.map Prod.snd) (s2.map Prod.snd)
  have e2 := (dedup_sets (s2.map Prod.snd) (s1.map Prod.snd)).1
  unfold jaccardCol
  simp only [hadj, e1, e2, Nat.add_zero]
  generalize (s1.map Prod.snd).toFinset = A
  generalize (s2.map Prod.snd).toFinset = B
  have hle : (A ∩ B).card ≤ A.card := Finset.card_le_card Finset.inter_subset_left
  have hu := Finset.card_union_add_card_inter A B
  have hd : absDiff (A.card + B.card) (A ∩ B).card = (A ∪ B).card := by unfold absDiff; omega
  rw [hd]
  unfold natDiv jaccard
  by_cases h : (A ∪ B).card = 0
  · rw [if_pos h, if_pos h, if_pos (inter_zero A B h)]
  · rw [if_neg h, if_neg h]

/-- The row function: null if a list is null, otherwise the quotient of the set sizes, null counted as one
element. -/
theorem jaccard_row_sets (a b : Option (List (Option α))) :
    jaccardRow (K := K) a b =
      match a, b with
      | some a, some b => some (jaccard a.toFinset b.toFinset)
      | _, _ => none := by
  unfold jaccardRow
  cases a with
  | none => rfl
  | some a =>
    cases b with
    | none => rfl
    | some b =>
      simp only []
      congr 1
      have e1 := dedup_sets a b
      have e2 := (dedup_sets b a).1
      have e3 : ((a.dedup).filter fun x => decide (x ∈ b.dedup)).length = (a.toFinset ∩ b.toFinset).card := by
        convert e1.2
      unfold jaccardList
      simp only [e1.1, e2]
      rw [e3]
      generalize a.toFinset = A
      generalize b.toFinset = B
      have hu := Finset.card_union_add_card_inter A B
      have hd : A.card + B.card - (A ∩ B).card = (A ∪ B).card := by omega
      rw [hd]
      unfold natDiv jaccard
      by_cases h : (A ∪ B).card = 0
      · rw [if_pos h, if_pos h, if_pos (inter_zero A B h)]
      · rw [if_neg h, if_neg h]

/-- The quotient is symmetric, lies in `[0, 1]`, is 1 exactly for equal sets and 0 exactly for disjoint ones. -/
theorem jaccard_laws (A B : Finset α) :
    jaccard (K := K) A B = jaccard B A ∧
    ((A ∪ B).Nonempty → ∃ v : K, jaccard A B = .val v ∧ 0 ≤ v ∧ v ≤ 1 ∧ (v = 1 ↔ A = B) ∧ (v = 0 ↔ Disjoint A B)) := by
  constructor
  · unfold jaccard
    rw [Finset.union_comm, Finset.inter_comm]
  · intro h
    have hc : 0 < (A ∪ B).card := h.card_pos
    have hc' : (0 : K) < ((A ∪ B).card : K) := by exact_mod_cast hc
    have hle : (A ∩ B).card ≤ (A ∪ B).card := Finset.card_le_card Finset.inter_subset_union
    refine ⟨((A ∩ B).card : K) / ((A ∪ B).card : K), ?_, ?_, ?_, ?_, ?_⟩
    · unfold jaccard
      rw [if_neg hc.ne']
    · exact div_nonneg (Nat.cast_nonneg _) hc'.le
    · rw [div_le_one hc']
      exact_mod_cast hle
    · rw [div_eq_one_iff_eq hc'.ne', Nat.cast_inj]
      constructor
      · intro he
        have := Finset.eq_of_subset_of_card_le (Finset.inter_subset_union (s := A) (t := B)) he.ge
        apply Finset.Subset.antisymm
        · intro x hx
          have : x ∈ A ∩ B := by rw [this]; exact Finset.mem_union_left _ hx
          exact (Finset.mem_inter.1 this).2
        · intro x hx
          have : x ∈ A ∩ B := by rw [this]; exact Finset.mem_union_right _ hx
          exact (Finset.mem_inter.1 this).1
      · rintro rfl
        rw [Finset.inter_self, Finset.union_self]
    · rw [div_eq_zero_iff, Nat.cast_eq_zero, Finset.card_eq_zero, Finset.disjoint_iff_inter_eq_empty]
      constructor
      · rintro (h | h)
        · exact h
        · exact absurd h hc'.ne'
      · exact Or.inl

/-- With `count_null`, two equal columns with a null do not have similarity 1: the result is 3 or infinite. -/
theorem jaccard_count_null_wrong (p : Nat) :
    jaccardCol (K := ℚ) [(true, 1), (false, p)] [(true, 1), (false, p)] true = if p = 1 then .inf else .val 3 := by
  by_cases h : p = 1
  · subst h; rw [if_pos rfl]; decide +kernel
  · rw [if_neg h]
    have h' : ¬ 1 = p := Ne.symm h
    have hd : ([1, p] : List Nat).dedup = [1, p] := by
      rw [List.dedup_eq_self]
      simp [h']
    unfold jaccardCol
    simp only [List.map_cons, List.map_nil, hd]
    simp [natDiv, absDiff]

/-- Without `count_null`, the stored value of a null slot still counts. -/
theorem jaccard_null_slot_counted :
    jaccardCol (K := ℚ) [(true, 1), (false, 0)] [(true, 1)] false = .val (1 / 2) := by decide +kernel

example : jaccardCol (K := ℚ) [(true, 1), (true, 2), (true, 1)] [(true, 2), (true, 3)] true = .val (1 / 3) := by
  decide +kernel

example : jaccardCol (K := ℚ) [(true, 1), (true, 2), (true, 1)] [(true, 2), (true, 3)] true =
    jaccard {1, 2} {2, 3} := by
  rw [jaccard_col_sets_partial _ _ _ (by decide) (by decide)]
  decide +kernel

example : jaccardRow (K := ℚ) (some [some 1, none]) (some [none, some 2]) = some (.val (1 / 3)) := by decide +kernel

example : ∃ v : ℚ, jaccard ({1, 2} : Finset Nat) {2, 3} = .val v ∧ v ≤ 1 :=
  have ⟨v, h1, _, h3, _⟩ := (jaccard_laws (K := ℚ) ({1, 2} : Finset Nat) {2, 3}).2 (by decide)
  ⟨v, h1, h3⟩

end Verif.Jaccard
