import Verif.Model.Combos
import Mathlib.Data.Nat.Choose.Basic
import Mathlib.Data.List.Lex
import Mathlib.Data.List.ReduceOption
import Mathlib.Data.List.Dedup

/-!
# Combinations and products: theorems
-/

namespace Verif.Combos.Spec

/-- An increasing list of `k` positions below `n`. -/
def Positions (n k : Nat) (p : List Nat) : Prop := p.Pairwise (· < ·) ∧ p.length = k ∧ ∀ i ∈ p, i < n

end Verif.Combos.Spec

namespace Verif.Combos
open Verif.Combos.Spec
variable {α : Type}

theorem combos_map {β : Type} (f : α → β) (k : Nat) (xs : List α) :
    combos k (xs.map f) = (combos k xs).map (List.map f) := by
  induction xs generalizing k with
  | nil => cases k <;> rfl
  | cons x xs ih =>
    cases k with
    | zero => rfl
    | succ k =>
      simp only [List.map_cons, combos, ih, List.map_append, List.map_map]
      rfl

theorem combos_length (k : Nat) (xs : List α) : (combos k xs).length = xs.length.choose k := by
  induction xs generalizing k with
  | nil => cases k <;> rfl
  | cons x xs ih =>
    cases k with
    | zero => simp [combos]
    | succ k => simp [combos, ih, Nat.choose_succ_succ]

theorem mem_combos (k : Nat) (xs l : List α) : l ∈ combos k xs ↔ l.Sublist xs ∧ l.length = k := by
  induction xs generalizing k l with
  | nil =>
    cases k with
    | zero => simp [combos]
    | succ k =>
      simp only [combos, List.not_mem_nil, List.sublist_nil, false_iff, not_and]
      rintro rfl
      simp
  | cons x xs ih =>
    cases k with
    | zero =>
      simp only [combos, List.mem_singleton]
      constructor
      · rintro rfl; simp
      · rintro ⟨_, h⟩; exact List.length_eq_zero_iff.1 h
    | succ k =>
      simp only [combos, List.mem_append, List.mem_map, ih]
      constructor
      · rintro (⟨m, ⟨h1, h2⟩, rfl⟩ | ⟨h1, h2⟩)
        · exact ⟨h1.cons_cons x, by simp [h2]⟩
        · exact ⟨h1.cons x, h2⟩
      · rintro ⟨h1, h2⟩
        cases h1 with
        | cons _ h => right; exact ⟨h, h2⟩
        | cons_cons _ h => left; exact ⟨_, ⟨h, by simpa using h2⟩, rfl⟩

theorem combos_lex (k : Nat) (xs : List Nat) (hx : xs.Pairwise (· < ·)) :
    (combos k xs).Pairwise (List.Lex (· < ·)) := by
  induction xs generalizing k with
  | nil => cases k <;> simp [combos]
  | cons x xs ih =>
    rw [List.pairwise_cons] at hx
    cases k with
    | zero => simp [combos]
    | succ k =>
      simp only [combos]
      rw [List.pairwise_append]
      refine ⟨?_, ih (k + 1) hx.2, ?_⟩
      · rw [List.pairwise_map]
        exact (ih k hx.2).imp fun h => List.Lex.cons h
      · intro a ha b hb
        obtain ⟨m, _, rfl⟩ := List.mem_map.1 ha
        rw [mem_combos] at hb
        cases b with
        | nil => simp at hb
        | cons y b =>
          apply List.Lex.rel
          exact hx.1 y (hb.1.subset (by simp))

theorem sublist_range_iff (n : Nat) (p : List Nat) : p.Sublist (List.range n) ↔ p.Pairwise (· < ·) ∧ ∀ i ∈ p, i < n := by
  constructor
  · intro h
    refine ⟨List.pairwise_lt_range.sublist h, fun i hi => List.mem_range.1 (h.subset hi)⟩
  · rintro ⟨h1, h2⟩
    apply List.sublist_of_subperm_of_pairwise (r := (· < ·))
    · exact List.subperm_of_subset (h1.imp fun h => Nat.ne_of_lt h) fun i hi => List.mem_range.2 (h2 i hi)
    · exact h1
    · exact List.pairwise_lt_range

/-- `combinations` lists the values at every increasing choice of `k` positions exactly once, in lexicographic
order of the positions, and there are `n choose k` of them; it fails exactly when there are fewer than `k`
values. -/
theorem combinations_complete (xs : List α) (k : Nat) :
    (xs.length < k → plCombinations xs k = none) ∧
    (k ≤ xs.length → ∃ ps : List (List Nat),
      ps.Pairwise (List.Lex (· < ·)) ∧ (∀ p, p ∈ ps ↔ Positions xs.length k p) ∧
      ps.length = xs.length.choose k ∧
      plCombinations xs k = some (ps.map fun p => p.filterMap fun i => xs[i]?)) := by
  constructor
  · intro h; simp [plCombinations, h]
  · intro h
    refine ⟨combos k (List.range xs.length), combos_lex k _ List.pairwise_lt_range, ?_, ?_, ?_⟩
    · intro p
      rw [mem_combos, sublist_range_iff]
      unfold Positions
      tauto
    · rw [combos_length, List.length_range]
    · unfold plCombinations
      rw [if_neg (by omega)]
      congr 1
      have hx : xs.map some = (List.range xs.length).map fun i => xs[i]? := by
        apply List.ext_getElem
        · simp
        · intro i h1 h2
          simp at h1
          simp [h1]
      have h1 : (combos k xs).map (List.map some) =
          (combos k (List.range xs.length)).map (List.map fun i => xs[i]?) := by
        rw [← combos_map, ← combos_map, hx]
      have h2 := congrArg (List.map List.reduceOption) h1
      rw [List.map_map, List.map_map] at h2
      have h3 : (List.reduceOption ∘ List.map (some : α → Option α)) = id := by
        funext l
        simp [List.reduceOption, List.filterMap_map]
      rw [h3, List.map_id] at h2
      rw [h2]
      apply List.map_congr_left
      intro p _
      simp [List.reduceOption, List.filterMap_map]

/-- With `unique` the source is the strictly increasing list of the distinct non-null values. -/
theorem combinations_unique [LinearOrder α] (source : List (Option α)) (k : Nat) :
    ∃ vals : List α, vals.Pairwise (· < ·) ∧ (∀ v, v ∈ vals ↔ some v ∈ source) ∧
      combinations source k true = plCombinations vals k ∧
      combinations source k false = plCombinations (source.filterMap id) k := by
  refine ⟨(source.dedup.reduceOption).insertionSort (· ≤ ·), ?_, ?_, rfl, rfl⟩
  · have hnd : (source.dedup.reduceOption).Nodup := by
      have : ∀ l : List (Option α), l.Nodup → l.reduceOption.Nodup := by
        intro l
        induction l with
        | nil => intro _; simp [List.reduceOption]
        | cons o l ih =>
          intro h
          rw [List.nodup_cons] at h
          cases o with
          | none => rw [List.reduceOption_cons_of_none]; exact ih h.2
          | some v =>
            rw [List.reduceOption_cons_of_some, List.nodup_cons]
            refine ⟨?_, ih h.2⟩
            rw [List.reduceOption_mem_iff]
            exact h.1
      exact this _ (List.nodup_dedup _)
    have h1 := List.pairwise_insertionSort (· ≤ ·) (source.dedup.reduceOption)
    have h2 : ((source.dedup.reduceOption).insertionSort (· ≤ ·)).Nodup :=
      (List.perm_insertionSort _ _).nodup_iff.2 hnd
    exact (h1.and h2).imp fun h => lt_of_le_of_ne h.1 h.2
  · intro v
    rw [(List.perm_insertionSort _ _).mem_iff, List.reduceOption_mem_iff, List.mem_dedup]

/-- The capacity computed for the builder is the number of combinations. -/
theorem count_combinations_choose (n k : Nat) : countCombinations n k = n.choose k := by
  have fold : ∀ m, m ≤ n → (List.range' 1 m).foldl (fun acc v => acc * (n - v + 1) / v) 1 = n.choose m := by
    intro m
    induction m with
    | zero => intro _; simp
    | succ m ih =>
      intro h
      rw [List.range'_concat, List.foldl_append, ih (by omega)]
      simp only [List.foldl_cons, List.foldl_nil, Nat.one_mul]
      have e : n - (1 + m) + 1 = n - m := by omega
      rw [e, ← Nat.choose_succ_right_eq, Nat.add_comm 1 m]
      exact Nat.mul_div_cancel _ (by omega)
  unfold countCombinations
  split
  · rw [Nat.choose_eq_zero_of_lt (by assumption)]
  · rename_i h
    rw [fold _ (by omega)]
    rcases Nat.le_total k (n - k) with h1 | h1
    · rw [Nat.min_eq_left h1]
    · rw [Nat.min_eq_right h1, Nat.choose_symm (by omega)]

/-- `product` lists every pair of non-null values once, the first column varying slowest. -/
theorem product_complete (a b : List (Option α)) :
    (product a b).length = (a.filterMap id).length * (b.filterMap id).length ∧
    ∀ i j x y, (a.filterMap id)[i]? = some x → (b.filterMap id)[j]? = some y →
      (product a b)[i * (b.filterMap id).length + j]? = some [x, y] := by
  have key : ∀ (a b : List α), (getProduct a b).length = a.length * b.length ∧
      ∀ i j x y, a[i]? = some x → b[j]? = some y → (getProduct a b)[i * b.length + j]? = some [x, y] := by
    intro a b
    induction a with
    | nil => simp [getProduct]
    | cons z a ih =>
      have hg : getProduct (z :: a) b = b.map (fun y => [z, y]) ++ getProduct a b := by simp [getProduct]
      rw [hg]
      constructor
      · rw [List.length_append, ih.1, List.length_map, List.length_cons, Nat.succ_mul, Nat.add_comm]
      · intro i j x y hx hy
        have hj : j < b.length := (List.getElem?_eq_some_iff.1 hy).1
        cases i with
        | zero =>
          simp only [List.getElem?_cons_zero, Option.some.injEq] at hx
          subst hx
          rw [Nat.zero_mul, Nat.zero_add, List.getElem?_append_left (by rw [List.length_map]; exact hj),
            List.getElem?_map, hy]
          rfl
        | succ i =>
          rw [List.getElem?_append_right (by rw [List.length_map, Nat.succ_mul]; omega), List.length_map]
          have : (i + 1) * b.length + j - b.length = i * b.length + j := by rw [Nat.succ_mul]; omega
          rw [this]
          exact ih.2 i j x y (by simpa using hx) hy
  exact key _ _

example : plCombinations ["a", "b", "c"] 2 = some [["a", "b"], ["a", "c"], ["b", "c"]] := by decide

example : ∃ ps : List (List Nat), ps.length = 10 ∧
    plCombinations [3, 1, 4, 1, 5] 3 = some (ps.map fun p => p.filterMap fun i => [3, 1, 4, 1, 5][i]?) :=
  have ⟨ps, _, _, h3, h4⟩ := (combinations_complete [3, 1, 4, 1, 5] 3).2 (by decide)
  ⟨ps, h3, h4⟩

example : combinations [some 3, none, some 1, some 3] 2 true = some [[1, 3]] := by decide

example : product [some 1, none, some 2] [some 4, some 5] = [[1, 4], [1, 5], [2, 4], [2, 5]] := by decide

example : countCombinations 10 7 = 120 := by rw [count_combinations_choose]; decide

end Verif.Combos
