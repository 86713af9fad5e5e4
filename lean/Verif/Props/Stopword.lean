import Verif.Model.Stopword
import Mathlib.Data.String.Basic
import Mathlib.Order.Compare

/-!
# Stopwords: theorems
-/

namespace Verif.Stopword
variable {α : Type}

theorem searchLoop_spec (cmp : Nat → Ordering) (n p : Nat) (hp : p < n) (heq : ∀ i < n, cmp i = .eq ↔ i = p)
    (hgt : ∀ i < n, cmp i = .gt ↔ p < i) (fuel size base : Nat) (hf : size ≤ fuel) (hs : 0 < size)
    (hb : base ≤ p) (hb2 : p < base + size) (hn : base + size ≤ n) : searchLoop cmp fuel size base = p := by
  induction fuel generalizing size base with
  | zero => omega
  | succ fuel ih =>
    unfold searchLoop
    by_cases h : 1 < size
    · rw [if_pos h]
      simp only []
      by_cases hc : cmp (base + size / 2) = .gt
      · rw [if_pos hc]
        have := (hgt _ (by omega)).1 hc
        exact ih _ _ (by omega) (by omega) hb (by omega) (by omega)
      · rw [if_neg hc]
        have : ¬ p < base + size / 2 := fun hx => hc ((hgt _ (by omega)).2 hx)
        exact ih _ _ (by omega) (by omega) (by omega) (by omega) (by omega)
    · rw [if_neg h]
      omega

/-- Binary search in a strictly increasing list finds exactly its members. -/
theorem binary_search_mem [LinearOrder α] (xs : List α) (hs : xs.Pairwise (· < ·)) (x : α) :
    binarySearchOk compare xs x = true ↔ x ∈ xs := by
  unfold binarySearchOk
  constructor
  · intro h
    split at h
    · simp at h
    · simp only [decide_eq_true_eq] at h
      split at h
      · rename_i y hy
        have := compare_eq_iff_eq.1 h
        subst this
        exact List.mem_of_getElem? hy
      · simp at h
  · intro h
    obtain ⟨p, hp, rfl⟩ := List.getElem_of_mem h
    rw [if_neg (by omega)]
    simp only [decide_eq_true_eq]
    have hmono : ∀ i j (hi : i < xs.length) (hj : j < xs.length), i < j → xs[i] < xs[j] := fun i j hi hj hij =>
      List.pairwise_iff_getElem.1 hs i j hi hj hij
    rw [searchLoop_spec _ xs.length p hp]
    · simp [List.getElem?_eq_getElem hp]
    · intro i hi
      simp only [List.getElem?_eq_getElem hi, compare_eq_iff_eq]
      constructor
      · intro he
        rcases Nat.lt_trichotomy i p with h1 | h1 | h1
        · exact absurd he (hmono i p hi hp h1).ne
        · exact h1
        · exact absurd he (hmono p i hp hi h1).ne'
      · rintro rfl; rfl
    · intro i hi
      simp only [List.getElem?_eq_getElem hi, compare_gt_iff_gt]
      constructor
      · intro he
        rcases Nat.lt_trichotomy i p with h1 | h1 | h1
        · exact absurd he (not_lt.2 (hmono i p hi hp h1).le)
        · subst h1; exact absurd he (lt_irrefl _)
        · exact h1
      · intro h1; exact hmono p i hp hi h1
    · exact Nat.le_refl _
    · omega
    · omega
    · omega
    · omega

/-- The table is strictly increasing: a computation over the whole table. -/
theorem table_sorted : enStopwords.Pairwise (· < ·) := by decide +kernel

/-- `is_stopword` is true exactly for the members of the table. -/
theorem is_stopword_iff (s : String) : isStopword s = true ↔ s ∈ enStopwords :=
  binary_search_mem enStopwords table_sorted s

/-- On a column: row by row, null exactly where the input is null. -/
theorem is_stopword_col (col : List (Option String)) (i : Nat) :
    (isStopwordCol col)[i]? = col[i]?.map fun o => o.map fun s => decide (s ∈ enStopwords) := by
  have e : isStopword = fun s => decide (s ∈ enStopwords) := by
    funext s
    have h := is_stopword_iff s
    rw [Bool.eq_iff_iff, h, decide_eq_true_iff]
  unfold isStopwordCol
  rw [List.getElem?_map, e]

/-- The stemmer expression gives the empty string for numbers and, if asked, for stopwords; otherwise the stem. -/
theorem snowball_cases (isNumber : String → Bool) (stem : String → String) (s : String) (b : Bool) :
    (isNumber s = true → snowball isNumber stem s b = "") ∧
    (s ∈ enStopwords → snowball isNumber stem s true = "") ∧
    (isNumber s = false → s ∉ enStopwords ∨ b = false → snowball isNumber stem s b = stem s) := by
  refine ⟨fun h => by simp [snowball, h], fun h => by simp [snowball, (is_stopword_iff s).2 h], fun h h2 => ?_⟩
  have : (b && isStopword s) = false := by
    rcases h2 with h2 | h2
    · have : isStopword s = false := by
        cases hc : isStopword s
        · rfl
        · exact absurd ((is_stopword_iff s).1 hc) h2
      rw [this, Bool.and_false]
    · rw [h2, Bool.false_and]
  unfold snowball
  rw [h, this]
  rfl

example : isStopword "because" = true ∧ isStopword "polars" = false := by
  constructor
  · exact (is_stopword_iff _).2 (by decide +kernel)
  · have : "polars" ∉ enStopwords := by decide +kernel
    cases h : isStopword "polars"
    · rfl
    · exact absurd ((is_stopword_iff _).1 h) this

example : enStopwords.length = 178 := by decide +kernel

example : binarySearchOk compare [1, 3, 5, 7] 5 = true := (binary_search_mem _ (by decide) _).2 (by decide)

example : snowball (fun s => s == "12") (fun s => s ++ "!") "because" true = "" :=
  (snowball_cases _ _ "because" true).2.1 (by decide +kernel)

end Verif.Stopword
