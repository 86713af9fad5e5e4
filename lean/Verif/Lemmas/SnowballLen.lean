import Verif.Lemmas.SnowballMain

/-!
# Lengths in the Porter2 algorithm, and the grammar of numbers
-/

namespace Verif.Snowball

open Verif.Porter2

theorem len_step0 (w : List Char) : (step0 w).length ≤ w.length := by
  unfold step0
  split
  · next u a h =>
    obtain ⟨s, h1, -⟩ := longestSuffix_mem h
    rw [List.nil_append] at h1
    rw [h1, List.length_append]
    omega
  · exact le_refl _

/-- The replacement is no longer than the key. -/
theorem len_split {α : Type} {tbl : List (List Char × α)} {w u : List Char} {a : α} (f : α → Nat)
    (hf : (tbl.all fun p => decide (f p.2 ≤ p.1.length)) = true) (h : longestSuffix tbl [] w = some (u, a)) :
    u.length + f a ≤ w.length := by
  obtain ⟨s, h1, h2⟩ := longestSuffix_mem h
  rw [List.nil_append] at h1
  have := of_decide_eq_true (List.all_eq_true.mp hf _ h2)
  rw [h1, List.length_append]
  simp only at this
  omega

/-- How many letters step 1a may put in place of the suffix. -/
def room1a : Rule1a → Nat
  | .toSs => 2
  | .toI => 2
  | .del => 0
  | .keep => 0

theorem len_step1a (w : List Char) : (step1a w).length ≤ w.length := by
  unfold step1a
  split
  · exact le_refl _
  · next u h =>
    have := len_split room1a (by decide +kernel) h
    simpa [room1a] using this
  · next u h =>
    have := len_split room1a (by decide +kernel) h
    simp only [room1a] at this
    split <;> simp <;> omega
  · next u h =>
    have := len_split room1a (by decide +kernel) h
    simp only [room1a] at this
    split <;> omega
  · exact le_refl _

theorem len_fix1b (p : Nat) (u : List Char) : (fix1b p u).length ≤ u.length + 1 := by
  unfold fix1b
  split
  · simp
  split
  · rw [List.length_dropLast]; omega
  split
  · simp
  · omega

theorem len_step1b (p : Nat) (w : List Char) : (step1b p w).length ≤ w.length := by
  unfold step1b
  split
  · exact le_refl _
  · next u h =>
    have := len_split (fun _ => 2) (by decide +kernel) h
    split
    · simpa using this
    · exact le_refl _
  · next u h =>
    have := len_split (fun _ => 2) (by decide +kernel) h
    have := len_fix1b p u
    split <;> omega

theorem len_step1c (w : List Char) : (step1c w).length ≤ w.length := by
  unfold step1c
  split
  · next c d x r h =>
    have := congrArg List.length h
    simp only [List.length_reverse, List.length_cons] at this
    split
    · simp; omega
    · exact le_refl _
  · exact le_refl _

theorem len_applyStep {tbl : List (List Char × Rule)}
    (hf : (tbl.all fun p => decide (p.2.repl.length ≤ p.1.length)) = true) (p q : Nat) (w : List Char) :
    (applyStep tbl p q w).length ≤ w.length := by
  unfold applyStep
  split
  · exact le_refl _
  · next u r h =>
    have := len_split (fun r : Rule => r.repl.length) hf h
    split
    · simpa using this
    · exact le_refl _

theorem len_step5 (p q : Nat) (w : List Char) : (step5 p q w).length ≤ w.length := by
  unfold step5
  have : w.dropLast.length ≤ w.length := by rw [List.length_dropLast]; omega
  split
  · split
    · exact this
    · exact le_refl _
  · split
    · split
      · exact this
      · exact le_refl _
    · exact le_refl _

theorem len_steps (p q : Nat) (w : List Char) : (steps p q w).length ≤ w.length :=
  (len_step5 _ _ _).trans <| (len_applyStep (by decide +kernel) _ _ _).trans <|
    (len_applyStep (by decide +kernel) _ _ _).trans <| (len_applyStep (by decide +kernel) _ _ _).trans <|
    (len_step1c _).trans (len_step1b _ _)

theorem len_stemMarked (w : List Char) : (stemMarked w).length ≤ w.length := by
  unfold stemMarked
  have := (len_step1a (step0 w)).trans (len_step0 w)
  simp only
  split
  · exact this
  · exact (len_steps _ _ _).trans this

theorem len_markAfter (w : List Char) : ∀ b, (markAfter b w).length = w.length := by
  induction w with
  | nil => intro b; rfl
  | cons c w ih =>
    intro b
    rw [markAfter]
    split <;> simp [ih]

theorem len_porter2 (w : List Char) : (porter2 w).length ≤ w.length := by
  unfold porter2
  cases h : exceptions1.lookup w with
  | some t =>
    have := (by decide +kernel : ∀ p ∈ exceptions1, p.2.length ≤ p.1.length) _ (lookup_mem h)
    simpa using this
  | none =>
    simp only
    split
    · exact le_refl _
    · have hv : (dropApostrophe w).length ≤ w.length := by
        unfold dropApostrophe
        split
        · rw [List.length_tail]; omega
        · exact le_refl _
      split
      · exact (len_stemMarked _).trans hv
      · refine le_trans ?_ hv
        rw [unmark, List.length_map]
        refine (len_stemMarked _).trans ?_
        rw [markY, len_markAfter]

end Verif.Snowball
