import Verif.Model.StrMisc
import Verif.Props.Parallel
import Mathlib.Data.List.TakeWhile

/-!
# Nearest string, string distance dispatch and string cleaning: theorems
-/

namespace Verif.StrMisc.Spec

/-- `ws` is the list of words of `s`: `s` is white space, word, white space, ..., each word is non-empty, free of
white space and followed by white space or the end. -/
inductive Words (ws : Char → Bool) : List Char → List (List Char) → Prop
  | done (s) (h : ∀ c ∈ s, ws c = true) : Words ws s []
  | word (pre w rest : List Char) (l : List (List Char)) (hpre : ∀ c ∈ pre, ws c = true) (hw : w ≠ [])
      (hw2 : ∀ c ∈ w, ws c = false) (hr : ∀ c, rest.head? = some c → ws c = true) (h : Words ws rest l) :
      Words ws (pre ++ w ++ rest) (w :: l)

end Verif.StrMisc.Spec

namespace Verif.StrMisc
open Verif.StrMisc.Spec

section nearest
variable {σ : Type}

/-- The state of the loop: nothing found yet and the cut-off is the threshold, or the best distance is the
cut-off. -/
theorem nearestLoop_spec (dist : σ → Option Nat) (ws : List σ) (cutoff : Nat) (best : Option Nat) (found : Option σ)
    (hst : (best = none ∧ found = none) ∨ (best = some cutoff ∧ 0 < cutoff ∧ ∃ w, found = some w)) :
    (∀ w, nearestLoop dist ws cutoff best found = some w →
      (found = some w ∧ ∀ w' ∈ ws, ∀ d, dist w' = some d → cutoff ≤ d ∧ (best = none → cutoff < d)) ∨
      ∃ d a b, ws = a ++ w :: b ∧ dist w = some d ∧ d ≤ cutoff ∧ (best = some cutoff → d < cutoff) ∧
        (∀ w' ∈ a, ∀ d', dist w' = some d' → d < d') ∧ (∀ w' ∈ ws, ∀ d', dist w' = some d' → d ≤ d')) ∧
    (nearestLoop dist ws cutoff best found = none →
      found = none ∧ ∀ w' ∈ ws, ∀ d, dist w' = some d → cutoff < d) := by
  induction ws generalizing cutoff best found with
  | nil =>
    constructor
    · intro w h
      left
      exact ⟨h, by simp⟩
    · intro h
      exact ⟨h, by simp⟩
  | cons x ws ih =>
    rw [nearestLoop]
    by_cases hx : ∃ d, dist x = some d ∧ d ≤ cutoff
    · obtain ⟨d, hd, hdc⟩ := hx
      have e : distWithCutoff dist x cutoff = some d := by simp [distWithCutoff, hd, hdc]
      rw [e]
      simp only []
      by_cases h0 : d = 0
      · rw [if_pos h0]
        constructor
        · intro w h
          cases h
          right
          refine ⟨d, [], ws, rfl, hd, hdc, ?_, by simp, fun w' _ d' _ => by omega⟩
          intro hb
          rcases hst with hs | hs
          · rw [hs.1] at hb; simp at hb
          · omega
        · intro h; simp at h
      · rw [if_neg h0]
        by_cases hb : best = none ∨ d < cutoff
        · have hcond : belowBest best d = true := by
            rcases hst with hs | hs
            · rw [hs.1]; rfl
            · rw [hs.1, belowBest]
              simp only [decide_eq_true_eq]
              rcases hb with hb | hb
              · rw [hs.1] at hb; simp at hb
              · exact hb
          rw [if_pos hcond]
          have ih' := ih d (some d) (some x) (Or.inr ⟨rfl, by omega, x, rfl⟩)
          constructor
          · intro w h
            right
            rcases ih'.1 w h with ⟨h1, h2⟩ | ⟨d', a, b, h1, h2, h3, h4, h5, h6⟩
            · cases h1
              refine ⟨d, [], ws, rfl, hd, hdc, ?_, by simp, ?_⟩
              · intro hbc
                rcases hb with hb | hb
                · rw [hb] at hbc; simp at hbc
                · exact hb
              · intro w' hw' d' hd'
                rcases List.mem_cons.1 hw' with rfl | hw'
                · rw [hd] at hd'; cases hd'; exact Nat.le_refl _
                · exact (h2 w' hw' d' hd').1
            · have hlt := h4 rfl
              refine ⟨d', x :: a, b, by rw [h1]; rfl, h2, by omega, fun _ => by omega, ?_, ?_⟩
              · intro w' hw' d'' hd''
                rcases List.mem_cons.1 hw' with rfl | hw'
                · rw [hd] at hd''; cases hd''; exact hlt
                · exact h5 w' hw' d'' hd''
              · intro w' hw' d'' hd''
                rcases List.mem_cons.1 hw' with rfl | hw'
                · rw [hd] at hd''; cases hd''; omega
                · exact h6 w' hw' d'' hd''
          · intro h
            have := (ih'.2 h).1
            simp at this
        · push Not at hb
          have hs : best = some cutoff ∧ 0 < cutoff ∧ ∃ w, found = some w := by
            rcases hst with hs | hs
            · exact absurd hs.1 hb.1
            · exact hs
          have hdeq : d = cutoff := by omega
          have hcond : ¬ belowBest best d = true := by
            rw [hs.1, belowBest]
            simp only [decide_eq_true_eq]
            omega
          rw [if_neg hcond]
          have ih' := ih cutoff best found hst
          constructor
          · intro w h
            rcases ih'.1 w h with ⟨h1, h2⟩ | ⟨d', a, b, h1, h2, h3, h4, h5, h6⟩
            · left
              refine ⟨h1, ?_⟩
              intro w' hw' d' hd'
              rcases List.mem_cons.1 hw' with rfl | hw'
              · rw [hd] at hd'; cases hd'
                exact ⟨by omega, fun hn => absurd hn hb.1⟩
              · exact h2 w' hw' d' hd'
            · right
              have hlt := h4 hs.1
              refine ⟨d', x :: a, b, by rw [h1]; rfl, h2, h3, h4, ?_, ?_⟩
              · intro w' hw' d'' hd''
                rcases List.mem_cons.1 hw' with rfl | hw'
                · rw [hd] at hd''; cases hd''; omega
                · exact h5 w' hw' d'' hd''
              · intro w' hw' d'' hd''
                rcases List.mem_cons.1 hw' with rfl | hw'
                · rw [hd] at hd''; cases hd''; omega
                · exact h6 w' hw' d'' hd''
          · intro h
            obtain ⟨w, hw⟩ := hs.2.2
            rw [(ih'.2 h).1] at hw
            simp at hw
    · have e : distWithCutoff dist x cutoff = none := by
        unfold distWithCutoff
        cases hd : dist x with
        | none => rfl
        | some d =>
          simp only []
          rw [if_neg]
          intro hc
          exact hx ⟨d, hd, hc⟩
      rw [e]
      simp only []
      have hgt : ∀ d, dist x = some d → cutoff < d := by
        intro d hd
        by_contra hc
        exact hx ⟨d, hd, by omega⟩
      have ih' := ih cutoff best found hst
      constructor
      · intro w h
        rcases ih'.1 w h with ⟨h1, h2⟩ | ⟨d', a, b, h1, h2, h3, h4, h5, h6⟩
        · left
          refine ⟨h1, ?_⟩
          intro w' hw' d' hd'
          rcases List.mem_cons.1 hw' with rfl | hw'
          · have := hgt d' hd'
            exact ⟨by omega, fun _ => this⟩
          · exact h2 w' hw' d' hd'
        · right
          refine ⟨d', x :: a, b, by rw [h1]; rfl, h2, h3, h4, ?_, ?_⟩
          · intro w' hw' d'' hd''
            rcases List.mem_cons.1 hw' with rfl | hw'
            · have := hgt d'' hd''; omega
            · exact h5 w' hw' d'' hd''
          · intro w' hw' d'' hd''
            rcases List.mem_cons.1 hw' with rfl | hw'
            · have := hgt d'' hd''; omega
            · exact h6 w' hw' d'' hd''
      · intro h
        obtain ⟨h1, h2⟩ := ih'.2 h
        refine ⟨h1, ?_⟩
        intro w' hw' d' hd'
        rcases List.mem_cons.1 hw' with rfl | hw'
        · exact hgt d' hd'
        · exact h2 w' hw' d' hd'

/-- The nearest string is the first word of the column with the smallest distance, provided that distance is within
the threshold; the answer is null exactly when no word is within the threshold.  (Partial: for a column without
nulls, see `nearest_null_slot`.) -/
theorem nearest_first_min_partial (dist : σ → Option Nat) (col : List (Bool × σ)) (cutoff : Nat)
    (hn : ∀ p ∈ col, p.1 = true) :
    (∀ w, nearestStr dist col cutoff = some w → ∃ d a b, col = a ++ (true, w) :: b ∧ dist w = some d ∧ d ≤ cutoff ∧
      (∀ p ∈ a, ∀ d', dist p.2 = some d' → d < d') ∧ ∀ p ∈ col, ∀ d', dist p.2 = some d' → d ≤ d') ∧
    (nearestStr dist col cutoff = none ↔ ∀ p ∈ col, ∀ d, dist p.2 = some d → cutoff < d) := by
  have h := nearestLoop_spec dist (col.map Prod.snd) cutoff none none (Or.inl ⟨rfl, rfl⟩)
  have hfwd : ∀ w, nearestStr dist col cutoff = some w → ∃ d a b, col = a ++ (true, w) :: b ∧ dist w = some d ∧
      d ≤ cutoff ∧ (∀ p ∈ a, ∀ d', dist p.2 = some d' → d < d') ∧ ∀ p ∈ col, ∀ d', dist p.2 = some d' → d ≤ d' := by
    intro w hw
    rcases h.1 w hw with ⟨h1, _⟩ | ⟨d, a, b, h1, h2, h3, _, h5, h6⟩
    · simp at h1
    · obtain ⟨c1, c2, he, e1, e2⟩ := List.map_eq_append_iff.1 h1
      obtain ⟨q, c3, he2, e3, e4⟩ := List.map_eq_cons_iff.1 e2
      obtain ⟨v, y⟩ := q
      simp only at e3
      subst e3
      have hv : v = true := hn (v, y) (by rw [he, he2]; simp)
      subst hv
      refine ⟨d, c1, c3, by rw [he, he2], h2, h3, ?_, ?_⟩
      · intro p hp d' hd'
        exact h5 p.2 (by rw [← e1]; exact List.mem_map_of_mem hp) d' hd'
      · intro p hp d' hd'
        exact h6 p.2 (List.mem_map_of_mem hp) d' hd'
  refine ⟨hfwd, ?_⟩
  constructor
  · intro hnone p hp d hd
    exact (h.2 hnone).2 p.2 (List.mem_map_of_mem hp) d hd
  · intro hall
    cases hr : nearestStr dist col cutoff with
    | none => rfl
    | some w =>
      obtain ⟨d, a, b, h1, h2, h3, _⟩ := hfwd w hr
      have := hall (true, w) (by rw [h1]; simp) d h2
      omega

/-- Null slots take part: the stored (usually empty) string of a null row can be the answer although the column has
no non-null value. -/
theorem nearest_null_slot (dist : σ → Option Nat) (w : σ) (d cutoff : Nat) (h : dist w = some d) (hc : d ≤ cutoff) :
    nearestStr dist [(false, w)] cutoff = some w := by
  simp [nearestStr, nearestLoop, distWithCutoff, h, hc, belowBest]

example : nearestStr (fun w : List Char => some (if w = ['a'] then 0 else max 1 w.length)) [(false, [])] 1 = some [] :=
  nearest_null_slot _ _ 1 1 (by decide) (by decide)

example : nearestStr (fun w : Nat => some (if w < 10 then 10 - w else w - 10)) [(true, 3), (true, 12), (true, 8)] 5 = some 12 := by
  decide

example : ∃ d a b, [(true, 3), (true, 12), (true, 8)] = a ++ (true, 12) :: b ∧ some ((12 : Nat) - 10) = some d ∧ d ≤ 5 :=
  have ⟨d, a, b, h1, h2, h3, _⟩ := (nearest_first_min_partial (fun w : Nat => some (if w < 10 then 10 - w else w - 10))
    [(true, 3), (true, 12), (true, 8)] 5 (by decide)).1 12 (by decide)
  ⟨d, a, b, h1, h2, h3⟩

end nearest

section dispatch
variable {σ β : Type}

/-- Row by row: in the scalar branch row `i` is the function of the scalar and row `i`; in the column branch the
function of both rows `i`; null if an operand is null.  This holds for every number of workers and every completion
order. -/
theorem pairwise_rows (batched binary : σ → σ → Option β) (workers : Option (Nat × List Nat))
    (hw : ∀ n order, workers = some (n, order) → 0 < n ∧ ∀ i < n, i ∈ order) (ca1 ca2 : List (Option σ)) :
    (∀ r, ca2 = [some r] → ∃ col : List (Option β), pairwise batched binary workers ca1 ca2 = .ok col ∧ col.length = ca1.length ∧
      ∀ i : Nat, (ca1[i]? = some none → col[i]? = some none) ∧
        (∀ s, ca1[i]? = some (some s) → col[i]? = some (batched r s))) ∧
    (ca2.length ≠ 1 → ca1.length = ca2.length → ∃ col : List (Option β), pairwise batched binary workers ca1 ca2 = .ok col ∧
      col.length = ca1.length ∧
      ∀ i : Nat, (ca1[i]? = some none → col[i]? = some none) ∧ (ca2[i]? = some none → col[i]? = some none) ∧
        (∀ s t, ca1[i]? = some (some s) → ca2[i]? = some (some t) → col[i]? = some (binary s t))) ∧
    (ca2.length ≠ 1 → ca1.length ≠ ca2.length → pairwise batched binary workers ca1 ca2 = .shapeMismatch) ∧
    (ca2 = [none] → pairwise batched binary workers ca1 ca2 = .panic) := by
  have hpar : ∀ {γ δ : Type} (f : γ → δ) (rows : List γ) n order, workers = some (n, order) →
      parMap f rows n order = some (rows.map f) := fun f rows n order h =>
    parallel_eq_sequential f rows n (hw n order h).1 order (hw n order h).2
  have hne : ca2.length ≠ 1 → pairwise batched binary workers ca1 ca2 =
      if ca1.length = ca2.length then .ok ((ca1.zip ca2).map (binRow binary)) else .shapeMismatch := by
    intro h
    unfold pairwise
    split
    · simp at h
    · split
      · cases hwk : workers with
        | none => rfl
        | some p => obtain ⟨n, order⟩ := p; simp only []; rw [hpar _ _ n order hwk]
      · rfl
  refine ⟨?_, ?_, ?_, ?_⟩
  · rintro r rfl
    refine ⟨ca1.map fun s => s.bind (batched r), ?_, by simp, ?_⟩
    · unfold pairwise
      cases hwk : workers with
      | none => rfl
      | some p => obtain ⟨n, order⟩ := p; simp only []; rw [hpar _ _ n order hwk]
    · intro i
      rw [List.getElem?_map]
      exact ⟨fun h => by rw [h]; rfl, fun s h => by rw [h]; rfl⟩
  · intro h1 h2
    refine ⟨(ca1.zip ca2).map (binRow binary), by rw [hne h1, if_pos h2], ?_, ?_⟩
    · rw [List.length_map, List.length_zip]; omega
    · intro i
      rw [List.getElem?_map, List.zip, List.getElem?_zipWith]
      refine ⟨?_, ?_, ?_⟩
      · intro h
        have hi : i < ca2.length := by
          have := (List.getElem?_eq_some_iff.1 h).1; omega
        rw [h, List.getElem?_eq_getElem hi]
        rfl
      · intro h
        have hi : i < ca1.length := by
          have := (List.getElem?_eq_some_iff.1 h).1; omega
        rw [h, List.getElem?_eq_getElem hi]
        cases ca1[i] <;> rfl
      · intro s t hs ht
        rw [hs, ht]
        rfl
  · intro h1 h2
    rw [hne h1, if_neg h2]
  · rintro rfl
    rfl

/-- A scalar and a column repeating it (of length other than one) give the same result if the metric is
symmetric. -/
theorem pairwise_scalar_repeat (d : σ → σ → Option β) (hsym : ∀ x y, d x y = d y x)
    (workers workers' : Option (Nat × List Nat))
    (hw : ∀ n order, workers = some (n, order) → 0 < n ∧ ∀ i < n, i ∈ order)
    (hw' : ∀ n order, workers' = some (n, order) → 0 < n ∧ ∀ i < n, i ∈ order)
    (ca1 : List (Option σ)) (r : σ) :
    pairwise d d workers ca1 [some r] = pairwise d d workers' ca1 (List.replicate ca1.length (some r)) := by
  obtain ⟨col, h1, h2, h3⟩ := (pairwise_rows d d workers hw ca1 [some r]).1 r rfl
  by_cases hl : ca1.length = 1
  · obtain ⟨col', h1', h2', h3'⟩ := (pairwise_rows d d workers' hw' ca1 [some r]).1 r rfl
    rw [hl]
    change _ = pairwise d d workers' ca1 [some r]
    rw [h1, h1']
    congr 1
    apply List.ext_getElem?
    intro i
    by_cases hi : i < ca1.length
    · cases hc : ca1[i] with
      | none => rw [(h3 i).1 (by rw [List.getElem?_eq_getElem hi, hc]), (h3' i).1 (by rw [List.getElem?_eq_getElem hi, hc])]
      | some s => rw [(h3 i).2 s (by rw [List.getElem?_eq_getElem hi, hc]), (h3' i).2 s (by rw [List.getElem?_eq_getElem hi, hc])]
    · rw [List.getElem?_eq_none (by omega), List.getElem?_eq_none (by omega)]
  · obtain ⟨col', h1', h2', h3'⟩ := (pairwise_rows d d workers' hw' ca1 (List.replicate ca1.length (some r))).2.1
      (by rw [List.length_replicate]; exact hl) (by rw [List.length_replicate])
    rw [h1, h1']
    congr 1
    apply List.ext_getElem?
    intro i
    by_cases hi : i < ca1.length
    · have hrep : (List.replicate ca1.length (some r))[i]? = some (some r) := by simp [hi]
      cases hc : ca1[i] with
      | none => rw [(h3 i).1 (by rw [List.getElem?_eq_getElem hi, hc]), (h3' i).1 (by rw [List.getElem?_eq_getElem hi, hc])]
      | some s =>
        rw [(h3 i).2 s (by rw [List.getElem?_eq_getElem hi, hc]),
          (h3' i).2.2 s r (by rw [List.getElem?_eq_getElem hi, hc]) hrep, hsym]
    · rw [List.getElem?_eq_none (by omega), List.getElem?_eq_none (by omega)]

/-- A single null as second operand panics instead of giving nulls, while a column of nulls gives nulls. -/
theorem pairwise_null_scalar (d : σ → σ → Option β) (s : σ) :
    pairwise d d none [some s, some s] [none] = .panic ∧
    pairwise d d none [some s, some s] [none, none] = .ok [none, none] := ⟨rfl, rfl⟩

/-- The first operand is not broadcast. -/
theorem pairwise_first_not_scalar (d : σ → σ → Option β) (s : σ) :
    pairwise d d none [some s] [some s, some s] = .shapeMismatch := rfl

example : pairwise (fun r s : Nat => some (r + 2 * s)) (fun s r => some (r + 2 * s)) (some (2, [1, 0]))
    [some 1, none, some 3] [some 10] = .ok [some 12, none, some 16] := by decide

example : ∃ col, pairwise (fun r s : Nat => some (r + 2 * s)) (fun s r => some (r + 2 * s)) (some (2, [1, 0]))
    [some 1, none, some 3] [some 10] = .ok col ∧ col.length = 3 :=
  have ⟨c, h1, h2, _⟩ := (pairwise_rows (fun r s : Nat => some (r + 2 * s)) (fun s r => some (r + 2 * s)) (some (2, [1, 0]))
    (by intro n o h; cases h; decide) [some 1, none, some 3] [some 10]).1 10 rfl
  ⟨c, h1, h2⟩

example : pairwise (fun r s : Nat => some (r + s)) (fun s r => some (s + r)) none [some 1, none] [some 10] =
    pairwise (fun r s : Nat => some (r + s)) (fun s r => some (s + r)) none [some 1, none] [some 10, some 10] :=
  pairwise_scalar_repeat (fun r s : Nat => some (r + s)) (fun x y => by rw [Nat.add_comm]) none none
    (by intro _ _ h; cases h) (by intro _ _ h; cases h) [some 1, none] 10

end dispatch

section cleaning
variable (ws : Char → Bool)

theorem splitWhitespace_pre (pre rest : List Char) (h : ∀ c ∈ pre, ws c = true) :
    splitWhitespace ws (pre ++ rest) = splitWhitespace ws rest := by
  induction pre with
  | nil => rfl
  | cons c pre ih =>
    have hc := h c (by simp)
    have := List.splitOnP_append_cons_of_forall_mem (p := ws) (xs := []) (by simp) c (by simpa using hc) (pre ++ rest)
    simp only [List.nil_append] at this
    rw [List.cons_append]
    unfold splitWhitespace at ih ⊢
    rw [this, List.filter_cons_of_neg (by simp), ih fun x hx => h x (by simp [hx])]

theorem splitWhitespace_words (s : List Char) (l : List (List Char)) (h : Words ws s l) :
    splitWhitespace ws s = l := by
  induction h with
  | done s h =>
    have := splitWhitespace_pre ws s [] h
    rw [List.append_nil] at this
    rw [this]
    rfl
  | word pre w rest l hpre hw hw2 hr h ih =>
    rw [List.append_assoc, splitWhitespace_pre ws pre _ hpre]
    cases rest with
    | nil =>
      rw [List.append_nil]
      have hl : l = [] := by rw [← ih]; rfl
      unfold splitWhitespace
      rw [List.splitOnP_eq_singleton (by simpa using hw2), List.filter_cons_of_pos (by simpa using hw), hl]
      rfl
    | cons c rest =>
      have hc := hr c rfl
      have hrest : splitWhitespace ws (c :: rest) = splitWhitespace ws rest :=
        splitWhitespace_pre ws [c] rest (by simpa using hc)
      rw [hrest] at ih
      unfold splitWhitespace at ih ⊢
      rw [List.splitOnP_append_cons_of_forall_mem (p := ws) (by simpa using hw2) c (by simpa using hc),
        List.filter_cons_of_pos (by simpa using hw), ih]

theorem words_exist (s : List Char) : ∃ l, Words ws s l := by
  induction hn : s.length using Nat.strong_induction_on generalizing s with
  | _ n ih =>
    by_cases h : ∀ c ∈ s, ws c = true
    · exact ⟨[], .done s h⟩
    · have hd : s = s.takeWhile ws ++ s.dropWhile ws := (List.takeWhile_append_dropWhile).symm
      set t := s.dropWhile ws with ht
      have ht2 : t = t.takeWhile (fun c => !ws c) ++ t.dropWhile (fun c => !ws c) :=
        (List.takeWhile_append_dropWhile).symm
      have hne : t ≠ [] := by
        intro hc
        rw [ht, List.dropWhile_eq_nil_iff] at hc
        exact h hc
      obtain ⟨x, t', hx⟩ := List.exists_cons_of_ne_nil hne
      have hxw : ws x = false := by
        have h0 : s.dropWhile ws = x :: t' := by rw [← ht, hx]
        have := List.head_dropWhile_not ws (l := s) (by rw [h0]; simp)
        simp only [h0, List.head_cons] at this
        exact this
      have hwne : t.takeWhile (fun c => !ws c) ≠ [] := by
        rw [hx, List.takeWhile_cons_of_pos (by simp [hxw])]
        simp
      have hlen : (t.dropWhile fun c => !ws c).length < n := by
        have h1 := congrArg List.length hd
        have h2 := congrArg List.length ht2
        rw [List.length_append] at h1 h2
        have := List.length_pos_iff.2 hwne
        omega
      obtain ⟨l, hl⟩ := ih _ hlen (t.dropWhile fun c => !ws c) rfl
      refine ⟨t.takeWhile (fun c => !ws c) :: l, ?_⟩
      have := Words.word (ws := ws) (s.takeWhile ws) (t.takeWhile fun c => !ws c) (t.dropWhile fun c => !ws c) l
        (fun c hc => List.mem_takeWhile_imp hc) hwne
        (fun c hc => by simpa using List.mem_takeWhile_imp hc) ?_ hl
      · rwa [List.append_assoc, ← ht2, ← hd] at this
      · intro c hc
        cases hq : t.dropWhile (fun c => !ws c) with
        | nil => rw [hq] at hc; simp at hc
        | cons y ys =>
          rw [hq] at hc
          simp at hc
          subst hc
          have := List.head_dropWhile_not (fun c => !ws c) (l := t) (by rw [hq]; simp)
          simp only [hq, List.head_cons, Bool.not_eq_false'] at this
          exact this

/-- The words found by the code are the words of the string, for every notion of white space. -/
theorem words_iff (s : List Char) (l : List (List Char)) : Words ws s l ↔ splitWhitespace ws s = l := by
  constructor
  · exact splitWhitespace_words ws s l
  · intro h
    obtain ⟨l', hl'⟩ := words_exist ws s
    rw [splitWhitespace_words ws s l' hl'] at h
    rwa [← h]

theorem words_mem (s : List Char) (l : List (List Char)) (h : Words ws s l) :
    ∀ w ∈ l, w ≠ [] ∧ ∀ c ∈ w, ws c = false := by
  induction h with
  | done => simp
  | word pre w rest l hpre hw hw2 hr h ih =>
    intro v hv
    rcases List.mem_cons.1 hv with rfl | hv
    · exact ⟨hw, hw2⟩
    · exact ih v hv

theorem words_intercalate (hsp : ws ' ' = true) (l : List (List Char)) (h : ∀ w ∈ l, w ≠ [] ∧ ∀ c ∈ w, ws c = false) :
    Words ws ([' '].intercalate l) l := by
  induction l with
  | nil => exact .done _ (by simp)
  | cons w l ih =>
    have hw := h w (by simp)
    have ih' := ih fun v hv => h v (by simp [hv])
    cases l with
    | nil =>
      have := Words.word (ws := ws) [] w [] [] (by simp) hw.1 hw.2 (by simp) (.done _ (by simp))
      simpa using this
    | cons v l =>
      have h2 : Words ws (' ' :: [' '].intercalate (v :: l)) (v :: l) := by
        obtain ⟨l2, hl2⟩ := words_exist ws (' ' :: [' '].intercalate (v :: l))
        have e1 := splitWhitespace_words ws _ _ hl2
        have e2 := splitWhitespace_words ws _ _ ih'
        have e3 := splitWhitespace_pre ws [' '] ([' '].intercalate (v :: l)) (by simpa using hsp)
        rw [List.singleton_append] at e3
        rw [e3, e2] at e1
        rwa [← e1] at hl2
      have := Words.word (ws := ws) [] w (' ' :: [' '].intercalate (v :: l)) (v :: l) (by simp) hw.1 hw.2
        (by intro c hc; simp at hc; subst hc; exact hsp) h2
      rw [List.nil_append] at this
      rw [List.intercalate_cons_cons]
      simpa using this

/-- `normalize_whitespace` keeps the words and is idempotent; its result is the words joined by single spaces. -/
theorem normalize_whitespace_words (hsp : ws ' ' = true) (s : List Char) (l : List (List Char)) (h : Words ws s l) :
    normalizeWhitespace ws s = [' '].intercalate l ∧ Words ws (normalizeWhitespace ws s) l ∧
    normalizeWhitespace ws (normalizeWhitespace ws s) = normalizeWhitespace ws s := by
  have e : normalizeWhitespace ws s = [' '].intercalate l := by
    unfold normalizeWhitespace
    rw [splitWhitespace_words ws s l h]
  have h2 : Words ws ([' '].intercalate l) l := words_intercalate ws hsp l (words_mem ws s l h)
  refine ⟨e, by rw [e]; exact h2, ?_⟩
  rw [e]
  unfold normalizeWhitespace
  rw [splitWhitespace_words ws _ l h2]

/-- `map_words` replaces exactly the words that have an entry; if the replacements are words again, they are the
words of the result. -/
theorem map_words_words (hsp : ws ' ' = true) (mapping : List Char → Option (List Char)) (s : List Char)
    (l : List (List Char)) (h : Words ws s l) :
    mapWords ws mapping s = [' '].intercalate (l.map fun w => (mapping w).getD w) ∧
    ((∀ w v, mapping w = some v → v ≠ [] ∧ ∀ c ∈ v, ws c = false) →
      Words ws (mapWords ws mapping s) (l.map fun w => (mapping w).getD w)) := by
  have e : mapWords ws mapping s = [' '].intercalate (l.map fun w => (mapping w).getD w) := by
    unfold mapWords
    rw [splitWhitespace_words ws s l h]
  refine ⟨e, fun hm => ?_⟩
  rw [e]
  apply words_intercalate ws hsp
  intro v hv
  obtain ⟨w, hw, rfl⟩ := List.mem_map.1 hv
  cases hmw : mapping w with
  | none => exact words_mem ws s l h w hw
  | some v => exact hm w v hmw

/-- An empty mapping only normalizes the white space. -/
theorem map_words_empty (s : List Char) : mapWords ws (fun _ => none) s = normalizeWhitespace ws s := by
  unfold mapWords normalizeWhitespace
  congr 1
  simp

/-- `remove_non_ascii` keeps exactly the ASCII characters, in order. -/
theorem remove_non_ascii_spec (s : List Char) :
    (removeNonAscii s).Sublist s ∧ (∀ c, (removeNonAscii s).count c = if c.toNat < 128 then s.count c else 0) ∧
    removeNonAscii (removeNonAscii s) = removeNonAscii s := by
  refine ⟨List.filter_sublist, ?_, by simp [removeNonAscii]⟩
  intro c
  unfold removeNonAscii
  split
  · rename_i h; rw [List.count_filter (by simpa using h)]
  · rename_i h
    rw [List.count_eq_zero]
    intro hc
    exact h (by simpa using (List.mem_filter.1 hc).2)

example : normalizeWhitespace (· == ' ') "  a  bc d ".toList = "a bc d".toList := by decide

example : Words (· == ' ') "a b".toList ["a".toList, "b".toList] := (words_iff _ _ _).2 (by decide)

example : normalizeWhitespace (· == ' ') (normalizeWhitespace (· == ' ') " x  y".toList) =
    normalizeWhitespace (· == ' ') " x  y".toList :=
  (normalize_whitespace_words _ (by decide) _ ["x".toList, "y".toList] ((words_iff _ _ _).2 (by decide))).2.2

example : mapWords (· == ' ') (fun w => if w = ['x'] then some ['z'] else none) " x  y".toList = "z y".toList := by decide

example : removeNonAscii "aéb".toList = "ab".toList := by decide

end cleaning

end Verif.StrMisc
