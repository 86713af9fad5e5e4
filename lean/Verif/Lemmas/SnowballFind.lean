import Verif.Lemmas.SnowballAmong
import Mathlib.Tactic.IntervalCases
import Mathlib.Data.List.Induction

/-!
# `find_among(_b)` on the tables of the English stemmer, at character level
-/

namespace Verif.Snowball

open Porter2 (longestSuffix)

theorem bytes_ascii_cons {c : Char} (hc : c.toNat < 128) (w : List Char) : bytes (c :: w) = c.toNat :: bytes w := by
  rw [bytes_cons, encodeChar_ascii hc]; rfl

/-- Prefixes of the bytes that spell an ASCII string are prefixes of the word. -/
theorem bytes_prefix_iff {s : List Char} (hs : Ascii s) (w : List Char) : bytes s <+: bytes w ↔ s <+: w := by
  induction s generalizing w with
  | nil => simp
  | cons c s ih =>
    have hc := hs c (by simp)
    have hs' : Ascii s := fun d hd => hs d (by simp [hd])
    rw [bytes_ascii_cons hc]
    cases w with
    | nil => simp
    | cons d w =>
      by_cases hd : d.toNat < 128
      · rw [bytes_ascii_cons hd, List.cons_prefix_cons, List.cons_prefix_cons, ih hs' w, toNat_inj]
      · obtain ⟨b, bs, h1, h2, -⟩ := encodeChar_big (c := d) (by omega)
        rw [bytes_cons, h1, List.cons_append, List.cons_prefix_cons, List.cons_prefix_cons]
        constructor
        · rintro ⟨h, -⟩
          omega
        · rintro ⟨h, -⟩
          subst h
          omega

theorem bytes_suffix_iff {s : List Char} (hs : Ascii s) (w : List Char) : bytes s <:+ bytes w ↔ s <:+ w := by
  induction s using List.reverseRecOn generalizing w with
  | nil => simp
  | append_singleton s c ih =>
    have hc := hs c (by simp)
    have hs' : Ascii s := fun d hd => hs d (by simp [hd])
    rw [bytes_append, bytes_ascii_singleton hc]
    rcases List.eq_nil_or_concat w with rfl | ⟨w, d, rfl⟩
    · simp
    · rw [List.concat_eq_append, bytes_append]
      by_cases hd : d.toNat < 128
      · rw [bytes_ascii_singleton hd]
        rw [← List.reverse_prefix, ← List.reverse_prefix]
        rw [List.reverse_append, List.reverse_append, List.reverse_append, List.reverse_append]
        simp only [List.reverse_cons, List.reverse_nil, List.nil_append, List.singleton_append]
        rw [List.cons_prefix_cons, List.cons_prefix_cons, toNat_inj, List.reverse_prefix, List.reverse_prefix, ih hs' w]
      · obtain ⟨b, bs, h1, h2, h3, h4, -⟩ := encodeChar_big (c := d) (by omega)
        rw [bytes_singleton, h1]
        obtain ⟨bs', x, rfl⟩ : ∃ bs' x, bs = bs' ++ [x] := by
          rcases List.eq_nil_or_concat bs with h | ⟨a, x, h⟩
          · exact absurd h h4
          · exact ⟨a, x, by rw [h, List.concat_eq_append]⟩
        have hx := h3 x (by simp)
        constructor
        · intro h
          rw [← List.reverse_prefix] at h
          simp only [List.reverse_append, List.reverse_cons, List.reverse_nil, List.nil_append,
            List.append_assoc, List.cons_append] at h
          rw [List.cons_prefix_cons] at h
          omega
        · intro h
          rw [← List.reverse_prefix] at h
          simp only [List.reverse_append, List.reverse_cons, List.reverse_nil, List.nil_append,
            List.singleton_append] at h
          rw [List.cons_prefix_cons] at h
          rw [h.1] at hc
          omega

/-- What a table must satisfy, read through `rd`. -/
def TableOK (rd : List Nat → List Nat) (rows : List (String × Int × Int)) : Prop :=
  0 < rows.length ∧ (∀ p ∈ rows, Ascii p.1.toList) ∧ Sorted rd (amongs rows) ∧ Links rd (amongs rows)

theorem mem_amongs {rows : List (String × Int × Int)} {v : Among} (h : v ∈ amongs rows) :
    ∃ p ∈ rows, v.key = bytes p.1.toList ∧ v.res = p.2.2 := by
  obtain ⟨p, hp, rfl⟩ := List.mem_map.mp h
  exact ⟨p, hp, rfl, rfl⟩

theorem bytes_length_ascii {s : List Char} (hs : Ascii s) : (bytes s).length = s.length := by
  induction s with
  | nil => rfl
  | cons c s ih =>
    rw [bytes_ascii_cons (hs c (by simp)), List.length_cons, List.length_cons, ih (fun d hd => hs d (by simp [hd]))]

/-- `find_among_b` with the cursor at the end of the word. -/
theorem findB {rows : List (String × Int × Int)} (ok : TableOK List.reverse rows) (w : List Char) (bra ket : Int) :
    ((∀ p ∈ rows, ¬ p.1.toList <:+ w) ∧
      (mk w [] bra ket).findAmongB (amongs rows) = .ok (0, mk w [] bra ket)) ∨
    ∃ u, ∃ p ∈ rows, w = u ++ p.1.toList ∧ (∀ p' ∈ rows, p'.1.toList <:+ w → p'.1.toList.length ≤ p.1.toList.length) ∧
      (mk w [] bra ket).findAmongB (amongs rows) = .ok (p.2.2, mk u p.1.toList bra ket) := by
  obtain ⟨hne, hasc, hs, hl⟩ := ok
  have htake : (bytes (w ++ [])).take (bytes w).length = bytes w := by simp
  have hcmp := cmpBwd_ok (bytes (w ++ [])) (bytes w).length (by simp)
  rw [htake] at hcmp
  obtain ⟨i, ci, r, h1, h2, h3⟩ := find_longest (fun k => List.length_reverse) hcmp hs hl (by simpa [amongs] using hne)
  have hfind : (mk w [] bra ket).findAmongB (amongs rows)
      = .ok (r.elim (0, mk w [] bra ket) fun v => (v.res, { mk w [] bra ket with cursor := (bytes w).length - v.key.length })) := by
    unfold Env.findAmongB
    rw [show (mk w [] bra ket).cur = bytes (w ++ []) from rfl, show (mk w [] bra ket).cursor = (bytes w).length from rfl,
      show (mk w [] bra ket).lb = 0 from rfl]
    simp only [bind, Except.bind, h1, h2]
    rfl
  have hrow : ∀ p ∈ rows, (⟨str p.1, p.2.1, p.2.2⟩ : Among) ∈ amongs rows := fun p hp => List.mem_map_of_mem hp
  have hiff : ∀ p ∈ rows, ((str p.1).reverse <+: (bytes w).reverse ↔ p.1.toList <:+ w) := by
    intro p hp
    rw [List.reverse_prefix]
    exact bytes_suffix_iff (hasc p hp) w
  cases r with
  | none =>
    left
    refine ⟨?_, hfind⟩
    intro p hp h
    exact h3 _ (hrow p hp) ((hiff p hp).mpr h)
  | some v =>
    right
    obtain ⟨ha, hb, hc⟩ := h3
    obtain ⟨p, hp, hk, hres⟩ := mem_amongs ha
    have hsuf : p.1.toList <:+ w := by
      rw [hk] at hb
      exact (hiff p hp).mp hb
    obtain ⟨u, rfl⟩ := hsuf
    refine ⟨u, p, hp, rfl, ?_, ?_⟩
    · intro p' hp' h
      have := hc _ (hrow p' hp') ((hiff p' hp').mpr h)
      rw [hk] at this
      rw [← bytes_length_ascii (hasc p' hp'), ← bytes_length_ascii (hasc p hp)]
      exact this
    · rw [hfind]
      simp only [Option.elim_some, hk, hres, mk, List.append_nil, Except.ok.injEq, Prod.mk.injEq, true_and,
        Env.mk.injEq, and_true]
      rw [bytes_append, List.length_append]
      omega

/-- `find_among` with the cursor at the start of the word. -/
theorem findF {rows : List (String × Int × Int)} (ok : TableOK id rows) (w : List Char) (bra ket : Int) :
    ((∀ p ∈ rows, ¬ p.1.toList <+: w) ∧
      (mk [] w bra ket).findAmong (amongs rows) = .ok (0, mk [] w bra ket)) ∨
    ∃ r, ∃ p ∈ rows, w = p.1.toList ++ r ∧ (∀ p' ∈ rows, p'.1.toList <+: w → p'.1.toList.length ≤ p.1.toList.length) ∧
      (mk [] w bra ket).findAmong (amongs rows) = .ok (p.2.2, mk p.1.toList r bra ket) := by
  obtain ⟨hne, hasc, hs, hl⟩ := ok
  have hcmp := cmpFwd_ok (bytes ([] ++ w)) 0 (by simp)
  rw [List.drop_zero] at hcmp
  obtain ⟨i, ci, r, h1, h2, h3⟩ := find_longest (fun k => rfl) hcmp hs hl (by simpa [amongs] using hne)
  have hfind : (mk [] w bra ket).findAmong (amongs rows)
      = .ok (r.elim (0, mk [] w bra ket) fun v => (v.res, { mk [] w bra ket with cursor := ((0 : Nat) : Int) + v.key.length })) := by
    unfold Env.findAmong
    rw [show (mk [] w bra ket).cur = bytes ([] ++ w) from rfl, show (mk [] w bra ket).cursor = ((0 : Nat) : Int) from rfl,
      show (mk [] w bra ket).limit = (bytes ([] ++ w)).length from rfl]
    simp only [bind, Except.bind, h1, h2]
    rfl
  have hrow : ∀ p ∈ rows, (⟨str p.1, p.2.1, p.2.2⟩ : Among) ∈ amongs rows := fun p hp => List.mem_map_of_mem hp
  have hiff : ∀ p ∈ rows, (id (str p.1) <+: bytes ([] ++ w) ↔ p.1.toList <+: w) := by
    intro p hp
    exact bytes_prefix_iff (hasc p hp) w
  cases r with
  | none =>
    left
    refine ⟨?_, hfind⟩
    intro p hp h
    exact h3 _ (hrow p hp) ((hiff p hp).mpr h)
  | some v =>
    right
    obtain ⟨ha, hb, hc⟩ := h3
    obtain ⟨p, hp, hk, hres⟩ := mem_amongs ha
    have hpre : p.1.toList <+: w := by
      rw [hk] at hb
      exact (hiff p hp).mp hb
    obtain ⟨u, rfl⟩ := hpre
    refine ⟨u, p, hp, rfl, ?_, ?_⟩
    · intro p' hp' h
      have := hc _ (hrow p' hp') ((hiff p' hp').mpr h)
      rw [hk] at this
      rw [← bytes_length_ascii (hasc p' hp'), ← bytes_length_ascii (hasc p hp)]
      exact this
    · rw [hfind]
      simp [hk, hres, mk]

/-- Decidable form of `TableOK`. -/
def tableCheck (rd : List Nat → List Nat) (rows : List (String × Int × Int)) : Bool :=
  decide (0 < rows.length) && (rows.all fun p => p.1.toList.all fun c => decide (c.toNat < 128)) &&
  decide (∀ b < (amongs rows).length, ∀ a < b, rd ((amongs rows).getD a default).key < rd ((amongs rows).getD b default).key) &&
  decide (∀ m < (amongs rows).length,
    ((((amongs rows).getD m default).sub < 0 ∧
      ∀ v ∈ (amongs rows), rd v.key <+: rd ((amongs rows).getD m default).key → ¬ v.key.length < ((amongs rows).getD m default).key.length) ∨
     (0 ≤ ((amongs rows).getD m default).sub ∧ ((amongs rows).getD m default).sub.toNat < m ∧
      rd ((amongs rows).getD ((amongs rows).getD m default).sub.toNat default).key <+: rd ((amongs rows).getD m default).key ∧
      ∀ v ∈ (amongs rows), rd v.key <+: rd ((amongs rows).getD m default).key → v.key.length < ((amongs rows).getD m default).key.length →
        v.key.length ≤ ((amongs rows).getD ((amongs rows).getD m default).sub.toNat default).key.length)))

theorem tableOK_of {rd : List Nat → List Nat} {rows : List (String × Int × Int)} (h : tableCheck rd rows = true) :
    TableOK rd rows := by
  simp only [tableCheck, Bool.and_eq_true] at h
  obtain ⟨⟨⟨h1, h2⟩, h3⟩, h4⟩ := h
  refine ⟨of_decide_eq_true h1, ?_, ?_, ?_⟩
  · intro p hp c hc
    have := List.all_eq_true.mp h2 p hp
    have := List.all_eq_true.mp this c hc
    exact of_decide_eq_true this
  · intro a b hab hb
    exact of_decide_eq_true h3 b hb a hab
  · intro m hm
    exact of_decide_eq_true h4 m hm

theorem ok0 : TableOK id rows0 := tableOK_of (by decide +kernel)
theorem ok1 : TableOK List.reverse rows1 := tableOK_of (by decide +kernel)
theorem ok2 : TableOK List.reverse rows2 := tableOK_of (by decide +kernel)
theorem ok3 : TableOK List.reverse rows3 := tableOK_of (by decide +kernel)
theorem ok4 : TableOK List.reverse rows4 := tableOK_of (by decide +kernel)
theorem ok5 : TableOK List.reverse rows5 := tableOK_of (by decide +kernel)
theorem ok6 : TableOK List.reverse rows6 := tableOK_of (by decide +kernel)
theorem ok7 : TableOK List.reverse rows7 := tableOK_of (by decide +kernel)
theorem ok8 : TableOK List.reverse rows8 := tableOK_of (by decide +kernel)
theorem ok9 : TableOK List.reverse rows9 := tableOK_of (by decide +kernel)
theorem ok10 : TableOK id rows10 := tableOK_of (by decide +kernel)

theorem lookup_mem {α : Type} {tbl : List (List Char × α)} {s : List Char} {a : α} (h : tbl.lookup s = some a) :
    (s, a) ∈ tbl := by
  induction tbl with
  | nil => simp at h
  | cons p tbl ih =>
    obtain ⟨k, b⟩ := p
    rw [List.lookup_cons] at h
    by_cases hk : s = k
    · subst hk
      simp at h
      simp [h]
    · have : (s == k) = false := by simpa using hk
      rw [this] at h
      simp [ih h]

theorem longestSuffix_none {α : Type} {tbl : List (List Char × α)} (pre w : List Char)
    (h : ∀ p ∈ tbl, ¬ p.1 <:+ w) : longestSuffix tbl pre w = none := by
  induction w generalizing pre with
  | nil =>
    unfold longestSuffix
    cases hl : tbl.lookup [] with
    | none => rfl
    | some a => exact absurd (List.suffix_rfl) (h _ (lookup_mem hl))
  | cons c w ih =>
    rw [longestSuffix]
    cases hl : tbl.lookup (c :: w) with
    | none =>
      exact ih _ (fun p hp hs => h p hp (hs.trans (List.suffix_cons c w)))
    | some a => exact absurd (List.suffix_rfl) (h _ (lookup_mem hl))

theorem longestSuffix_some {α : Type} {tbl : List (List Char × α)} (pre v s : List Char) (a : α)
    (hl : tbl.lookup s = some a) (h : ∀ p ∈ tbl, p.1 <:+ v ++ s → p.1.length ≤ s.length) :
    longestSuffix tbl pre (v ++ s) = some (pre ++ v, a) := by
  induction v generalizing pre with
  | nil =>
    cases s with
    | nil => simp [longestSuffix, hl]
    | cons c s => rw [List.nil_append, longestSuffix, hl]; simp
  | cons c v ih =>
    rw [List.cons_append, longestSuffix]
    cases hl' : tbl.lookup (c :: (v ++ s)) with
    | some b =>
      have := h _ (lookup_mem hl') List.suffix_rfl
      simp at this
      omega
    | none =>
      rw [ih _ (fun p hp hs => h p hp (hs.trans (by rw [List.cons_append]; exact List.suffix_cons c _)))]
      simp

/-- `find_among_b` and the longest suffix of the specification agree, for a table with the same keys. -/
theorem findB_spec {α : Type} {rows : List (String × Int × Int)} (ok : TableOK List.reverse rows)
    (tbl : List (List Char × α)) (f : Int → Option α)
    (h1 : ∀ p ∈ rows, tbl.lookup p.1.toList = f p.2.2 ∧ (f p.2.2).isSome = true)
    (h2 : ∀ p ∈ tbl, ∃ q ∈ rows, q.1.toList = p.1)
    (w : List Char) (bra ket : Int) :
    (longestSuffix tbl [] w = none ∧
      (mk w [] bra ket).findAmongB (amongs rows) = .ok (0, mk w [] bra ket)) ∨
    ∃ u a, ∃ p ∈ rows, w = u ++ p.1.toList ∧ f p.2.2 = some a ∧ longestSuffix tbl [] w = some (u, a) ∧
      (mk w [] bra ket).findAmongB (amongs rows) = .ok (p.2.2, mk u p.1.toList bra ket) := by
  rcases findB ok w bra ket with ⟨ha, hb⟩ | ⟨u, p, hp, rfl, ha, hb⟩
  · left
    refine ⟨longestSuffix_none _ _ ?_, hb⟩
    intro p hp h
    obtain ⟨q, hq, he⟩ := h2 p hp
    exact ha q hq (he ▸ h)
  · right
    obtain ⟨hx, hy⟩ := h1 p hp
    obtain ⟨a, hfa⟩ := Option.isSome_iff_exists.mp hy
    refine ⟨u, a, p, hp, rfl, hfa, ?_, hb⟩
    have := longestSuffix_some (tbl := tbl) [] u p.1.toList a (by rw [hx, hfa]) (by
      intro q hq h
      obtain ⟨q', hq', he⟩ := h2 q hq
      rw [← he] at h ⊢
      exact ha q' hq' h)
    rw [this, List.nil_append]

end Verif.Snowball
