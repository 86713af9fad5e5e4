import Verif.Model.LempelZiv

/-!
# Lempel-Ziv complexity: theorems
-/

namespace Verif.LZ.Spec

/-- `ps` is the parse of `bits` after the phrases `seen`: each phrase is new and all its non-empty proper prefixes
were seen before; what remains at the end has only seen prefixes. -/
inductive Parse : List (List Bool) → List Bool → List (List Bool) → Prop
  | done (seen rest) (h : ∀ p, p ≠ [] → p <+: rest → p ∈ seen) : Parse seen rest []
  | phrase (seen : List (List Bool)) (p rest : List Bool) (ps : List (List Bool)) (hp : p ≠ []) (hnew : p ∉ seen)
      (hold : ∀ q, q ≠ [] → q <+: p → q ≠ p → q ∈ seen) (h : Parse (seen ++ [p]) rest ps) :
      Parse seen (p ++ rest) (p :: ps)

end Verif.LZ.Spec

namespace Verif.LZ
open Verif.LZ.Spec

theorem lzLoop_parse (bits : List Bool) (fuel ind inc : Nat) (subs : List (List Bool)) (hi : 0 < inc)
    (hb : ind + inc ≤ bits.length + 1) (hf : bits.length + 1 ≤ fuel + ind + inc)
    (hold : ∀ q, q ≠ [] → q <+: bits.drop ind → q.length < inc → q ∈ subs) :
    ∃ ps, lzLoop bits fuel ind inc subs = subs ++ ps ∧ Parse subs (bits.drop ind) ps := by
  induction fuel generalizing ind inc subs with
  | zero =>
    refine ⟨[], by simp [lzLoop], .done _ _ ?_⟩
    intro p hp hpre
    apply hold p hp hpre
    have := hpre.length_le
    rw [List.length_drop] at this
    omega
  | succ fuel ih =>
    rw [lzLoop]
    by_cases h : ind + inc ≤ bits.length
    · rw [if_pos h]
      have hlen : ((bits.drop ind).take inc).length = inc := by rw [List.length_take, List.length_drop]; omega
      simp only []
      by_cases hm : (bits.drop ind).take inc ∈ subs
      · rw [if_pos hm]
        apply ih ind (inc + 1) subs (by omega) (by omega) (by omega)
        intro q hq hpre hl
        by_cases hl2 : q.length < inc
        · exact hold q hq hpre hl2
        · have : q = (bits.drop ind).take inc := by
            rw [List.prefix_iff_eq_take.1 hpre]
            congr 1
            omega
          rw [this]; exact hm
      · rw [if_neg hm]
        obtain ⟨ps, h1, h2⟩ := ih (ind + inc) 1 (subs ++ [(bits.drop ind).take inc]) (by omega) (by omega) (by omega)
          (by intro q hq _ hl; have := List.length_pos_iff.2 hq; omega)
        refine ⟨(bits.drop ind).take inc :: ps, by rw [h1]; simp, ?_⟩
        have h3 : bits.drop ind = (bits.drop ind).take inc ++ bits.drop (ind + inc) := by
          rw [← List.drop_drop, List.take_append_drop]
        have hp : (bits.drop ind).take inc ≠ [] := by rw [← List.length_pos_iff]; omega
        have key := Parse.phrase subs ((bits.drop ind).take inc) (bits.drop (ind + inc)) ps hp hm ?_ h2
        · rwa [← h3] at key
        · intro q hq hpre hne
          apply hold q hq (hpre.trans (List.take_prefix _ _))
          have h4 := hpre.length_le
          rw [hlen] at h4
          rcases Nat.lt_or_ge q.length inc with h5 | h5
          · exact h5
          · exact absurd (hpre.eq_of_length (by omega)) hne
    · rw [if_neg h]
      refine ⟨[], by simp, .done _ _ ?_⟩
      intro p hp hpre
      apply hold p hp hpre
      have := hpre.length_le
      rw [List.length_drop] at this
      omega

/-- The parse is unique. -/
theorem parse_unique (seen : List (List Bool)) (bits : List Bool) (ps qs : List (List Bool))
    (h1 : Parse seen bits ps) (h2 : Parse seen bits qs) : ps = qs := by
  induction h1 generalizing qs with
  | done seen rest h =>
    cases h2 with
    | done => rfl
    | phrase _ p rest' ps' hp hnew _ _ => exact absurd (h p hp (List.prefix_append _ _)) hnew
  | phrase seen p rest ps hp hnew hold h ih =>
    generalize hb : p ++ rest = bits at h2
    cases h2 with
    | done _ _ h' => exact absurd (h' p hp (by rw [← hb]; exact List.prefix_append _ _)) hnew
    | phrase _ q rest' qs' hq hnewq holdq hq' =>
      have hpq : p <+: q ++ rest' := by rw [← hb]; exact List.prefix_append _ _
      have hqq : q <+: q ++ rest' := List.prefix_append _ _
      have e : p = q := by
        rcases List.prefix_or_prefix_of_prefix hpq hqq with h3 | h3
        · by_contra hne
          exact hnew (holdq p hp h3 hne)
        · by_contra hne
          exact hnewq (hold q hq h3 (Ne.symm hne))
      subst e
      have := List.append_cancel_left hb
      subst this
      rw [ih qs' hq']

theorem parse_facts (seen : List (List Bool)) (bits : List Bool) (ps : List (List Bool)) (h : Parse seen bits ps) :
    ps.flatten <+: bits ∧ (seen.Nodup → (seen ++ ps).Nodup) := by
  induction h with
  | done => simp
  | phrase seen p rest ps hp hnew hold h ih =>
    refine ⟨by rw [List.flatten_cons]; exact (List.prefix_append_right_inj p).2 ih.1, ?_⟩
    intro hn
    have := ih.2 (by
      rw [List.nodup_append]
      refine ⟨hn, by simp, ?_⟩
      intro a ha b hb
      simp at hb
      subst hb
      rintro rfl
      exact hnew ha)
    simpa using this

/-- The complexity is the number of phrases of the unique left-to-right parse of the sequence, nulls read as false;
the phrases are different and their concatenation is the sequence up to a rest all of whose prefixes are phrases. -/
theorem complexity_parse (col : List (Option Bool)) :
    ∃ ps, Parse [] (col.map fun o => o.getD false) ps ∧ complexity col = ps.length ∧
      (∀ qs, Parse [] (col.map fun o => o.getD false) qs → qs = ps) ∧ ps.Nodup ∧
      ∃ rest, ps.flatten ++ rest = col.map (fun o => o.getD false) := by
  obtain ⟨ps, h1, h2⟩ := lzLoop_parse (col.map fun o => o.getD false) (col.map fun o => o.getD false).length 0 1 []
    (by omega) (by omega) (by omega) (by intro q hq _ hl; have := List.length_pos_iff.2 hq; omega)
  rw [List.drop_zero] at h2
  have hf := parse_facts _ _ _ h2
  refine ⟨ps, h2, ?_, fun qs hq => parse_unique _ _ _ _ hq h2, by simpa using hf.2 (by simp), ?_⟩
  · unfold complexity
    simp only [] at h1 ⊢
    rw [h1]
    simp
  · obtain ⟨rest, hr⟩ := hf.1
    exact ⟨rest, hr⟩

/-- The complexity never exceeds the length, and is zero only for the empty column. -/
theorem complexity_bounds (col : List (Option Bool)) :
    complexity col ≤ col.length ∧ (complexity col = 0 ↔ col = []) := by
  obtain ⟨ps, h1, h2, _, _, rest, h5⟩ := complexity_parse col
  have hne : ∀ seen bits ps, Parse seen bits ps → ∀ p ∈ ps, p ≠ [] := by
    intro seen bits ps h
    induction h with
    | done => simp
    | phrase seen p rest ps hp _ _ _ ih =>
      intro q hq
      rcases List.mem_cons.1 hq with rfl | hq
      · exact hp
      · exact ih q hq
  have hle : ∀ l : List (List Bool), (∀ p ∈ l, p ≠ []) → l.length ≤ l.flatten.length := by
    intro l
    induction l with
    | nil => simp
    | cons p l ih =>
      intro h
      have h1 := List.length_pos_iff.2 (h p (by simp))
      have h2 := ih fun q hq => h q (by simp [hq])
      rw [List.flatten_cons, List.length_append, List.length_cons]
      omega
  have h6 := hle ps (hne _ _ _ h1)
  have h7 := congrArg List.length h5
  rw [List.length_append, List.length_map] at h7
  refine ⟨by omega, ?_⟩
  constructor
  · intro h0
    rw [h0] at h2
    have : ps = [] := List.length_eq_zero_iff.1 h2.symm
    subst this
    have hd : ∀ p, p ≠ [] → p <+: col.map (fun o => o.getD false) → p ∈ ([] : List (List Bool)) := by
      generalize col.map (fun o => o.getD false) = bits at h1
      cases h1 with
      | done _ _ h => exact h
    · cases col with
      | nil => rfl
      | cons c col =>
        have := hd [c.getD false] (by simp) (by simp)
        simp at this
  · rintro rfl
    rfl

example : complexity [some true, some false, none, some true, some true, some true] = 4 := by decide

example : ∃ ps, Parse [] [true, false, false, true] ps ∧ ps.length = 3 :=
  have ⟨ps, h, h2, _⟩ := complexity_parse [some true, some false, none, some true]
  ⟨ps, h, by rw [← h2]; decide⟩

end Verif.LZ
