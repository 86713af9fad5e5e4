import Verif.Lemmas.SnowballFind

/-!
# The steps of the English stemmer agree with the specification
-/

namespace Verif.Snowball

open Porter2 (isVowel longestSuffix endsShort Rule Rule1a applyStep table2 table3 table4)

/-- The environment spells `w`, with the whole word in view. -/
def Holds (w : List Char) (e : Env) : Prop := e.cur = bytes w ∧ e.limit = (bytes w).length ∧ e.lb = 0

/-- A step that ends well and leaves `w`. -/
def Done (w : List Char) (x : Except Fault (Bool × Env)) : Prop := ∃ b e, x = .ok (b, e) ∧ Holds w e

theorem holds_mk (l r : List Char) (bra ket : Int) : Holds (l ++ r) (mk l r bra ket) := ⟨rfl, rfl, rfl⟩

theorem holds_mk_end (w : List Char) (bra ket : Int) : Holds w (mk w [] bra ket) := by
  have := holds_mk w [] bra ket
  rwa [List.append_nil] at this

theorem eq_mk {w : List Char} {e : Env} (h : Holds w e) (hc : e.cursor = (bytes w).length) :
    e = mk w [] e.bra e.ket := by
  obtain ⟨cur, cursor, limit, lb, bra, ket⟩ := e
  obtain ⟨h1, h2, h3⟩ := h
  simp only at h1 h2 h3 hc
  subst h1 h2 h3 hc
  simp [mk]

theorem rewind_mk {w : List Char} {e : Env} (h : Holds w e) : e.rewind 0 = mk w [] e.bra e.ket := by
  refine eq_mk (e := e.rewind 0) h ?_
  simp [Env.rewind, h.2.1]

theorem v_zero (w : List Char) (bra ket : Int) : (mk w [] bra ket).limit - (mk w [] bra ket).cursor = 0 := by
  simp [mk]

theorem slice_ok {e : Env} (u s t : List Char) (hs : s ≠ []) (h : Holds (u ++ s) e) (hb : e.bra = (bytes u).length)
    (hk : e.ket = (bytes (u ++ s)).length) (hc : e.cursor ≤ (bytes u).length) :
    ∃ e', e.sliceFrom (bytes t) = .ok e' ∧ Holds (u ++ t) e' ∧ e'.cursor = e.cursor := by
  obtain ⟨cur, cursor, limit, lb, bra, ket⟩ := e
  obtain ⟨h1, h2, h3⟩ := h
  simp only at h1 h2 h3 hb hk hc
  subst h1 h2 h3 hb hk
  have := sliceFrom_left u s [] t cursor 0 hs hc
  simp only [List.append_nil] at this
  exact ⟨_, this, ⟨rfl, rfl, rfl⟩, rfl⟩

theorem sliceRet_done {e : Env} (u s : List Char) (t : String) (hs : s ≠ []) (h : Holds (u ++ s) e)
    (hb : e.bra = (bytes u).length) (hk : e.ket = (bytes (u ++ s)).length) (hc : e.cursor ≤ (bytes u).length) :
    Done (u ++ t.toList) (sliceRet e t) := by
  obtain ⟨e', h1, h2, -⟩ := slice_ok u s t.toList hs h hb hk hc
  refine ⟨true, e', ?_, h2⟩
  unfold sliceRet
  rw [show str t = bytes t.toList from rfl, h1]
  rfl

/-- The environment after a suffix was found: cursor and `bra` before it, `ket` after it. -/
abbrev at' (u s : List Char) : Env := mk u s (bytes u).length (bytes (u ++ s)).length

theorem sliceRet_at (u s : List Char) (t : String) (hs : s ≠ []) : Done (u ++ t.toList) (sliceRet (at' u s) t) :=
  sliceRet_done u s t hs (holds_mk u s _ _) rfl rfl (le_refl _)

theorem bytes_le_append (l r : List Char) : (bytes l).length ≤ (bytes (l ++ r)).length := by
  rw [bytes_append, List.length_append]; omega

theorem sliceRet_before (l r s : List Char) (t : String) (hs : s ≠ []) :
    Done (l ++ r ++ t.toList) (sliceRet (mk l (r ++ s) (bytes (l ++ r)).length (bytes (l ++ r ++ s)).length) t) := by
  refine sliceRet_done (l ++ r) s t hs ?_ rfl rfl ?_
  · rw [List.append_assoc]
    exact holds_mk l (r ++ s) _ _
  · have := bytes_le_append l r
    show ((bytes l).length : Int) ≤ _
    exact_mod_cast this

theorem done_ok {w : List Char} {b : Bool} {e : Env} (h : Holds w e) : Done w (.ok (b, e)) := ⟨b, e, rfl, h⟩

/-! ## Marks -/

/-- A byte position `p` and a character position `P` mark the same place in every prefix of `w`. -/
def Marks (w : List Char) (p : Int) (P : Nat) : Prop :=
  ∀ u, u <+: w → (p ≤ (bytes u).length ↔ P ≤ u.length) ∧ (p = (bytes u).length ↔ P = u.length)

/-- The words agree up to ASCII endings. -/
def AsciiTail (m w : List Char) : Prop := ∃ q a b, m = q ++ a ∧ w = q ++ b ∧ Ascii a ∧ Ascii b

theorem length_le_bytes (w : List Char) : w.length ≤ (bytes w).length := by
  induction w with
  | nil => simp
  | cons c w ih =>
    have := encodeChar_length_pos c
    rw [bytes_cons, List.length_append, List.length_cons]
    omega

theorem bytes_length_prefix {x u : List Char} (h : x <+: u) :
    ((bytes x).length ≤ (bytes u).length ∧ ((bytes u).length ≤ (bytes x).length ↔ u.length ≤ x.length)) ∧ x.length ≤ u.length := by
  obtain ⟨y, rfl⟩ := h
  have h1 := length_le_bytes y
  have h2 : y = [] → (bytes y).length = 0 := by rintro rfl; rfl
  have h3 : y.length = 0 → y = [] := List.length_eq_zero_iff.mp
  rw [bytes_append, List.length_append, List.length_append]
  refine ⟨⟨by omega, ?_⟩, by omega⟩
  constructor
  · intro h; omega
  · intro h
    have := h2 (h3 (by omega))
    omega

theorem asciiTail_refl (m : List Char) : AsciiTail m m := ⟨m, [], [], by simp, by simp, by simp [Ascii], by simp [Ascii]⟩

theorem ascii_append {s t : List Char} : Ascii (s ++ t) ↔ Ascii s ∧ Ascii t := by
  simp only [Ascii, List.mem_append]
  exact ⟨fun h => ⟨fun c hc => h c (Or.inl hc), fun c hc => h c (Or.inr hc)⟩, fun h c hc => hc.elim (h.1 c) (h.2 c)⟩

theorem asciiTail_trans {m w v : List Char} (h : AsciiTail m w) (h' : AsciiTail w v) : AsciiTail m v := by
  obtain ⟨q, a, b, rfl, rfl, ha, hb⟩ := h
  obtain ⟨u, s, t, he, rfl, hs, ht⟩ := h'
  rcases List.append_eq_append_iff.mp he with ⟨x, rfl, rfl⟩ | ⟨x, rfl, rfl⟩
  · exact ⟨q, a, x ++ t, rfl, by simp, ha, ascii_append.mpr ⟨(ascii_append.mp hb).1, ht⟩⟩
  · exact ⟨u, x ++ a, t, by simp, rfl, ascii_append.mpr ⟨(ascii_append.mp hs).1, ha⟩, ht⟩

theorem marks_of {m w : List Char} (h : AsciiTail m w) (x : List Char) (hx : x <+: m) :
    Marks w ((bytes x).length : Int) x.length := by
  obtain ⟨q, a, b, rfl, rfl, ha, hb⟩ := h
  intro u hu
  have key : ((bytes x).length ≤ (bytes u).length ↔ x.length ≤ u.length) ∧
      ((bytes u).length ≤ (bytes x).length ↔ u.length ≤ x.length) := by
    have comp : x <+: u ∨ u <+: x ∨ ∃ x' u', x = q ++ x' ∧ u = q ++ u' ∧ Ascii x' ∧ Ascii u' := by
      rcases List.prefix_or_prefix_of_prefix hx (List.prefix_append q a) with h1 | ⟨x', rfl⟩
      · rcases List.prefix_or_prefix_of_prefix hu (List.prefix_append q b) with h2 | h2
        · rcases List.prefix_or_prefix_of_prefix h1 h2 with h3 | h3
          · exact Or.inl h3
          · exact Or.inr (Or.inl h3)
        · exact Or.inl (h1.trans h2)
      · rcases List.prefix_or_prefix_of_prefix hu (List.prefix_append q b) with h2 | ⟨u', rfl⟩
        · exact Or.inr (Or.inl (h2.trans (List.prefix_append q x')))
        · refine Or.inr (Or.inr ⟨x', u', rfl, rfl, ?_, ?_⟩)
          · have := (List.prefix_append_right_inj q).mp hx
            exact fun c hc => ha c (this.subset hc)
          · have := (List.prefix_append_right_inj q).mp hu
            exact fun c hc => hb c (this.subset hc)
    rcases comp with h | h | ⟨x', u', rfl, rfl, h1, h2⟩
    · have := bytes_length_prefix h
      omega
    · have := bytes_length_prefix h
      omega
    · rw [bytes_append, bytes_append, List.length_append, List.length_append, List.length_append, List.length_append,
        bytes_length_ascii h1, bytes_length_ascii h2]
      omega
  omega

/-! ## Loops and tests used by the steps -/

theorem goPastB_ok (l r : List Char) (bra ket : Int) : ∀ fuel, l.length < fuel →
    ∃ c, c ≤ ((bytes l).length : Int) ∧ goPastB (·.inGroupingB gV 97 121) fuel (mk l r bra ket)
      = .ok (l.any isVowel, { mk l r bra ket with cursor := c }) := by
  induction l using List.reverseRecOn generalizing r with
  | nil =>
    intro fuel hf
    obtain ⟨fuel, rfl⟩ : ∃ f, fuel = f + 1 := ⟨fuel - 1, by simp at hf; omega⟩
    refine ⟨0, by simp, ?_⟩
    rw [goPastB]
    simp only [bind, Except.bind, inGroupingB_nil]
    rw [if_neg (by simp), if_pos (mk_cursor_zero r bra ket)]
    rfl
  | append_singleton l d ih =>
    intro fuel hf
    obtain ⟨fuel, rfl⟩ : ∃ f, fuel = f + 1 := ⟨fuel - 1, by omega⟩
    rw [goPastB]
    simp only [bind, Except.bind, inGroupingB_snoc grouping_V]
    have hle : ((bytes l).length : Int) ≤ (bytes (l ++ [d])).length := by exact_mod_cast bytes_le_append l [d]
    by_cases hd : isVowel d = true
    · simp only [hd, if_true]
      refine ⟨(bytes l).length, hle, ?_⟩
      simp [hd, mk]
    · obtain ⟨c, hc, hg⟩ := ih (d :: r) fuel (by simp at hf; omega)
      refine ⟨c, by omega, ?_⟩
      simp only [hd, if_false, Bool.false_eq_true]
      rw [if_neg (mk_cursor_pos l r d bra ket), previousChar_mk]
      simp only [hg]
      simp [hd, mk]

theorem endsShort_snoc1 (c : Char) : endsShort [c] = false := rfl

theorem endsShort_snoc2 (v c : Char) : endsShort [v, c] = (!isVowel c && isVowel v) := rfl

theorem endsShort_snoc3 (l : List Char) (d v c : Char) :
    endsShort (l ++ [d] ++ [v] ++ [c]) = ((!isVowel c && decide (c ∉ ['w', 'x', 'Y'])) && isVowel v && !isVowel d) := by
  simp [endsShort]

theorem isVWXY_not (c : Char) : isVWXY c = false ↔ isVowel c = false ∧ c ∉ ['w', 'x', 'Y'] := by
  simp [isVWXY]

theorem mk_cursor (l r : List Char) (bra ket c : Int) (h : c = (bytes l).length) :
    { mk l r bra ket with cursor := c } = mk l r bra ket := by subst h; rfl

theorem shortv1_ok (l r : List Char) (bra ket : Int) :
    ∃ c, rShortv1 (mk l r bra ket)
      = .ok (decide (3 ≤ l.length) && endsShort l, { mk l r bra ket with cursor := c }) := by
  rcases List.eq_nil_or_concat l with rfl | ⟨l, x, rfl⟩
  · refine ⟨0, ?_⟩
    simp only [rShortv1, bind, Except.bind, outGroupingB_nil]
    rfl
  rw [List.concat_eq_append]
  simp only [rShortv1, bind, Except.bind, outGroupingB_snoc grouping_VWXY]
  by_cases hx : isVWXY x = true
  · refine ⟨(bytes (l ++ [x])).length, ?_⟩
    simp only [hx, if_true, Bool.not_false]
    have : (decide (3 ≤ (l ++ [x]).length) && endsShort (l ++ [x])) = false := by
      rcases List.eq_nil_or_concat l with rfl | ⟨l, v, rfl⟩
      · rfl
      rcases List.eq_nil_or_concat l with rfl | ⟨l, d, rfl⟩
      · rfl
      simp only [List.concat_eq_append]
      rw [endsShort_snoc3]
      have : ¬ (isVWXY x = false) := by simp [hx]
      rw [isVWXY_not] at this
      simp only [Bool.and_eq_false_iff, Bool.not_eq_false', decide_eq_false_iff_not]
      cases hvx : isVowel x
      · rw [hvx] at this
        tauto
      · simp
    rw [this]
    rfl
  · simp only [hx, if_false, Bool.false_eq_true, Bool.not_true]
    have hx' := (isVWXY_not x).mp (by simpa using hx)
    rcases List.eq_nil_or_concat l with rfl | ⟨l, v, rfl⟩
    · refine ⟨0, ?_⟩
      simp only [inGroupingB_nil]
      simp [mk]
    rw [List.concat_eq_append]
    simp only [inGroupingB_snoc grouping_V]
    by_cases hv : isVowel v = true
    · simp only [hv, if_true, Bool.not_true, Bool.false_eq_true, if_false]
      rcases List.eq_nil_or_concat l with rfl | ⟨l, d, rfl⟩
      · refine ⟨0, ?_⟩
        simp only [outGroupingB_nil]
        simp [mk]
      rw [List.concat_eq_append]
      simp only [outGroupingB_snoc grouping_V]
      rw [endsShort_snoc3]
      by_cases hd : isVowel d = true
      · refine ⟨(bytes (l ++ [d])).length, ?_⟩
        simp [hd, mk]
      · refine ⟨(bytes l).length, ?_⟩
        simp only [hd, if_false, Bool.false_eq_true, hx'.1, hx'.2, hv]
        simp [mk]
    · refine ⟨(bytes (l ++ [v])).length, ?_⟩
      simp only [hv, if_false, Bool.false_eq_true, Bool.not_false, if_true]
      have : (decide (3 ≤ (l ++ [v] ++ [x]).length) && endsShort (l ++ [v] ++ [x])) = false := by
        rcases List.eq_nil_or_concat l with rfl | ⟨l, d, rfl⟩
        · rfl
        rw [List.concat_eq_append, endsShort_snoc3]
        simp [hv]
      rw [this]
      simp [mk]

theorem shortv_ok (l r : List Char) (bra ket : Int) :
    ∃ c, rShortv (mk l r bra ket) = .ok (endsShort l, { mk l r bra ket with cursor := c }) := by
  obtain ⟨c, hc⟩ := shortv1_ok l r bra ket
  unfold rShortv
  simp only [bind, Except.bind, hc]
  by_cases h : (decide (3 ≤ l.length) && endsShort l) = true
  · refine ⟨c, ?_⟩
    rw [if_pos h]
    simp only [Bool.and_eq_true] at h
    rw [h.2]
  · rw [if_neg h]
    have he : ({ ({ mk l r bra ket with cursor := c } : Env) with
        cursor := (mk l r bra ket).limit - ((mk l r bra ket).limit - (mk l r bra ket).cursor) } : Env) = mk l r bra ket := by
      simp [mk]
    simp only [he]
    rcases List.eq_nil_or_concat l with rfl | ⟨l, x, rfl⟩
    · refine ⟨0, ?_⟩
      simp only [outGroupingB_nil]
      rfl
    rw [List.concat_eq_append] at h ⊢
    simp only [outGroupingB_snoc grouping_V]
    by_cases hx : isVowel x = true
    · refine ⟨(bytes (l ++ [x])).length, ?_⟩
      have : endsShort (l ++ [x]) = false := by
        rcases List.eq_nil_or_concat l with rfl | ⟨l, v, rfl⟩
        · rfl
        rcases List.eq_nil_or_concat l with rfl | ⟨l, d, rfl⟩
        · simp only [List.concat_eq_append, List.nil_append, List.singleton_append]
          rw [endsShort_snoc2, hx]
          rfl
        simp only [List.concat_eq_append]
        rw [endsShort_snoc3, hx]
        rfl
      rw [this]
      simp [hx, mk]
    · simp only [hx, if_false, Bool.false_eq_true, Bool.not_true]
      rcases List.eq_nil_or_concat l with rfl | ⟨l, v, rfl⟩
      · refine ⟨0, ?_⟩
        simp only [inGroupingB_nil]
        simp [mk, endsShort]
      rw [List.concat_eq_append] at h ⊢
      simp only [inGroupingB_snoc grouping_V]
      rcases List.eq_nil_or_concat l with rfl | ⟨l, d, rfl⟩
      · by_cases hv : isVowel v = true
        · refine ⟨0, ?_⟩
          simp only [hv, if_true, Bool.not_true, Bool.false_eq_true, if_false]
          simp [mk, endsShort, hx, hv]
        · refine ⟨(bytes [v]).length, ?_⟩
          simp [mk, endsShort, hv]
      · rw [List.concat_eq_append] at h ⊢
        have : endsShort (l ++ [d] ++ [v] ++ [x]) = false := by simpa using h
        rw [this]
        by_cases hv : isVowel v = true
        · refine ⟨(bytes (l ++ [d])).length, ?_⟩
          simp only [hv, if_true, Bool.not_true, Bool.false_eq_true, if_false]
          have hlt : (mk (l ++ [d]) (v :: x :: r) bra ket).lb < (mk (l ++ [d]) (v :: x :: r) bra ket).cursor :=
            not_le.mp (mk_cursor_pos l (v :: x :: r) d bra ket)
          rw [if_pos hlt]
          simp [mk]
        · refine ⟨(bytes (l ++ [d] ++ [v])).length, ?_⟩
          simp [mk, hv]

/-! ## Step 0 and step 1a -/

theorem ne_nil_of_row {rows : List (String × Int × Int)} (h : rows.all (fun p => !p.1.toList.isEmpty) = true)
    {p : String × Int × Int} (hp : p ∈ rows) : p.1.toList ≠ [] := by
  have := List.all_eq_true.mp h p hp
  simpa using this

theorem sliceDel_at (u s : List Char) (hs : s ≠ []) :
    ∃ b k, (at' u s).sliceDel = .ok (mk u [] b k) := by
  obtain ⟨e', h1, h2, h3⟩ := slice_ok (e := at' u s) u s [] hs (holds_mk u s _ _) rfl rfl (le_refl _)
  rw [List.append_nil] at h2
  refine ⟨e'.bra, e'.ket, ?_⟩
  unfold Env.sliceDel
  rw [show str "" = bytes [] from rfl, h1, ← eq_mk h2 h3]

/-- `set ket; find_among_b; set bra` on a found suffix. -/
theorem ket_mk (w : List Char) (bra ket : Int) :
    ({ mk w [] bra ket with ket := (mk w [] bra ket).cursor } : Env) = mk w [] bra (bytes w).length := rfl

theorem bra_mk (u s : List Char) (bra : Int) :
    ({ mk u s bra (bytes (u ++ s)).length with bra := (mk u s bra (bytes (u ++ s)).length).cursor } : Env) = at' u s := rfl

/-- The branches of step 1a. -/
def rule1a (n : Int) : Rule1a := if n = 1 then .toSs else if n = 2 then .toI else if n = 3 then .del else .keep

theorem step1aTail_done (u s : List Char) (hs : s ≠ []) (n : Int) :
    Done (match rule1a n with
      | .toSs => u ++ ['s', 's']
      | .toI => if 2 ≤ u.length then u ++ ['i'] else u ++ ['i', 'e']
      | .del => if u.dropLast.any isVowel then u else u ++ s
      | .keep => u ++ s) (rStep1aTail n (at' u s)) := by
  unfold rStep1aTail rule1a
  by_cases h1 : n = 1
  · rw [if_pos h1, if_pos h1]
    exact sliceRet_at u s "ss" hs
  rw [if_neg h1, if_neg h1]
  by_cases h2 : n = 2
  · rw [if_pos h2, if_pos h2]
    obtain ⟨hb1, c, hc, hb2⟩ := hopBack2_mk u s (bytes u).length (bytes (u ++ s)).length
    simp only [hb1, hb2]
    by_cases hl : 2 ≤ u.length
    · simp only [hl, decide_true, if_true]
      exact sliceRet_done u s "i" hs (holds_mk u s (bytes u).length (bytes (u ++ s)).length) rfl rfl hc
    · simp only [hl, decide_false, if_false, Bool.false_eq_true]
      refine sliceRet_done u s "ie" hs (holds_mk u s (bytes u).length (bytes (u ++ s)).length) rfl rfl ?_
      simp [mk]
  rw [if_neg h2, if_neg h2]
  by_cases h3 : n = 3
  · rw [if_pos h3, if_pos h3]
    rcases List.eq_nil_or_concat u with rfl | ⟨u, x, rfl⟩
    · rw [if_pos (mk_cursor_zero s _ _)]
      exact done_ok (holds_mk [] s _ _)
    · simp only [List.concat_eq_append, List.dropLast_concat]
      rw [if_neg (mk_cursor_pos u s x _ _), previousChar_mk]
      simp only [bind, Except.bind]
      obtain ⟨c, hc, hg⟩ := goPastB_ok u (x :: s) (bytes (u ++ [x])).length (bytes (u ++ [x] ++ s)).length
        ((mk u (x :: s) (bytes (u ++ [x])).length (bytes (u ++ [x] ++ s)).length).cur.length + 1)
        (by have := length_le_bytes (u ++ x :: s)
            rw [List.length_append] at this
            show u.length < (bytes (u ++ x :: s)).length + 1
            omega)
      simp only [hg]
      have hh : ∀ b k, Holds (u ++ [x] ++ s) { mk u (x :: s) b k with cursor := c } := by
        intro b k
        rw [List.append_assoc]
        exact holds_mk u (x :: s) b k
      by_cases hv : u.any isVowel = true
      · simp only [hv, Bool.not_true, Bool.false_eq_true, if_false, if_true]
        have := sliceRet_done (u ++ [x]) s "" hs (hh (bytes (u ++ [x])).length (bytes (u ++ [x] ++ s)).length) rfl rfl (by
          show c ≤ _
          have : ((bytes u).length : Int) ≤ (bytes (u ++ [x])).length := by exact_mod_cast bytes_le_append u [x]
          omega)
        rw [show "".toList = [] from rfl, List.append_nil] at this
        exact this
      · simp only [hv, Bool.not_false, if_true, if_false, Bool.false_eq_true]
        exact done_ok (hh _ _)
  rw [if_neg h3, if_neg h3]
  exact done_ok (holds_mk u s _ _)

theorem step0_ok (w : List Char) (bra ket : Int) : ∃ b k, rStep0 (mk w [] bra ket) = .ok (mk (Porter2.step0 w) [] b k) := by
  unfold rStep0
  simp only [bind, Except.bind]
  rw [ket_mk]
  rcases findB_spec ok1 (["'", "'s", "'s'"].map fun s => (s.toList, ())) (fun _ => some ()) (by decide +kernel)
    (by decide +kernel) w bra (bytes w).length with ⟨h1, h2⟩ | ⟨u, a, p, hp, rfl, hf, h1, h2⟩
  · rw [show a1 = amongs rows1 from rfl, h2]
    simp only [Porter2.step0, h1, if_true, v_zero]
    refine ⟨bra, (bytes w).length, ?_⟩
    simp [mk]
  · rw [show a1 = amongs rows1 from rfl, h2]
    have hres : p.2.2 ≠ 0 := (by decide +kernel : ∀ p ∈ rows1, p.2.2 ≠ 0) p hp
    simp only [Porter2.step0, h1, hres, if_false]
    exact sliceDel_at u _ (ne_nil_of_row (by decide +kernel) hp)

theorem step1a_done (w : List Char) (bra ket : Int) :
    Done (Porter2.step1a (Porter2.step0 w)) (rStep1a (mk w [] bra ket)) := by
  obtain ⟨b, k, h0⟩ := step0_ok w bra ket
  unfold rStep1a
  simp only [bind, Except.bind, h0]
  generalize Porter2.step0 w = w
  rw [ket_mk]
  rcases findB_spec ok2 [("sses".toList, Rule1a.toSs), ("ied".toList, .toI), ("ies".toList, .toI),
      ("s".toList, .del), ("us".toList, .keep), ("ss".toList, .keep)] (fun n => some (rule1a n)) (by decide +kernel)
    (by decide +kernel) w b (bytes w).length with ⟨h1, h2⟩ | ⟨u, a, p, hp, rfl, hf, h1, h2⟩
  · rw [show a2 = amongs rows2 from rfl, h2]
    simp only [Porter2.step1a, h1, if_true]
    exact done_ok (holds_mk_end w _ _)
  · rw [show a2 = amongs rows2 from rfl, h2]
    have hres : p.2.2 ≠ 0 := (by decide +kernel : ∀ p ∈ rows2, p.2.2 ≠ 0) p hp
    have := step1aTail_done u p.1.toList (ne_nil_of_row (by decide +kernel) hp) p.2.2
    simp only [Porter2.step1a, h1, hres, if_false]
    simp only [Option.some.injEq] at hf
    rw [hf] at this
    cases a <;> exact this

/-! ## Steps 2 to 4 -/

/-- The branches of step 2. -/
def rule2 (n : Int) : Rule :=
  if n = 1 then { repl := "tion".toList } else if n = 2 then { repl := "ence".toList }
  else if n = 3 then { repl := "ance".toList } else if n = 4 then { repl := "able".toList }
  else if n = 5 then { repl := "ent".toList } else if n = 6 then { repl := "ize".toList }
  else if n = 7 then { repl := "ate".toList } else if n = 8 then { repl := "al".toList }
  else if n = 9 then { repl := "ful".toList } else if n = 10 then { repl := "ous".toList }
  else if n = 11 then { repl := "ive".toList } else if n = 12 then { repl := "ble".toList }
  else if n = 13 then { repl := "og".toList, before := some "l".toList }
  else if n = 14 then { repl := "less".toList }
  else { repl := [], before := some "cdeghkmnrt".toList }

/-- The branches of step 3. -/
def rule3 (n : Int) : Rule :=
  if n = 1 then { repl := "tion".toList } else if n = 2 then { repl := "ate".toList }
  else if n = 3 then { repl := "al".toList } else if n = 4 then { repl := "ic".toList }
  else if n = 5 then { repl := "".toList } else { repl := [], r2 := true }

/-- The branches of step 4. -/
def rule4 (n : Int) : Rule :=
  if n = 1 then { repl := "".toList } else { repl := [], before := some "st".toList }

/-- The word after a rule whose region condition holds. -/
def after (r : Rule) (c2 : Bool) (u s : List Char) : List Char :=
  if (r.r2 → c2) ∧ (r.before.all fun b => u.getLast?.any (· ∈ b)) then u ++ r.repl else u ++ s

theorem getLast_snoc (l : List Char) (c : Char) : (l ++ [c]).getLast? = some c := by simp

theorem step2Tail_done (u s : List Char) (hs : s ≠ []) (n : Int) (h1 : 1 ≤ n) (h2 : n ≤ 15) :
    Done (after (rule2 n) true u s) (rStep2Tail n (at' u s)) := by
  interval_cases n
  case «13» =>
    show Done (after { repl := "og".toList, before := some "l".toList } true u s) _
    show Done _ (do
      let (b, e) ← (at' u s).eqSB (bytes ['l'])
      if !b then .ok (false, e) else sliceRet e "og")
    rcases List.eq_nil_or_concat u with rfl | ⟨u, x, rfl⟩
    · rw [eqSB_nil (by decide)]
      exact done_ok (holds_mk [] s _ _)
    · rw [List.concat_eq_append, eqSB_snoc (by decide)]
      by_cases hx : x = 'l'
      · subst hx
        have := sliceRet_before u ['l'] s "og" hs
        simpa [after, bind, Except.bind] using this
      · have hh := holds_mk (u ++ [x]) s ((bytes (u ++ [x])).length) (bytes (u ++ [x] ++ s)).length
        have := done_ok (b := false) hh
        simpa [after, bind, Except.bind, hx] using this
  case «15» =>
    show Done (after { repl := "".toList, before := some "cdeghkmnrt".toList } true u s) _
    show Done _ (do
      let (b, e) ← (at' u s).inGroupingB gValidLI 99 116
      if !b then .ok (false, e) else sliceRet e "")
    rcases List.eq_nil_or_concat u with rfl | ⟨u, x, rfl⟩
    · rw [inGroupingB_nil]
      exact done_ok (holds_mk [] s _ _)
    · rw [List.concat_eq_append, inGroupingB_snoc grouping_LI]
      generalize "cdeghkmnrt".toList = L
      by_cases hx : x ∈ L
      · have := sliceRet_before u [x] s "" hs
        simpa [after, bind, Except.bind, hx] using this
      · have hh := holds_mk (u ++ [x]) s ((bytes (u ++ [x])).length) (bytes (u ++ [x] ++ s)).length
        have := done_ok (b := false) hh
        simpa [after, bind, Except.bind, hx] using this
  all_goals exact sliceRet_at u s _ hs

theorem step3Tail_done (u s : List Char) (hs : s ≠ []) (n : Int) (h1 : 1 ≤ n) (h2 : n ≤ 6) (ctx : Context) :
    Done (after (rule3 n) (decide (ctx.p2 ≤ (bytes u).length)) u s) (rStep3Tail n (at' u s) ctx) := by
  interval_cases n
  case «6» =>
    show Done (after { repl := "".toList, r2 := true } _ u s) _
    show Done _ (if !rR2 (at' u s) ctx then .ok (false, at' u s) else sliceRet (at' u s) "")
    by_cases h : ctx.p2 ≤ (bytes u).length
    · have hr : rR2 (at' u s) ctx = true := by simp [rR2, mk, h]
      rw [hr]
      have := sliceRet_at u s "" hs
      simpa [after, h] using this
    · have hr : rR2 (at' u s) ctx = false := by simp [rR2, mk, h]
      rw [hr]
      have hh : Done (u ++ s) (.ok (false, at' u s)) :=
        done_ok (holds_mk u s (bytes u).length (bytes (u ++ s)).length)
      simpa [after, h, -bytes_append] using hh
  all_goals exact sliceRet_at u s _ hs

theorem step4Tail_done (u s : List Char) (hs : s ≠ []) (n : Int) (h1 : 1 ≤ n) (h2 : n ≤ 2) :
    Done (after (rule4 n) true u s) (rStep4Tail n (at' u s)) := by
  interval_cases n
  case «2» =>
    show Done (after { repl := "".toList, before := some ['s', 't'] } true u s) _
    show Done _ (do
      let (b, e) ← (at' u s).eqSB (bytes ['s'])
      let (b, e) ← if b then .ok (true, e) else
        ({ e with cursor := e.limit - ((at' u s).limit - (at' u s).cursor) } : Env).eqSB (bytes ['t'])
      if !b then .ok (false, e) else sliceRet e "")
    rcases List.eq_nil_or_concat u with rfl | ⟨u, x, rfl⟩
    · rw [eqSB_nil (by decide)]
      have he : ({ at' [] s with cursor := (at' [] s).limit - ((at' [] s).limit - (at' [] s).cursor) } : Env) = at' [] s := by
        simp [mk]
      simp only [bind, Except.bind, if_false, Bool.false_eq_true, he]
      rw [eqSB_nil (by decide)]
      exact done_ok (holds_mk [] s _ _)
    · rw [List.concat_eq_append, eqSB_snoc (by decide)]
      by_cases hx : x = 's'
      · subst hx
        have := sliceRet_before u ['s'] s "" hs
        simpa [after, bind, Except.bind] using this
      · simp only [hx, if_false, bind, Except.bind, Bool.false_eq_true]
        have he : ({ at' (u ++ [x]) s with
            cursor := (at' (u ++ [x]) s).limit - ((at' (u ++ [x]) s).limit - (at' (u ++ [x]) s).cursor) } : Env)
              = at' (u ++ [x]) s := mk_cursor _ _ _ _ _ (by simp only [mk]; omega)
        rw [he, eqSB_snoc (by decide)]
        by_cases hx2 : x = 't'
        · subst hx2
          have := sliceRet_before u ['t'] s "" hs
          simpa [after] using this
        · have hh := holds_mk (u ++ [x]) s ((bytes (u ++ [x])).length) (bytes (u ++ [x] ++ s)).length
          have := done_ok (b := false) hh
          simpa [after, hx, hx2] using this
  all_goals exact sliceRet_at u s _ hs

theorem prefix_left (u s : List Char) : u <+: u ++ s := List.prefix_append u s

theorem rR1_at {u s : List Char} {ctx : Context} {P : Nat} (h : Marks (u ++ s) ctx.p1 P) :
    rR1 (at' u s) ctx = decide (P ≤ u.length) := by
  have := (h u (prefix_left u s)).1
  unfold rR1
  rw [decide_eq_decide]
  exact this

theorem rR2_at {u s : List Char} {ctx : Context} {Q : Nat} (h : Marks (u ++ s) ctx.p2 Q) :
    rR2 (at' u s) ctx = decide (Q ≤ u.length) := by
  have := (h u (prefix_left u s)).1
  unfold rR2
  rw [decide_eq_decide]
  exact this

theorem step2_done (w : List Char) (bra ket : Int) (ctx : Context) (P Q : Nat) (hP : Marks w ctx.p1 P) :
    Done (applyStep table2 P Q w) (rStep2 (mk w [] bra ket) ctx) := by
  unfold rStep2
  simp only [bind, Except.bind]
  rw [ket_mk]
  rcases findB_spec ok5 table2 (fun n => some (rule2 n)) (by decide +kernel)
    (by decide +kernel) w bra (bytes w).length with ⟨h1, h2⟩ | ⟨u, a, p, hp, rfl, hf, h1, h2⟩
  · rw [show a5 = amongs rows5 from rfl, h2]
    simp only [applyStep, h1, if_true]
    exact done_ok (holds_mk_end w _ _)
  · rw [show a5 = amongs rows5 from rfl, h2]
    have hres := (by decide +kernel : ∀ p ∈ rows5, p.2.2 ≠ 0 ∧ 1 ≤ p.2.2 ∧ p.2.2 ≤ 15 ∧ (rule2 p.2.2).r2 = false) p hp
    have hs := ne_nil_of_row (rows := rows5) (by decide +kernel) hp
    simp only [Option.some.injEq] at hf
    subst hf
    simp only [applyStep, h1, hres.1, if_false]
    rw [bra_mk, rR1_at hP]
    by_cases hr : P ≤ u.length
    · have := step2Tail_done u p.1.toList hs p.2.2 hres.2.1 hres.2.2.1
      simpa [hr, after, hres.2.2.2] using this
    · simp only [hr, decide_false, Bool.not_false, if_true, false_and, if_false]
      exact done_ok (holds_mk u _ _ _)

theorem step3_done (w : List Char) (bra ket : Int) (ctx : Context) (P Q : Nat) (hP : Marks w ctx.p1 P)
    (hQ : Marks w ctx.p2 Q) : Done (applyStep table3 P Q w) (rStep3 (mk w [] bra ket) ctx) := by
  unfold rStep3
  simp only [bind, Except.bind]
  rw [ket_mk]
  rcases findB_spec ok6 table3 (fun n => some (rule3 n)) (by decide +kernel)
    (by decide +kernel) w bra (bytes w).length with ⟨h1, h2⟩ | ⟨u, a, p, hp, rfl, hf, h1, h2⟩
  · rw [show a6 = amongs rows6 from rfl, h2]
    simp only [applyStep, h1, if_true]
    exact done_ok (holds_mk_end w _ _)
  · rw [show a6 = amongs rows6 from rfl, h2]
    have hres := (by decide +kernel : ∀ p ∈ rows6, p.2.2 ≠ 0 ∧ 1 ≤ p.2.2 ∧ p.2.2 ≤ 6) p hp
    have hs := ne_nil_of_row (rows := rows6) (by decide +kernel) hp
    simp only [Option.some.injEq] at hf
    subst hf
    simp only [applyStep, h1, hres.1, if_false]
    rw [bra_mk, rR1_at hP]
    by_cases hr : P ≤ u.length
    · have := step3Tail_done u p.1.toList hs p.2.2 hres.2.1 hres.2.2 ctx
      have hq : decide (ctx.p2 ≤ (bytes u).length) = decide (Q ≤ u.length) := by
        rw [decide_eq_decide]
        exact (hQ u (prefix_left u _)).1
      rw [hq] at this
      simpa [hr, after] using this
    · simp only [hr, decide_false, Bool.not_false, if_true, false_and, if_false]
      exact done_ok (holds_mk u _ _ _)

theorem step4_done (w : List Char) (bra ket : Int) (ctx : Context) (Q Q' : Nat) (hQ : Marks w ctx.p2 Q) :
    Done (applyStep table4 Q Q' w) (rStep4 (mk w [] bra ket) ctx) := by
  unfold rStep4
  simp only [bind, Except.bind]
  rw [ket_mk]
  rcases findB_spec ok7 table4 (fun n => some (rule4 n)) (by decide +kernel)
    (by decide +kernel) w bra (bytes w).length with ⟨h1, h2⟩ | ⟨u, a, p, hp, rfl, hf, h1, h2⟩
  · rw [show a7 = amongs rows7 from rfl, h2]
    simp only [applyStep, h1, if_true]
    exact done_ok (holds_mk_end w _ _)
  · rw [show a7 = amongs rows7 from rfl, h2]
    have hres := (by decide +kernel : ∀ p ∈ rows7, p.2.2 ≠ 0 ∧ 1 ≤ p.2.2 ∧ p.2.2 ≤ 2 ∧ (rule4 p.2.2).r2 = false) p hp
    have hs := ne_nil_of_row (rows := rows7) (by decide +kernel) hp
    simp only [Option.some.injEq] at hf
    subst hf
    simp only [applyStep, h1, hres.1, if_false]
    rw [bra_mk, rR2_at hQ]
    by_cases hr : Q ≤ u.length
    · have := step4Tail_done u p.1.toList hs p.2.2 hres.2.1 hres.2.2.1
      simpa [hr, after, hres.2.2.2] using this
    · simp only [hr, decide_false, Bool.not_false, if_true, false_and, if_false]
      exact done_ok (holds_mk u _ _ _)

/-! ## Step 5 -/

theorem step5_done (w : List Char) (bra ket : Int) (ctx : Context) (P Q : Nat) (hP : Marks w ctx.p1 P)
    (hQ : Marks w ctx.p2 Q) : Done (Porter2.step5 P Q w) (rStep5 (mk w [] bra ket) ctx) := by
  unfold rStep5
  simp only [bind, Except.bind]
  rw [ket_mk]
  rcases findB ok8 w bra (bytes w).length with ⟨h1, h2⟩ | ⟨u, p, hp, rfl, -, h2⟩
  · rw [show a8 = amongs rows8 from rfl, h2]
    have he : w.getLast? ≠ some 'e' := by
      intro h
      obtain ⟨v, rfl⟩ := List.getLast?_eq_some_iff.mp h
      exact h1 ("e", -1, 1) (by decide) ⟨v, rfl⟩
    have hl : w.getLast? ≠ some 'l' := by
      intro h
      obtain ⟨v, rfl⟩ := List.getLast?_eq_some_iff.mp h
      exact h1 ("l", -1, 2) (by decide) ⟨v, rfl⟩
    simp only [Porter2.step5, he, hl, if_true, if_false]
    exact done_ok (holds_mk_end w _ _)
  · rw [show a8 = amongs rows8 from rfl, h2]
    have hrow : p = ("e", -1, 1) ∨ p = ("l", -1, 2) := by
      have := hp
      simp only [rows8, List.mem_cons, List.not_mem_nil, or_false] at this
      exact this
    rcases hrow with rfl | rfl
    · show Done _ (rStep5Tail 1 (at' u ['e']) ctx)
      replace hP : Marks (u ++ ['e']) ctx.p1 P := hP
      replace hQ : Marks (u ++ ['e']) ctx.p2 Q := hQ
      have hs5 : Porter2.step5 P Q (u ++ "e".toList)
          = if Q ≤ u.length ∨ (P ≤ u.length ∧ !endsShort u) then u else u ++ ['e'] := by
        simp [Porter2.step5]
      rw [hs5]
      unfold rStep5Tail
      rw [if_pos (rfl : (1 : Int) = 1), rR1_at hP, rR2_at hQ]
      have hsame := holds_mk u ['e'] (bytes u).length (bytes (u ++ ['e'])).length
      by_cases hq : Q ≤ u.length
      · have := sliceRet_at u ['e'] "" (by simp)
        simpa [hq] using this
      · by_cases hp' : P ≤ u.length
        · simp only [hq, hp', decide_false, decide_true, Bool.false_eq_true, if_false, Bool.not_true, true_and, false_or]
          obtain ⟨c, hc⟩ := shortv_ok u ['e'] (bytes u).length (bytes (u ++ ['e'])).length
          simp only [bind, Except.bind, hc]
          cases hsh : endsShort u
          · have := sliceRet_at u ['e'] "" (by simp)
            simpa [mk] using this
          · exact done_ok hsame
        · simp only [hq, hp', decide_false, Bool.false_eq_true, if_false, Bool.not_false, if_true, false_and, or_self]
          exact done_ok hsame
    · show Done _ (rStep5Tail 2 (at' u ['l']) ctx)
      replace hQ : Marks (u ++ ['l']) ctx.p2 Q := hQ
      have hs5 : Porter2.step5 P Q (u ++ "l".toList)
          = if Q ≤ u.length ∧ u.getLast? = some 'l' then u else u ++ ['l'] := by
        simp [Porter2.step5]
      rw [hs5]
      unfold rStep5Tail
      rw [if_neg (show ¬ (2 : Int) = 1 by decide), if_pos (rfl : (2 : Int) = 2), rR2_at hQ]
      have hsame := holds_mk u ['l'] (bytes u).length (bytes (u ++ ['l'])).length
      by_cases hq : Q ≤ u.length
      · simp only [hq, decide_true, Bool.not_true, Bool.false_eq_true, if_false, true_and]
        rw [show str "l" = bytes ['l'] from rfl]
        rcases List.eq_nil_or_concat u with rfl | ⟨u, x, rfl⟩
        · rw [eqSB_nil (by decide)]
          exact done_ok hsame
        · simp only [List.concat_eq_append] at hsame ⊢
          rw [eqSB_snoc (by decide)]
          by_cases hx : x = 'l'
          · subst hx
            have := sliceRet_before u ['l'] ['l'] "" (by simp)
            simpa [bind, Except.bind] using this
          · simpa [bind, Except.bind, hx] using done_ok (b := false) hsame
      · simp only [hq, decide_false, if_false, Bool.not_false, if_true, false_and]
        exact done_ok hsame

/-! ## Step 1c -/

theorem finalY_snoc (l : List Char) (c : Char) (bra ket : Int) :
    finalY (mk (l ++ [c]) [] bra ket) = .ok (if c = 'y' ∨ c = 'Y' then (true, mk l [c] bra ket)
      else (false, mk (l ++ [c]) [] bra ket)) := by
  unfold finalY
  simp only [bind, Except.bind]
  rw [show str "y" = bytes ['y'] from rfl, show str "Y" = bytes ['Y'] from rfl, eqSB_snoc (by decide)]
  by_cases hy : c = 'y'
  · simp [hy]
  · simp only [hy, if_false, Bool.false_eq_true, false_or]
    rw [mk_cursor (l ++ [c]) [] bra ket _ (by simp only [mk]; omega), eqSB_snoc (by decide)]

theorem finalY_nil (bra ket : Int) : finalY (mk [] [] bra ket) = .ok (false, mk [] [] bra ket) := by
  unfold finalY
  simp only [bind, Except.bind]
  rw [show str "y" = bytes ['y'] from rfl, show str "Y" = bytes ['Y'] from rfl, eqSB_nil (by decide)]
  simp only [if_false, Bool.false_eq_true]
  rw [mk_cursor [] [] bra ket _ (by simp only [mk]; omega), eqSB_nil (by decide)]

theorem step1c_done (w : List Char) (bra ket : Int) : Done (Porter2.step1c w) (rStep1c (mk w [] bra ket)) := by
  unfold rStep1c
  simp only [bind, Except.bind]
  rw [ket_mk]
  rcases List.eq_nil_or_concat w with rfl | ⟨l, c, rfl⟩
  · rw [finalY_nil]
    exact done_ok (holds_mk_end [] _ _)
  rw [List.concat_eq_append, finalY_snoc]
  by_cases hc : c = 'y' ∨ c = 'Y'
  · simp only [hc, if_true, Bool.not_true, Bool.false_eq_true, if_false]
    rw [show ({ mk l [c] bra (bytes (l ++ [c])).length with bra := (mk l [c] bra (bytes (l ++ [c])).length).cursor } : Env)
      = at' l [c] from rfl]
    rcases List.eq_nil_or_concat l with rfl | ⟨l, d, rfl⟩
    · rw [outGroupingB_nil]
      exact done_ok (holds_mk [] [c] _ _)
    rw [List.concat_eq_append, outGroupingB_snoc grouping_V]
    have hsame := holds_mk (l ++ [d]) [c] (bytes (l ++ [d])).length (bytes (l ++ [d] ++ [c])).length
    by_cases hd : isVowel d = true
    · simp only [hd, if_true, Bool.not_false]
      have : Porter2.step1c (l ++ [d] ++ [c]) = l ++ [d] ++ [c] := by
        simp only [Porter2.step1c, List.reverse_append, List.reverse_cons, List.reverse_nil, List.nil_append,
          List.singleton_append]
        rcases List.eq_nil_or_concat l with rfl | ⟨l, x, rfl⟩
        · rfl
        · simp [hd]
      rw [this]
      exact done_ok hsame
    · simp only [hd, if_false, Bool.not_true, Bool.false_eq_true]
      rcases List.eq_nil_or_concat l with rfl | ⟨l, x, rfl⟩
      · rw [if_neg (not_lt.mpr (mk_cursor_zero _ _ _))]
        refine done_ok ?_
        exact holds_mk [] ([d] ++ [c]) _ _
      · rw [List.concat_eq_append, if_pos (not_le.mp (mk_cursor_pos l _ x _ _))]
        have h1 : Porter2.step1c (l ++ [x] ++ [d] ++ [c]) = l ++ [x] ++ [d] ++ ['i'] := by
          simp [Porter2.step1c, hc, hd]
        rw [h1]
        exact sliceRet_before (l ++ [x]) [d] [c] "i" (by simp)
  · simp only [hc, if_false, Bool.not_false, if_true]
    have : Porter2.step1c (l ++ [c]) = l ++ [c] := by
      simp only [Porter2.step1c, List.reverse_append, List.reverse_cons, List.reverse_nil, List.nil_append,
        List.singleton_append]
      rcases l.reverse with _ | ⟨d, _ | ⟨x, r⟩⟩
      · rfl
      · rfl
      · simp [hc]
    rw [this]
    exact done_ok (holds_mk_end (l ++ [c]) _ _)

/-! ## Step 1b -/

theorem insertE_ok (u : List Char) (b k : Int) : ∃ e, insertE (mk u [] b k) = .ok e ∧ Holds (u ++ ['e']) e := by
  unfold insertE Env.insert Env.replaceS
  have h1 : headAt (mk u [] b k).cur (mk u [] b k).cursor = .ok (bytes u) := headAt_mid u []
  have h2 : tailAt (mk u [] b k).cur (mk u [] b k).cursor = .ok (bytes []) := tailAt_mid u []
  simp only [bind, Except.bind, h1, h2]
  refine ⟨_, rfl, ?_, ?_, rfl⟩
  · rw [show str "e" = bytes ['e'] from rfl]
    simp
  · rw [show str "e" = bytes ['e'] from rfl]
    simp [mk]

theorem isSuffixOf_iff {s w : List Char} : s.isSuffixOf w = true ↔ s <:+ w := List.isSuffixOf_iff_suffix

theorem fix1b_done (u : List Char) (bra ket : Int) (ctx : Context) (P : Nat)
    (hP : ctx.p1 = (bytes u).length ↔ P = u.length) :
    Done (Porter2.fix1b P u) (rStep1bTail (mk u [] bra ket) ctx) := by
  unfold rStep1bTail
  simp only [bind, Except.bind]
  rcases findB ok3 u bra ket with ⟨h1, h2⟩ | ⟨v, p, hp, rfl, hmax, h2⟩
  · exact absurd (List.nil_suffix) (h1 ("", -1, 3) (by decide +kernel))
  rw [show a3 = amongs rows3 from rfl, h2]
  generalize hu : v ++ p.1.toList = u at *
  have hback : ({ mk v p.1.toList bra ket with cursor := (mk v p.1.toList bra ket).limit
      - ((mk u [] bra ket).limit - (mk u [] bra ket).cursor) } : Env) = mk u [] bra ket := by
    subst hu
    simp [mk]
  have hres := (by decide +kernel : ∀ p ∈ rows3, p.2.2 ≠ 0 ∧
    ((p.2.2 = 1 ∧ p.1 ∈ ["at", "bl", "iz"]) ∨ (p.2.2 = 2 ∧ p.1 ∈ ["bb", "dd", "ff", "gg", "mm", "nn", "pp", "rr", "tt"])
      ∨ (p.2.2 = 3 ∧ p.1 = ""))) p hp
  have hsuf : p.1.toList <:+ u := ⟨v, hu⟩
  simp only [hres.1, if_false]
  change Done _ (rStep1bFix p.2.2 ({ mk v p.1.toList bra ket with cursor := (mk v p.1.toList bra ket).limit
      - ((mk u [] bra ket).limit - (mk u [] bra ket).cursor) } : Env) ctx)
  rw [hback]
  unfold rStep1bFix
  simp only [bind, Except.bind]
  have hsame := holds_mk_end u bra ket
  have hkey : ∀ s ∈ ["at", "bl", "iz", "bb", "dd", "ff", "gg", "mm", "nn", "pp", "rr", "tt"],
      s.toList <:+ u → s.toList.length ≤ p.1.toList.length := by
    intro s hs h
    obtain ⟨q, hq, he⟩ := (by decide +kernel : ∀ s ∈ ["at", "bl", "iz", "bb", "dd", "ff", "gg", "mm", "nn", "pp", "rr", "tt"],
      ∃ q ∈ rows3, q.1 = s) s hs
    have := hmax q hq (he ▸ h)
    rwa [he] at this
  rcases hres.2 with ⟨hr, hm⟩ | ⟨hr, hm⟩ | ⟨hr, hm⟩
  · simp only [hr, if_true]
    have hany : (["at", "bl", "iz"].any fun s => s.toList.isSuffixOf u) = true :=
      List.any_eq_true.mpr ⟨p.1, hm, isSuffixOf_iff.mpr hsuf⟩
    obtain ⟨e, he, hh⟩ := insertE_ok u bra ket
    rw [he]
    simp only [Porter2.fix1b, hany, if_true]
    exact done_ok hh
  · have h21 : ¬ (2 : Int) = 1 := by decide
    simp only [hr, if_true, h21, if_false]
    have hany : ¬ (["at", "bl", "iz"].any fun s => s.toList.isSuffixOf u) = true := by
      intro h
      obtain ⟨s, hs, h⟩ := List.any_eq_true.mp h
      have hlen := (by decide +kernel : ∀ s ∈ ["at", "bl", "iz"],
        ∀ t ∈ ["bb", "dd", "ff", "gg", "mm", "nn", "pp", "rr", "tt"],
          s.toList.length = t.toList.length ∧ s.toList ≠ t.toList) s hs p.1 hm
      have := List.suffix_of_suffix_length_le (isSuffixOf_iff.mp h) hsuf (by omega)
      exact hlen.2 (this.eq_of_length hlen.1)
    have hdbl : Porter2.endsDouble u = true := List.any_eq_true.mpr ⟨p.1, hm, isSuffixOf_iff.mpr hsuf⟩
    simp only [Porter2.fix1b, hany, hdbl, if_true]
    have hl2 := (by decide +kernel : ∀ t ∈ ["bb", "dd", "ff", "gg", "mm", "nn", "pp", "rr", "tt"],
          t.toList.length = 2) p.1 hm
    have hne : u ≠ [] := by
      rintro rfl
      have := hsuf.length_le
      simp [hl2] at this
    obtain ⟨l, x, rfl⟩ : ∃ l x, u = l ++ [x] := by
      rcases List.eq_nil_or_concat u with h | ⟨l, x, h⟩
      · exact absurd h hne
      · exact ⟨l, x, by rw [h, List.concat_eq_append]⟩
    rw [if_neg (by simp)]
    rw [if_neg (mk_cursor_pos l [] x bra ket), List.dropLast_concat]
    have hprev : ({ mk (l ++ [x]) [] bra ket with ket := (mk (l ++ [x]) [] bra ket).cursor } : Env).previousChar
        = .ok (mk l [x] bra (bytes (l ++ [x])).length) := previousChar_mk l [] x bra (bytes (l ++ [x])).length
    simp only at hprev
    rw [hprev]
    obtain ⟨b', k', hd⟩ := sliceDel_at l [x] (by simp)
    have hd' : ({ mk l [x] bra (bytes (l ++ [x])).length with bra := (mk l [x] bra (bytes (l ++ [x])).length).cursor } : Env).sliceDel
      = .ok (mk l [] b' k') := hd
    simp only [hd']
    exact done_ok (holds_mk_end l _ _)
  · have h31 : ¬ (3 : Int) = 1 := by decide
    have h32 : ¬ (3 : Int) = 2 := by decide
    simp only [hr, if_true, h31, h32, if_false]
    have hno : ∀ s ∈ ["at", "bl", "iz", "bb", "dd", "ff", "gg", "mm", "nn", "pp", "rr", "tt"], ¬ s.toList <:+ u := by
      intro s hs h
      have h1 := hkey s hs h
      have h2 := (by decide +kernel : ∀ t ∈ ["at", "bl", "iz", "bb", "dd", "ff", "gg", "mm", "nn", "pp", "rr", "tt"],
          t.toList.length = 2) s hs
      rw [hm] at h1
      simp [h2] at h1
    have hany : ¬ (["at", "bl", "iz"].any fun s => s.toList.isSuffixOf u) = true := by
      intro h
      obtain ⟨s, hs, h⟩ := List.any_eq_true.mp h
      exact hno s ((by decide +kernel : ∀ s ∈ ["at", "bl", "iz"],
        s ∈ ["at", "bl", "iz", "bb", "dd", "ff", "gg", "mm", "nn", "pp", "rr", "tt"]) s hs) (isSuffixOf_iff.mp h)
    have hdbl : ¬ Porter2.endsDouble u = true := by
      intro h
      obtain ⟨s, hs, h⟩ := List.any_eq_true.mp h
      exact hno s ((by decide +kernel : ∀ s ∈ ["bb", "dd", "ff", "gg", "mm", "nn", "pp", "rr", "tt"],
        s ∈ ["at", "bl", "iz", "bb", "dd", "ff", "gg", "mm", "nn", "pp", "rr", "tt"]) s hs) (isSuffixOf_iff.mp h)
    simp only [Porter2.fix1b, hany, hdbl, if_false, Bool.false_eq_true]
    by_cases hpos : P = u.length
    · have hc : (mk u [] bra ket).cursor = ctx.p1 := (hP.mpr hpos).symm
      rw [if_neg (not_not.mpr hc)]
      obtain ⟨c, hsv⟩ := shortv_ok u [] bra ket
      simp only [hsv]
      cases hsh : endsShort u
      · simp only [Bool.false_eq_true, and_false, if_false, Bool.not_false, if_true]
        exact done_ok hsame
      · rw [if_pos ⟨hpos.symm, rfl⟩]
        simp only [Bool.not_true, Bool.false_eq_true, if_false]
        have hb : ({ mk u [] bra ket with cursor := (mk u [] bra ket).limit - ((mk u [] bra ket).limit - (mk u [] bra ket).cursor) } : Env)
            = mk u [] bra ket := mk_cursor _ _ _ _ _ (by simp only [mk]; omega)
        obtain ⟨e, he, hh⟩ := insertE_ok u bra ket
        simp only [hb, he]
        exact done_ok hh
    · have hc : (mk u [] bra ket).cursor ≠ ctx.p1 := fun h => hpos (hP.mp h.symm)
      rw [if_pos hc, if_neg (fun h => hpos h.1.symm)]
      exact done_ok hsame

theorem step1b_done (w : List Char) (bra ket : Int) (ctx : Context) (P : Nat) (hP : Marks w ctx.p1 P) :
    Done (Porter2.step1b P w) (rStep1b (mk w [] bra ket) ctx) := by
  unfold rStep1b
  simp only [bind, Except.bind]
  rw [ket_mk]
  rcases findB_spec ok4 [("eed".toList, true), ("eedly".toList, true), ("ed".toList, false),
      ("edly".toList, false), ("ing".toList, false), ("ingly".toList, false)] (fun n => some (decide (n = 1))) (by decide +kernel)
    (by decide +kernel) w bra (bytes w).length with ⟨h1, h2⟩ | ⟨u, a, p, hp, rfl, hf, h1, h2⟩
  · rw [show a4 = amongs rows4 from rfl, h2]
    simp only [Porter2.step1b, h1, if_true]
    exact done_ok (holds_mk_end w _ _)
  · rw [show a4 = amongs rows4 from rfl, h2]
    have hres := (by decide +kernel : ∀ p ∈ rows4, p.2.2 ≠ 0 ∧ (p.2.2 = 1 ∨ p.2.2 = 2)) p hp
    have hs := ne_nil_of_row (rows := rows4) (by decide +kernel) hp
    simp only [Option.some.injEq] at hf
    subst hf
    simp only [hres.1, if_false]
    rw [bra_mk]
    have hsame := holds_mk u p.1.toList (bytes u).length (bytes (u ++ p.1.toList)).length
    rcases hres.2 with hr | hr
    · rw [hr, decide_eq_true (rfl : (1 : Int) = 1)] at h1
      simp only [Porter2.step1b, h1, hr, if_true]
      rw [rR1_at hP]
      by_cases hp' : P ≤ u.length
      · simp only [hp', decide_true, Bool.not_true, Bool.false_eq_true, if_false, if_true]
        exact sliceRet_at u _ "ee" hs
      · simp only [hp', decide_false, Bool.not_false, if_true, if_false]
        exact done_ok hsame
    · have h21 : ¬ (2 : Int) = 1 := by decide
      rw [hr, decide_eq_false h21] at h1
      simp only [Porter2.step1b, h1, hr, h21, if_true, if_false]
      obtain ⟨c, hc, hg⟩ := goPastB_ok u p.1.toList (bytes u).length (bytes (u ++ p.1.toList)).length
        ((mk u p.1.toList bra (bytes (u ++ p.1.toList)).length).cur.length + 1)
        (by have := length_le_bytes (u ++ p.1.toList)
            rw [List.length_append] at this
            show u.length < (bytes (u ++ p.1.toList)).length + 1
            omega)
      rw [hg]
      by_cases hv : u.any isVowel = true
      · simp only [hv, Bool.not_true, Bool.false_eq_true, if_false, if_true]
        obtain ⟨b', k', hd⟩ := sliceDel_at u p.1.toList hs
        rw [mk_cursor u p.1.toList _ _ _ (by simp only [mk]; omega), hd]
        exact fix1b_done u b' k' ctx P (hP u (prefix_left u _)).2
      · simp only [hv, Bool.not_false, if_true, if_false, Bool.false_eq_true]
        exact done_ok hsame

/-! ## Second exception list -/

theorem exception2_ok (w : List Char) (bra ket : Int) :
    ∃ e, rException2 (mk w [] bra ket) = .ok (decide (w ∈ Porter2.exceptions2), e) ∧ Holds w e := by
  unfold rException2
  simp only [bind, Except.bind]
  rw [ket_mk]
  rcases findB ok9 w bra (bytes w).length with ⟨h1, h2⟩ | ⟨u, p, hp, rfl, hmax, h2⟩
  · rw [show a9 = amongs rows9 from rfl, h2]
    have : w ∉ Porter2.exceptions2 := by
      intro h
      obtain ⟨q, hq, he⟩ := (by decide +kernel : ∀ s ∈ Porter2.exceptions2, ∃ q ∈ rows9, q.1.toList = s) w h
      exact h1 q hq (he ▸ List.suffix_rfl)
    exact ⟨mk w [] bra (bytes w).length, by simp [this], holds_mk_end w _ _⟩
  · rw [show a9 = amongs rows9 from rfl, h2]
    have hres := (by decide +kernel : ∀ p ∈ rows9, p.2.2 ≠ 0 ∧ p.1.toList ∈ Porter2.exceptions2) p hp
    have hsame := holds_mk u p.1.toList (bytes u).length (bytes (u ++ p.1.toList)).length
    simp only [hres.1, if_false]
    rw [bra_mk]
    refine ⟨_, ?_, hsame⟩
    rcases List.eq_nil_or_concat u with rfl | ⟨l, x, rfl⟩
    · rw [if_neg (not_lt.mpr (mk_cursor_zero _ _ _))]
      rw [List.nil_append, decide_eq_true hres.2]
      rfl
    · rw [List.concat_eq_append] at *
      rw [if_pos (not_le.mp (mk_cursor_pos l _ x _ _))]
      have : l ++ [x] ++ p.1.toList ∉ Porter2.exceptions2 := by
        intro h
        obtain ⟨q, hq, he⟩ := (by decide +kernel : ∀ s ∈ Porter2.exceptions2, ∃ q ∈ rows9, q.1.toList = s) _ h
        have := hmax q hq (he ▸ List.suffix_rfl)
        rw [he] at this
        simp at this
        omega
      simp only [this, decide_false]

end Verif.Snowball
