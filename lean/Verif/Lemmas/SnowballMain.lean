import Verif.Lemmas.SnowballSteps

/-!
# The English stemmer computes the Porter2 stem
-/

namespace Verif.Snowball

open Porter2 (isVowel longestSuffix region r1 markAfter markY unmark applyStep table2 table3 table4)

/-! ## The steps change ASCII endings only -/

theorem tail_intro {u s t : List Char} (hs : Ascii s) (ht : Ascii t) : AsciiTail (u ++ s) (u ++ t) :=
  ⟨u, s, t, rfl, rfl, hs, ht⟩

theorem tail_drop {u s : List Char} (hs : Ascii s) : AsciiTail (u ++ s) u := by
  have := tail_intro (u := u) hs (t := []) (by simp [Ascii])
  rwa [List.append_nil] at this

theorem tail_add {u t : List Char} (ht : Ascii t) : AsciiTail u (u ++ t) := by
  have := tail_intro (u := u) (s := []) (by simp [Ascii]) ht
  rwa [List.append_nil] at this

theorem longestSuffix_mem {α : Type} {tbl : List (List Char × α)} {pre w u : List Char} {a : α}
    (h : longestSuffix tbl pre w = some (u, a)) : ∃ s, pre ++ w = u ++ s ∧ (s, a) ∈ tbl := by
  induction w generalizing pre with
  | nil =>
    rw [longestSuffix] at h
    cases hl : tbl.lookup [] with
    | none => simp [hl] at h
    | some b =>
      simp [hl] at h
      obtain ⟨rfl, rfl⟩ := h
      exact ⟨[], rfl, lookup_mem hl⟩
  | cons c w ih =>
    rw [longestSuffix] at h
    cases hl : tbl.lookup (c :: w) with
    | none =>
      simp only [hl] at h
      obtain ⟨s, h1, h2⟩ := ih h
      exact ⟨s, by rw [← h1]; simp, h2⟩
    | some b =>
      simp only [hl, Option.some.injEq, Prod.mk.injEq] at h
      obtain ⟨rfl, rfl⟩ := h
      exact ⟨c :: w, rfl, lookup_mem hl⟩

/-- All keys of a table are ASCII. -/
def asciiKeys {α : Type} (tbl : List (List Char × α)) : Bool := tbl.all fun p => p.1.all fun c => decide (c.toNat < 128)

theorem ascii_of_all {s : List Char} (h : (s.all fun c => decide (c.toNat < 128)) = true) : Ascii s := by
  intro c hc
  exact of_decide_eq_true (List.all_eq_true.mp h c hc)

theorem longestSuffix_split {α : Type} {tbl : List (List Char × α)} (hk : asciiKeys tbl = true) {w u : List Char} {a : α}
    (h : longestSuffix tbl [] w = some (u, a)) : ∃ s, w = u ++ s ∧ (s, a) ∈ tbl ∧ Ascii s := by
  obtain ⟨s, h1, h2⟩ := longestSuffix_mem h
  exact ⟨s, h1, h2, ascii_of_all (List.all_eq_true.mp hk _ h2)⟩

theorem tail_step0 (w : List Char) : AsciiTail w (Porter2.step0 w) := by
  unfold Porter2.step0
  split
  · next u a h =>
    obtain ⟨s, rfl, -, hs⟩ := longestSuffix_split (by decide +kernel) h
    exact tail_drop hs
  · exact asciiTail_refl w

theorem tail_step1a (w : List Char) : AsciiTail w (Porter2.step1a w) := by
  unfold Porter2.step1a
  split
  · exact asciiTail_refl w
  all_goals
    next u h =>
    obtain ⟨s, rfl, -, hs⟩ := longestSuffix_split (by decide +kernel) h
    first
    | exact asciiTail_refl _
    | exact tail_intro hs (ascii_of_all (by decide))
    | (split
       · exact tail_intro hs (ascii_of_all (by decide))
       · exact tail_intro hs (ascii_of_all (by decide)))
    | (split
       · exact tail_drop hs
       · exact asciiTail_refl _)

theorem tail_fix1b (p : Nat) (u : List Char) : AsciiTail u (Porter2.fix1b p u) := by
  unfold Porter2.fix1b
  split
  · exact tail_add (ascii_of_all (by decide))
  split
  · next h =>
    obtain ⟨s, hs, h⟩ := List.any_eq_true.mp h
    obtain ⟨v, rfl⟩ := isSuffixOf_iff.mp h
    have hk := (by decide +kernel : ∀ s ∈ ["bb", "dd", "ff", "gg", "mm", "nn", "pp", "rr", "tt"],
      s.toList ≠ [] ∧ (s.toList.all fun c => decide (c.toNat < 128)) = true) s hs
    rw [List.dropLast_append_of_ne_nil hk.1]
    refine tail_intro (ascii_of_all hk.2) ?_
    exact fun c hc => ascii_of_all hk.2 c (List.dropLast_subset _ hc)
  split
  · exact tail_add (ascii_of_all (by decide))
  · exact asciiTail_refl u

theorem tail_step1b (p : Nat) (w : List Char) : AsciiTail w (Porter2.step1b p w) := by
  unfold Porter2.step1b
  split
  · exact asciiTail_refl w
  · next u h =>
    obtain ⟨s, rfl, -, hs⟩ := longestSuffix_split (by decide +kernel) h
    split
    · exact tail_intro hs (ascii_of_all (by decide))
    · exact asciiTail_refl _
  · next u h =>
    obtain ⟨s, rfl, -, hs⟩ := longestSuffix_split (by decide +kernel) h
    split
    · exact asciiTail_trans (tail_drop hs) (tail_fix1b p u)
    · exact asciiTail_refl _

theorem tail_step1c (w : List Char) : AsciiTail w (Porter2.step1c w) := by
  unfold Porter2.step1c
  split
  · next c d x r h =>
    split
    · next hc =>
      have hw : w = (d :: x :: r).reverse ++ [c] := by
        have := congrArg List.reverse h
        rw [List.reverse_reverse] at this
        rw [this]
        simp
      have hasc : Ascii [c] := by
        intro c' hc'
        rw [List.mem_singleton] at hc'
        subst hc'
        rcases hc.1 with rfl | rfl <;> decide
      conv => lhs; rw [hw]
      exact tail_intro hasc (ascii_of_all (by decide))
    · exact asciiTail_refl w
  · exact asciiTail_refl w

theorem tail_applyStep {tbl : List (List Char × Porter2.Rule)} (hk : asciiKeys tbl = true)
    (hr : (tbl.all fun p => p.2.repl.all fun c => decide (c.toNat < 128)) = true) (p q : Nat) (w : List Char) :
    AsciiTail w (applyStep tbl p q w) := by
  unfold applyStep
  split
  · exact asciiTail_refl w
  · next u r h =>
    obtain ⟨s, rfl, hm, hs⟩ := longestSuffix_split hk h
    split
    · exact tail_intro hs (ascii_of_all (List.all_eq_true.mp hr _ hm))
    · exact asciiTail_refl _

/-- The environment after the steps. -/
theorem steps_ok {m w : List Char} (h : AsciiTail m w) (bra ket : Int) (ctx : Context) (x1 x2 : List Char)
    (hx1 : x1 <+: m) (hx2 : x2 <+: m) (h1 : ctx.p1 = (bytes x1).length) (h2 : ctx.p2 = (bytes x2).length) :
    ∃ e, rSteps (mk w [] bra ket) ctx = .ok e ∧ Holds (Porter2.steps x1.length x2.length w) e := by
  have M1 : ∀ w, AsciiTail m w → Marks w ctx.p1 x1.length := fun w hw => h1 ▸ marks_of hw x1 hx1
  have M2 : ∀ w, AsciiTail m w → Marks w ctx.p2 x2.length := fun w hw => h2 ▸ marks_of hw x2 hx2
  unfold rSteps Porter2.steps
  simp only [bind, Except.bind, v_zero]
  obtain ⟨b, e, he, hh⟩ := step1b_done w bra ket ctx x1.length (M1 w h)
  have h := asciiTail_trans h (tail_step1b x1.length w)
  simp only [he, rewind_mk hh, v_zero]
  generalize Porter2.step1b x1.length w = w at *
  obtain ⟨b, e, he, hh⟩ := step1c_done w e.bra e.ket
  have h := asciiTail_trans h (tail_step1c w)
  simp only [he, rewind_mk hh, v_zero]
  generalize Porter2.step1c w = w at *
  obtain ⟨b, e, he, hh⟩ := step2_done w e.bra e.ket ctx x1.length x2.length (M1 w h)
  have h := asciiTail_trans h (tail_applyStep (tbl := table2) (by decide +kernel) (by decide +kernel) x1.length x2.length w)
  simp only [he, rewind_mk hh, v_zero]
  generalize applyStep table2 x1.length x2.length w = w at *
  obtain ⟨b, e, he, hh⟩ := step3_done w e.bra e.ket ctx x1.length x2.length (M1 w h) (M2 w h)
  have h := asciiTail_trans h (tail_applyStep (tbl := table3) (by decide +kernel) (by decide +kernel) x1.length x2.length w)
  simp only [he, rewind_mk hh, v_zero]
  generalize applyStep table3 x1.length x2.length w = w at *
  obtain ⟨b, e, he, hh⟩ := step4_done w e.bra e.ket ctx x2.length x2.length (M2 w h)
  have h := asciiTail_trans h (tail_applyStep (tbl := table4) (by decide +kernel) (by decide +kernel) x2.length x2.length w)
  simp only [he, rewind_mk hh, v_zero]
  generalize applyStep table4 x2.length x2.length w = w at *
  obtain ⟨b, e, he, hh⟩ := step5_done w e.bra e.ket ctx x1.length x2.length (M1 w h) (M2 w h)
  simp only [he, rewind_mk hh]
  exact ⟨_, rfl, holds_mk_end _ _ _⟩

/-! ## Regions -/

theorem goPast_ok {test : Env → Except Fault (Bool × Env)} {P : Char → Bool}
    (hcons : ∀ l r c b k, test (mk l (c :: r) b k) = .ok (if P c then (true, mk (l ++ [c]) r b k) else (false, mk l (c :: r) b k)))
    (hnil : ∀ l b k, test (mk l [] b k) = .ok (false, mk l [] b k)) (r l : List Char) (bra ket : Int) :
    ∀ fuel, r.length < fuel →
    (r.dropWhile (fun c => !P c) = [] ∧ goPast test fuel (mk l r bra ket) = .ok (false, mk (l ++ r) [] bra ket)) ∨
    ∃ x c r', r = x ++ c :: r' ∧ P c = true ∧ r.dropWhile (fun c => !P c) = c :: r' ∧
      goPast test fuel (mk l r bra ket) = .ok (true, mk (l ++ x ++ [c]) r' bra ket) := by
  induction r generalizing l with
  | nil =>
    intro fuel hf
    obtain ⟨fuel, rfl⟩ : ∃ f, fuel = f + 1 := ⟨fuel - 1, by simp at hf; omega⟩
    left
    refine ⟨rfl, ?_⟩
    rw [goPast]
    simp only [bind, Except.bind, hnil]
    rw [if_neg (by simp), if_pos (mk_cursor_end l bra ket), List.append_nil]
  | cons c r ih =>
    intro fuel hf
    obtain ⟨fuel, rfl⟩ : ∃ f, fuel = f + 1 := ⟨fuel - 1, by omega⟩
    rw [goPast]
    simp only [bind, Except.bind, hcons]
    by_cases hc : P c = true
    · right
      refine ⟨[], c, r, rfl, hc, by simp [hc], ?_⟩
      simp [hc]
    · simp only [hc, if_false, Bool.false_eq_true]
      rw [if_neg (mk_cursor_lt l r c bra ket), nextChar_mk]
      have hd : (c :: r).dropWhile (fun c => !P c) = r.dropWhile (fun c => !P c) := by simp [hc]
      rw [hd]
      rcases ih (l ++ [c]) fuel (by simp at hf; omega) with ⟨h1, h2⟩ | ⟨x, d, r', h1, h2, h3, h4⟩
      · left
        refine ⟨h1, ?_⟩
        simp only [h2]
        simp
      · right
        refine ⟨c :: x, d, r', by rw [h1]; rfl, h2, h3, ?_⟩
        simp only [h4]
        simp

theorem length_lt_cur (l r : List Char) (bra ket : Int) : r.length < (mk l r bra ket).cur.length + 1 := by
  have := length_le_bytes (l ++ r)
  rw [List.length_append] at this
  show r.length < (bytes (l ++ r)).length + 1
  omega

theorem goVC_ok (l r : List Char) (bra ket : Int) :
    (region r = [] ∧ ∃ c, goVC (mk l r bra ket) = .ok (false, { mk l r bra ket with cursor := c })) ∨
    ∃ x, r = x ++ region r ∧ goVC (mk l r bra ket) = .ok (true, mk (l ++ x) (region r) bra ket) := by
  unfold goVC
  simp only [bind, Except.bind]
  rcases goPast_ok (test := (·.inGrouping gV 97 121)) (P := isVowel) (fun l r c b k => inGrouping_cons grouping_V l r c b k)
    (fun l b k => inGrouping_nil l b k) r l bra ket _ (length_lt_cur l r bra ket) with
    ⟨h1, h2⟩ | ⟨x, c, r', h1, h2, h3, h4⟩
  · left
    refine ⟨by simp [region, h1], (bytes (l ++ r)).length, ?_⟩
    simp only [h2]
    simp [mk]
  · simp only [h4, if_true]
    have hreg : region r = (r'.dropWhile isVowel).tail := by
      unfold region
      rw [h3, List.dropWhile_cons, if_pos h2]
    have hout : ∀ l r c b k, (mk l (c :: r) b k).outGrouping gV 97 121
        = .ok (if (fun c => !isVowel c) c then (true, mk (l ++ [c]) r b k) else (false, mk l (c :: r) b k)) := by
      intro l r c b k
      rw [outGrouping_cons grouping_V]
      cases h : isVowel c <;> simp [h]
    have hnn : (fun c => !(fun c => !isVowel c) c) = isVowel := by
      funext c
      simp
    rcases goPast_ok (test := (·.outGrouping gV 97 121)) (P := fun c => !isVowel c) hout
      (fun l b k => outGrouping_nil l b k) r' (l ++ x ++ [c]) bra ket _ (length_lt_cur (l ++ x ++ [c]) r' bra ket) with
      ⟨k1, k2⟩ | ⟨y, d, r'', k1, k2, k3, k4⟩
    · left
      rw [hnn] at k1
      refine ⟨by rw [hreg, k1]; rfl, (bytes (l ++ r)).length, ?_⟩
      rw [k2]
      subst h1
      simp [mk]
    · right
      rw [hnn] at k3
      have hr'' : region r = r'' := by rw [hreg, k3]; rfl
      rw [hr'']
      refine ⟨x ++ c :: (y ++ [d]), by rw [h1, k1]; simp, ?_⟩
      rw [k4]
      simp

theorem r1_prefix {w : List Char} {p : List Char} (hp : p ∈ Porter2.fixedR1) {r : List Char} (hw : w = p ++ r) : r1 w = r := by
  unfold r1
  cases hf : Porter2.fixedR1.find? (·.isPrefixOf w) with
  | none =>
    have := List.find?_eq_none.mp hf p hp
    rw [List.isPrefixOf_iff_prefix] at this
    exact absurd ⟨r, hw.symm⟩ this
  | some q =>
    have hq := List.mem_of_find?_eq_some hf
    have hqp := List.find?_some hf
    rw [List.isPrefixOf_iff_prefix] at hqp
    have heq : q = p := by
      have hdec := (by decide +kernel : ∀ p ∈ Porter2.fixedR1, ∀ q ∈ Porter2.fixedR1, q <+: p → q = p)
      rcases List.prefix_or_prefix_of_prefix hqp (⟨r, hw.symm⟩ : p <+: w) with h | h
      · exact hdec p hp q hq h
      · exact (hdec q hq p hp h).symm
    subst heq
    simp [hw]

theorem regionStart_ok (w : List Char) (bra ket : Int) :
    (r1 w = [] ∧ ∃ c, regionStart (mk [] w bra ket) = .ok (false, { mk [] w bra ket with cursor := c })) ∨
    ∃ x, w = x ++ r1 w ∧ regionStart (mk [] w bra ket) = .ok (true, mk x (r1 w) bra ket) := by
  unfold regionStart
  rcases findF ok0 w bra ket with ⟨h1, h2⟩ | ⟨r, p, hp, hw, -, h2⟩
  · rw [show a0 = amongs rows0 from rfl, h2]
    simp only [bind, Except.bind, if_true]
    have hr1 : r1 w = region w := by
      unfold r1
      have : Porter2.fixedR1.find? (·.isPrefixOf w) = none := by
        rw [List.find?_eq_none]
        intro p hp
        rw [List.isPrefixOf_iff_prefix]
        obtain ⟨q, hq, he⟩ := (by decide +kernel : ∀ p ∈ Porter2.fixedR1, ∃ q ∈ rows0, q.1.toList = p) p hp
        rw [← he]
        exact h1 q hq
      rw [this]
    rw [hr1]
    exact goVC_ok [] w bra ket
  · right
    rw [show a0 = amongs rows0 from rfl, h2]
    have hres := (by decide +kernel : ∀ p ∈ rows0, p.2.2 ≠ 0 ∧ p.1.toList ∈ Porter2.fixedR1) p hp
    simp only [bind, Except.bind, hres.1, if_false]
    have := r1_prefix hres.2 hw
    exact ⟨p.1.toList, by rw [this]; exact hw, by rw [this]⟩

theorem holds_cursor {w : List Char} {e : Env} (h : Holds w e) (c : Int) : Holds w { e with cursor := c } := h

theorem markRegions_ok (w : List Char) (bra ket : Int) (y : Bool) :
    ∃ e p1 p2 x1 x2, rMarkRegions (mk [] w bra ket) y = .ok (e, ⟨y, p2, p1⟩) ∧ Holds w e ∧ e.cursor = 0 ∧
      w = x1 ++ r1 w ∧ w = x2 ++ region (r1 w) ∧ p1 = (bytes x1).length ∧ p2 = (bytes x2).length := by
  unfold rMarkRegions
  simp only [bind, Except.bind]
  have hw := holds_mk [] w bra ket
  have hc0 : (mk [] w bra ket).cursor = 0 := rfl
  rcases regionStart_ok w bra ket with ⟨h1, c, h2⟩ | ⟨x, h1, h2⟩
  · rw [h2]
    simp only [Bool.false_eq_true, if_false]
    refine ⟨_, _, _, w, w, rfl, holds_cursor hw _, hc0, by rw [h1]; simp, by rw [h1]; simp [region], rfl, rfl⟩
  · rw [h2]
    simp only [if_true]
    have hx := holds_mk x (r1 w) bra ket
    rw [← h1] at hx
    rcases goVC_ok x (r1 w) bra ket with ⟨k1, c, k2⟩ | ⟨z, k1, k2⟩
    · simp only [k2, Bool.false_eq_true, if_false]
      exact ⟨_, _, _, x, w, rfl, holds_cursor hx _, hc0, h1, by rw [k1]; simp, rfl, rfl⟩
    · simp only [k2, if_true]
      have hxz : w = x ++ z ++ region (r1 w) := by
        rw [List.append_assoc, ← k1]
        exact h1
      have hh := holds_mk (x ++ z) (region (r1 w)) bra ket
      rw [← hxz] at hh
      exact ⟨_, _, _, x, x ++ z, rfl, holds_cursor hh _, hc0, h1, hxz, rfl, rfl⟩

/-! ## Prelude and postlude -/

theorem bra_eq (l r : List Char) (bra ket : Int) :
    ({ mk l r bra ket with bra := (mk l r bra ket).cursor } : Env) = mk l r (bytes l).length ket := rfl

theorem back_mk (l s r : List Char) (bra ket : Int) :
    ({ mk (l ++ s) r bra ket with cursor := (bytes l).length } : Env) = mk l (s ++ r) bra ket := by
  simp [mk]

theorem slice_mid (l s t r : List Char) (hs : s ≠ []) (v : List Char) (bra ket : Int)
    (hb : bra = (bytes (l ++ v)).length) (hk : ket = (bytes (l ++ v ++ s)).length) :
    ∃ b k, (mk l (v ++ s ++ r) bra ket).sliceFrom (bytes t) = .ok (mk l (v ++ t ++ r) b k) := by
  subst hb hk
  have hle : ((bytes l).length : Int) ≤ (bytes (l ++ v)).length := by exact_mod_cast bytes_le_append l v
  have := sliceFrom_left (l ++ v) s r t (bytes l).length 0 hs hle
  refine ⟨(bytes (l ++ v)).length, (bytes (l ++ v ++ s)).length, ?_⟩
  unfold mk
  simp only [List.append_assoc] at this ⊢
  exact this

theorem preludeTry_y (l r2 : List Char) (c : Char) (hc : isVowel c = true) (bra ket : Int) :
    preludeTry (mk l (c :: 'y' :: r2) bra ket)
      = .ok (true, mk l (c :: 'y' :: r2) (bytes (l ++ [c])).length (bytes (l ++ [c] ++ ['y'])).length) := by
  unfold preludeTry
  simp only [bind, Except.bind, inGrouping_cons grouping_V, hc, if_true]
  rw [show str "y" = bytes ['y'] from rfl]
  have := eqS_cons (d := 'y') (by decide) (l ++ [c]) r2 'y' (bytes (l ++ [c])).length ket
  rw [if_pos rfl] at this
  rw [bra_eq]
  rw [this]
  simp [mk]

theorem preludeTry_no (l r : List Char) (bra ket : Int) (h : ∀ c r2, r = c :: 'y' :: r2 → isVowel c = false) :
    ∃ b, preludeTry (mk l r bra ket) = .ok (false, mk l r b ket) := by
  unfold preludeTry
  rw [show str "y" = bytes ['y'] from rfl]
  cases r with
  | nil =>
    refine ⟨bra, ?_⟩
    simp only [bind, Except.bind, inGrouping_nil]
    rfl
  | cons c r =>
    simp only [bind, Except.bind, inGrouping_cons grouping_V]
    by_cases hc : isVowel c = true
    · simp only [hc, if_true]
      refine ⟨(bytes (l ++ [c])).length, ?_⟩
      rw [bra_eq]
      cases r with
      | nil =>
        rw [eqS_nil]
        simp [mk]
      | cons d r =>
        have hd : d ≠ 'y' := by
          rintro rfl
          rw [h c r rfl] at hc
          exact absurd hc (by decide)
        rw [eqS_cons (by decide), if_neg hd]
        simp [mk]
    · refine ⟨bra, ?_⟩
      simp only [hc, if_false, Bool.false_eq_true]

theorem markAfter_cons (c : Char) (r : List Char) : markAfter false (c :: r) = c :: markAfter (isVowel c) r := by
  simp [markAfter]

theorem markAfter_ne {r : List Char} (h : ∀ r2, r ≠ 'y' :: r2) (b : Bool) : markAfter b r = markAfter false r := by
  cases r with
  | nil => rfl
  | cons c r =>
    have : c ≠ 'y' := fun hc => h r (by rw [hc])
    simp [markAfter, this]

theorem preludeScan_ok (r l : List Char) (bra ket : Int) : ∀ fuel, r.length < fuel →
    (markAfter false r = r ∧ ∃ b, preludeScan fuel (mk l r bra ket) = .ok (false, mk (l ++ r) [] b ket)) ∨
    ∃ x c r2, r = x ++ c :: 'y' :: r2 ∧ markAfter false r = x ++ c :: 'Y' :: markAfter false r2 ∧
      preludeScan fuel (mk l r bra ket) = .ok (true, mk (l ++ x) (c :: 'y' :: r2) (bytes (l ++ x ++ [c])).length
        (bytes (l ++ x ++ [c] ++ ['y'])).length) := by
  induction r generalizing l bra with
  | nil =>
    intro fuel hf
    obtain ⟨fuel, rfl⟩ : ∃ f, fuel = f + 1 := ⟨fuel - 1, by simp at hf; omega⟩
    left
    obtain ⟨b, hb⟩ := preludeTry_no l [] bra ket (by simp)
    refine ⟨rfl, b, ?_⟩
    rw [preludeScan]
    simp only [bind, Except.bind, hb]
    rw [if_neg (by simp), if_pos (mk_cursor_end l b ket), List.append_nil]
  | cons c r ih =>
    intro fuel hf
    obtain ⟨fuel, rfl⟩ : ∃ f, fuel = f + 1 := ⟨fuel - 1, by omega⟩
    rw [preludeScan]
    by_cases hy : isVowel c = true ∧ ∃ r2, r = 'y' :: r2
    · obtain ⟨hc, r2, rfl⟩ := hy
      right
      refine ⟨[], c, r2, rfl, ?_, ?_⟩
      · rw [markAfter_cons, hc]
        simp [markAfter]
      · simp only [bind, Except.bind, preludeTry_y l r2 c hc]
        simp
    · obtain ⟨b, hb⟩ := preludeTry_no l (c :: r) bra ket (by
        intro d r2 he
        simp only [List.cons.injEq] at he
        obtain ⟨rfl, rfl⟩ := he
        by_contra hv
        exact hy ⟨by simpa using hv, r2, rfl⟩)
      have hmark : markAfter false (c :: r) = c :: markAfter false r := by
        rw [markAfter_cons]
        congr 1
        by_cases hc : isVowel c = true
        · refine markAfter_ne (fun r2 hr => hy ⟨hc, r2, hr⟩) _
        · rw [Bool.not_eq_true] at hc
          rw [hc]
      simp only [bind, Except.bind, hb, Bool.false_eq_true, if_false]
      rw [if_neg (mk_cursor_lt l r c b ket), nextChar_mk, hmark]
      rcases ih (l ++ [c]) b fuel (by simp at hf; omega) with ⟨h1, b', h2⟩ | ⟨x, d, r2, h1, h2, h3⟩
      · left
        refine ⟨by rw [h1], b', ?_⟩
        simp only [h2]
        simp
      · right
        refine ⟨c :: x, d, r2, by rw [h1]; rfl, by rw [h2]; rfl, ?_⟩
        simp only [h3]
        simp

theorem preludeRep_ok : ∀ (fuel : Nat) (r l : List Char) (bra ket : Int) (y : Bool), r.count 'y' < fuel →
    ∃ e, preludeRep fuel (mk l r bra ket) y = .ok (e, y || decide (markAfter false r ≠ r)) ∧
      Holds (l ++ markAfter false r) e := by
  intro fuel
  induction fuel with
  | zero => intro r l bra ket y h; omega
  | succ fuel ih =>
    intro r l bra ket y h
    rw [preludeRep]
    simp only [bind, Except.bind]
    rcases preludeScan_ok r l bra ket _ (length_lt_cur l r bra ket) with ⟨h1, b, h2⟩ | ⟨x, c, r2, h1, h2, h3⟩
    · simp only [h2, Bool.false_eq_true, if_false]
      rw [h1]
      refine ⟨_, by simp; rfl, ?_⟩
      exact holds_cursor (holds_mk_end (l ++ r) b ket) _
    · simp only [h3, if_true]
      obtain ⟨b, k, hs⟩ := slice_mid (l ++ x) ['y'] ['Y'] r2 (by simp) [c] _ _ rfl rfl
      simp only [List.cons_append, List.nil_append] at hs
      rw [show str "Y" = bytes ['Y'] from rfl, hs]
      obtain ⟨e, he, hh⟩ := ih (c :: 'Y' :: r2) (l ++ x) b k true (by
        subst h1
        simp only [List.count_append, List.count_cons] at h ⊢
        simp at h ⊢
        omega)
      have hm : markAfter false (c :: 'Y' :: r2) = c :: 'Y' :: markAfter false r2 := by
        rw [markAfter_cons]
        cases isVowel c <;> simp [markAfter, isVowel]
      refine ⟨e, ?_, ?_⟩
      · simp only [he]
        have : markAfter false r ≠ r := by
          rw [h2]
          conv => rhs; rw [h1]
          intro hcon
          have := List.append_cancel_left hcon
          simp at this
        simp [this]
      · rw [hm] at hh
        rw [h2]
        simpa using hh

theorem unmark_append (u v : List Char) : unmark (u ++ v) = unmark u ++ unmark v := by simp [unmark]

theorem postludeTry_y (l r : List Char) (bra ket : Int) :
    postludeTry (mk l ('Y' :: r) bra ket) = .ok (true, mk l ('Y' :: r) (bytes l).length (bytes (l ++ ['Y'])).length) := by
  unfold postludeTry
  simp only [bind, Except.bind]
  rw [show str "Y" = bytes ['Y'] from rfl]
  rw [bra_eq]
  rw [eqS_cons (by decide), if_pos rfl]
  simp [mk]

theorem postludeTry_no (l r : List Char) (bra ket : Int) (h : ∀ r2, r ≠ 'Y' :: r2) :
    postludeTry (mk l r bra ket) = .ok (false, mk l r (bytes l).length ket) := by
  unfold postludeTry
  simp only [bind, Except.bind]
  rw [show str "Y" = bytes ['Y'] from rfl]
  rw [bra_eq]
  cases r with
  | nil => rw [eqS_nil]; rfl
  | cons c r =>
    have : c ≠ 'Y' := fun hc => h r (by rw [hc])
    rw [eqS_cons (by decide), if_neg this]
    rfl

theorem postludeScan_ok (r l : List Char) (bra ket : Int) : ∀ fuel, r.length < fuel →
    (unmark r = r ∧ ∃ b, postludeScan fuel (mk l r bra ket) = .ok (false, mk (l ++ r) [] b ket)) ∨
    ∃ x r2, r = x ++ 'Y' :: r2 ∧ unmark x = x ∧
      postludeScan fuel (mk l r bra ket) = .ok (true, mk (l ++ x) ('Y' :: r2) (bytes (l ++ x)).length
        (bytes (l ++ x ++ ['Y'])).length) := by
  induction r generalizing l bra with
  | nil =>
    intro fuel hf
    obtain ⟨fuel, rfl⟩ : ∃ f, fuel = f + 1 := ⟨fuel - 1, by simp at hf; omega⟩
    left
    refine ⟨rfl, (bytes l).length, ?_⟩
    rw [postludeScan]
    simp only [bind, Except.bind, postludeTry_no l [] bra ket (by simp)]
    rw [if_neg (by simp), if_pos (mk_cursor_end l _ ket), List.append_nil]
  | cons c r ih =>
    intro fuel hf
    obtain ⟨fuel, rfl⟩ : ∃ f, fuel = f + 1 := ⟨fuel - 1, by omega⟩
    rw [postludeScan]
    by_cases hy : c = 'Y'
    · subst hy
      right
      refine ⟨[], r, rfl, rfl, ?_⟩
      simp only [bind, Except.bind, postludeTry_y]
      simp
    · simp only [bind, Except.bind, postludeTry_no l (c :: r) bra ket (by simp [hy]), Bool.false_eq_true, if_false]
      rw [if_neg (mk_cursor_lt l r c _ ket), nextChar_mk]
      have hu : ∀ v, unmark (c :: v) = c :: unmark v := by intro v; simp [unmark, hy]
      rcases ih (l ++ [c]) (bytes l).length fuel (by simp at hf; omega) with ⟨h1, b', h2⟩ | ⟨x, r2, h1, h2, h3⟩
      · left
        refine ⟨by rw [hu, h1], b', ?_⟩
        simp only [h2]
        simp
      · right
        refine ⟨c :: x, r2, by rw [h1]; rfl, by rw [hu, h2], ?_⟩
        simp only [h3]
        simp

theorem postludeRep_ok : ∀ (fuel : Nat) (r l : List Char) (bra ket : Int), r.count 'Y' < fuel →
    ∃ e, postludeRep fuel (mk l r bra ket) = .ok e ∧ Holds (l ++ unmark r) e := by
  intro fuel
  induction fuel with
  | zero => intro r l bra ket h; omega
  | succ fuel ih =>
    intro r l bra ket h
    rw [postludeRep]
    simp only [bind, Except.bind]
    rcases postludeScan_ok r l bra ket _ (length_lt_cur l r bra ket) with ⟨h1, b, h2⟩ | ⟨x, r2, h1, h2, h3⟩
    · simp only [h2, Bool.false_eq_true, if_false]
      rw [h1]
      exact ⟨_, rfl, holds_cursor (holds_mk_end (l ++ r) b ket) _⟩
    · simp only [h3, if_true]
      obtain ⟨b, k, hs⟩ := slice_mid (l ++ x) ['Y'] ['y'] r2 (by simp) [] _ _ (by rw [List.append_nil]) (by rw [List.append_nil])
      simp only [List.cons_append, List.nil_append] at hs
      rw [show str "y" = bytes ['y'] from rfl, hs]
      obtain ⟨e, he, hh⟩ := ih ('y' :: r2) (l ++ x) b k (by
        subst h1
        simp only [List.count_append, List.count_cons] at h ⊢
        simp at h ⊢
        omega)
      refine ⟨e, he, ?_⟩
      have : unmark r = x ++ unmark ('y' :: r2) := by
        rw [h1, unmark_append, h2]
        rfl
      rw [this, ← List.append_assoc]
      exact hh

theorem eq_mk0 {w : List Char} {e : Env} (h : Holds w e) (hc : e.cursor = 0) : e = mk [] w e.bra e.ket := by
  obtain ⟨cur, cursor, limit, lb, bra, ket⟩ := e
  obtain ⟨h1, h2, h3⟩ := h
  simp only at h1 h2 h3 hc
  subst h1 h2 h3 hc
  simp [mk]

theorem slice_first (s r t : List Char) (bra ket : Int) (hb : bra = 0) (hk : ket = (bytes s).length) :
    ∃ e, (mk s r bra ket).sliceFrom (bytes t) = .ok e ∧ Holds (t ++ r) e := by
  subst hb hk
  have := sliceFrom_mid [] s r t (bytes s).length 0
  exact ⟨_, this, rfl, rfl, rfl⟩

theorem preludeApos_ok (w : List Char) (bra ket : Int) :
    ∃ b k, preludeApos (mk [] w bra ket) = .ok (mk [] (Porter2.dropApostrophe w) b k) := by
  unfold preludeApos
  simp only [bind, Except.bind]
  rw [bra_eq, show str "'" = bytes ['\''] from rfl]
  cases w with
  | nil =>
    rw [eqS_nil]
    exact ⟨_, _, rfl⟩
  | cons c r =>
    rw [eqS_cons (by decide)]
    by_cases hc : c = '\''
    · subst hc
      simp only [if_true]
      obtain ⟨e, he, hh⟩ := slice_first ['\''] r [] 0 (bytes ['\'']).length rfl rfl
      have he' : ({ mk ([] ++ ['\'']) r (bytes []).length ket with
          ket := (mk ([] ++ ['\'']) r (bytes []).length ket).cursor } : Env).sliceDel = .ok e := he
      simp only [he']
      have := eq_mk0 (e := { e with cursor := 0 }) (holds_cursor hh 0) rfl
      exact ⟨_, _, congrArg Except.ok this⟩
    · simp only [hc, if_false, Bool.false_eq_true]
      have : Porter2.dropApostrophe (c :: r) = c :: r := by simp [Porter2.dropApostrophe, hc]
      rw [this]
      exact ⟨_, _, rfl⟩

theorem preludeInitial_ok (w : List Char) (bra ket : Int) :
    (∃ r b k, w = 'y' :: r ∧ preludeInitial (mk [] w bra ket) = .ok (mk [] ('Y' :: r) b k, true)) ∨
    ((∀ r, w ≠ 'y' :: r) ∧ ∃ b k, preludeInitial (mk [] w bra ket) = .ok (mk [] w b k, false)) := by
  unfold preludeInitial
  simp only [bind, Except.bind]
  rw [bra_eq, show str "y" = bytes ['y'] from rfl, show str "Y" = bytes ['Y'] from rfl]
  cases w with
  | nil =>
    rw [eqS_nil]
    exact Or.inr ⟨by simp, _, _, rfl⟩
  | cons c r =>
    rw [eqS_cons (by decide)]
    by_cases hc : c = 'y'
    · subst hc
      left
      simp only [if_true]
      obtain ⟨e, he, hh⟩ := slice_first ['y'] r ['Y'] 0 (bytes ['y']).length rfl rfl
      have he' : ({ mk ([] ++ ['y']) r (bytes []).length ket with
          ket := (mk ([] ++ ['y']) r (bytes []).length ket).cursor } : Env).sliceFrom (bytes ['Y']) = .ok e := he
      simp only [he']
      have := eq_mk0 (e := { e with cursor := 0 }) (holds_cursor hh 0) rfl
      exact ⟨r, _, _, rfl, congrArg (fun e => Except.ok (e, true)) this⟩
    · right
      simp only [hc, if_false, Bool.false_eq_true]
      exact ⟨by simp [hc], _, _, rfl⟩

theorem count_lt_cur (c : Char) (w : List Char) (bra ket : Int) : w.count c < (mk [] w bra ket).cur.length + 1 := by
  have h1 := length_lt_cur [] w bra ket
  have h2 := List.count_le_length (a := c) (l := w)
  omega

theorem prelude_ok (w : List Char) (bra ket : Int) :
    ∃ b k, rPrelude (mk [] w bra ket) = .ok (mk [] (markY (Porter2.dropApostrophe w)) b k,
      decide (markY (Porter2.dropApostrophe w) ≠ Porter2.dropApostrophe w)) := by
  unfold rPrelude
  simp only [bind, Except.bind]
  obtain ⟨b, k, h1⟩ := preludeApos_ok w bra ket
  rw [h1]
  simp only
  generalize Porter2.dropApostrophe w = v
  rcases preludeInitial_ok v b k with ⟨r, b, k, rfl, h2⟩ | ⟨hn, b, k, h2⟩
  · rw [h2]
    obtain ⟨e, he, hh⟩ := preludeRep_ok _ ('Y' :: r) [] b k true (count_lt_cur 'y' _ b k)
    simp only [he]
    have hm : markY ('y' :: r) = 'Y' :: markAfter false r := by simp [markY, markAfter]
    have hm' : markAfter false ('Y' :: r) = 'Y' :: markAfter false r := by
      rw [markAfter_cons]
      simp [isVowel]
    rw [List.nil_append, hm', ← hm] at hh
    have hne : markY ('y' :: r) ≠ 'y' :: r := by rw [hm]; simp
    have := eq_mk0 (e := { e with cursor := 0 }) (holds_cursor hh 0) rfl
    refine ⟨e.bra, e.ket, ?_⟩
    rw [decide_eq_true hne]
    exact congrArg (fun e => Except.ok (e, true)) this
  · rw [h2]
    obtain ⟨e, he, hh⟩ := preludeRep_ok _ v [] b k false (count_lt_cur 'y' _ b k)
    simp only [he]
    have hm : markY v = markAfter false v := markAfter_ne hn true
    rw [List.nil_append, ← hm] at hh
    have := eq_mk0 (e := { e with cursor := 0 }) (holds_cursor hh 0) rfl
    refine ⟨e.bra, e.ket, ?_⟩
    rw [hm, Bool.false_or, ← hm]
    exact congrArg (fun e => Except.ok (e, _)) this

/-! ## First exception list -/

/-- The stems of the first exception list by branch. -/
def exc1 (n : Int) (key : List Char) : List Char :=
  if n = 1 then "ski".toList else if n = 2 then "sky".toList else if n = 3 then "die".toList
  else if n = 4 then "lie".toList else if n = 5 then "tie".toList else if n = 6 then "idl".toList
  else if n = 7 then "gentl".toList else if n = 8 then "ugli".toList else if n = 9 then "earli".toList
  else if n = 10 then "onli".toList else if n = 11 then "singl".toList else key

theorem exception1Tail_done (n : Int) (key : List Char) (h1 : -1 ≤ n) (h2 : n ≤ 11) :
    ∃ e, rException1Tail n (mk key [] 0 (bytes key).length) = .ok (true, e) ∧ Holds (exc1 n key) e := by
  have hs : ∀ t : String, ∃ e, sliceRet (mk key [] 0 (bytes key).length) t = .ok (true, e) ∧ Holds t.toList e := by
    intro t
    obtain ⟨e, he, hh⟩ := slice_first key [] t.toList 0 (bytes key).length rfl rfl
    rw [List.append_nil] at hh
    refine ⟨e, ?_, hh⟩
    unfold sliceRet
    rw [show str t = bytes t.toList from rfl, he]
    rfl
  interval_cases n
  case «-1» => exact ⟨_, rfl, holds_mk_end key _ _⟩
  case «0» => exact ⟨_, rfl, holds_mk_end key _ _⟩
  all_goals exact hs _

theorem lookup_none {α : Type} {tbl : List (List Char × α)} {w : List Char} (h : ∀ p ∈ tbl, p.1 ≠ w) : tbl.lookup w = none := by
  cases hl : tbl.lookup w with
  | none => rfl
  | some a => exact absurd rfl (h _ (lookup_mem hl))

theorem exception1_ok (w : List Char) (bra ket : Int) :
    (∃ t e, Porter2.exceptions1.lookup w = some t ∧ rException1 (mk [] w bra ket) = .ok (true, e) ∧ Holds t e) ∨
    (Porter2.exceptions1.lookup w = none ∧ ∃ e, rException1 (mk [] w bra ket) = .ok (false, e) ∧ Holds w e) := by
  have hkeys := (by decide +kernel : ∀ p ∈ Porter2.exceptions1, ∃ q ∈ rows10, q.1.toList = p.1)
  unfold rException1
  simp only [bind, Except.bind]
  rw [bra_eq]
  rcases findF ok10 w (bytes ([] : List Char)).length ket with ⟨h1, h2⟩ | ⟨r, p, hp, rfl, hmax, h2⟩
  · right
    rw [show a10 = amongs rows10 from rfl, h2]
    simp only [if_true]
    refine ⟨lookup_none ?_, _, rfl, holds_mk [] w _ _⟩
    rintro p hp rfl
    obtain ⟨q, hq, he⟩ := hkeys p hp
    exact h1 q hq (he ▸ List.prefix_rfl)
  · rw [show a10 = amongs rows10 from rfl, h2]
    have hres := (by decide +kernel : ∀ p ∈ rows10, p.2.2 ≠ 0 ∧ -1 ≤ p.2.2 ∧ p.2.2 ≤ 11 ∧
      Porter2.exceptions1.lookup p.1.toList = some (exc1 p.2.2 p.1.toList)) p hp
    simp only [hres.1, if_false]
    cases r with
    | nil =>
      left
      obtain ⟨e, he, hh⟩ := exception1Tail_done p.2.2 p.1.toList hres.2.1 hres.2.2.1
      refine ⟨_, e, by rw [List.append_nil]; exact hres.2.2.2, ?_, hh⟩
      rw [if_neg (not_lt.mpr (mk_cursor_end p.1.toList _ _))]
      exact he
    | cons c r =>
      right
      rw [if_pos (not_le.mp (mk_cursor_lt p.1.toList r c _ _))]
      refine ⟨lookup_none ?_, _, rfl, holds_mk p.1.toList (c :: r) (bytes ([] : List Char)).length ket⟩
      rintro q hq he
      obtain ⟨q', hq', he'⟩ := hkeys q hq
      have := hmax q' hq' (by rw [he', he]; exact List.prefix_rfl)
      rw [he', he] at this
      simp at this

/-! ## The stemmer -/

theorem stemBack_ok (m : List Char) (e : Env) (he : Holds m e) (hc : e.cursor = 0) (y : Bool) (x1 x2 : List Char)
    (h1 : m = x1 ++ r1 m) (h2 : m = x2 ++ region (r1 m)) :
    ∃ e', stemBack e ⟨y, (bytes x2).length, (bytes x1).length⟩ = .ok e' ∧
      Holds (if y then unmark (Porter2.stemMarked m) else Porter2.stemMarked m) e' := by
  unfold stemBack
  have h0 : ({ e with lb := e.cursor, cursor := e.limit } : Env) = mk m [] e.bra e.ket := by
    refine eq_mk (e := { e with lb := e.cursor, cursor := e.limit }) ⟨he.1, he.2.1, hc⟩ he.2.1
  have hp1 : Porter2.p1 m = x1.length := by
    unfold Porter2.p1
    have := congrArg List.length h1
    rw [List.length_append] at this
    omega
  have hp2 : Porter2.p2 m = x2.length := by
    unfold Porter2.p2
    have := congrArg List.length h2
    rw [List.length_append] at this
    omega
  simp only [h0, sub_self, bind, Except.bind]
  obtain ⟨b, e1, h3, h4⟩ := step1a_done m e.bra e.ket
  simp only [h3, rewind_mk h4, v_zero]
  have htail := asciiTail_trans (tail_step0 m) (tail_step1a (Porter2.step0 m))
  obtain ⟨e2, h5, h6⟩ := exception2_ok (Porter2.step1a (Porter2.step0 m)) e1.bra e1.ket
  simp only [h5]
  have hfin : ∀ e3 : Env, Holds (Porter2.stemMarked m) e3 → ∃ e', rPostlude { e3 with cursor := e3.lb }
      ⟨y, (bytes x2).length, (bytes x1).length⟩ = .ok e' ∧
      Holds (if y then unmark (Porter2.stemMarked m) else Porter2.stemMarked m) e' := by
    intro e3 h8
    have h9 : ({ e3 with cursor := e3.lb } : Env) = mk [] (Porter2.stemMarked m) e3.bra e3.ket :=
      eq_mk0 (e := { e3 with cursor := e3.lb }) (holds_cursor h8 _) h8.2.2
    rw [h9]
    unfold rPostlude
    cases y
    · exact ⟨_, rfl, holds_mk [] _ _ _⟩
    · exact postludeRep_ok _ (Porter2.stemMarked m) [] e3.bra e3.ket (count_lt_cur 'Y' _ e3.bra e3.ket)
  by_cases hx : Porter2.step1a (Porter2.step0 m) ∈ Porter2.exceptions2
  · simp only [hx, decide_true, if_true]
    have hs : Porter2.stemMarked m = Porter2.step1a (Porter2.step0 m) := by
      simp [Porter2.stemMarked, hx]
    obtain ⟨e', h10, h11⟩ := hfin e2 (hs ▸ h6)
    simp only [h10]
    exact ⟨_, rfl, holds_cursor h11 _⟩
  · simp only [hx, decide_false, if_false, Bool.false_eq_true]
    rw [rewind_mk h6]
    obtain ⟨e3, h7, h8⟩ := steps_ok htail e2.bra e2.ket ⟨y, (bytes x2).length, (bytes x1).length⟩ x1 x2
      ⟨r1 m, h1.symm⟩ ⟨region (r1 m), h2.symm⟩ rfl rfl
    have hs : Porter2.stemMarked m = Porter2.steps x1.length x2.length (Porter2.step1a (Porter2.step0 m)) := by
      simp [Porter2.stemMarked, hx, hp1, hp2]
    obtain ⟨e', h10, h11⟩ := hfin e3 (hs ▸ h8)
    simp only [h7, h10]
    exact ⟨_, rfl, holds_cursor h11 _⟩

theorem stemEnv_ok (w : List Char) (bra ket : Int) :
    ∃ e, stemEnv (mk [] w bra ket) = .ok e ∧ Holds (Porter2.porter2 w) e := by
  unfold stemEnv Porter2.porter2
  simp only [bind, Except.bind]
  rcases exception1_ok w bra ket with ⟨t, e, h1, h2, h3⟩ | ⟨h1, e, h2, h3⟩
  · simp only [h2, h1, if_true]
    exact ⟨e, rfl, h3⟩
  · simp only [h2, h1, Bool.false_eq_true, if_false]
    have h4 : ({ e with cursor := (mk [] w bra ket).cursor } : Env) = mk [] w e.bra e.ket :=
      eq_mk0 (e := { e with cursor := (mk [] w bra ket).cursor }) (holds_cursor h3 _) rfl
    simp only [h4]
    obtain ⟨h5, c, h6⟩ := hop3_mk w e.bra e.ket
    simp only [h5, h6]
    by_cases hl : w.length < 3
    · simp only [hl, if_true, decide_eq_false (show ¬ 3 ≤ w.length by omega), Bool.not_false]
      exact ⟨_, rfl, holds_cursor (holds_mk [] w e.bra e.ket) _⟩
    · simp only [hl, if_false, decide_eq_true (show 3 ≤ w.length by omega), Bool.not_true, Bool.false_eq_true]
      have h7 : ({ mk [] w e.bra e.ket with cursor := (mk [] w bra ket).cursor } : Env) = mk [] w e.bra e.ket := rfl
      simp only [h7]
      obtain ⟨b, k, h8⟩ := prelude_ok w e.bra e.ket
      simp only [h8]
      generalize Porter2.dropApostrophe w = v
      obtain ⟨e1, p1, p2, x1, x2, h9, h10, h11, h12, h13, rfl, rfl⟩ := markRegions_ok (markY v) b k (decide (markY v ≠ v))
      simp only [h9]
      obtain ⟨e2, h14, h15⟩ := stemBack_ok (markY v) e1 h10 h11 (decide (markY v ≠ v)) x1 x2 h12 h13
      refine ⟨e2, h14, ?_⟩
      by_cases hy : markY v = v
      · simpa [hy] using h15
      · simpa [hy] using h15

/-- The stemmer of the crate computes the Porter2 stem, on the UTF-8 bytes of any word. -/
theorem stem_eq (w : List Char) : stem (bytes w) = .ok (bytes (Porter2.porter2 w)) := by
  obtain ⟨e, h1, h2⟩ := stemEnv_ok w 0 (bytes w).length
  unfold stem
  rw [show Env.create (bytes w) = mk [] w 0 (bytes w).length from rfl, h1]
  simp only [bind, Except.bind]
  rw [h2.1]

end Verif.Snowball
