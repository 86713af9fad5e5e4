import Verif.Lemmas.SnowballUtf8
import Verif.Spec.Porter2

/-!
# `eq_s`, `slice_from`, `hop` and the groupings at character level
-/

namespace Verif.Snowball

theorem toNat_inj {c d : Char} : c.toNat = d.toNat ↔ c = d :=
  ⟨fun h => Char.toNat_inj.mp h, fun h => h ▸ rfl⟩

/-- A grouping test over code points below 128 settles all characters. -/
theorem grouping_of {chars : List Nat} {min max : Nat} (L : List Char) (hmax : max < 128)
    (hL : ∀ d ∈ L, d.toNat < 128)
    (h : ∀ n < 128, groupTest chars min max n = .ok (decide (n ∈ L.map Char.toNat))) :
    Grouping chars min max (fun c => decide (c ∈ L)) := by
  intro c
  have hmem : c ∈ L ↔ c.toNat ∈ L.map Char.toNat := by
    constructor
    · intro hc
      exact List.mem_map_of_mem hc
    · intro hc
      obtain ⟨d, hd, he⟩ := List.mem_map.mp hc
      exact toNat_inj.mp he ▸ hd
  by_cases hc : c.toNat < 128
  · rw [h _ hc]
    simp only [hmem]
  · have : c ∉ L := fun hc' => hc (hL c hc')
    simp only [this, decide_false]
    unfold groupTest
    rw [if_pos]
    simp only [Bool.or_eq_true, decide_eq_true_eq]
    omega

theorem grouping_V : Grouping gV 97 121 Porter2.isVowel := by
  have := grouping_of (chars := gV) (min := 97) (max := 121) ['a', 'e', 'i', 'o', 'u', 'y'] (by decide) (by decide)
    (by decide +kernel)
  intro c
  rw [this c]
  rfl

/-- `v`, or `w`, `x`, `Y`. -/
def isVWXY (c : Char) : Bool := Porter2.isVowel c || decide (c ∈ ['w', 'x', 'Y'])

theorem grouping_VWXY : Grouping gVWXY 89 121 isVWXY := by
  have := grouping_of (chars := gVWXY) (min := 89) (max := 121) ['a', 'e', 'i', 'o', 'u', 'y', 'w', 'x', 'Y']
    (by decide) (by decide) (by decide +kernel)
  intro c
  rw [this c]
  simp only [isVWXY, Porter2.isVowel, List.mem_cons, List.not_mem_nil, or_false, ← Bool.decide_or]
  congr 2
  simp only [eq_iff_iff]
  tauto

theorem grouping_LI : Grouping gValidLI 99 116 (fun c => decide (c ∈ "cdeghkmnrt".toList)) := by
  have := grouping_of (chars := gValidLI) (min := 99) (max := 116) "cdeghkmnrt".toList
    (by decide) (by decide) (by decide +kernel)
  exact this

/-- An ASCII string. -/
def Ascii (s : List Char) : Prop := ∀ c ∈ s, c.toNat < 128

theorem bytes_ascii_singleton {d : Char} (hd : d.toNat < 128) : bytes [d] = [d.toNat] := by
  rw [bytes_singleton, encodeChar_ascii hd]

theorem prefix_single {d c : Char} (hd : d.toNat < 128) (r : List Nat) :
    (bytes [d]).isPrefixOf (encodeChar c ++ r) = decide (c = d) := by
  rw [bytes_ascii_singleton hd]
  by_cases hc : c.toNat < 128
  · rw [encodeChar_ascii hc, List.cons_append, List.isPrefixOf_cons_cons, List.isPrefixOf_nil_left]
    simp only [Bool.and_true]
    by_cases h : c = d
    · simp [h]
    · have : d.toNat ≠ c.toNat := fun e => h (toNat_inj.mp e).symm
      simp [h, this]
  · obtain ⟨b, bs, h1, h2, -⟩ := encodeChar_big (c := c) (by omega)
    have hne : c ≠ d := fun e => hc (e ▸ hd)
    have : d.toNat ≠ b := by omega
    rw [h1, List.cons_append, List.isPrefixOf_cons_cons]
    simp [hne, this]

theorem eqS_cons {d : Char} (hd : d.toNat < 128) (l r : List Char) (c : Char) (bra ket : Int) :
    (mk l (c :: r) bra ket).eqS (bytes [d])
      = .ok (if c = d then (true, mk (l ++ [c]) r bra ket) else (false, mk l (c :: r) bra ket)) := by
  unfold Env.eqS
  rw [if_neg (mk_cursor_lt l r c bra ket)]
  rw [show (mk l (c :: r) bra ket).cur = bytes (l ++ c :: r) from rfl,
    show (mk l (c :: r) bra ket).cursor = (bytes l).length from rfl, tailAt_mid]
  have hpre : (bytes [d]).isPrefixOf (bytes (c :: r)) = decide (c = d) := by
    rw [bytes_cons c r, prefix_single hd]
  have hlen : (bytes [d]).length = 1 := by rw [bytes_ascii_singleton hd]; rfl
  simp only [bind, Except.bind]
  rw [hpre, hlen]
  by_cases h : c = d
  · subst h
    have := advance_aux l r c 0 1 ((bytes (l ++ c :: r)).length + 1) (by omega)
      (by rw [encodeChar_ascii hd]; rfl) (by omega)
    rw [← bytes_cons, ← bytes_append] at this
    simp only [decide_true, if_true]
    rw [Nat.cast_add, Nat.cast_one] at this
    rw [Nat.cast_one, this, mk_shift]
    rfl
  · simp [h]

theorem eqS_nil {s : List Nat} (l : List Char) (bra ket : Int) :
    (mk l [] bra ket).eqS s = .ok (false, mk l [] bra ket) := by
  unfold Env.eqS
  rw [if_pos (mk_cursor_end l bra ket)]

theorem eqSB_snoc {d : Char} (hd : d.toNat < 128) (l r : List Char) (c : Char) (bra ket : Int) :
    (mk (l ++ [c]) r bra ket).eqSB (bytes [d])
      = .ok (if c = d then (true, mk l (c :: r) bra ket) else (false, mk (l ++ [c]) r bra ket)) := by
  have hp := encodeChar_length_pos c
  have hlen : (bytes [d]).length = 1 := by rw [bytes_ascii_singleton hd]; rfl
  have hcur : (mk (l ++ [c]) r bra ket).cursor = ((bytes l).length + (encodeChar c).length : Nat) := by
    simp [mk, bytes_singleton]
  have hcurr : (mk (l ++ [c]) r bra ket).cur = bytes l ++ (encodeChar c ++ bytes r) := by
    simp [mk, bytes_cons]
  unfold Env.eqSB
  rw [hlen, if_neg (by rw [hcur]; simp only [mk]; omega)]
  by_cases hc : c.toNat < 128
  · have h1 : (encodeChar c).length = 1 := by rw [encodeChar_ascii hc]; rfl
    have hpos : (mk (l ++ [c]) r bra ket).cursor - ((1 : Nat) : Int) = (bytes l).length := by rw [hcur, h1]; omega
    have hb := boundary_mid l (c :: r)
    have ht := tailAt_mid l (c :: r)
    rw [bytes_append, bytes_cons] at ht
    rw [bytes_cons] at hb
    rw [hpos, hcurr, hb, ht]
    simp only [Bool.not_true, Bool.false_eq_true, if_false, bind, Except.bind]
    rw [prefix_single hd]
    by_cases h : c = d
    · simp only [h, decide_true, if_true]
      simp only [mk]
      simp [bytes_cons]
    · simp [h]
  · obtain ⟨b, bs, h1, h2, -, h3, -⟩ := encodeChar_big (c := c) (by omega)
    have hl : 0 < bs.length := List.length_pos_of_ne_nil h3
    have hlb : (encodeChar c).length = bs.length + 1 := by rw [h1]; rfl
    have hne : c ≠ d := fun e => hc (e ▸ hd)
    have := boundary_inside (bytes l) (bytes r) c bs.length hl (by omega)
    have hpos : (mk (l ++ [c]) r bra ket).cursor - ((1 : Nat) : Int) = ((bytes l).length + bs.length : Nat) := by
      rw [hcur, hlb]; omega
    rw [hpos, hcurr, this]
    simp [hne]

theorem eqSB_nil {d : Char} (hd : d.toNat < 128) (r : List Char) (bra ket : Int) :
    (mk [] r bra ket).eqSB (bytes [d]) = .ok (false, mk [] r bra ket) := by
  have hlen : (bytes [d]).length = 1 := by rw [bytes_ascii_singleton hd]; rfl
  unfold Env.eqSB
  rw [hlen, if_pos (by simp [mk])]

/-- `slice_from` between `u` and `v`. -/
theorem sliceFrom_mid (u s v t : List Char) (cursor lb : Int) :
    (Env.sliceFrom ⟨bytes (u ++ s ++ v), cursor, (bytes (u ++ s ++ v)).length, lb, (bytes u).length,
      (bytes (u ++ s)).length⟩ (bytes t))
    = .ok ⟨bytes (u ++ t ++ v),
        if ((bytes (u ++ s)).length : Int) ≤ cursor then cursor + ((bytes t).length - (bytes s).length : Int)
        else if ((bytes u).length : Int) < cursor then (bytes u).length else cursor,
        (bytes (u ++ t ++ v)).length, lb, (bytes u).length, (bytes (u ++ s)).length⟩ := by
  unfold Env.sliceFrom Env.replaceS
  have h1 : headAt (bytes (u ++ s ++ v)) (bytes u).length = .ok (bytes u) := by
    rw [List.append_assoc]; exact headAt_mid u (s ++ v)
  have h2 : tailAt (bytes (u ++ s ++ v)) (bytes (u ++ s)).length = .ok (bytes v) := tailAt_mid (u ++ s) v
  simp only [bind, Except.bind, h1, h2]
  simp only [bytes_append, List.length_append, Nat.cast_add, Except.ok.injEq, Env.mk.injEq, List.append_assoc,
    true_and, and_true]
  constructor
  · split <;> [omega; rfl]
  · omega

/-- `slice_from` with the cursor at or before `bra`: the cursor stays. -/
theorem sliceFrom_left (u s v t : List Char) (cursor lb : Int) (hs : s ≠ []) (hc : cursor ≤ (bytes u).length) :
    (Env.sliceFrom ⟨bytes (u ++ s ++ v), cursor, (bytes (u ++ s ++ v)).length, lb, (bytes u).length,
      (bytes (u ++ s)).length⟩ (bytes t))
    = .ok ⟨bytes (u ++ t ++ v), cursor, (bytes (u ++ t ++ v)).length, lb, (bytes u).length,
        (bytes (u ++ s)).length⟩ := by
  rw [sliceFrom_mid]
  have : 0 < (bytes s).length := by
    obtain ⟨c, s', rfl⟩ := List.exists_cons_of_ne_nil hs
    have := encodeChar_length_pos c
    rw [bytes_cons, List.length_append]; omega
  rw [if_neg, if_neg]
  · omega
  · rw [bytes_append, List.length_append]; omega

theorem hopInner_aux (l r : List Char) (c : Char) (limit : Int)
    (hlim : (((bytes l).length + (encodeChar c).length : Nat) : Int) ≤ limit) :
    ∀ (n k fuel : Nat), 0 < k → k + n = (encodeChar c).length → n ≤ fuel →
    hopInner (bytes l ++ (encodeChar c ++ bytes r)) limit fuel (((bytes l).length + k : Nat) : Int)
      = (((bytes l).length + (encodeChar c).length : Nat) : Int) := by
  intro n
  induction n with
  | zero =>
    intro k fuel hk hkn hf
    have hb := boundary_mid (l ++ [c]) r
    rw [bytes_append, bytes_singleton, List.append_assoc, List.length_append] at hb
    have hk' : k = (encodeChar c).length := by omega
    rw [hk']
    cases fuel with
    | zero => rfl
    | succ f =>
      rw [hopInner, hb]
      simp
  | succ n ih =>
    intro k fuel hk hkn hf
    obtain ⟨f, rfl⟩ : ∃ f, fuel = f + 1 := ⟨fuel - 1, by omega⟩
    rw [hopInner, boundary_inside _ _ _ _ hk (by omega)]
    have hlt : (((bytes l).length + k : Nat) : Int) < limit := by omega
    simp only [hlt, decide_true, Bool.not_false, Bool.and_self, if_true]
    rw [← ih (k + 1) f (by omega) (by omega) (by omega)]
    congr 1

theorem hopLoop_cons (l r : List Char) (c : Char) (delta : Nat) :
    hopLoop (bytes (l ++ c :: r)) (bytes (l ++ c :: r)).length (delta + 1) (bytes l).length
      = hopLoop (bytes (l ++ [c] ++ r)) (bytes (l ++ [c] ++ r)).length delta (bytes (l ++ [c])).length := by
  have hp := encodeChar_length_pos c
  have hlen : (bytes (l ++ c :: r)).length = (bytes l).length + ((encodeChar c).length + (bytes r).length) := by
    rw [bytes_append, bytes_cons, List.length_append, List.length_append]
  rw [hopLoop, if_neg (by omega)]
  have := hopInner_aux l r c ((bytes (l ++ c :: r)).length : Int) (by omega) ((encodeChar c).length - 1) 1
    (((bytes (l ++ c :: r)).length : Int) - ((bytes l).length + 1)).toNat (by omega) (by omega) (by omega)
  rw [Nat.cast_add, Nat.cast_one] at this
  rw [← bytes_cons, ← bytes_append] at this
  rw [this, List.append_assoc, List.singleton_append]
  congr 1
  rw [bytes_append, bytes_singleton, List.length_append]

theorem hopLoop_nil (l : List Char) (delta : Nat) :
    hopLoop (bytes (l ++ [])) (bytes (l ++ [])).length (delta + 1) (bytes l).length = none := by
  rw [hopLoop, if_pos (by simp)]

/-- `hop(3)` from the start succeeds exactly for words of at least three characters. -/
theorem hop3_mk (w : List Char) (bra ket : Int) :
    ((mk [] w bra ket).hop 3).1 = decide (3 ≤ w.length) ∧
      ∃ c, ((mk [] w bra ket).hop 3).2 = { mk [] w bra ket with cursor := c } := by
  unfold Env.hop
  have h0 : hopLoop (mk [] w bra ket).cur (mk [] w bra ket).limit 3 (mk [] w bra ket).cursor
      = hopLoop (bytes ([] ++ w)) (bytes ([] ++ w)).length 3 (bytes []).length := rfl
  rw [h0]
  rcases w with _ | ⟨a, _ | ⟨b, _ | ⟨c, r⟩⟩⟩
  · rw [hopLoop_nil]
    exact ⟨rfl, _, rfl⟩
  · rw [hopLoop_cons, hopLoop_nil]
    exact ⟨rfl, _, rfl⟩
  · rw [hopLoop_cons, hopLoop_cons, hopLoop_nil]
    exact ⟨rfl, _, rfl⟩
  · rw [hopLoop_cons, hopLoop_cons, hopLoop_cons, hopLoop]
    exact ⟨by simp, _, rfl⟩

theorem hopBackInner_aux (l r : List Char) (c : Char) :
    ∀ (k fuel : Nat), k < (encodeChar c).length → k ≤ fuel →
    hopBackInner (bytes l ++ (encodeChar c ++ bytes r)) 0 fuel (((bytes l).length + k : Nat) : Int)
      = ((bytes l).length : Int) := by
  intro k
  induction k with
  | zero =>
    intro fuel hk hf
    have hb := boundary_mid l (c :: r)
    rw [bytes_cons] at hb
    rw [Nat.add_zero]
    cases fuel with
    | zero => rfl
    | succ f =>
      rw [hopBackInner, hb]
      simp
  | succ k ih =>
    intro fuel hk hf
    obtain ⟨f, rfl⟩ : ∃ f, fuel = f + 1 := ⟨fuel - 1, by omega⟩
    rw [hopBackInner, boundary_inside _ _ _ _ (by omega) hk]
    have hlt : (0 : Int) < (((bytes l).length + (k + 1) : Nat) : Int) := by omega
    simp only [hlt, decide_true, Bool.not_false, Bool.and_self, if_true]
    rw [← ih f (by omega) (by omega)]
    congr 1
    omega

theorem hopBackLoop_snoc (l r : List Char) (c : Char) (delta : Nat) :
    hopBackLoop (bytes (l ++ [c] ++ r)) 0 (delta + 1) (bytes (l ++ [c])).length
      = hopBackLoop (bytes (l ++ c :: r)) 0 delta (bytes l).length := by
  have hp := encodeChar_length_pos c
  have hl : (bytes (l ++ [c])).length = (bytes l).length + (encodeChar c).length := by
    rw [bytes_append, bytes_singleton, List.length_append]
  rw [hopBackLoop, hl, if_neg (by omega)]
  have := hopBackInner_aux l r c ((encodeChar c).length - 1)
    ((((bytes l).length + (encodeChar c).length : Nat) : Int) - 1 - 0).toNat (by omega) (by omega)
  rw [← bytes_cons, ← bytes_append] at this
  rw [List.append_assoc, List.singleton_append]
  rw [show ((((bytes l).length + (encodeChar c).length : Nat) : Int) - 1)
    = (((bytes l).length + ((encodeChar c).length - 1) : Nat) : Int) by omega] at this ⊢
  rw [this]

theorem hopBackLoop_nil (r : List Char) (delta : Nat) :
    hopBackLoop (bytes ([] ++ r)) 0 (delta + 1) (bytes []).length = none := by
  rw [hopBackLoop, if_pos (by simp)]

/-- `hop_back(2)` succeeds exactly with at least two characters before the cursor, and moves it to the left. -/
theorem hopBack2_mk (l r : List Char) (bra ket : Int) :
    ((mk l r bra ket).hopBack 2).1 = decide (2 ≤ l.length) ∧
      ∃ c, c ≤ ((bytes l).length : Int) ∧ ((mk l r bra ket).hopBack 2).2 = { mk l r bra ket with cursor := c } := by
  unfold Env.hopBack
  have h0 : hopBackLoop (mk l r bra ket).cur (mk l r bra ket).lb 2 (mk l r bra ket).cursor
      = hopBackLoop (bytes (l ++ r)) 0 2 (bytes l).length := rfl
  rw [h0]
  rcases List.eq_nil_or_concat l with rfl | ⟨l, a, rfl⟩
  · rw [hopBackLoop_nil]
    exact ⟨rfl, _, le_refl _, rfl⟩
  · rw [List.concat_eq_append, hopBackLoop_snoc]
    rcases List.eq_nil_or_concat l with rfl | ⟨l, b, rfl⟩
    · rw [hopBackLoop_nil]
      exact ⟨rfl, _, le_refl _, rfl⟩
    · rw [List.concat_eq_append, show l ++ [b] ++ a :: r = (l ++ [b]) ++ (a :: r) from rfl, hopBackLoop_snoc, hopBackLoop]
      refine ⟨by simp, (bytes l).length, ?_, rfl⟩
      simp only [bytes_append, List.length_append]
      omega

end Verif.Snowball
