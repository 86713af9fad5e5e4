import Verif.Model.Snowball
import Mathlib.Tactic.Linarith
import Mathlib.Data.List.Basic

/-!
# UTF-8 facts and the primitives of `SnowballEnv` at character level
-/

namespace Verif.Snowball

/-- A byte that can begin a character. -/
def isFirst (b : Nat) : Bool := decide (b < 128) || decide (192 ≤ b)

theorem encodeChar_ascii {c : Char} (h : c.toNat < 128) : encodeChar c = [c.toNat] := by
  have h' : c.val.toNat ≤ 127 := by have : c.toNat = c.val.toNat := rfl; omega
  have e : c.toNat = c.val.toNat := rfl
  unfold encodeChar String.utf8EncodeChar
  simp only [h', if_true, List.map_cons, List.map_nil, e, UInt8.toNat_ofNat']
  congr 1
  omega

theorem encodeChar_big {c : Char} (h : 128 ≤ c.toNat) :
    ∃ b bs, encodeChar c = b :: bs ∧ 192 ≤ b ∧ (∀ x ∈ bs, 128 ≤ x ∧ x < 192) ∧ bs ≠ [] ∧
      ∀ r, firstChar (b :: (bs ++ r)) = some c.toNat := by
  have e : c.toNat = c.val.toNat := rfl
  have hv : c.val.toNat < 1114112 := by
    have := c.valid
    rcases this with h | h
    · have : c.val.toNat < 55296 := h
      omega
    · exact h.2
  unfold encodeChar String.utf8EncodeChar
  rw [e] at h ⊢
  generalize c.val.toNat = v at *
  have h1 : ¬ v ≤ 127 := by omega
  simp only [h1, if_false]
  by_cases h2 : v ≤ 2047
  · simp only [h2, if_true, List.map_cons, List.map_nil, UInt8.toNat_ofNat']
    refine ⟨_, _, rfl, by omega, ?_, by simp, ?_⟩
    · intro x hx
      simp only [List.mem_cons, List.not_mem_nil, or_false] at hx
      omega
    · intro r
      simp only [firstChar]
      rw [if_neg (by omega), if_pos (by omega)]
      simp only [List.cons_append, List.nil_append, List.getElem?_cons_zero, Option.getD_some, Option.some.injEq]
      omega
  · simp only [h2, if_false]
    by_cases h3 : v ≤ 65535
    · simp only [h3, if_true, List.map_cons, List.map_nil, UInt8.toNat_ofNat']
      refine ⟨_, _, rfl, by omega, ?_, by simp, ?_⟩
      · intro x hx
        simp only [List.mem_cons, List.not_mem_nil, or_false] at hx
        omega
      · intro r
        simp only [firstChar]
        rw [if_neg (by omega), if_neg (by omega), if_pos (by omega)]
        simp only [List.cons_append, List.nil_append, List.getElem?_cons_zero, List.getElem?_cons_succ,
          Option.getD_some, Option.some.injEq]
        omega
    · simp only [h3, if_false, List.map_cons, List.map_nil, UInt8.toNat_ofNat']
      refine ⟨_, _, rfl, by omega, ?_, by simp, ?_⟩
      · intro x hx
        simp only [List.mem_cons, List.not_mem_nil, or_false] at hx
        omega
      · intro r
        simp only [firstChar]
        rw [if_neg (by omega), if_neg (by omega), if_neg (by omega)]
        simp only [List.cons_append, List.nil_append, List.getElem?_cons_zero, List.getElem?_cons_succ,
          Option.getD_some, Option.some.injEq]
        omega

/-- Every character is a first byte and some continuation bytes, and decodes to itself. -/
theorem encodeChar_shape (c : Char) :
    ∃ b bs, encodeChar c = b :: bs ∧ isFirst b = true ∧ (∀ x ∈ bs, isFirst x = false) ∧
      ∀ r, firstChar (b :: (bs ++ r)) = some c.toNat := by
  by_cases h : c.toNat < 128
  · refine ⟨_, _, encodeChar_ascii h, by simp [isFirst, h], by simp, ?_⟩
    intro r
    simp [firstChar, h]
  · obtain ⟨b, bs, h1, h2, h3, -, h4⟩ := encodeChar_big (c := c) (by omega)
    refine ⟨b, bs, h1, by simp [isFirst, h2], ?_, h4⟩
    intro x hx
    have := h3 x hx
    simp only [isFirst, Bool.or_eq_false_iff, decide_eq_false_iff_not]
    omega

theorem firstChar_encode (c : Char) (r : List Nat) : firstChar (encodeChar c ++ r) = some c.toNat := by
  obtain ⟨b, bs, h1, -, -, h4⟩ := encodeChar_shape c
  rw [h1, List.cons_append, h4]

theorem encodeChar_length_pos (c : Char) : 0 < (encodeChar c).length := by
  obtain ⟨b, bs, h1, -⟩ := encodeChar_shape c
  simp [h1]

@[simp] theorem bytes_nil : bytes [] = [] := rfl

theorem bytes_cons (c : Char) (w : List Char) : bytes (c :: w) = encodeChar c ++ bytes w := rfl

@[simp] theorem bytes_append (u v : List Char) : bytes (u ++ v) = bytes u ++ bytes v := by
  simp [bytes, List.flatMap_append]

theorem bytes_singleton (c : Char) : bytes [c] = encodeChar c := by simp [bytes]

theorem boundary_nat (t : List Nat) (n : Nat) :
    boundary t n = (n == 0 || n == t.length || (t[n]?).any isFirst) := by
  unfold boundary
  rw [if_neg (by omega), Int.toNat_natCast]
  rfl

theorem boundary_mid (l r : List Char) : boundary (bytes l ++ bytes r) (bytes l).length = true := by
  rw [boundary_nat]
  cases r with
  | nil => simp
  | cons c r =>
    obtain ⟨b, bs, h1, h2, -⟩ := encodeChar_shape c
    rw [bytes_cons, h1, List.getElem?_append_right (le_refl _)]
    simp [h2]

/-- Inside a character there is no boundary. -/
theorem boundary_inside (l r : List Nat) (c : Char) (k : Nat) (h0 : 0 < k) (hk : k < (encodeChar c).length) :
    boundary (l ++ (encodeChar c ++ r)) ((l.length + k : Nat) : Int) = false := by
  obtain ⟨b, bs, h1, -, h3, -⟩ := encodeChar_shape c
  rw [boundary_nat, h1]
  rw [h1, List.length_cons] at hk
  rw [List.getElem?_append_right (by omega), Nat.add_sub_cancel_left]
  obtain ⟨j, rfl⟩ : ∃ j, k = j + 1 := ⟨k - 1, by omega⟩
  rw [List.cons_append, List.getElem?_cons_succ, List.getElem?_append_left (by omega), List.getElem?_eq_getElem (by omega)]
  simp only [Option.any_some, h3 _ (List.getElem_mem _), List.length_append, List.length_cons, Bool.or_false,
    Bool.or_eq_false_iff, beq_eq_false_iff_ne]
  omega

theorem advance_aux (l r : List Char) (c : Char) : ∀ (n k fuel : Nat), 0 < k → k + n = (encodeChar c).length →
    n < fuel →
    advance (bytes l ++ (encodeChar c ++ bytes r)) fuel (((bytes l).length + k : Nat) : Int)
      = .ok (((bytes l).length + (encodeChar c).length : Nat) : Int) := by
  intro n
  induction n with
  | zero =>
    intro k fuel hk hkn hf
    obtain ⟨f, rfl⟩ : ∃ f, fuel = f + 1 := ⟨fuel - 1, by omega⟩
    have hb := boundary_mid (l ++ [c]) r
    rw [bytes_append, bytes_singleton, List.append_assoc, List.length_append] at hb
    have : k = (encodeChar c).length := by omega
    rw [advance, this, if_pos hb]
  | succ n ih =>
    intro k fuel hk hkn hf
    obtain ⟨f, rfl⟩ : ∃ f, fuel = f + 1 := ⟨fuel - 1, by omega⟩
    rw [advance, boundary_inside _ _ _ _ hk (by omega)]
    have := ih (k + 1) f (by omega) (by omega) (by omega)
    rw [← this]
    simp only [Bool.false_eq_true, if_false]
    congr 1

theorem retreat_aux (l r : List Char) (c : Char) : ∀ (k fuel : Nat), k < (encodeChar c).length → k < fuel →
    retreat (bytes l ++ (encodeChar c ++ bytes r)) fuel (((bytes l).length + k : Nat) : Int)
      = .ok ((bytes l).length : Int) := by
  intro k
  induction k with
  | zero =>
    intro fuel hk hf
    obtain ⟨f, rfl⟩ : ∃ f, fuel = f + 1 := ⟨fuel - 1, by omega⟩
    have hb := boundary_mid l (c :: r)
    rw [bytes_cons] at hb
    rw [retreat, Nat.add_zero, if_pos hb]
  | succ k ih =>
    intro fuel hk hf
    obtain ⟨f, rfl⟩ : ∃ f, fuel = f + 1 := ⟨fuel - 1, by omega⟩
    rw [retreat, boundary_inside _ _ _ _ (by omega) hk]
    simp only [Bool.false_eq_true, if_false]
    rw [← ih f (by omega) (by omega)]
    congr 1
    omega

/-- The environment with text `l ++ r`, the cursor between the two, and no backward limit. -/
def mk (l r : List Char) (bra ket : Int) : Env :=
  ⟨bytes (l ++ r), (bytes l).length, (bytes (l ++ r)).length, 0, bra, ket⟩

theorem tailAt_mid (l r : List Char) : tailAt (bytes (l ++ r)) (bytes l).length = .ok (bytes r) := by
  rw [bytes_append, tailAt, if_pos (boundary_mid l r), Int.toNat_natCast, List.drop_left]

theorem headAt_mid (l r : List Char) : headAt (bytes (l ++ r)) (bytes l).length = .ok (bytes l) := by
  rw [bytes_append, headAt, if_pos (boundary_mid l r), Int.toNat_natCast, List.take_left]

theorem mk_shift (l r : List Char) (c : Char) (bra ket : Int) :
    mk (l ++ [c]) r bra ket = { mk l (c :: r) bra ket with cursor := ((bytes l).length + (encodeChar c).length : Nat) } := by
  simp [mk, bytes_singleton]

theorem nextChar_mk (l r : List Char) (c : Char) (bra ket : Int) :
    (mk l (c :: r) bra ket).nextChar = .ok (mk (l ++ [c]) r bra ket) := by
  have hp := encodeChar_length_pos c
  have := advance_aux l r c ((encodeChar c).length - 1) 1 ((bytes (l ++ c :: r)).length + 1) (by omega) (by omega)
    (by rw [bytes_append, bytes_cons, List.length_append, List.length_append]; omega)
  unfold Env.nextChar
  rw [mk_shift]
  simp only [mk]
  rw [Nat.cast_add, Nat.cast_one] at this
  rw [show bytes (l ++ c :: r) = bytes l ++ (encodeChar c ++ bytes r) by rw [bytes_append, bytes_cons]] at this ⊢
  rw [this]
  rfl

theorem previousChar_mk (l r : List Char) (c : Char) (bra ket : Int) :
    (mk (l ++ [c]) r bra ket).previousChar = .ok (mk l (c :: r) bra ket) := by
  have hp := encodeChar_length_pos c
  have := retreat_aux l r c ((encodeChar c).length - 1) ((bytes (l ++ c :: r)).length + 1) (by omega)
    (by rw [bytes_append, bytes_cons, List.length_append, List.length_append]; omega)
  unfold Env.previousChar
  rw [mk_shift]
  simp only [mk]
  rw [show bytes (l ++ c :: r) = bytes l ++ (encodeChar c ++ bytes r) by rw [bytes_append, bytes_cons]] at this ⊢
  rw [show (((bytes l).length + (encodeChar c).length : Nat) : Int) - 1
    = (((bytes l).length + ((encodeChar c).length - 1) : Nat) : Int) by omega, this]
  rfl

theorem mk_cursor_lt (l r : List Char) (c : Char) (bra ket : Int) :
    ¬ (mk l (c :: r) bra ket).limit ≤ (mk l (c :: r) bra ket).cursor := by
  have hp := encodeChar_length_pos c
  simp only [mk, bytes_append, bytes_cons, List.length_append]
  omega

theorem mk_cursor_end (l : List Char) (bra ket : Int) :
    (mk l [] bra ket).limit ≤ (mk l [] bra ket).cursor := by
  simp [mk]

theorem mk_cursor_pos (l r : List Char) (c : Char) (bra ket : Int) :
    ¬ (mk (l ++ [c]) r bra ket).cursor ≤ (mk (l ++ [c]) r bra ket).lb := by
  have hp := encodeChar_length_pos c
  simp only [mk, bytes_append, bytes_singleton, List.length_append]
  omega

theorem mk_cursor_zero (r : List Char) (bra ket : Int) :
    (mk [] r bra ket).cursor ≤ (mk [] r bra ket).lb := by
  simp [mk]

/-- A grouping and the characters it stands for. -/
def Grouping (chars : List Nat) (min max : Nat) (P : Char → Bool) : Prop :=
  ∀ c : Char, groupTest chars min max c.toNat = .ok (P c)

variable {chars : List Nat} {min max : Nat} {P : Char → Bool}

theorem inGrouping_cons (h : Grouping chars min max P) (l r : List Char) (c : Char) (bra ket : Int) :
    (mk l (c :: r) bra ket).inGrouping chars min max
      = .ok (if P c then (true, mk (l ++ [c]) r bra ket) else (false, mk l (c :: r) bra ket)) := by
  unfold Env.inGrouping
  rw [if_neg (mk_cursor_lt l r c bra ket)]
  rw [show (mk l (c :: r) bra ket).cur = bytes (l ++ c :: r) from rfl,
    show (mk l (c :: r) bra ket).cursor = (bytes l).length from rfl, tailAt_mid]
  simp only [bind, Except.bind, bytes_cons, firstChar_encode, Option.elim_some, h c]
  cases P c
  · simp
  · simp [nextChar_mk]

theorem inGrouping_nil (l : List Char) (bra ket : Int) :
    (mk l [] bra ket).inGrouping chars min max = .ok (false, mk l [] bra ket) := by
  unfold Env.inGrouping
  rw [if_pos (mk_cursor_end l bra ket)]

theorem outGrouping_cons (h : Grouping chars min max P) (l r : List Char) (c : Char) (bra ket : Int) :
    (mk l (c :: r) bra ket).outGrouping chars min max
      = .ok (if P c then (false, mk l (c :: r) bra ket) else (true, mk (l ++ [c]) r bra ket)) := by
  unfold Env.outGrouping
  rw [if_neg (mk_cursor_lt l r c bra ket)]
  rw [show (mk l (c :: r) bra ket).cur = bytes (l ++ c :: r) from rfl,
    show (mk l (c :: r) bra ket).cursor = (bytes l).length from rfl, tailAt_mid]
  simp only [bind, Except.bind, bytes_cons, firstChar_encode, Option.elim_some, h c]
  cases P c
  · simp [nextChar_mk]
  · simp

theorem outGrouping_nil (l : List Char) (bra ket : Int) :
    (mk l [] bra ket).outGrouping chars min max = .ok (false, mk l [] bra ket) := by
  unfold Env.outGrouping
  rw [if_pos (mk_cursor_end l bra ket)]

theorem inGroupingB_snoc (h : Grouping chars min max P) (l r : List Char) (c : Char) (bra ket : Int) :
    (mk (l ++ [c]) r bra ket).inGroupingB chars min max
      = .ok (if P c then (true, mk l (c :: r) bra ket) else (false, mk (l ++ [c]) r bra ket)) := by
  unfold Env.inGroupingB
  rw [if_neg (mk_cursor_pos l r c bra ket), previousChar_mk]
  simp only [bind, Except.bind]
  rw [show (mk l (c :: r) bra ket).cur = bytes (l ++ c :: r) from rfl,
    show (mk l (c :: r) bra ket).cursor = (bytes l).length from rfl, tailAt_mid]
  simp only [bytes_cons, firstChar_encode, Option.elim_some, h c, nextChar_mk]
  cases P c
  · simp
  · simp [previousChar_mk]

theorem inGroupingB_nil (r : List Char) (bra ket : Int) :
    (mk [] r bra ket).inGroupingB chars min max = .ok (false, mk [] r bra ket) := by
  unfold Env.inGroupingB
  rw [if_pos (mk_cursor_zero r bra ket)]

theorem outGroupingB_snoc (h : Grouping chars min max P) (l r : List Char) (c : Char) (bra ket : Int) :
    (mk (l ++ [c]) r bra ket).outGroupingB chars min max
      = .ok (if P c then (false, mk (l ++ [c]) r bra ket) else (true, mk l (c :: r) bra ket)) := by
  unfold Env.outGroupingB
  rw [if_neg (mk_cursor_pos l r c bra ket), previousChar_mk]
  simp only [bind, Except.bind]
  rw [show (mk l (c :: r) bra ket).cur = bytes (l ++ c :: r) from rfl,
    show (mk l (c :: r) bra ket).cursor = (bytes l).length from rfl, tailAt_mid]
  simp only [bytes_cons, firstChar_encode, Option.elim_some, h c, nextChar_mk]
  cases P c
  · simp [previousChar_mk]
  · simp

theorem outGroupingB_nil (r : List Char) (bra ket : Int) :
    (mk [] r bra ket).outGroupingB chars min max = .ok (false, mk [] r bra ket) := by
  unfold Env.outGroupingB
  rw [if_pos (mk_cursor_zero r bra ket)]

end Verif.Snowball
