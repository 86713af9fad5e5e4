import Verif.Model.Benford
import Mathlib.Tactic.Ring
import Mathlib.Tactic.Linarith
import Mathlib.Data.Nat.Basic
import Mathlib.Algebra.Order.Group.Int
import Mathlib.Data.List.Basic

/-!
# Leading digit counts: theorems
-/

namespace Verif.Benford.Spec

/-- `d` is the leading decimal digit of `n`. -/
def Leading (d n : Nat) : Prop := 1 ≤ d ∧ d ≤ 9 ∧ ∃ k, d * 10 ^ k ≤ n ∧ n < (d + 1) * 10 ^ k

/-- The number written by a list of decimal digits, most significant first. -/
def value : List Nat → Nat
  | [] => 0
  | d :: ds => d * 10 ^ ds.length + value ds

/-- The text of a list of digits. -/
def text (ds : List Nat) : List Char := ds.map fun d => Char.ofNat (48 + d)

end Verif.Benford.Spec

namespace Verif.Benford
open Verif.Benford.Spec

/-- A number has at most one leading digit. -/
theorem leading_unique (d e n : Nat) (hd : Leading d n) (he : Leading e n) : d = e := by
  obtain ⟨hd1, hd9, k, hk1, hk2⟩ := hd
  obtain ⟨he1, he9, l, hl1, hl2⟩ := he
  have key : ∀ d e k l : Nat, 1 ≤ e → d ≤ 9 → n < (d + 1) * 10 ^ k → e * 10 ^ l ≤ n → l ≤ k := by
    intro d e k l he hd h1 h2
    by_contra hlt
    have hp : 10 ^ (k + 1) ≤ 10 ^ l := Nat.pow_le_pow_right (by decide) (by omega)
    have h3 : (d + 1) * 10 ^ k ≤ 10 * 10 ^ k := Nat.mul_le_mul_right _ (by omega)
    have h4 : 10 ^ l ≤ e * 10 ^ l := Nat.le_mul_of_pos_left _ (by omega)
    rw [Nat.pow_succ] at hp
    omega
  have h1 := key d e k l he1 hd9 hk2 hl1
  have h2 := key e d l k hd1 he9 hl2 hk1
  have hkl : k = l := by omega
  subst hkl
  have hpos : 0 < 10 ^ k := Nat.pow_pos (by decide)
  have a1 : d < e + 1 := Nat.lt_of_mul_lt_mul_right (lt_of_le_of_lt hk1 hl2)
  have a2 : e < d + 1 := Nat.lt_of_mul_lt_mul_right (lt_of_le_of_lt hl1 hk2)
  omega

theorem digitLoop_spec (fuel : Nat) (v d : Int) (hf : v.natAbs ≤ fuel) (hv : v ≠ 0) :
    Leading (digitLoop fuel v d).natAbs v.natAbs := by
  induction fuel generalizing v d with
  | zero => omega
  | succ fuel ih =>
    unfold digitLoop
    rw [if_neg hv]
    have hq : (v.tdiv 10).natAbs = v.natAbs / 10 := by rw [Int.natAbs_tdiv]; rfl
    have hr : (v.tmod 10).natAbs = v.natAbs % 10 := by rw [Int.natAbs_tmod]; rfl
    by_cases hz : v.tdiv 10 = 0
    · have h0 : v.natAbs / 10 = 0 := by rw [← hq, hz]; rfl
      have hval : digitLoop fuel (v.tdiv 10) (v.tmod 10) = v.tmod 10 := by
        rw [hz]
        cases fuel with
        | zero => rfl
        | succ f => unfold digitLoop; rw [if_pos rfl]
      rw [hval, hr]
      refine ⟨by omega, by omega, 0, by omega, by omega⟩
    · obtain ⟨h1, h9, k, hk1, hk2⟩ := ih (v.tdiv 10) (v.tmod 10) (by rw [hq]; omega) hz
      refine ⟨h1, h9, k + 1, ?_, ?_⟩
      · rw [hq] at hk1
        have := (Nat.le_div_iff_mul_le (by decide)).1 hk1
        rw [Nat.pow_succ, ← Nat.mul_assoc]
        exact this
      · rw [hq] at hk2
        have := (Nat.div_lt_iff_lt_mul (by decide)).1 hk2
        rw [Nat.pow_succ, ← Nat.mul_assoc]
        exact this

/-- The index of a non-zero integer is the leading digit of its absolute value; the index of zero is 0. -/
theorem int_index_leading (u : Int) : (u = 0 → intIndex u = 0) ∧ (u ≠ 0 → Leading (intIndex u) u.natAbs) := by
  constructor
  · rintro rfl; rfl
  · intro h
    exact digitLoop_spec _ _ _ (le_refl _) h

theorem int_index_lt (u : Int) : intIndex u < 10 := by
  by_cases h : u = 0
  · rw [(int_index_leading u).1 h]; decide
  · have := ((int_index_leading u).2 h).2.1
    omega

theorem value_lt (ds : List Nat) (h : ∀ d ∈ ds, d ≤ 9) : value ds < 10 ^ ds.length := by
  induction ds with
  | nil => simp [value]
  | cons d ds ih =>
    have h1 := ih fun e he => h e (List.mem_cons_of_mem _ he)
    have h2 := h d List.mem_cons_self
    have h3 : d * 10 ^ ds.length ≤ 9 * 10 ^ ds.length := Nat.mul_le_mul_right _ h2
    rw [value, List.length_cons, Nat.pow_succ]
    omega

theorem digit_char (d : Nat) (h : d ≤ 9) :
    toDigit (Char.ofNat (48 + d)) = some d ∧ (Char.ofNat (48 + d) = '0' ↔ d = 0) ∧ Char.ofNat (48 + d) ≠ '.' := by
  revert d
  decide

theorem floatIndex_digits (ds : List Nat) (h : ∀ d ∈ ds, d ≤ 9) :
    (value ds = 0 → floatIndex (text ds) = some 0) ∧
    (value ds ≠ 0 → ∃ d, floatIndex (text ds) = some d ∧ Leading d (value ds)) := by
  induction ds with
  | nil => exact ⟨fun _ => by decide, fun h => absurd rfl h⟩
  | cons d ds ih =>
    have hd := h d List.mem_cons_self
    have hds : ∀ e ∈ ds, e ≤ 9 := fun e he => h e (List.mem_cons_of_mem _ he)
    have ⟨c1, c2, c3⟩ := digit_char d hd
    by_cases h0 : d = 0
    · subst h0
      have e1 : value (0 :: ds) = value ds := by simp [value]
      have e2 : floatIndex (text (0 :: ds)) = floatIndex (text ds) := by
        unfold floatIndex text
        rw [List.map_cons, List.find?_cons_of_neg]
        simp
      rw [e1, e2]
      exact ih hds
    · have e2 : floatIndex (text (d :: ds)) = some d := by
        unfold floatIndex text
        rw [List.map_cons, List.find?_cons_of_pos]
        · rw [Option.getD_some]; exact c1
        · simp only [Bool.and_eq_true, decide_eq_true_eq]
          exact ⟨fun hc => h0 (c2.1 hc), c3⟩
      have hpos : 0 < 10 ^ ds.length := Nat.pow_pos (by decide)
      have hv := value_lt ds hds
      have hge : d * 10 ^ ds.length ≤ value (d :: ds) := by rw [value]; omega
      have h1 : 1 * 10 ^ ds.length ≤ d * 10 ^ ds.length := Nat.mul_le_mul_right _ (by omega)
      constructor
      · intro hz; omega
      · intro _
        refine ⟨d, e2, by omega, hd, ds.length, hge, ?_⟩
        rw [value, Nat.add_mul, Nat.one_mul]
        omega

/-- A float printed as `is.fs` (or as `is`) is counted under the leading digit of its printed value, and under 0 if it is
zero.  The printed value is `value (is ++ fs)` divided by `10 ^ fs.length`, and a power of ten does not change the leading
digit. -/
theorem float_index_leading (is fs : List Nat) (h : ∀ d ∈ is ++ fs, d ≤ 9) (s : List Char)
    (hs : s = text is ++ '.' :: text fs ∨ (fs = [] ∧ s = text is)) :
    (value (is ++ fs) = 0 → floatIndex s = some 0) ∧
    (value (is ++ fs) ≠ 0 → ∃ d, floatIndex s = some d ∧ Leading d (value (is ++ fs))) := by
  have e : floatIndex s = floatIndex (text (is ++ fs)) := by
    rcases hs with rfl | ⟨rfl, rfl⟩
    · unfold floatIndex text
      rw [List.map_append, List.find?_append, List.find?_append, List.find?_cons_of_neg]
      simp
    · rw [List.append_nil]
  rw [e]
  exact floatIndex_digits _ h

theorem sum_counts (idx : List Nat) (h : ∀ i ∈ idx, i < 10) :
    (((List.range 10).map fun d => idx.count d).tail).sum = idx.countP fun i => decide (i ≠ 0) := by
  induction idx with
  | nil => decide
  | cons i idx ih =>
    have hi := h i List.mem_cons_self
    have := ih fun j hj => h j (List.mem_cons_of_mem _ hj)
    rw [List.countP_cons, ← this]
    have hr : List.range 10 = [0, 1, 2, 3, 4, 5, 6, 7, 8, 9] := by decide
    rw [hr]
    simp only [List.map_cons, List.map_nil, List.tail_cons, List.sum_cons, List.sum_nil, List.count_cons]
    have : i = 0 ∨ i = 1 ∨ i = 2 ∨ i = 3 ∨ i = 4 ∨ i = 5 ∨ i = 6 ∨ i = 7 ∨ i = 8 ∨ i = 9 := by omega
    rcases this with rfl | rfl | rfl | rfl | rfl | rfl | rfl | rfl | rfl | rfl <;> simp <;> omega

theorem tally_get (idx : List Nat) (h : ∀ i ∈ idx, i < 10) :
    ∃ out, tally idx = some out ∧ out.length = 9 ∧ (∀ d, 1 ≤ d → d ≤ 9 → out[d - 1]? = some (idx.count d)) ∧
      out.sum = idx.countP fun i => decide (i ≠ 0) := by
  refine ⟨((List.range 10).map fun d => idx.count d).tail, ?_, by simp, ?_, sum_counts idx h⟩
  · unfold tally
    rw [if_pos]
    rw [List.all_eq_true]
    intro i hi
    exact decide_eq_true (h i hi)
  · intro d h1 h9
    rw [List.getElem?_tail, Nat.sub_add_cancel h1, List.getElem?_map, List.getElem?_range (by omega)]
    rfl

/-- Integer columns, where a null counts as the value its slot stores (so exact for columns without nulls): entry `d` is the number of values with leading digit `d`; together the entries count
the non-zero values.  Never panics.  (Null slots are counted too, see below.) -/
theorem benford_int_counts_partial (s : List (Bool × Int)) :
    ∃ out, benfordInt s = some out ∧ out.length = 9 ∧
      (∀ d, 1 ≤ d → d ≤ 9 → ∃ c, out[d - 1]? = some c ∧
        ∀ q : Int → Bool, (∀ x, q x = true ↔ Leading d x.natAbs) → c = (s.map Prod.snd).countP q) ∧
      out.sum = (s.map Prod.snd).countP fun x => decide (x ≠ 0) := by
  obtain ⟨out, h1, h2, h3, h4⟩ := tally_get (s.map fun p => intIndex p.2) (by
    intro i hi
    obtain ⟨p, _, rfl⟩ := List.mem_map.1 hi
    exact int_index_lt p.2)
  refine ⟨out, h1, h2, ?_, ?_⟩
  · intro d hd1 hd9
    refine ⟨_, h3 d hd1 hd9, ?_⟩
    intro q hq
    rw [List.count, List.countP_map, List.countP_map]
    apply List.countP_congr
    intro p _
    simp only [Function.comp]
    rw [hq, beq_iff_eq]
    constructor
    · intro he
      have hne : p.2 ≠ 0 := by
        intro h0
        rw [(int_index_leading p.2).1 h0] at he
        omega
      rw [← he]
      exact (int_index_leading p.2).2 hne
    · intro hl
      have hne : p.2 ≠ 0 := by
        intro h0
        obtain ⟨_, _, k, hk, _⟩ := hl
        rw [h0] at hk
        have : 0 < d * 10 ^ k := Nat.mul_pos (by omega) (Nat.pow_pos (by decide))
        rw [Int.natAbs_zero] at hk
        omega
      exact leading_unique _ _ _ ((int_index_leading p.2).2 hne) hl
  · rw [h4, List.countP_map, List.countP_map]
    apply List.countP_congr
    intro p _
    simp only [Function.comp, decide_eq_true_eq]
    constructor
    · intro h h0
      exact h ((int_index_leading p.2).1 h0)
    · intro h h0
      have := ((int_index_leading p.2).2 h).1
      omega

theorem mapM_some {α β : Type} (f : α → Option β) (g : α → β) (l : List α) (h : ∀ a ∈ l, f a = some (g a)) :
    l.mapM f = some (l.map g) := by
  induction l with
  | nil => rfl
  | cons a l ih =>
    rw [List.mapM_cons, h a List.mem_cons_self, ih fun b hb => h b (List.mem_cons_of_mem _ hb)]
    rfl

/-- Float columns, where a null counts as the value its slot stores, each finite value printed as decimal digits with at most one point: never panics, entry
`d` is the number of finite values whose printed value has leading digit `d`, and the entries together count the finite
values whose printed value is not zero. -/
theorem benford_float_counts_partial (s : List (Bool × Option (List Nat × List Nat)))
    (hdig : ∀ p ∈ s, ∀ x, p.2 = some x → ∀ d ∈ x.1 ++ x.2, d ≤ 9) :
    ∃ out, benfordFloat (s.map fun p => (p.1, p.2.map fun x => text x.1 ++ '.' :: text x.2)) = some out ∧
      out.length = 9 ∧
      (∀ d, 1 ≤ d → d ≤ 9 → ∃ c, out[d - 1]? = some c ∧
        ∀ q : List Nat × List Nat → Bool, (∀ x, q x = true ↔ Leading d (value (x.1 ++ x.2))) →
          c = (s.filterMap Prod.snd).countP q) ∧
      out.sum = (s.filterMap Prod.snd).countP fun x => decide (value (x.1 ++ x.2) ≠ 0) := by
  have hx : ∀ x ∈ s.filterMap Prod.snd, ∀ d ∈ x.1 ++ x.2, d ≤ 9 := by
    intro x hx
    obtain ⟨p, hp, hpx⟩ := List.mem_filterMap.1 hx
    exact hdig p hp x hpx
  have hL := fun x hx' => float_index_leading x.1 x.2 (hx x hx') (text x.1 ++ '.' :: text x.2) (Or.inl rfl)
  have hfm : (s.map fun p => (p.1, p.2.map fun x => text x.1 ++ '.' :: text x.2)).filterMap (fun p => p.2)
      = (s.filterMap Prod.snd).map fun x => text x.1 ++ '.' :: text x.2 := by
    rw [List.filterMap_map, List.map_filterMap]
    rfl
  generalize s.filterMap Prod.snd = l at *
  have hget : ∀ x ∈ l, ∃ d, floatIndex (text x.1 ++ '.' :: text x.2) = some d ∧ d < 10 := by
    intro x hx'
    have ⟨a, b⟩ := hL x hx'
    by_cases h0 : value (x.1 ++ x.2) = 0
    · exact ⟨0, a h0, by decide⟩
    · obtain ⟨d, h1, h2⟩ := b h0
      exact ⟨d, h1, by have := h2.2.1; omega⟩
  have hM : (l.map fun x => text x.1 ++ '.' :: text x.2).mapM floatIndex =
      some (l.map fun x => (floatIndex (text x.1 ++ '.' :: text x.2)).getD 0) := by
    rw [List.mapM_map]
    apply mapM_some
    intro x hx'
    obtain ⟨d, h1, _⟩ := hget x hx'
    simp only [Function.comp, h1]
    rfl
  obtain ⟨out, h1, h2, h3, h4⟩ := tally_get (l.map fun x => (floatIndex (text x.1 ++ '.' :: text x.2)).getD 0) (by
    intro i hi
    obtain ⟨x, hx', rfl⟩ := List.mem_map.1 hi
    obtain ⟨d, h1, h2⟩ := hget x hx'
    rw [h1]
    exact h2)
  refine ⟨out, ?_, h2, ?_, ?_⟩
  · unfold benfordFloat
    rw [hfm, hM]
    exact h1
  · intro d hd1 hd9
    refine ⟨_, h3 d hd1 hd9, ?_⟩
    intro q hq
    rw [List.count, List.countP_map]
    apply List.countP_congr
    intro x hx'
    have ⟨a, b⟩ := hL x hx'
    simp only [Function.comp]
    rw [hq, beq_iff_eq]
    by_cases h0 : value (x.1 ++ x.2) = 0
    · rw [a h0, Option.getD_some]
      constructor
      · intro h; omega
      · rintro ⟨_, _, k, hk, _⟩
        rw [h0] at hk
        have : 0 < d * 10 ^ k := Nat.mul_pos (by omega) (Nat.pow_pos (by decide))
        omega
    · obtain ⟨e, h1, h2⟩ := b h0
      rw [h1, Option.getD_some]
      constructor
      · rintro rfl; exact h2
      · intro h; exact leading_unique _ _ _ h2 h
  · rw [h4, List.countP_map]
    apply List.countP_congr
    intro x hx'
    have ⟨a, b⟩ := hL x hx'
    simp only [Function.comp, decide_eq_true_eq]
    by_cases h0 : value (x.1 ++ x.2) = 0
    · rw [a h0, Option.getD_some]
      simp [h0]
    · obtain ⟨e, h1, h2⟩ := b h0
      rw [h1, Option.getD_some]
      have := h2.1
      constructor
      · intro _; exact h0
      · intro _; omega

/-- A null slot is counted under the leading digit of whatever value it stores. -/
theorem benford_null_counted :
    benfordInt [(false, 7)] = some [0, 0, 0, 0, 0, 0, 1, 0, 0] ∧ benfordInt [] = some [0, 0, 0, 0, 0, 0, 0, 0, 0] := by
  decide

example : benfordInt [(true, 123), (true, -19), (true, 0), (true, 907)] = some [2, 0, 0, 0, 0, 0, 0, 0, 1] := by decide

example : Leading 9 907 := ⟨by decide, by decide, 2, by decide, by decide⟩

example : ∃ out, benfordInt [(true, 123), (true, -19)] = some out ∧ out.sum = 2 :=
  have ⟨out, h1, _, _, h4⟩ := benford_int_counts_partial [(true, 123), (true, -19)]
  ⟨out, h1, h4⟩

example : floatIndex "0.0345".toList = some 3 := by decide

example : ∃ out, benfordFloat [(true, some "0.0345".toList), (true, none)] = some out ∧ out.sum = 1 :=
  have ⟨out, h1, _, _, h4⟩ := benford_float_counts_partial [(true, some ([0], [0, 3, 4, 5])), (true, none)]
    (by decide)
  ⟨out, h1, h4⟩

end Verif.Benford
