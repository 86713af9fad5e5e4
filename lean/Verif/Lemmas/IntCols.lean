import Verif.Model.IntCols
import Mathlib.Tactic.Linarith
import Mathlib.Tactic.Ring
import Mathlib.Tactic.NormNum
import Mathlib.Tactic.Push

/-! # Lemmas on wrapping integer arithmetic -/

namespace Verif.IntCols
open Verif.Pl

theorem bits_pos {t : Ty} (h : t ∈ types) : 1 ≤ t.bits := by
  revert t; decide

theorem two_pow_split {t : Ty} (h : t ∈ types) : (2 : ℤ) ^ t.bits = 2 * 2 ^ (t.bits - 1) := by
  have := bits_pos h
  obtain ⟨k, hk⟩ := Nat.exists_eq_add_of_le this
  rw [hk, Nat.add_sub_cancel_left, pow_add, pow_one]

theorem half_pos (t : Ty) : (0 : ℤ) < 2 ^ (t.bits - 1) := by positivity

theorem width {t : Ty} (h : t ∈ types) : t.hi - t.lo = 2 ^ t.bits - 1 := by
  rw [two_pow_split h]
  unfold Ty.hi Ty.lo
  split_ifs
  · ring
  · rw [two_pow_split h]; ring

theorem hi_pos {t : Ty} (h : t ∈ types) : 0 < t.hi := by
  revert t; decide

theorem lo_nonpos (t : Ty) : t.lo ≤ 0 := by
  unfold Ty.lo
  split_ifs
  · have := half_pos t; linarith
  · exact le_refl _

theorem wrap_range {t : Ty} (h : t ∈ types) (x : ℤ) : t.lo ≤ wrap t x ∧ wrap t x ≤ t.hi := by
  have h1 : (0 : ℤ) < 2 ^ t.bits := by positivity
  have h2 := Int.emod_nonneg (x - t.lo) h1.ne'
  have h3 := Int.emod_lt_of_pos (x - t.lo) h1
  have h4 := width h
  unfold wrap
  constructor <;> linarith

theorem wrap_modEq (t : Ty) (x : ℤ) : wrap t x ≡ x [ZMOD 2 ^ t.bits] := by
  unfold wrap
  have := (Int.mod_modEq (x - t.lo) (2 ^ t.bits)).add_right t.lo
  rwa [sub_add_cancel] at this

theorem wrap_congr {t : Ty} {x y : ℤ} (h : x ≡ y [ZMOD 2 ^ t.bits]) : wrap t x = wrap t y := by
  unfold wrap
  have : x - t.lo ≡ y - t.lo [ZMOD 2 ^ t.bits] := h.sub_right _
  rw [show (x - t.lo) % 2 ^ t.bits = (y - t.lo) % 2 ^ t.bits from this]

theorem wrap_id {t : Ty} (h : t ∈ types) {x : ℤ} (h1 : t.lo ≤ x) (h2 : x ≤ t.hi) : wrap t x = x := by
  unfold wrap
  rw [Int.emod_eq_of_lt (by linarith) (by have := width h; linarith)]
  ring

theorem wrap_eq_iff {t : Ty} (h : t ∈ types) (x : ℤ) : wrap t x = x ↔ t.lo ≤ x ∧ x ≤ t.hi := by
  constructor
  · intro e
    have := wrap_range h x
    rwa [e] at this
  · exact fun ⟨h1, h2⟩ => wrap_id h h1 h2

/-- The value of `wrap` is the only one of the type that is congruent. -/
theorem wrap_unique {t : Ty} (h : t ∈ types) {x y : ℤ} (hc : x ≡ y [ZMOD 2 ^ t.bits]) (h1 : t.lo ≤ y) (h2 : y ≤ t.hi) :
    wrap t x = y := by
  rw [wrap_congr hc, wrap_id h h1 h2]

theorem wrap_wrap_mul (t : Ty) (x y : ℤ) : wrap t (wrap t x * y) = wrap t (x * y) :=
  wrap_congr ((wrap_modEq t x).mul_right y)

theorem wrap_wrap_add (t : Ty) (x y : ℤ) : wrap t (wrap t x + y) = wrap t (x + y) :=
  wrap_congr ((wrap_modEq t x).add_right y)

theorem sumTy_mem {t : Ty} (h : t ∈ types) : sumTy t ∈ types := by
  revert t; decide

theorem sumTy_lo {t : Ty} (h : t ∈ types) : (sumTy t).lo ≤ t.lo := by
  revert t; decide

theorem sumTy_hi {t : Ty} (h : t ∈ types) : t.hi ≤ (sumTy t).hi := by
  revert t; decide

theorem sumTy_wide {t : Ty} (h : 32 ≤ t.bits) : sumTy t = t := by
  unfold sumTy
  rw [if_neg (by omega)]

theorem foldl_wrap (u : Ty) (l : List ℤ) (s : ℤ) :
    l.foldl (fun s x => wrap u (s + x)) (wrap u s) = wrap u (s + l.sum) := by
  induction l generalizing s with
  | nil => simp
  | cons x l ih =>
    rw [List.foldl_cons, wrap_wrap_add, ih, List.sum_cons]
    congr 1
    ring

theorem sum_eq {t : Ty} (h : t ∈ types) (a : Col ℤ) : sum t a = wrap (sumTy t) (vals a).sum := by
  have h0 : wrap (sumTy t) 0 = 0 :=
    wrap_id (sumTy_mem h) (lo_nonpos _) (hi_pos (sumTy_mem h)).le
  have := foldl_wrap (sumTy t) (vals a) 0
  rw [h0, zero_add] at this
  exact this

theorem sum_modEq {u : Ty} (l m : List ℤ) (h : List.Forall₂ (fun x y => x ≡ y [ZMOD 2 ^ u.bits]) l m) :
    l.sum ≡ m.sum [ZMOD 2 ^ u.bits] := by
  induction h with
  | nil => exact Int.ModEq.refl _
  | cons hxy _ ih => simpa using hxy.add ih

/-- The complete rows of two columns. -/
theorem vals_map2 {K L M : Type} (f : K → L → M) (a : Col K) (b : Col L) :
    vals (map2 f a b) = ((a.zip b).filterMap fun q => opt2 Prod.mk q.1 q.2).map fun q => f q.1 q.2 := by
  induction a generalizing b with
  | nil => rfl
  | cons x a ih =>
    cases b with
    | nil => rfl
    | cons y b =>
      rcases x with _ | x <;> rcases y with _ | y
      · exact ih b
      · exact ih b
      · exact ih b
      · exact congrArg (List.cons (f x y)) (ih b)

theorem vals_map1 {K L : Type} (f : K → L) (a : Col K) : vals (map1 f a) = (vals a).map f := by
  induction a with
  | nil => rfl
  | cons x a ih =>
    rcases x with _ | x
    · exact ih
    · exact congrArg (List.cons (f x)) ih

theorem map1_map2 {K L M N : Type} (g : M → N) (f : K → L → M) (a : Col K) (b : Col L) :
    map1 g (map2 f a b) = map2 (fun x y => g (f x y)) a b := by
  induction a generalizing b with
  | nil => rfl
  | cons x a ih =>
    cases b with
    | nil => rfl
    | cons y b =>
      have := ih b
      unfold map1 map2 at this ⊢
      rcases x with _ | x <;> rcases y with _ | y <;> simp [opt2, this]

theorem map2_self {K L M N P : Type} (g : M → N → P) (f : K → L → M) (f' : K → L → N) (a : Col K) (b : Col L) :
    map2 g (map2 f a b) (map2 f' a b) = map2 (fun x y => g (f x y) (f' x y)) a b := by
  induction a generalizing b with
  | nil => rfl
  | cons x a ih =>
    cases b with
    | nil => rfl
    | cons y b =>
      have := ih b
      unfold map2 at this ⊢
      rcases x with _ | x <;> rcases y with _ | y <;> simp [opt2, this]

theorem map2_map1 {K L M N P : Type} (f : M → N → P) (g : K → M) (g' : L → N) (a : Col K) (b : Col L) :
    map2 f (map1 g a) (map1 g' b) = map2 (fun x y => f (g x) (g' y)) a b := by
  induction a generalizing b with
  | nil => rfl
  | cons x a ih =>
    cases b with
    | nil => rfl
    | cons y b =>
      have := ih b
      unfold map1 map2 at this ⊢
      rcases x with _ | x <;> rcases y with _ | y <;> simp [opt2, this]

end Verif.IntCols
