import Verif.Lemmas.IntCols
import Mathlib.Tactic.FieldSimp
import Mathlib.Tactic.Positivity
import Mathlib.Algebra.Order.BigOperators.Group.List

/-! # C159: regression losses on integer columns -/

namespace Verif.IntCols
open Verif.Pl
open Verif.Confusion (Val)

namespace Spec

/-- The rows in which both values are known. -/
def rows (a p : List (Option ℤ)) : List (ℤ × ℤ) :=
  (a.zip p).filterMap fun q => match q with
    | (some x, some y) => some (x, y)
    | _ => none

/-- The sum of the absolute errors. -/
def absErr (a p : List (Option ℤ)) : ℤ := ((rows a p).map fun r => |r.1 - r.2|).sum

/-- The sum of the squared errors. -/
def sqErr (a p : List (Option ℤ)) : ℤ := ((rows a p).map fun r => (r.1 - r.2) ^ 2).sum

/-- The number of known values. -/
def known (a : List (Option ℤ)) : ℕ := a.countP Option.isSome

/-- The first non-negative number that is too large for the type. -/
def cap (t : Ty) : ℤ := if t.signed then 2 ^ (t.bits - 1) else 2 ^ t.bits

/-- The number is one of the type. -/
def Holds (t : Ty) (x : ℤ) : Prop := (if t.signed then -2 ^ (t.bits - 1) else 0) ≤ x ∧ x < cap t

/-- The first number that is too large for the sum of a column of the type: small types are summed in 64 bits. -/
def room (t : Ty) : ℤ := if t.bits < 32 then 2 ^ 63 else cap t

/-- A quotient of floats; NaN for `0 / 0`. -/
def mean (s : ℤ) (n : ℕ) : Val ℚ := if n = 0 then .nan else .num ((s : ℚ) / n)

end Spec

theorem holds_iff (t : Ty) (x : ℤ) : Spec.Holds t x ↔ t.lo ≤ x ∧ x ≤ t.hi := by
  unfold Spec.Holds Spec.cap Ty.lo Ty.hi
  split_ifs <;> constructor <;> rintro ⟨h1, h2⟩ <;> exact ⟨h1, by omega⟩

theorem cap_eq (t : Ty) : Spec.cap t = t.hi + 1 := by
  unfold Spec.cap Ty.hi
  split_ifs <;> ring

theorem room_eq {t : Ty} (h : t ∈ types) : Spec.room t = (sumTy t).hi + 1 := by
  revert t; decide

theorem rows_eq (a p : Col ℤ) : Spec.rows a p = (a.zip p).filterMap fun q => opt2 Prod.mk q.1 q.2 := by
  unfold Spec.rows
  congr 1
  funext q
  obtain ⟨x, y⟩ := q
  rcases x with _ | x <;> rcases y with _ | y <;> rfl

theorem known_eq (a : Col ℤ) : Spec.known a = count a := by
  unfold Spec.known count vals
  induction a with
  | nil => rfl
  | cons x a ih => rcases x with _ | x <;> simp [ih]

theorem wrap_holds {t : Ty} (h : t ∈ types) {x : ℤ} (hx : Spec.Holds t x) : wrap t x = x := by
  rw [holds_iff] at hx
  exact wrap_id h hx.1 hx.2

theorem vals_abs_sub (t : Ty) (a p : Col ℤ) :
    vals (abs t (sub t a p)) = (Spec.rows a p).map fun r => absVal t (wrap t (r.1 - r.2)) := by
  unfold abs sub
  rw [map1_map2, vals_map2, rows_eq]

theorem absVal_holds {t : Ty} (h : t ∈ types) {x : ℤ} (h1 : Spec.Holds t x) (h2 : Spec.Holds t |x|) :
    absVal t (wrap t x) = |x| := by
  rw [wrap_holds h h1]
  unfold absVal
  split_ifs with hs
  · exact wrap_holds h h2
  · have := h1.1
    rw [if_neg hs] at this
    exact (abs_of_nonneg this).symm

theorem vals_abs_sub_exact {t : Ty} (h : t ∈ types) (a p : Col ℤ)
    (hr : ∀ r ∈ Spec.rows a p, Spec.Holds t (r.1 - r.2) ∧ Spec.Holds t |r.1 - r.2|) :
    vals (abs t (sub t a p)) = (Spec.rows a p).map fun r => |r.1 - r.2| := by
  rw [vals_abs_sub]
  exact List.map_congr_left fun r hm => absVal_holds h (hr r hm).1 (hr r hm).2

theorem div_count (s : ℤ) (a : Col ℤ) (h : count a = 0 → s = 0) : div s (count a) = Spec.mean s (Spec.known a) := by
  rw [known_eq]
  unfold div Spec.mean Val.fdiv
  by_cases hc : count a = 0
  · simp [hc, h hc]
  · simp [hc]

theorem rows_nil {a : Col ℤ} (h : count a = 0) (p : Col ℤ) : Spec.rows a p = [] := by
  rw [rows_eq, List.filterMap_eq_nil_iff]
  rintro ⟨x, y⟩ hm
  have hx := (List.of_mem_zip hm).1
  rcases x with _ | x
  · rfl
  · have : x ∈ vals a := by unfold vals; exact List.mem_filterMap.2 ⟨some x, hx, rfl⟩
    unfold count at h
    rw [List.length_eq_zero_iff.1 h] at this
    simp at this

theorem absErr_nonneg (a p : Col ℤ) : 0 ≤ Spec.absErr a p := by
  apply List.sum_nonneg
  intro x hx
  obtain ⟨r, -, rfl⟩ := List.mem_map.1 hx
  exact abs_nonneg _

theorem sqErr_nonneg (a p : Col ℤ) : 0 ≤ Spec.sqErr a p := by
  apply List.sum_nonneg
  intro x hx
  obtain ⟨r, -, rfl⟩ := List.mem_map.1 hx
  exact sq_nonneg _

theorem wrap_sum {t : Ty} (h : t ∈ types) {s : ℤ} (h0 : 0 ≤ s) (h1 : s < Spec.room t) : wrap (sumTy t) s = s := by
  have := room_eq h
  exact wrap_id (sumTy_mem h) ((lo_nonpos _).trans h0) (by omega)

/-- **C159a.** If in every row the difference and its absolute value are numbers of the type, and the sum has room, then
`query_l1` is the sum, respectively the mean, of the absolute errors and `query_l_inf` is the largest of them. -/
theorem abs_losses_exact_partial {t : Ty} (h : t ∈ types) (a p : Col ℤ)
    (hr : ∀ r ∈ Spec.rows a p, Spec.Holds t (r.1 - r.2) ∧ Spec.Holds t |r.1 - r.2|) :
    lInf t a p = ((Spec.rows a p).map fun r => |r.1 - r.2|).max? ∧
    (Spec.absErr a p < Spec.room t →
      l1Sum t a p = Spec.absErr a p ∧ l1 t a p = Spec.mean (Spec.absErr a p) (Spec.known a)) := by
  have hv := vals_abs_sub_exact h a p hr
  refine ⟨by unfold lInf; rw [hv], fun hroom => ?_⟩
  have e : l1Sum t a p = Spec.absErr a p := by
    unfold l1Sum
    rw [sum_eq h, hv]
    exact wrap_sum h (absErr_nonneg a p) hroom
  refine ⟨e, ?_⟩
  unfold l1
  rw [e]
  apply div_count
  intro hc
  unfold Spec.absErr
  rw [rows_nil hc]
  rfl

/-- Int8: errors 3 and 100; a row with a null counts in the divisor of the mean if only the prediction is null. -/
example : l1 ⟨true, 8⟩ [some 5, some (-50), some 7] [some 2, some 50, none] = .num (103 / 3) := by
  have := ((abs_losses_exact_partial (t := ⟨true, 8⟩) (by decide) [some 5, some (-50), some 7] [some 2, some 50, none]
    (by unfold Spec.rows Spec.Holds Spec.cap; decide)).2 (by decide)).2
  rw [this, show Spec.absErr [some 5, some (-50), some 7] [some 2, some 50, none] = 103 from by decide,
    show Spec.known [some 5, some (-50), some 7] = 3 from by decide]
  norm_num [Spec.mean]

theorem lInf_row (t : Ty) (x y : ℤ) : lInf t [some x] [some y] = some (absVal t (wrap t (x - y))) := rfl

/-- **C159b.** Exactly when one row of `query_l_inf` is right. Of an unsigned type it is the error only if the prediction is
not above the actual value (or they are half of the range apart); of a signed type, only if they are less than half of the
range apart. -/
theorem l_inf_row_iff {t : Ty} (h : t ∈ types) (x y : ℤ) (hx : Spec.Holds t x) (hy : Spec.Holds t y) :
    lInf t [some x] [some y] = some |x - y| ↔
      if t.signed then |x - y| < 2 ^ (t.bits - 1) else y ≤ x ∨ y - x = 2 ^ (t.bits - 1) := by
  rw [lInf_row, Option.some_inj]
  have hsplit := two_pow_split h
  have hP := half_pos t
  unfold Spec.Holds Spec.cap at hx hy
  split_ifs at hx hy ⊢ with hs
  · have hlo : t.lo = -2 ^ (t.bits - 1) := by unfold Ty.lo; rw [if_pos hs]
    have hhi : t.hi = 2 ^ (t.bits - 1) - 1 := by unfold Ty.hi; rw [if_pos hs]
    have hin : ∀ z, -2 ^ (t.bits - 1) ≤ z → z < 2 ^ (t.bits - 1) → wrap t z = z := fun z h1 h2 =>
      wrap_id h (by omega) (by omega)
    have hup : ∀ z, 2 ^ (t.bits - 1) ≤ z → z < 3 * 2 ^ (t.bits - 1) → wrap t z = z - 2 ^ t.bits := fun z h1 h2 =>
      wrap_unique h (Int.modEq_iff_dvd.2 ⟨-1, by ring⟩) (by omega) (by omega)
    have hdn : ∀ z, -3 * 2 ^ (t.bits - 1) ≤ z → z < -2 ^ (t.bits - 1) → wrap t z = z + 2 ^ t.bits := fun z h1 h2 =>
      wrap_unique h (Int.modEq_iff_dvd.2 ⟨1, by ring⟩) (by omega) (by omega)
    unfold absVal
    rw [if_pos hs]
    generalize (2 : ℤ) ^ (t.bits - 1) = P at *
    rcases lt_or_ge (x - y) (-P) with hc | hc
    · rw [hdn _ (by omega) hc, abs_of_nonneg (a := x - y + 2 ^ t.bits) (by omega), hin _ (by omega) (by omega),
        abs_of_neg (a := x - y) (by omega)]
      omega
    · rcases lt_or_ge (x - y) P with hc' | hc'
      · rw [hin _ hc hc']
        rcases eq_or_lt_of_le hc with he | he
        · rw [← he, abs_neg, abs_of_pos hP, hup _ le_rfl (by omega)]
          omega
        · have hab : |x - y| < P := abs_lt.2 ⟨by omega, hc'⟩
          have := abs_nonneg (x - y)
          rw [hin _ (by omega) hab]
          simp [hab]
      · rw [hup _ hc' (by omega), abs_of_neg (a := x - y - 2 ^ t.bits) (by omega), abs_of_pos (a := x - y) (by omega)]
        rcases eq_or_lt_of_le hc' with he | he
        · rw [hup _ (by omega) (by omega)]
          omega
        · rw [hin _ (by omega) (by omega)]
          omega
  · have hlo : t.lo = 0 := by unfold Ty.lo; rw [if_neg hs]
    have hhi : t.hi = 2 ^ t.bits - 1 := by unfold Ty.hi; rw [if_neg hs]
    unfold absVal
    rw [if_neg hs]
    rcases le_or_gt y x with hc | hc
    · rw [wrap_id h (by omega) (by omega), abs_of_nonneg (by omega)]
      simp [hc]
    · rw [wrap_unique h (y := x - y + 2 ^ t.bits) (Int.modEq_iff_dvd.2 ⟨1, by ring⟩) (by omega) (by omega),
        abs_of_neg (by omega)]
      omega

/-- UInt32, actual 3 and prediction 5: not 2. -/
example : lInf ⟨false, 32⟩ [some 3] [some 5] ≠ some |(3 : ℤ) - 5| := by
  rw [Ne, l_inf_row_iff (by decide) 3 5 (by unfold Spec.Holds Spec.cap; decide) (by unfold Spec.Holds Spec.cap; decide)]
  decide

/-- Int16, 1000 and -1000: right. -/
example : lInf ⟨true, 16⟩ [some 1000] [some (-1000)] = some |(1000 : ℤ) - -1000| :=
  (l_inf_row_iff (by decide) 1000 (-1000) (by unfold Spec.Holds Spec.cap; decide)
    (by unfold Spec.Holds Spec.cap; decide)).2 (by decide)

theorem l1Sum_row {t : Ty} (h : t ∈ types) (x y : ℤ) : l1Sum t [some x] [some y] = absVal t (wrap t (x - y)) := by
  have e : l1Sum t [some x] [some y] = wrap (sumTy t) (0 + absVal t (wrap t (x - y))) := rfl
  rw [e, zero_add]
  have h1 := wrap_range h (x - y)
  have h2 : t.lo ≤ absVal t (wrap t (x - y)) ∧ absVal t (wrap t (x - y)) ≤ t.hi := by
    unfold absVal
    split_ifs
    · exact wrap_range h _
    · exact h1
  exact wrap_id (sumTy_mem h) ((sumTy_lo h).trans h2.1) (h2.2.trans (sumTy_hi h))

/-- **C159c.** Of unsigned columns `query_l1` is not symmetric: the error of a row and the error with the two values exchanged add up to
the size of the type, however close the values are. -/
theorem l1_unsigned_exchange {t : Ty} (h : t ∈ types) (hs : t.signed = false) (x y : ℤ) (hx : Spec.Holds t x)
    (hy : Spec.Holds t y) (hne : x ≠ y) : l1Sum t [some x] [some y] + l1Sum t [some y] [some x] = 2 ^ t.bits := by
  rw [l1Sum_row h, l1Sum_row h]
  have hs' : ¬ t.signed = true := by simp [hs]
  unfold absVal
  rw [if_neg hs', if_neg hs']
  have hlo : t.lo = 0 := by unfold Ty.lo; rw [if_neg hs']
  have hhi : t.hi = 2 ^ t.bits - 1 := by unfold Ty.hi; rw [if_neg hs']
  unfold Spec.Holds Spec.cap at hx hy
  rw [if_neg hs', if_neg hs'] at hx hy
  rcases lt_or_gt_of_ne hne with hc | hc
  · rw [wrap_unique h (x := x - y) (y := x - y + 2 ^ t.bits) (Int.modEq_iff_dvd.2 ⟨1, by ring⟩) (by omega) (by omega),
      wrap_id h (x := y - x) (by omega) (by omega)]
    ring
  · rw [wrap_unique h (x := y - x) (y := y - x + 2 ^ t.bits) (Int.modEq_iff_dvd.2 ⟨1, by ring⟩) (by omega) (by omega),
      wrap_id h (x := x - y) (by omega) (by omega)]
    ring

/-- UInt8: 7 and 8. -/
example : l1Sum ⟨false, 8⟩ [some 7] [some 8] + l1Sum ⟨false, 8⟩ [some 8] [some 7] = 2 ^ 8 :=
  l1_unsigned_exchange (by decide) rfl 7 8 (by unfold Spec.Holds Spec.cap; decide) (by unfold Spec.Holds Spec.cap; decide)
    (by decide)

/-- **C159d.** Of signed columns the losses can be negative: the least value of the type predicted as 0. -/
theorem abs_losses_negative {t : Ty} (h : t ∈ types) (hs : t.signed = true) :
    lInf t [some (-2 ^ (t.bits - 1))] [some 0] = some (-2 ^ (t.bits - 1)) ∧
    l1 t [some (-2 ^ (t.bits - 1))] [some 0] = .num (-2 ^ (t.bits - 1)) := by
  have hP := half_pos t
  have hsplit := two_pow_split h
  have hlo : t.lo = -2 ^ (t.bits - 1) := by unfold Ty.lo; rw [if_pos hs]
  have hhi : t.hi = 2 ^ (t.bits - 1) - 1 := by unfold Ty.hi; rw [if_pos hs]
  have e : absVal t (wrap t (-2 ^ (t.bits - 1) - 0)) = -2 ^ (t.bits - 1) := by
    rw [sub_zero, wrap_id h (by omega) (by omega)]
    unfold absVal
    rw [if_pos hs, abs_neg, abs_of_pos hP]
    exact wrap_unique h (Int.modEq_iff_dvd.2 ⟨-1, by omega⟩) (by omega) (by omega)
  refine ⟨by rw [lInf_row, e], ?_⟩
  unfold l1
  rw [l1Sum_row h, e]
  simp [div, Val.fdiv, count, vals]

/-- Int8: a mean absolute error of -128. -/
example : l1 ⟨true, 8⟩ [some (-128)] [some 0] = .num (-128) := by
  have := (abs_losses_negative (t := ⟨true, 8⟩) (by decide) rfl).2
  norm_num at this ⊢
  exact this

theorem vals_sq (t : Ty) (a p : Col ℤ) :
    vals (mul t (sub t a p) (sub t a p)) =
      (Spec.rows a p).map fun r => wrap t (wrap t (r.1 - r.2) * wrap t (r.1 - r.2)) := by
  unfold mul sub
  rw [map2_self, vals_map2, rows_eq]

theorem sq_modEq (t : Ty) (z : ℤ) : wrap t (wrap t z * wrap t z) ≡ z ^ 2 [ZMOD 2 ^ t.bits] := by
  refine (wrap_modEq t _).trans ?_
  rw [sq]
  exact (wrap_modEq t z).mul (wrap_modEq t z)

/-- **C159e.** `query_l2` of columns of 32 or 64 bits is the sum of the squared errors exactly when that sum is a number of
the type (unsigned differences do no harm here). -/
theorem l2_sum_iff {t : Ty} (h : t ∈ types) (hw : 32 ≤ t.bits) (a p : Col ℤ) :
    l2Sum t a p = Spec.sqErr a p ↔ Spec.sqErr a p < Spec.cap t := by
  have e : l2Sum t a p = wrap t (Spec.sqErr a p) := by
    unfold l2Sum dot
    rw [sum_eq h, sumTy_wide hw, vals_sq]
    apply wrap_congr
    unfold Spec.sqErr
    apply sum_modEq
    rw [List.forall₂_map_left_iff, List.forall₂_map_right_iff]
    exact List.forall₂_same.2 fun r _ => sq_modEq t (r.1 - r.2)
  rw [e, wrap_eq_iff h, cap_eq]
  have := sqErr_nonneg a p
  have := lo_nonpos t
  omega

/-- UInt32 with predictions above the actual values: 1 and 4 add up to 5. -/
example : l2Sum ⟨false, 32⟩ [some 3, some 9] [some 4, some 11] = 5 := by
  have := (l2_sum_iff (t := ⟨false, 32⟩) (by decide) (by decide) [some 3, some 9] [some 4, some 11]).2 (by decide)
  rw [this]
  decide

/-- **C159f.** `query_l2` of columns of any integer type is right if every squared error is a number of the type and the
sum has room. -/
theorem l2_exact_partial {t : Ty} (h : t ∈ types) (a p : Col ℤ)
    (hr : ∀ r ∈ Spec.rows a p, (r.1 - r.2) ^ 2 < Spec.cap t) (hroom : Spec.sqErr a p < Spec.room t) :
    l2Sum t a p = Spec.sqErr a p ∧ l2 t a p = Spec.mean (Spec.sqErr a p) (Spec.known a) := by
  have e : l2Sum t a p = Spec.sqErr a p := by
    unfold l2Sum dot
    rw [sum_eq h, vals_sq]
    have : ((Spec.rows a p).map fun r => wrap t (wrap t (r.1 - r.2) * wrap t (r.1 - r.2))) =
        (Spec.rows a p).map fun r => (r.1 - r.2) ^ 2 := by
      apply List.map_congr_left
      intro r hm
      have h1 := hr r hm
      rw [cap_eq] at h1
      have h2 := lo_nonpos t
      have h3 := sq_nonneg (r.1 - r.2)
      rw [wrap_congr (t := t) ((wrap_modEq t (r.1 - r.2)).mul (wrap_modEq t (r.1 - r.2))), ← sq]
      exact wrap_id h (by omega) (by omega)
    rw [this]
    exact wrap_sum h (sqErr_nonneg a p) hroom
  refine ⟨e, ?_⟩
  unfold l2
  rw [e]
  apply div_count
  intro hc
  unfold Spec.sqErr
  rw [rows_nil hc]
  rfl

/-- Int8: errors 3 and -11 (121 still fits). -/
example : l2 ⟨true, 8⟩ [some 5, some (-5)] [some 2, some 6] = .num 65 := by
  have := (l2_exact_partial (t := ⟨true, 8⟩) (by decide) [some 5, some (-5)] [some 2, some 6]
    (by unfold Spec.rows Spec.cap; decide) (by decide)).2
  rw [this, show Spec.sqErr [some 5, some (-5)] [some 2, some 6] = 130 from by decide,
    show Spec.known [some 5, some (-5)] = 2 from by decide]
  norm_num [Spec.mean]

/-- **C159g.** For every integer type there are wrong predictions with a mean squared error of 0 and an R² of 1: the square of 2 to the
half of the bits wraps around to 0. The true values are `2 ^ bits` and -3. -/
theorem l2_zero_for_wrong {t : Ty} (h : t ∈ types) :
    let z : ℤ := 2 ^ (t.bits / 2)
    Spec.Holds t 0 ∧ Spec.Holds t z ∧ Spec.sqErr [some 0, some z] [some z, some 0] = 2 * 2 ^ t.bits ∧
    l2 t [some 0, some z] [some z, some 0] = .num 0 ∧ r2 t [some 0, some z] [some z, some 0] = some (.num 1) := by
  intro z
  have hz : Spec.Holds t 0 ∧ Spec.Holds t z ∧ Spec.sqErr [some 0, some z] [some z, some 0] = 2 * 2 ^ t.bits ∧
      l2Sum t [some 0, some z] [some z, some 0] = 0 := by
    simp only [z]
    unfold Spec.Holds Spec.cap
    revert t
    decide
  refine ⟨hz.1, hz.2.1, hz.2.2.1, ?_, ?_⟩
  · unfold l2
    rw [hz.2.2.2]
    simp [div, Val.fdiv, count, vals]
  · have hp : (z : ℚ) ≠ 0 := by
      simp only [z]
      positivity
    unfold r2
    rw [hz.2.2.2]
    generalize z = w at hp
    have hd : ¬ (w : ℚ) / 2 * (w / 2) + ((w : ℚ) - w / 2) * ((w : ℚ) - w / 2) = 0 := by
      have : (w : ℚ) / 2 * (w / 2) + ((w : ℚ) - w / 2) * ((w : ℚ) - w / 2) = w ^ 2 / 2 := by ring
      rw [this]
      positivity
    simp [Pl.mean, Pl.dot, Pl.sum, count, vals, map1, map2, opt2, Val.fdiv, Val.fsub]
    rw [if_neg hd]
    simp

/-- Int32: every prediction is off by 65536, and the mean squared error is 0. -/
example : l2 ⟨true, 32⟩ [some 0, some 65536] [some 65536, some 0] = .num 0 := by
  have := (l2_zero_for_wrong (t := ⟨true, 32⟩) (by decide)).2.2.2.1
  norm_num at this
  exact this

namespace Spec

/-- The symmetric percentage error of a row. -/
def percent (r : ℤ × ℤ) : ℚ := (|r.1 - r.2| : ℤ) / (|r.1| + |r.2| : ℤ)

end Spec

theorem foldl_fadd (l : List ℚ) (s : ℚ) : (l.map Val.num).foldl Val.fadd (.num s) = .num (s + l.sum) := by
  induction l generalizing s with
  | nil => simp
  | cons x l ih =>
    rw [List.map_cons, List.foldl_cons, List.sum_cons, ← add_assoc]
    exact ih (s + x)

theorem absVal_fits {t : Ty} (h : t ∈ types) {x : ℤ} (h1 : Spec.Holds t x) (h2 : |x| < Spec.cap t) : absVal t x = |x| := by
  unfold absVal
  split_ifs with hs
  · rw [cap_eq] at h2
    have := abs_nonneg x
    have := lo_nonpos t
    exact wrap_id h (by omega) (by omega)
  · have := h1.1
    rw [if_neg hs] at this
    exact (abs_of_nonneg this).symm

/-- **C159h.** `query_smape` is the mean of `|x - y| / (|x| + |y|)` if in every row the difference, its absolute value and the sum of the
absolute values are numbers of the type, and not both values are 0. -/
theorem smape_exact_partial {t : Ty} (h : t ∈ types) (a p : Col ℤ)
    (hr : ∀ r ∈ Spec.rows a p, Spec.Holds t r.1 ∧ Spec.Holds t r.2 ∧ Spec.Holds t (r.1 - r.2) ∧ Spec.Holds t |r.1 - r.2| ∧
      |r.1| + |r.2| < Spec.cap t ∧ r ≠ (0, 0)) (hk : Spec.known a ≠ 0) :
    smape t a p = .num (((Spec.rows a p).map Spec.percent).sum / Spec.known a) := by
  rw [known_eq] at hk ⊢
  have e : vals (smapeRows t a p) = ((Spec.rows a p).map Spec.percent).map Val.num := by
    unfold smapeRows abs sub add
    rw [map1_map2, map2_map1, map2_self, vals_map2, ← rows_eq, List.map_map]
    apply List.map_congr_left
    intro r hm
    obtain ⟨h1, h2, h3, h4, h5, h6⟩ := hr r hm
    have n1 := abs_nonneg r.1
    have n2 := abs_nonneg r.2
    have hne : |r.1| + |r.2| ≠ 0 := by
      intro hz
      apply h6
      have z1 : r.1 = 0 := abs_eq_zero.1 (by omega)
      have z2 : r.2 = 0 := abs_eq_zero.1 (by omega)
      exact Prod.ext z1 z2
    have hsum : wrap t (|r.1| + |r.2|) = |r.1| + |r.2| := by
      rw [cap_eq] at h5
      have := lo_nonpos t
      exact wrap_id h (by omega) (by omega)
    show div _ _ = _
    rw [absVal_holds h h3 h4, absVal_fits h h1 (by omega), absVal_fits h h2 (by omega), hsum]
    unfold div Val.fdiv
    simp only [Function.comp, Spec.percent]
    rw [if_neg (by exact_mod_cast hne)]
  unfold smape
  rw [e, foldl_fadd, zero_add]
  unfold Val.fdiv
  simp [hk]

/-- Int8: 1/3 and 1. -/
example : smape ⟨true, 8⟩ [some 20, some (-3)] [some 10, some 50] = .num (2 / 3) := by
  have := smape_exact_partial (t := ⟨true, 8⟩) (by decide) [some 20, some (-3)] [some 10, some 50]
    (by unfold Spec.rows Spec.Holds Spec.cap; decide) (by decide)
  rw [this, show Spec.known [some 20, some (-3)] = 2 from by decide]
  rw [show Spec.rows [some 20, some (-3)] [some 10, some 50] = [(20, 10), (-3, 50)] from by decide]
  norm_num [Spec.percent]

/-- **C159i.** `query_smape`, documented to be between 0 and 1, is negative for the two greatest values of a signed type, and the
greatest value of the type when an unsigned 0 is predicted as 1. -/
theorem smape_out_of_range {t : Ty} (h : t ∈ types) :
    (t.signed = true → smape t [some (2 ^ (t.bits - 1) - 1)] [some (2 ^ (t.bits - 1) - 2)] = .num (-1 / 3)) ∧
    (t.signed = false → smape t [some 0] [some 1] = .num (2 ^ t.bits - 1)) := by
  have hrow : ∀ x y u v : ℤ, absVal t (wrap t (x - y)) = u → wrap t (absVal t x + absVal t y) = v → v ≠ 0 →
      smape t [some x] [some y] = .num ((u : ℚ) / v) := by
    intro x y u v h1 h2 h3
    have e : vals (smapeRows t [some x] [some y]) = [div u v] := by
      rw [← h1, ← h2]
      rfl
    have hd : div u v = .num ((u : ℚ) / v) := by
      unfold div Val.fdiv
      simp [h3]
    unfold smape
    rw [e, hd]
    simp [Val.fadd, Val.fdiv, count, vals]
  constructor
  · intro hs
    rw [hrow _ _ 1 (-3) ?_ ?_ (by decide)]
    · norm_num
    · clear hrow; revert t; decide
    · clear hrow; revert t; decide
  · intro hs
    rw [hrow _ _ (2 ^ t.bits - 1) 1 ?_ ?_ (by decide)]
    · push_cast
      rw [div_one]
    · clear hrow; revert t; decide
    · clear hrow; revert t; decide

/-- UInt8: an error of 25500 percent. -/
example : smape ⟨false, 8⟩ [some 0] [some 1] = .num 255 := by
  have := (smape_out_of_range (t := ⟨false, 8⟩) (by decide)).2 rfl
  norm_num at this
  exact this

/-- **C159j.** `query_mape(weighted=True)` is the sum of the absolute errors over the sum of the absolute actual values, if the
differences, their absolute values, the absolute actual values and both sums have room. -/
theorem wmape_exact_partial {t : Ty} (h : t ∈ types) (a p : Col ℤ)
    (hr : ∀ r ∈ Spec.rows a p, Spec.Holds t (r.1 - r.2) ∧ Spec.Holds t |r.1 - r.2|)
    (ha : ∀ x, some x ∈ a → Spec.Holds t x ∧ |x| < Spec.cap t) (h1 : Spec.absErr a p < Spec.room t)
    (h2 : ((a.filterMap id).map fun x => |x|).sum < Spec.room t) (hne : ∃ x, some x ∈ a ∧ x ≠ 0) :
    wmape t a p = .num ((Spec.absErr a p : ℚ) / ((a.filterMap id).map fun x => |x|).sum) := by
  unfold wmape
  rw [((abs_losses_exact_partial h a p hr).2 h1).1, sum_eq h]
  have hv : vals (abs t a) = (a.filterMap id).map fun x => |x| := by
    unfold abs
    rw [vals_map1]
    apply List.map_congr_left
    intro x hx
    obtain ⟨o, ho, e⟩ := List.mem_filterMap.1 hx
    obtain rfl : o = some x := e
    exact absVal_fits h (ha x ho).1 (ha x ho).2
  have hnn : ∀ x ∈ (a.filterMap id).map fun x => |x|, 0 ≤ x := by
    intro x hx
    obtain ⟨y, -, rfl⟩ := List.mem_map.1 hx
    exact abs_nonneg _
  rw [hv, wrap_sum h (List.sum_nonneg hnn) h2]
  obtain ⟨x, hx, hx0⟩ := hne
  have hpos : 0 < ((a.filterMap id).map fun x => |x|).sum := by
    have hm : |x| ∈ (a.filterMap id).map fun x => |x| :=
      List.mem_map.2 ⟨x, List.mem_filterMap.2 ⟨some x, hx, rfl⟩, rfl⟩
    exact lt_of_lt_of_le (abs_pos.2 hx0) (List.single_le_sum hnn _ hm)
  unfold div Val.fdiv
  have : (((a.filterMap id).map fun x => |x|).sum : ℚ) ≠ 0 := by exact_mod_cast hpos.ne'
  simp only [this, if_false]

/-- Int16: 13 over 1005. -/
example : wmape ⟨true, 16⟩ [some (-1000), some 5, none] [some (-990), some 8, some 1] = .num (13 / 1005) := by
  have := wmape_exact_partial (t := ⟨true, 16⟩) (by decide) [some (-1000), some 5, none] [some (-990), some 8, some 1]
    (by unfold Spec.rows Spec.Holds Spec.cap; decide)
    (by intro x hx; simp at hx; unfold Spec.Holds Spec.cap; rcases hx with rfl | rfl <;> decide) (by decide) (by decide)
    ⟨5, by simp, by decide⟩
  rw [this, show Spec.absErr [some (-1000), some 5, none] [some (-990), some 8, some 1] = 13 from by decide,
    show ((([some (-1000), some 5, none] : List (Option ℤ)).filterMap id).map fun x => |x|).sum = 1005 from by decide]
  norm_num

end Verif.IntCols
