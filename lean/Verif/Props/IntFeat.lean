import Verif.Props.IntLoss

/-! # C160: scaling, polynomial features, energy and slopes of integer columns -/

namespace Verif.IntCols
open Verif.Pl
open Verif.Confusion (Val)

namespace Spec

/-- `a` is the least and `b` the greatest known value of the column. -/
def Ends (c : List (Option ℤ)) (a b : ℤ) : Prop :=
  some a ∈ c ∧ some b ∈ c ∧ ∀ x, some x ∈ c → a ≤ x ∧ x ≤ b

end Spec

theorem mem_vals {c : Col ℤ} {x : ℤ} : x ∈ vals c ↔ some x ∈ c := by
  unfold vals
  rw [List.mem_filterMap]
  exact ⟨fun ⟨o, ho, e⟩ => by rwa [show o = some x from e] at ho, fun h => ⟨some x, h, rfl⟩⟩

theorem ends_min {c : Col ℤ} {a b : ℤ} (h : Spec.Ends c a b) : (vals c).min? = some a :=
  List.min?_eq_some_iff.2 ⟨mem_vals.2 h.1, fun x hx => (h.2.2 x (mem_vals.1 hx)).1⟩

theorem ends_max {c : Col ℤ} {a b : ℤ} (h : Spec.Ends c a b) : (vals c).max? = some b :=
  List.max?_eq_some_iff.2 ⟨mem_vals.2 h.2.1, fun x hx => (h.2.2 x (mem_vals.1 hx)).2⟩

theorem div_num {a b : ℤ} (h : b ≠ 0) : div a b = .num ((a : ℚ) / b) := by
  unfold div Val.fdiv
  simp [h]

theorem minMax_eq (t : Ty) {train : Col ℤ} {a b : ℤ} (h : Spec.Ends train a b) (hab : a < b) (c : Col ℤ) :
    minMax t train c = some (map1 (fun x => .num ((wrap t (x - a) : ℤ) / ((b - a : ℤ) : ℚ))) c) := by
  unfold minMax
  rw [ends_min h, ends_max h]
  simp only [Option.bind_some, Option.map_some]
  congr 1
  unfold map1
  apply List.map_congr_left
  intro o _
  congr 1
  funext x
  exact div_num (by omega)

/-- **C160a.** Min-max scaling of the training column of an integer type is right exactly when its range is a number of the type: then
the column is the linear map with values in [0, 1]; otherwise the greatest value is mapped to a negative number. -/
theorem min_max_train_iff {t : Ty} (h : t ∈ types) (train : Col ℤ) (a b : ℤ) (he : Spec.Ends train a b) (hab : a < b)
    (ha : Spec.Holds t a) (hb : Spec.Holds t b) :
    (minMax t train train = some (train.map (Option.map fun x => Val.num (((x - a : ℤ) : ℚ) / ((b - a : ℤ) : ℚ)))) ↔
      b - a < Spec.cap t) ∧
    (Spec.cap t ≤ b - a → ∃ out, minMax t train train = some out ∧ ∃ (i : ℕ) (q : ℚ), train[i]? = some (some b) ∧
      out[i]? = some (some (.num q)) ∧ q < 0) := by
  have hq : (0 : ℚ) < ((b - a : ℤ) : ℚ) := by exact_mod_cast (by omega : 0 < b - a)
  rw [minMax_eq t he hab]
  have hover : Spec.cap t ≤ b - a → wrap t (b - a) < 0 := by
    intro hc
    rw [holds_iff] at ha hb
    rw [cap_eq] at hc
    have hw := width h
    have hlo := lo_nonpos t
    have hs : t.signed = true := by
      by_contra hs
      have : t.lo = 0 := by unfold Ty.lo; rw [if_neg hs]
      omega
    have hlo' : t.lo = -2 ^ (t.bits - 1) := by unfold Ty.lo; rw [if_pos hs]
    have hhi' : t.hi = 2 ^ (t.bits - 1) - 1 := by unfold Ty.hi; rw [if_pos hs]
    have := two_pow_split h
    rw [wrap_unique h (y := b - a - 2 ^ t.bits) (Int.modEq_iff_dvd.2 ⟨-1, by ring⟩) (by omega) (by omega)]
    omega
  refine ⟨⟨fun e => ?_, fun hc => ?_⟩, fun hc => ?_⟩
  · by_contra hc
    have e' := Option.some.inj e
    unfold map1 at e'
    have := (List.map_inj_left.1 e') (some b) he.2.1
    simp only [Option.map_some, Option.some_inj, Val.num.injEq] at this
    have h1 := hover (by omega)
    rw [div_left_inj' hq.ne'] at this
    have h2 : wrap t (b - a) = b - a := by exact_mod_cast this
    omega
  · congr 1
    unfold map1
    apply List.map_congr_left
    rintro (_ | x) hx
    · rfl
    · simp only [Option.map_some]
      have := he.2.2 x hx
      rw [cap_eq] at hc
      have hlo := lo_nonpos t
      rw [wrap_id h (x := x - a) (by omega) (by omega)]
  · refine ⟨_, rfl, ?_⟩
    obtain ⟨i, hi⟩ := List.mem_iff_getElem?.1 he.2.1
    refine ⟨i, (wrap t (b - a) : ℤ) / ((b - a : ℤ) : ℚ), hi, ?_, ?_⟩
    · unfold map1
      rw [List.getElem?_map, hi]
      rfl
    · apply div_neg_of_neg_of_pos _ hq
      exact_mod_cast hover hc

/-- Int8 with values from -100 to 100. -/
example : ∃ out, minMax ⟨true, 8⟩ [some (-100), none, some 100] [some (-100), none, some 100] = some out ∧
    ∃ (i : ℕ) (q : ℚ), [some (-100), none, some (100 : ℤ)][i]? = some (some 100) ∧ out[i]? = some (some (.num q)) ∧ q < 0 :=
  (min_max_train_iff (t := ⟨true, 8⟩) (by decide) [some (-100), none, some 100] (-100) 100
    ⟨by decide, by decide, by intro x hx; simp at hx; omega⟩ (by decide)
    (by unfold Spec.Holds Spec.cap; decide) (by unfold Spec.Holds Spec.cap; decide)).2 (by decide)

/-- UInt8 is always right on the training column. -/
example : minMax ⟨false, 8⟩ [some 5, some 255] [some 5, some 255] = some [some (.num 0), some (.num 1)] := by
  rw [(min_max_train_iff (t := ⟨false, 8⟩) (by decide) [some 5, some 255] 5 255
    ⟨by decide, by decide, by intro x hx; simp at hx; omega⟩ (by decide)
    (by unfold Spec.Holds Spec.cap; decide) (by unfold Spec.Holds Spec.cap; decide)).1.2 (by decide)]
  norm_num

/-- **C160b.** On new data an unsigned value below the least training value is mapped above 1, and to the wrong side of
every training value: by `2 ^ bits / (b - a)` too far. -/
theorem min_max_new_unsigned {t : Ty} (h : t ∈ types) (hs : t.signed = false) (train : Col ℤ) (a b : ℤ)
    (he : Spec.Ends train a b) (hab : a < b) (hb : Spec.Holds t b) (x : ℤ) (hx : Spec.Holds t x) (hlt : x < a) :
    ∃ q : ℚ, minMax t train [some x] = some [some (.num q)] ∧ 1 < q ∧
      q = ((x - a : ℤ) : ℚ) / ((b - a : ℤ) : ℚ) + 2 ^ t.bits / ((b - a : ℤ) : ℚ) := by
  have hs' : ¬ t.signed = true := by simp [hs]
  have hlo : t.lo = 0 := by unfold Ty.lo; rw [if_neg hs']
  have hhi : t.hi = 2 ^ t.bits - 1 := by unfold Ty.hi; rw [if_neg hs']
  rw [holds_iff] at hx hb
  have hw : wrap t (x - a) = x - a + 2 ^ t.bits :=
    wrap_unique h (Int.modEq_iff_dvd.2 ⟨1, by ring⟩) (by omega) (by omega)
  have hq : (0 : ℚ) < ((b - a : ℤ) : ℚ) := by exact_mod_cast (by omega : 0 < b - a)
  refine ⟨_, by rw [minMax_eq t he hab]; rfl, ?_, ?_⟩
  · rw [hw, one_lt_div hq]
    exact_mod_cast (by omega : b - a < x - a + 2 ^ t.bits)
  · rw [hw]
    push_cast
    ring

/-- UInt8, trained on 10..20: 5 is mapped to 25.1 instead of -0.5. -/
example : ∃ q : ℚ, minMax ⟨false, 8⟩ [some 10, some 20] [some 5] = some [some (.num q)] ∧ 1 < q ∧
    q = ((5 - 10 : ℤ) : ℚ) / ((20 - 10 : ℤ) : ℚ) + 2 ^ 8 / ((20 - 10 : ℤ) : ℚ) :=
  min_max_new_unsigned (t := ⟨false, 8⟩) (by decide) rfl [some 10, some 20] 10 20
    ⟨by decide, by decide, by intro x hx; simp at hx; omega⟩ (by decide) (by unfold Spec.Holds Spec.cap; decide) 5
    (by unfold Spec.Holds Spec.cap; decide) (by decide)

/-- **C160c.** On new data min-max scaling is the linear map for every value whose distance from the least training value is a
number of the type. -/
theorem min_max_new_exact_partial {t : Ty} (h : t ∈ types) (train c : Col ℤ) (a b : ℤ) (he : Spec.Ends train a b) (hab : a < b)
    (hc : ∀ x, some x ∈ c → Spec.Holds t (x - a)) :
    minMax t train c = some (c.map (Option.map fun x => .num (((x - a : ℤ) : ℚ) / ((b - a : ℤ) : ℚ)))) := by
  rw [minMax_eq t he hab]
  congr 1
  unfold map1
  apply List.map_congr_left
  rintro (_ | x) hx
  · rfl
  · simp only [Option.map_some]
    rw [wrap_holds h (hc x hx)]

/-- Int16, trained on 10..20: 5 is mapped to -0.5. -/
example : minMax ⟨true, 16⟩ [some 10, some 20] [some 5, none] = some [some (.num (-1 / 2)), none] := by
  rw [min_max_new_exact_partial (t := ⟨true, 16⟩) (by decide) [some 10, some 20] [some 5, none] 10 20
    ⟨by decide, by decide, by intro x hx; simp at hx; omega⟩ (by decide)
    (by intro x hx; simp at hx; subst hx; unfold Spec.Holds Spec.cap; decide)]
  norm_num

theorem absVal_of_ne {t : Ty} (h : t ∈ types) {x : ℤ} (hx : Spec.Holds t x) (hne : t.signed = true → x ≠ -2 ^ (t.bits - 1)) :
    absVal t x = |x| := by
  apply absVal_fits h hx
  unfold Spec.Holds Spec.cap at *
  split_ifs at * with hs
  · exact abs_lt.2 ⟨by have := hne hs; omega, hx.2⟩
  · rw [abs_of_nonneg hx.1]
    exact hx.2

/-- **C160d.** Scaling by the largest absolute value of the training column: unless the column holds the least value of a signed type,
it divides by the largest absolute value. -/
theorem abs_max_exact_partial {t : Ty} (h : t ∈ types) (train c : Col ℤ) (a b : ℤ) (he : Spec.Ends train a b)
    (ha : Spec.Holds t a) (hb : Spec.Holds t b) (hne : t.signed = true → some (-2 ^ (t.bits - 1)) ∉ train)
    (h0 : ∃ x, some x ∈ train ∧ x ≠ 0) :
    ∃ m : ℤ, 0 < m ∧ (∃ x, some x ∈ train ∧ |x| = m) ∧ (∀ x, some x ∈ train → |x| ≤ m) ∧
      absMax t train c = c.map (Option.map fun x => .num ((x : ℚ) / m)) := by
  have e1 : absVal t a = |a| := absVal_of_ne h ha fun hs e => hne hs (by rw [← e]; exact he.1)
  have e2 : absVal t b = |b| := absVal_of_ne h hb fun hs e => hne hs (by rw [← e]; exact he.2.1)
  have hle : ∀ x, some x ∈ train → |x| ≤ max |a| |b| := by
    intro x hx
    exact abs_le_max_abs_abs (he.2.2 x hx).1 (he.2.2 x hx).2
  have hpos : 0 < max |a| |b| := by
    obtain ⟨x, hx, hx0⟩ := h0
    exact lt_of_lt_of_le (abs_pos.2 hx0) (hle x hx)
  refine ⟨max |a| |b|, hpos, ?_, hle, ?_⟩
  · rcases max_choice |a| |b| with hm | hm
    · exact ⟨a, he.1, hm.symm⟩
    · exact ⟨b, he.2.1, hm.symm⟩
  · unfold absMax
    rw [ends_min he, ends_max he]
    simp only
    unfold map1
    rw [e1, e2]
    apply List.map_congr_left
    intro o _
    congr 1
    funext x
    exact div_num hpos.ne'

/-- Int8: -127 and 5. -/
example : ∃ m : ℤ, 0 < m ∧ (∃ x, some x ∈ [some (-127 : ℤ), some 5] ∧ |x| = m) ∧
    (∀ x, some x ∈ [some (-127 : ℤ), some 5] → |x| ≤ m) ∧
    absMax ⟨true, 8⟩ [some (-127), some 5] [some 3] = [some 3].map (Option.map fun x : ℤ => .num ((x : ℚ) / m)) :=
  abs_max_exact_partial (t := ⟨true, 8⟩) (by decide) _ [some 3] (-127) 5
    ⟨by decide, by decide, by intro x hx; simp at hx; omega⟩ (by unfold Spec.Holds Spec.cap; decide)
    (by unfold Spec.Holds Spec.cap; decide) (by intro _; decide) ⟨5, by simp, by decide⟩

/-- **C160e.** A training column of a signed type that holds its least value: the absolute value of it wraps around. If all
values are the least one, they are mapped to 1 instead of -1; if the others are `1`, it is mapped to itself, far below -1. -/
theorem abs_max_least {t : Ty} (h : t ∈ types) (hs : t.signed = true) :
    absMax t [some (-2 ^ (t.bits - 1))] [some (-2 ^ (t.bits - 1))] = [some (.num 1)] ∧
    absMax t [some (-2 ^ (t.bits - 1)), some 1] [some (-2 ^ (t.bits - 1)), some 1] =
      [some (.num (-2 ^ (t.bits - 1))), some (.num 1)] := by
  have hP := half_pos t
  have e : absVal t (-2 ^ (t.bits - 1)) = -2 ^ (t.bits - 1) := by
    revert t; decide
  have e1 : absVal t 1 = 1 := by
    clear e hP; revert t; decide
  constructor
  · have he : Spec.Ends [some (-2 ^ (t.bits - 1))] (-2 ^ (t.bits - 1)) (-2 ^ (t.bits - 1)) :=
      ⟨by simp, by simp, by intro x hx; simp at hx; omega⟩
    unfold absMax
    rw [ends_min he, ends_max he]
    simp only [e, max_self, map1, List.map_cons, List.map_nil, Option.map_some]
    rw [div_num (by omega), div_self]
    have : (0 : ℚ) < 2 ^ (t.bits - 1) := by positivity
    push_cast
    linarith
  · have he : Spec.Ends [some (-2 ^ (t.bits - 1)), some 1] (-2 ^ (t.bits - 1)) 1 :=
      ⟨by simp, by simp, by intro x hx; simp at hx; omega⟩
    unfold absMax
    rw [ends_min he, ends_max he]
    simp only [e, e1, map1, List.map_cons, List.map_nil, Option.map_some]
    rw [max_eq_right (by omega), div_num (by decide), div_num (by decide)]
    norm_num

/-- Int8. -/
example : absMax ⟨true, 8⟩ [some (-128), some 1] [some (-128), some 1] = [some (.num (-128)), some (.num 1)] := by
  have := (abs_max_least (t := ⟨true, 8⟩) (by decide) rfl).2
  norm_num at this
  exact this

theorem poly_fold (t : Ty) (xs : List ℤ) (s : ℤ) :
    xs.foldl (fun s y => wrap t (s * y)) (wrap t s) = wrap t (s * xs.prod) := by
  induction xs generalizing s with
  | nil => simp
  | cons y xs ih =>
    rw [List.foldl_cons, wrap_wrap_mul, ih, List.prod_cons, mul_assoc]

/-- **C160f.** A polynomial feature of integer columns is the product of the values exactly when the product is a number of the type. -/
theorem poly_iff {t : Ty} (h : t ∈ types) (row : List ℤ) (hr : ∀ x ∈ row, Spec.Holds t x) (h2 : 2 ≤ row.length) :
    polyFeature t row = row.prod ↔ Spec.Holds t row.prod := by
  cases row with
  | nil => simp at h2
  | cons x xs =>
    have hx : wrap t x = x := wrap_holds h (hr x (by simp))
    have e : polyFeature t (x :: xs) = wrap t (x * xs.prod) := by
      rw [← poly_fold, hx]
      rfl
    rw [e, List.prod_cons, wrap_eq_iff h, holds_iff]

/-- Int8: the square of 16. -/
example : polyFeature ⟨true, 8⟩ [16, 16] ≠ [16, 16].prod := by
  rw [Ne, poly_iff (by decide) [16, 16] (by unfold Spec.Holds Spec.cap; decide) (by decide)]
  unfold Spec.Holds Spec.cap
  decide

theorem vals_mul (t : Ty) (a b : Col ℤ) : vals (mul t a b) = (Spec.rows a b).map fun r => wrap t (r.1 * r.2) := by
  unfold mul
  rw [vals_map2, rows_eq]

theorem dot_wide {t : Ty} (h : t ∈ types) (hw : 32 ≤ t.bits) (a b : Col ℤ) :
    dot t a b = wrap t ((Spec.rows a b).map fun r => r.1 * r.2).sum := by
  unfold dot
  rw [sum_eq h, sumTy_wide hw, vals_mul]
  apply wrap_congr
  apply sum_modEq
  rw [List.forall₂_map_left_iff, List.forall₂_map_right_iff]
  exact List.forall₂_same.2 fun r _ => wrap_modEq t (r.1 * r.2)

theorem rows_self (a : Col ℤ) : Spec.rows a a = (vals a).map fun x => (x, x) := by
  rw [rows_eq]
  induction a with
  | nil => rfl
  | cons x a ih =>
    rcases x with _ | x
    · exact ih
    · exact congrArg (List.cons (x, x)) ih

theorem sq_sum_nonneg (l : List ℤ) : 0 ≤ (l.map fun x => x ^ 2).sum := by
  apply List.sum_nonneg
  intro x hx
  obtain ⟨y, -, rfl⟩ := List.mem_map.1 hx
  exact sq_nonneg _

/-- **C160g.** `query_abs_energy` of a column of 32 or 64 bits is the sum of the squares exactly when that is a number of the type; of every type
there is a column of one value, not 0, with energy 0. -/
theorem energy_iff {t : Ty} (h : t ∈ types) :
    (32 ≤ t.bits → ∀ c : Col ℤ,
      absEnergy t c = ((c.filterMap id).map fun x => x ^ 2).sum ↔ ((c.filterMap id).map fun x => x ^ 2).sum < Spec.cap t) ∧
    Spec.Holds t (2 ^ (t.bits / 2)) ∧ absEnergy t [some (2 ^ (t.bits / 2))] = 0 := by
  refine ⟨fun hw c => ?_, ?_, ?_⟩
  · have e : absEnergy t c = wrap t ((c.filterMap id).map fun x => x ^ 2).sum := by
      unfold absEnergy
      rw [dot_wide h hw, rows_self, List.map_map]
      congr 3
      funext x
      simp [sq]
    rw [e, wrap_eq_iff h, cap_eq]
    have := sq_sum_nonneg (c.filterMap id)
    have := lo_nonpos t
    omega
  · unfold Spec.Holds Spec.cap
    revert t; decide
  · revert t; decide

/-- Int64: three values; and 2^32 has energy 0. -/
example : absEnergy ⟨true, 64⟩ [some 3, none, some (-4)] = 25 ∧ absEnergy ⟨true, 64⟩ [some (2 ^ 32)] = 0 := by
  refine ⟨?_, (energy_iff (t := ⟨true, 64⟩) (by decide)).2.2⟩
  rw [((energy_iff (t := ⟨true, 64⟩) (by decide)).1 (by decide) [some 3, none, some (-4)]).2 (by decide)]
  decide

/-- **C160h.** `query_mid_range` is half of the range of the column exactly when the range is a number of the type. -/
theorem mid_range_iff {t : Ty} (h : t ∈ types) (c : Col ℤ) (a b : ℤ) (he : Spec.Ends c a b) :
    midRange t c = some (.num (((b - a : ℤ) : ℚ) / 2)) ↔ b - a < Spec.cap t := by
  unfold midRange
  rw [ends_min he, ends_max he]
  simp only [Option.bind_some, Option.map_some]
  rw [div_num (by decide), Option.some_inj, Val.num.injEq]
  push_cast
  rw [div_left_inj' (by norm_num : (2 : ℚ) ≠ 0), cap_eq]
  have hle := (he.2.2 a he.1).2
  have hlo := lo_nonpos t
  constructor
  · intro e
    have : wrap t (b - a) = b - a := by exact_mod_cast e
    have := (wrap_eq_iff h _).1 this
    omega
  · intro hc
    rw [wrap_id h (by omega) (by omega)]
    push_cast
    rfl

/-- Int8 from -100 to 100: not 100. -/
example : midRange ⟨true, 8⟩ [some (-100), some 100] ≠ some (.num (((100 - (-100) : ℤ) : ℚ) / 2)) := by
  rw [Ne, mid_range_iff (by decide) _ (-100) 100 ⟨by decide, by decide, by intro x hx; simp at hx; omega⟩]
  decide

/-- **C160i.** `simple_lin_reg` without a bias on columns of 32 or 64 bits gives the least squares slope if both sums are numbers of
the type. -/
theorem slope_exact_partial {t : Ty} (h : t ∈ types) (hw : 32 ≤ t.bits) (x y : Col ℤ)
    (h1 : Spec.Holds t ((Spec.rows x y).map fun r => r.1 * r.2).sum)
    (h2 : ((x.filterMap id).map fun v => v ^ 2).sum < Spec.cap t) (h0 : ∃ v, some v ∈ x ∧ v ≠ 0) :
    slope t x y = .num ((((Spec.rows x y).map fun r => r.1 * r.2).sum : ℤ) /
      ((((x.filterMap id).map fun v => v ^ 2).sum : ℤ) : ℚ)) := by
  unfold slope
  have e : dot t x x = ((x.filterMap id).map fun v => v ^ 2).sum := ((energy_iff h).1 hw x).2 h2
  obtain ⟨v, hv, hv0⟩ := h0
  have hpos : 0 < ((x.filterMap id).map fun v => v ^ 2).sum := by
    have hm : v ^ 2 ∈ (x.filterMap id).map fun v => v ^ 2 :=
      List.mem_map.2 ⟨v, List.mem_filterMap.2 ⟨some v, hv, rfl⟩, rfl⟩
    refine lt_of_lt_of_le (by positivity) (List.single_le_sum ?_ _ hm)
    intro z hz
    obtain ⟨w, -, rfl⟩ := List.mem_map.1 hz
    exact sq_nonneg _
  rw [e, dot_wide h hw, wrap_holds h h1, div_num hpos.ne']

/-- Int32: slope 2. -/
example : slope ⟨true, 32⟩ [some 1, some 3] [some 2, some 6] = .num 2 := by
  rw [slope_exact_partial (t := ⟨true, 32⟩) (by decide) (by decide) [some 1, some 3] [some 2, some 6]
    (by unfold Spec.Holds Spec.cap; decide) (by decide) ⟨1, by simp, by decide⟩,
    show ((Spec.rows [some 1, some 3] [some 2, some 6]).map fun r => r.1 * r.2).sum = 20 from by decide,
    show ((([some 1, some 3] : List (Option ℤ)).filterMap id).map fun v => v ^ 2).sum = 10 from by decide]
  norm_num

/-- **C160j.** Of every integer type there are two rows whose least squares slope is below 2 and for which `simple_lin_reg` gives 5: with
`z = 2 ^ (bits / 2)` the points `(z, z)` and `(1, 5)`. -/
theorem slope_wrong {t : Ty} (h : t ∈ types) :
    let z : ℤ := 2 ^ (t.bits / 2)
    Spec.Holds t z ∧ slope t [some z, some 1] [some z, some 5] = .num 5 ∧ ((z * z + 5 : ℤ) : ℚ) / (z * z + 1 : ℤ) < 2 := by
  intro z
  have hz : Spec.Holds t z ∧ dot t [some z, some 1] [some z, some 5] = 5 ∧ dot t [some z, some 1] [some z, some 1] = 1 ∧
      4 < z * z := by
    simp only [z]
    unfold Spec.Holds Spec.cap
    revert t
    decide
  refine ⟨hz.1, ?_, ?_⟩
  · unfold slope
    rw [hz.2.1, hz.2.2.1, div_num (by decide)]
    norm_num
  · have h4 := hz.2.2.2
    rw [div_lt_iff₀ (by exact_mod_cast (by omega : 0 < z * z + 1))]
    exact_mod_cast (by omega : z * z + 5 < 2 * (z * z + 1))

/-- Int32: the points (65536, 65536) and (1, 5). -/
example : slope ⟨true, 32⟩ [some 65536, some 1] [some 65536, some 5] = .num 5 := by
  have := (slope_wrong (t := ⟨true, 32⟩) (by decide)).2.1
  norm_num at this
  exact this

end Verif.IntCols
