import Verif.Model.IntSeries
import Verif.Props.IntFeat
import Verif.Props.TsLag

/-!
# Time series features on integer columns: theorems

"The same as on floats" compares with the models of `Verif.Model.TsFeat` on the column cast to floats, which C87, C88 and C89 relate
to the textbook formulas.
-/

namespace Verif.IntSeries
open Verif.Pl Verif.IntCols
open Verif.TsFeat (lag lead get get_ge col_range lead_length lag_length get_lead get_lag map2_length get_map2 vals_cut vals_append
  get_map)
open Verif.Confusion (Val)

namespace Spec

/-- The known values at distance `l`: pairs of row `i` and row `i + l`. -/
def pairs (c : List (Option ℤ)) (l : ℕ) : List (ℤ × ℤ) :=
  (List.range (c.length - l)).filterMap fun i => match c.getD i none, c.getD (i + l) none with
    | some x, some y => some (x, y)
    | _, _ => none

/-- The known values of the rows `i`, `i + l`, `i + 2 l`. -/
def triples (c : List (Option ℤ)) (l : ℕ) : List (ℤ × ℤ × ℤ) :=
  (List.range (c.length - 2 * l)).filterMap fun i =>
    match c.getD i none, c.getD (i + l) none, c.getD (i + 2 * l) none with
    | some x, some y, some z => some (x, y, z)
    | _, _, _ => none

/-- The mean of some numbers; none without a number. -/
def avg (l : List ℤ) : Option ℚ := if l = [] then none else some ((l.sum : ℚ) / l.length)

end Spec

instance (t : Ty) (x : ℤ) : Decidable (IntCols.Spec.Holds t x) := by unfold IntCols.Spec.Holds; infer_instance

/-! ## Windows -/

/-- A three-place operator on nullable values. -/
def opt3 {K L : Type} (f : K → K → K → L) : Option K → Option K → Option K → Option L
  | some x, some y, some z => some (f x y z)
  | _, _, _ => none

theorem opt3_none {K L : Type} (f : K → K → K → L) (a b : Option K) : opt3 f a b none = none := by
  cases a <;> cases b <;> rfl

theorem opt2_none {K L : Type} (f : K → K → L) (a : Option K) : opt2 f a none = none := by cases a <;> rfl

theorem vals_triples {L : Type} (c : Col ℤ) (l : ℕ) (f : ℤ → ℤ → ℤ → L) :
    vals ((List.range c.length).map fun i => opt3 f (get c i) (get c (i + l)) (get c (i + 2 * l))) =
      (Spec.triples c l).map fun q => f q.1 q.2.1 q.2.2 := by
  rw [vals_cut _ (c.length - 2 * l) c.length (by omega)]
  · unfold vals Spec.triples
    rw [List.filterMap_map, List.map_filterMap]
    apply List.filterMap_congr
    intro i _
    simp only [Function.comp, id, TsFeat.get]
    rcases c.getD i none with _ | x <;> rcases c.getD (i + l) none with _ | y <;>
      rcases c.getD (i + 2 * l) none with _ | z <;> rfl
  · intro i h _
    rw [get_ge c (i + 2 * l) (by omega), opt3_none]

theorem vals_pairs {L : Type} (c : Col ℤ) (l : ℕ) (f : ℤ → ℤ → L) :
    vals ((List.range c.length).map fun i => opt2 f (get c i) (get c (i + l))) =
      (Spec.pairs c l).map fun q => f q.1 q.2 := by
  rw [vals_cut _ (c.length - l) c.length (by omega)]
  · unfold vals Spec.pairs
    rw [List.filterMap_map, List.map_filterMap]
    apply List.filterMap_congr
    intro i _
    simp only [Function.comp, id, TsFeat.get]
    rcases c.getD i none with _ | x <;> rcases c.getD (i + l) none with _ | y <;> rfl
  · intro i h _
    rw [get_ge c (i + l) (by omega), opt2_none]

/-- The windows seen from their last row. -/
theorem vals_triples_lag {L : Type} (c : Col ℤ) (l : ℕ) (f : ℤ → ℤ → ℤ → L) :
    vals ((List.range c.length).map fun j => if j < 2 * l then none
      else opt3 f (get c (j - 2 * l)) (get c (j - l)) (get c j)) =
      (Spec.triples c l).map fun q => f q.1 q.2.1 q.2.2 := by
  have key : ∀ m, m = min (2 * l) c.length → (List.range c.length) =
      List.range m ++ (List.range (c.length - m)).map fun i => m + i := by
    intro m hm
    rw [← List.range_add]; congr 1; omega
  rw [key _ rfl, List.map_append, vals_append]
  have h1 : vals ((List.range (min (2 * l) c.length)).map fun j => if j < 2 * l then none
      else opt3 f (get c (j - 2 * l)) (get c (j - l)) (get c j)) = [] := by
    unfold vals
    rw [List.filterMap_map, List.filterMap_eq_nil_iff]
    intro j hj
    rw [List.mem_range] at hj
    simp only [Function.comp, id]
    rw [if_pos (by omega)]
  rw [h1, List.nil_append, List.map_map]
  unfold vals Spec.triples
  rw [List.filterMap_map, List.map_filterMap, show c.length - min (2 * l) c.length = c.length - 2 * l by omega]
  apply List.filterMap_congr
  intro i hi
  rw [List.mem_range] at hi
  simp only [Function.comp, id]
  rw [show min (2 * l) c.length = 2 * l by omega, if_neg (by omega), show 2 * l + i - 2 * l = i by omega,
    show 2 * l + i - l = i + l by omega, show 2 * l + i = i + 2 * l by omega]
  simp only [TsFeat.get]
  rcases c.getD i none with _ | x <;> rcases c.getD (i + l) none with _ | y <;>
    rcases c.getD (i + 2 * l) none with _ | z <;> rfl

theorem get_cast (c : Col ℤ) (i : ℕ) : get (cast c) i = (get c i).map fun x : ℤ => (x : ℚ) := by
  unfold cast map1
  exact get_map _ c i rfl

theorem cast_length (c : Col ℤ) : (cast c).length = c.length := by simp [cast, map1]

/-- The values of products over windows, of any kind of column whose rows come from integers. -/
theorem lag_rows {K : Type} (c : Col ℤ) (l : ℕ) (e : ℤ → K) (p q : K → K → K) :
    vals (map2 q (map2 p (map1 e c) (lag l (map1 e c))) (lag (2 * l) (map1 e c))) =
      (Spec.triples c l).map fun s => q (p (e s.2.2) (e s.2.1)) (e s.1) := by
  have hl : (map1 e c).length = c.length := by simp [map1]
  rw [← vals_triples_lag c l fun x y z => q (p (e z) (e y)) (e x)]
  congr 1
  rw [col_range (map2 q (map2 p (map1 e c) (lag l (map1 e c))) (lag (2 * l) (map1 e c))),
    map2_length _ _ _ (by rw [lag_length, map2_length _ _ _ (lag_length _ _)]), map2_length _ _ _ (lag_length _ _), hl]
  apply List.map_congr_left
  intro j hj
  rw [List.mem_range] at hj
  rw [get_map2 _ _ _ (by rw [lag_length, map2_length _ _ _ (lag_length _ _)]), get_map2 _ _ _ (lag_length _ _),
    get_lag _ _ _ (by omega), get_lag _ _ _ (by omega)]
  have hg : ∀ i, get (map1 e c) i = (get c i).map e := fun i => get_map _ c i rfl
  rw [hg, hg, hg]
  by_cases h2 : j < 2 * l
  · rw [if_pos h2, if_pos h2]
    exact opt2_none _ _
  · rw [if_neg h2, if_neg h2, if_neg (by omega)]
    rcases get c (j - 2 * l) with _ | x <;> rcases get c (j - l) with _ | y <;> rcases get c j with _ | z <;> rfl

/-- The same for windows seen from their first row. -/
theorem lead_rows {K L : Type} (c : Col ℤ) (l : ℕ) (e : ℤ → K) (p q r : K → K → K) (g : K → K → L) :
    vals (map2 g (map2 q (lead l (map1 e c)) (map2 p (lead (2 * l) (map1 e c)) (map1 e c)))
        (map2 r (lead (2 * l) (map1 e c)) (map1 e c))) =
      (Spec.triples c l).map fun s => g (q (e s.2.1) (p (e s.2.2) (e s.1))) (r (e s.2.2) (e s.1)) := by
  have hl : (map1 e c).length = c.length := by simp [map1]
  have hp : ∀ o : K → K → K, (map2 o (lead (2 * l) (map1 e c)) (map1 e c)).length = c.length := by
    intro o
    rw [map2_length _ _ _ (lead_length _ _).symm, lead_length, hl]
  have hq : (map2 q (lead l (map1 e c)) (map2 p (lead (2 * l) (map1 e c)) (map1 e c))).length = c.length := by
    rw [map2_length _ _ _ (by rw [hp, lead_length, hl]), lead_length, hl]
  rw [← vals_triples c l fun x y z => g (q (e y) (p (e z) (e x))) (r (e z) (e x))]
  congr 1
  rw [col_range (map2 g _ _), map2_length _ _ _ (by rw [hp, hq]), hq]
  apply List.map_congr_left
  intro j _
  have hg : ∀ i, TsFeat.get (map1 e c) i = (TsFeat.get c i).map e := fun i => get_map _ c i rfl
  rw [get_map2 _ _ _ (by rw [hp, hq]), get_map2 _ _ _ (by rw [hp, lead_length, hl]),
    get_map2 _ _ _ (lead_length _ _).symm, get_map2 _ _ _ (lead_length _ _).symm, get_lead, get_lead, hg, hg, hg]
  rcases TsFeat.get c j with _ | x <;> rcases TsFeat.get c (j + l) with _ | y <;>
    rcases TsFeat.get c (j + 2 * l) with _ | z <;> rfl

theorem pair_rows {K L : Type} (c : Col ℤ) (l : ℕ) (e : ℤ → K) (g : K → K → L) :
    vals (map2 g (map1 e c) (lead l (map1 e c))) = (Spec.pairs c l).map fun s => g (e s.1) (e s.2) := by
  have hl : (map1 e c).length = c.length := by simp [map1]
  rw [← vals_pairs c l fun x y => g (e x) (e y)]
  congr 1
  rw [col_range (map2 g _ _), map2_length _ _ _ (lead_length _ _), hl]
  apply List.map_congr_left
  intro j _
  have hg : ∀ i, TsFeat.get (map1 e c) i = (TsFeat.get c i).map e := fun i => get_map _ c i rfl
  rw [get_map2 _ _ _ (lead_length _ _), get_lead, hg, hg]
  rcases TsFeat.get c j with _ | x <;> rcases TsFeat.get c (j + l) with _ | y <;> rfl

theorem map1_id (c : Col ℤ) : map1 (fun x : ℤ => x) c = c := by
  unfold map1
  conv_rhs => rw [← List.map_id c]
  apply List.map_congr_left
  intro o _
  cases o <;> rfl

theorem c3_vals (t : Ty) (c : Col ℤ) (l : ℕ) :
    vals (c3Rows t c l) = (Spec.triples c l).map fun s => wrap t (s.1 * s.2.1 * s.2.2) := by
  have := lag_rows c l (fun x : ℤ => x) (fun x y => wrap t (x * y)) (fun x y => wrap t (x * y))
  rw [map1_id] at this
  refine this.trans (List.map_congr_left fun s _ => ?_)
  rw [wrap_wrap_mul]
  congr 1; ring

theorem tras_vals (t : Ty) (c : Col ℤ) (l : ℕ) :
    vals (trasRows t c l) = (Spec.triples c l).map fun s => wrap t (s.2.1 * (s.2.2 + s.1) * (s.2.2 - s.1)) := by
  have := lead_rows c l (fun x : ℤ => x) (fun x y => wrap t (x + y)) (fun x y => wrap t (x * y)) (fun x y => wrap t (x - y))
    (fun x y => wrap t (x * y))
  rw [map1_id] at this
  refine this.trans (List.map_congr_left fun s _ => ?_)
  apply wrap_congr
  refine Int.ModEq.mul ?_ (wrap_modEq t _)
  exact (wrap_modEq t _).trans ((Int.ModEq.refl _).mul (wrap_modEq t _))

theorem cov_vals (t : Ty) (c : Col ℤ) (l : ℕ) :
    vals (mul t c (lead l c)) = (Spec.pairs c l).map fun s => wrap t (s.1 * s.2) := by
  have := pair_rows c l (fun x : ℤ => x) (fun x y => wrap t (x * y))
  rwa [map1_id] at this

theorem sum_cast (l : List ℤ) : ((l.sum : ℤ) : ℚ) = (l.map fun x : ℤ => (x : ℚ)).sum := by
  induction l with
  | nil => simp
  | cons a l ih => simp [ih]

theorem mean_of_vals (c : Col ℚ) (l : List ℤ) (h : vals c = l.map fun x : ℤ => (x : ℚ)) : Pl.mean c = Spec.avg l := by
  unfold Pl.mean Pl.count Pl.sum Spec.avg
  rw [h, List.length_map]
  by_cases hl : l = []
  · simp [hl]
  · rw [if_neg (by simpa using hl), if_neg hl]
    rw [sum_cast]

theorem mean_cast (c : Col ℤ) : Pl.mean (cast c) = Spec.avg (vals c) :=
  mean_of_vals _ _ (vals_map1 _ c)

/-! ## Theorems -/

/-- What the features are on the column cast to floats. -/
theorem float_values (c : Col ℤ) (l : ℕ) :
    TsFeat.c3 (cast c) l = div ((Spec.triples c l).map fun s => s.1 * s.2.1 * s.2.2).sum
      (((c.length + 2 ^ 32 - 2 * l) % 2 ^ 32 : ℕ) : ℤ) ∧
    TsFeat.tras (cast c) l = Spec.avg ((Spec.triples c l).map fun s => s.2.1 * (s.2.2 + s.1) * (s.2.2 - s.1)) ∧
    TsFeat.autoCov (cast c) l = Spec.avg ((Spec.pairs c l).map fun s => s.1 * s.2) := by
  refine ⟨?_, ?_, ?_⟩
  · unfold TsFeat.c3 div Pl.sum
    rw [cast_length]
    congr 2
    unfold cast
    rw [lag_rows, sum_cast, List.map_map]
    congr 1
    apply List.map_congr_left
    intro s _
    simp only [Function.comp]; push_cast; ring
  · unfold TsFeat.tras
    apply mean_of_vals
    unfold cast
    rw [lead_rows, List.map_map]
    apply List.map_congr_left
    intro s _
    simp only [Function.comp]; push_cast; ring
  · unfold TsFeat.autoCov
    apply mean_of_vals
    unfold cast
    rw [pair_rows, List.map_map]
    apply List.map_congr_left
    intro s _
    simp only [Function.comp]; push_cast; ring

example : Spec.triples [some 5, none, some 3, some 2, some (-4), some 1] 1 = [(3, 2, -4), (2, -4, 1)] ∧
    Spec.pairs [some 5, none, some 3, some 2] 1 = [(3, 2)] := by decide

/-- **`query_c3_stats` is the same as on floats** if every product and their sum are numbers of the types that hold them. -/
theorem c3_exact_partial {t : Ty} (h : t ∈ types) (c : Col ℤ) (l : ℕ)
    (hr : ∀ s ∈ Spec.triples c l, IntCols.Spec.Holds t (s.1 * s.2.1 * s.2.2))
    (hs : IntCols.Spec.Holds (sumTy t) ((Spec.triples c l).map fun s => s.1 * s.2.1 * s.2.2).sum) :
    c3 t c l = TsFeat.c3 (cast c) l := by
  rw [(float_values c l).1]
  unfold c3
  rw [sum_eq h, c3_vals, List.map_congr_left fun s hm => wrap_holds h (hr s hm), wrap_holds (sumTy_mem h) hs]

example : (⟨true, 8⟩ : Ty) ∈ types ∧ (∀ s ∈ Spec.triples [some 5, none, some 3, some 2, some (-4), some 1] 1,
    IntCols.Spec.Holds ⟨true, 8⟩ (s.1 * s.2.1 * s.2.2)) := by decide

example : c3 ⟨true, 8⟩ [some 5, none, some 3, some 2, some (-4), some 1] 1 = .num (-8) := by
  rw [c3_exact_partial (by decide) _ _ (by decide) (by decide), (float_values _ 1).1,
    show ((Spec.triples [some 5, none, some 3, some 2, some (-4), some 1] 1).map fun s => s.1 * s.2.1 * s.2.2).sum = -32 by decide,
    show ((([some 5, none, some 3, some 2, some (-4), some 1] : Col ℤ).length + 2 ^ 32 - 2 * 1) % 2 ^ 32 : ℕ) = 4 by decide,
    div_num (by norm_num)]
  norm_num

/-- **For types of 32 and 64 bits only the sum matters**: intermediate products may wrap around. -/
theorem c3_exact_wide_partial {t : Ty} (h : t ∈ types) (hb : 32 ≤ t.bits) (c : Col ℤ) (l : ℕ)
    (hs : IntCols.Spec.Holds t ((Spec.triples c l).map fun s => s.1 * s.2.1 * s.2.2).sum) :
    c3 t c l = TsFeat.c3 (cast c) l := by
  rw [(float_values c l).1]
  unfold c3
  rw [sum_eq h, c3_vals, sumTy_wide hb]
  congr 1
  rw [holds_iff] at hs
  refine wrap_unique h (sum_modEq _ _ ?_) hs.1 hs.2
  rw [List.forall₂_map_left_iff, List.forall₂_map_right_iff, List.forall₂_same]
  intro s _
  exact wrap_modEq t _

/-- The product `2 ^ 31`, too large for the type, does no harm as the sum is 0. -/
example : c3 ⟨true, 32⟩ [some (2 ^ 30), some 2, some 1, none, some (-2 ^ 30), some 2, some 1] 1 =
    TsFeat.c3 (cast [some (2 ^ 30), some 2, some 1, none, some (-2 ^ 30), some 2, some 1]) 1 :=
  c3_exact_wide_partial (by decide) (by decide) _ _ (by decide +kernel)

/-- **`query_time_reversal_asymmetry_stats` is the same as on floats** if the product of every window is a number of the
type, whatever its factors do. -/
theorem tras_exact_partial {t : Ty} (h : t ∈ types) (c : Col ℤ) (l : ℕ)
    (hr : ∀ s ∈ Spec.triples c l, IntCols.Spec.Holds t (s.2.1 * (s.2.2 + s.1) * (s.2.2 - s.1))) :
    tras t c l = TsFeat.tras (cast c) l := by
  rw [(float_values c l).2.1]
  unfold tras
  rw [mean_cast, tras_vals, List.map_congr_left fun s hm => wrap_holds h (hr s hm)]

example : tras ⟨false, 8⟩ [some 10, some 1, some 16, none, some 3] 1 = TsFeat.tras (cast [some 10, some 1, some 16, none, some 3]) 1 :=
  tras_exact_partial (by decide) _ _ (by decide)

/-- **On an unsigned column the statistic is never negative**, so that it cannot change its sign when the series is
reversed. -/
theorem tras_unsigned_nonneg {t : Ty} (h : t ∈ types) (hs : t.signed = false) (c : Col ℤ) (l : ℕ) (v : ℚ)
    (hv : tras t c l = some v) : 0 ≤ v := by
  unfold tras at hv
  rw [mean_cast, tras_vals, Spec.avg] at hv
  split_ifs at hv
  cases hv
  have hlo : t.lo = 0 := by unfold Ty.lo; simp [hs]
  apply div_nonneg _ (by positivity)
  have : 0 ≤ ((Spec.triples c l).map fun s => wrap t (s.2.1 * (s.2.2 + s.1) * (s.2.2 - s.1))).sum := by
    apply List.sum_nonneg
    intro x hx
    obtain ⟨s, -, rfl⟩ := List.mem_map.1 hx
    have := (wrap_range h (s.2.1 * (s.2.2 + s.1) * (s.2.2 - s.1))).1
    rwa [hlo] at this
  exact_mod_cast this

example : (0 : ℚ) ≤ 2 ^ 8 - 1 := tras_unsigned_nonneg (t := ⟨false, 8⟩) (by decide) rfl _ 1 _ (by
  have h : tras ⟨false, 8⟩ [some 1, some 1, some 0] 1 = Spec.avg [255] := by
    unfold tras
    rw [mean_cast, tras_vals]
    congr 1
  rw [h]; norm_num [Spec.avg])

/-- **A series 1, 1, 0 of an unsigned type has the statistic `2 ^ bits - 1` instead of `-1`.** -/
theorem tras_unsigned_wrong {t : Ty} (h : t ∈ types) (hs : t.signed = false) :
    tras t [some 1, some 1, some 0] 1 = some (2 ^ t.bits - 1) ∧
    TsFeat.tras (cast [some 1, some 1, some 0]) 1 = some (-1) := by
  have ht : Spec.triples [some 1, some 1, some 0] 1 = [(1, 1, 0)] := by decide
  constructor
  · unfold tras
    rw [mean_cast, tras_vals, ht]
    have hw : wrap t (-1) = 2 ^ t.bits - 1 := by
      have hlo : t.lo = 0 := by unfold Ty.lo; simp [hs]
      have hhi : t.hi = 2 ^ t.bits - 1 := by unfold Ty.hi; simp [hs]
      refine wrap_unique h ?_ (by rw [hlo]; have := hi_pos h; omega) (by rw [hhi])
      exact (Int.modEq_iff_dvd.2 ⟨1, by ring⟩)
    simp only [List.map_cons, List.map_nil]
    norm_num [Spec.avg, hw]
  · rw [(float_values _ 1).2.1, ht]
    norm_num [Spec.avg]

example : (⟨false, 16⟩ : Ty) ∈ types ∧ (⟨false, 16⟩ : Ty).signed = false := by decide

/-- **`query_auto_corr` without normalization is the same as on floats** if every product is a number of the type. -/
theorem cov_exact_partial {t : Ty} (h : t ∈ types) (c : Col ℤ) (l : ℕ)
    (hr : ∀ s ∈ Spec.pairs c l, IntCols.Spec.Holds t (s.1 * s.2)) : autoCov t c l = TsFeat.autoCov (cast c) l := by
  rw [(float_values c l).2.2]
  unfold autoCov
  rw [mean_cast, cov_vals, List.map_congr_left fun s hm => wrap_holds h (hr s hm)]

example : autoCov ⟨true, 8⟩ [some 11, some 11, none, some 5] 1 = TsFeat.autoCov (cast [some 11, some 11, none, some 5]) 1 :=
  cov_exact_partial (by decide) _ _ (by decide)

theorem wrap_double {t : Ty} (h : t ∈ types) : wrap t (t.hi * 2) = if t.signed then -2 else 2 ^ t.bits - 2 := by
  revert t; decide +kernel

/-- **Positive series with negative products**: the greatest value of the type, followed by 2 (and 1), has a `c3` and an
autocorrelation of -2 for a signed and of `2 ^ bits - 2` for an unsigned type, instead of twice that value. -/
theorem products_wrong {t : Ty} (h : t ∈ types) :
    c3 t [some t.hi, some 2, some 1] 1 = .num (if t.signed then -2 else 2 ^ t.bits - 2) ∧
    autoCov t [some t.hi, some 2] 1 = some (if t.signed then -2 else 2 ^ t.bits - 2) ∧
    TsFeat.c3 (cast [some t.hi, some 2, some 1]) 1 = .num (t.hi * 2) ∧
    TsFeat.autoCov (cast [some t.hi, some 2]) 1 = some (t.hi * 2) := by
  have ht : Spec.triples [some t.hi, some 2, some 1] 1 = [(t.hi, 2, 1)] := rfl
  have hp : Spec.pairs [some t.hi, some 2] 1 = [(t.hi, 2)] := rfl
  have hw := wrap_double h
  have hin : wrap (sumTy t) (wrap t (t.hi * 2)) = wrap t (t.hi * 2) := by
    have h1 := wrap_range h (t.hi * 2)
    exact wrap_id (sumTy_mem h) ((sumTy_lo h).trans h1.1) (h1.2.trans (sumTy_hi h))
  refine ⟨?_, ?_, ?_, ?_⟩
  · unfold c3
    rw [sum_eq h, c3_vals, ht]
    simp only [List.map_cons, List.map_nil, List.sum_singleton, mul_one, List.length_cons, List.length_nil]
    rw [hin, hw, div_num (by norm_num)]
    split_ifs <;> norm_num
  · unfold autoCov
    rw [mean_cast, cov_vals, hp]
    simp only [List.map_cons, List.map_nil]
    rw [hw, Spec.avg, if_neg (by simp)]
    split_ifs <;> norm_num
  · rw [(float_values _ 1).1, ht]
    simp only [List.map_cons, List.map_nil, List.sum_singleton, mul_one, List.length_cons, List.length_nil]
    rw [div_num (by norm_num)]
    norm_num
  · rw [(float_values _ 1).2.2, hp]
    norm_num [Spec.avg]

example : (⟨true, 8⟩ : Ty) ∈ types ∧ (⟨true, 8⟩ : Ty).hi = 127 := by decide

/-- The number under the root. -/
theorem cidSq_eq {t : Ty} (h : t ∈ types) (c : Col ℤ) :
    cidSq t c = wrap (sumTy t) ((Spec.pairs c 1).map fun s => wrap t ((s.1 - s.2) ^ 2)).sum := by
  unfold cidSq IntCols.dot
  rw [sum_eq h]
  congr 2
  unfold mul sub
  rw [map2_self]
  have := pair_rows c 1 (fun x : ℤ => x) fun x y => wrap t (wrap t (x - y) * wrap t (x - y))
  rw [map1_id] at this
  refine this.trans (List.map_congr_left fun s _ => ?_)
  exact wrap_congr (by rw [sq]; exact (wrap_modEq t _).mul (wrap_modEq t _))

theorem cid_float (c : Col ℤ) :
    TsFeat.cidCe (map1 (fun x : ℤ => (x : ℝ)) c) = √(((Spec.pairs c 1).map fun s => (s.1 - s.2) ^ 2).sum : ℤ) := by
  unfold TsFeat.cidCe Pl.dot Pl.sum
  dsimp only
  rw [map2_self, pair_rows]
  congr 1
  induction Spec.pairs c 1 with
  | nil => simp
  | cons a l ih =>
    rw [List.map_cons, List.map_cons, List.sum_cons, List.sum_cons, ih]
    push_cast; ring

/-- **`query_cid_ce` is the same as on floats**, also for unsigned types, if the squares of the steps and their sum are numbers of
the types that hold them. -/
theorem cid_exact_partial {t : Ty} (h : t ∈ types) (c : Col ℤ)
    (hr : ∀ s ∈ Spec.pairs c 1, IntCols.Spec.Holds t ((s.1 - s.2) ^ 2))
    (hs : IntCols.Spec.Holds (sumTy t) ((Spec.pairs c 1).map fun s => (s.1 - s.2) ^ 2).sum) :
    cidCe t c = .num (TsFeat.cidCe (map1 (fun x : ℤ => (x : ℝ)) c)) := by
  have e : cidSq t c = ((Spec.pairs c 1).map fun s => (s.1 - s.2) ^ 2).sum := by
    rw [cidSq_eq h, List.map_congr_left fun s hm => wrap_holds h (hr s hm), wrap_holds (sumTy_mem h) hs]
  have h0 : 0 ≤ ((Spec.pairs c 1).map fun s => (s.1 - s.2) ^ 2).sum := by
    apply List.sum_nonneg
    intro x hx
    obtain ⟨s, -, rfl⟩ := List.mem_map.1 hx
    positivity
  unfold cidCe
  rw [e, if_neg (by omega), cid_float]

example : cidCe ⟨false, 8⟩ [some 3, some 18, none, some 200, some 190] =
    .num (TsFeat.cidCe (map1 (fun x : ℤ => (x : ℝ)) [some 3, some 18, none, some 200, some 190])) :=
  cid_exact_partial (by decide) _ (by decide) (by decide)

/-- **One step can make the complexity NaN**: every signed type has a positive value `z` for which the series 0, `z`, whose
complexity is `z`, gives NaN. -/
theorem cid_nan {t : Ty} (h : t ∈ types) (hs : t.signed = true) :
    ∃ z : ℤ, 0 < z ∧ z ≤ t.hi ∧ cidCe t [some 0, some z] = .nan ∧
      TsFeat.cidCe (map1 (fun x : ℤ => (x : ℝ)) [some 0, some z]) = z := by
  have key : ∃ z ∈ [(12 : ℤ), 182, 46341, 3037000500], 0 < z ∧ z ≤ t.hi ∧ wrap (sumTy t) (wrap t (z ^ 2)) < 0 := by
    revert t; decide +kernel
  obtain ⟨z, -, h1, h2, h3⟩ := key
  have hp : Spec.pairs [some 0, some z] 1 = [(0, z)] := rfl
  refine ⟨z, h1, h2, ?_, ?_⟩
  · unfold cidCe
    rw [if_pos]
    rw [cidSq_eq h, hp]
    simpa using h3
  · rw [cid_float, hp]
    have : (0 : ℝ) ≤ z := by exact_mod_cast h1.le
    simp [this]

example : (⟨true, 32⟩ : Ty) ∈ types ∧ (⟨true, 32⟩ : Ty).signed = true := by decide

theorem vals_steps {K L : Type} (c : Col ℤ) (e : ℤ → K) (f : K → K → L) :
    vals (List.zipWith (opt2 f) (map1 e c) ((map1 e c).drop 1)) = (Spec.pairs c 1).map fun s => f (e s.1) (e s.2) := by
  have hz : List.zipWith (opt2 f) (map1 e c) ((map1 e c).drop 1) =
      (List.range (c.length - 1)).map fun i => opt2 f ((TsFeat.get c i).map e) ((TsFeat.get c (i + 1)).map e) := by
    apply List.ext_getElem
    · simp [map1]
    · intro i h1 h2
      have hi : i + 1 < c.length := by simp at h2; omega
      simp only [List.getElem_zipWith, List.getElem_drop, List.getElem_map, List.getElem_range, map1]
      simp [TsFeat.get, List.getElem?_eq_getElem hi, List.getElem?_eq_getElem (show i < c.length by omega), Nat.add_comm]
  rw [hz]
  unfold vals Spec.pairs
  rw [List.filterMap_map, List.map_filterMap]
  apply List.filterMap_congr
  intro i _
  simp only [Function.comp, id, TsFeat.get]
  rcases c.getD i none with _ | x <;> rcases c.getD (i + 1) none with _ | y <;> rfl

theorem change_float (c : Col ℤ) : TsFeat.meanAbsChange (cast c) = Spec.avg ((Spec.pairs c 1).map fun s => |s.2 - s.1|) := by
  unfold TsFeat.meanAbsChange
  apply mean_of_vals
  unfold cast
  rw [TsFeat.vals_map1', vals_steps, List.map_map, List.map_map]
  apply List.map_congr_left
  intro s _
  simp only [Function.comp]; push_cast; ring_nf

theorem pairs_mem (c : Col ℤ) (l : ℕ) (s : ℤ × ℤ) (h : s ∈ Spec.pairs c l) : some s.1 ∈ c ∧ some s.2 ∈ c := by
  unfold Spec.pairs at h
  obtain ⟨i, -, e⟩ := List.mem_filterMap.1 h
  have hget : ∀ (j : ℕ) (x : ℤ), c.getD j none = some x → some x ∈ c := by
    intro j x hx
    rw [List.getD_eq_getElem?_getD] at hx
    cases hj : c[j]? with
    | none => rw [hj] at hx; simp at hx
    | some o =>
      rw [hj] at hx
      simp only [Option.getD_some] at hx
      rw [← hx]; exact List.mem_of_getElem? hj
  cases h1 : c.getD i none with
  | none => rw [h1] at e; simp at e
  | some x =>
    cases h2 : c.getD (i + l) none with
    | none => rw [h1, h2] at e; simp at e
    | some y =>
      rw [h1, h2] at e
      simp only [Option.some_inj] at e
      rw [← e]
      exact ⟨hget i x h1, hget (i + l) y h2⟩

theorem diffTy_mem {t : Ty} (h : t ∈ types) : diffTy t ∈ types ∧ (diffTy t).signed = true := by
  revert t; decide

theorem diffTy_hi {t : Ty} (h : t ∈ types) (hu : t ≠ ⟨false, 64⟩) : t.hi ≤ (diffTy t).hi := by
  revert t; decide

theorem diffTy_cap {t : Ty} (h : t ∈ types) (hu : t ≠ ⟨false, 64⟩) (hs : t.signed = false) : t.hi < IntCols.Spec.cap (diffTy t) := by
  revert t; decide

theorem toDiff_id {t : Ty} (c : Col ℤ) (h : ∀ x, some x ∈ c → x ≤ (diffTy t).hi) : toDiff t c = c := by
  unfold toDiff
  conv_rhs => rw [← List.map_id c]
  apply List.map_congr_left
  intro o ho
  cases o with
  | none => rfl
  | some x => simp [h x ho]

theorem holds_of_abs {t : Ty} (hs : t.signed = true) {x : ℤ} (h : |x| < IntCols.Spec.cap t) : IntCols.Spec.Holds t x := by
  unfold IntCols.Spec.Holds IntCols.Spec.cap at *
  rw [if_pos hs] at *
  rw [if_pos hs]
  rw [abs_lt] at h
  exact ⟨h.1.le, h.2⟩

/-- **`query_mean_abs_change` is the same as on floats** for all unsigned types but `UInt64`, and for signed types if no step is
half of the range or more. -/
theorem change_exact_partial {t : Ty} (h : t ∈ types) (hu : t ≠ ⟨false, 64⟩) (c : Col ℤ)
    (hc : ∀ x, some x ∈ c → IntCols.Spec.Holds t x)
    (hd : t.signed = true → ∀ s ∈ Spec.pairs c 1, |s.2 - s.1| < 2 ^ (t.bits - 1)) :
    meanAbsChange t c = TsFeat.meanAbsChange (cast c) := by
  obtain ⟨hm, hsg⟩ := diffTy_mem h
  have hid : toDiff t c = c := toDiff_id c fun x hx =>
    (((holds_iff t x).1 (hc x hx)).2).trans (diffTy_hi h hu)
  rw [change_float]
  unfold meanAbsChange
  dsimp only
  rw [hid, mean_cast]
  unfold IntCols.abs
  rw [vals_map1]
  have := vals_steps c (fun x : ℤ => x) fun a b => wrap (diffTy t) (b - a)
  rw [map1_id] at this
  rw [this, List.map_map]
  congr 1
  apply List.map_congr_left
  intro s hs
  simp only [Function.comp]
  have hcap : |s.2 - s.1| < IntCols.Spec.cap (diffTy t) := by
    by_cases hsig : t.signed = true
    · have e : diffTy t = t := by unfold diffTy; rw [if_pos hsig]
      rw [e]; unfold IntCols.Spec.cap; rw [if_pos hsig]
      exact hd hsig s hs
    · have hf : t.signed = false := by simpa using hsig
      refine lt_of_le_of_lt ?_ (diffTy_cap h hu hf)
      have h1 := (holds_iff t _).1 (hc _ (pairs_mem c 1 s hs).1)
      have h2 := (holds_iff t _).1 (hc _ (pairs_mem c 1 s hs).2)
      have hlo : t.lo = 0 := by unfold Ty.lo; rw [if_neg hsig]
      rw [hlo] at h1 h2
      rw [abs_le]; constructor <;> omega
  rw [wrap_holds hm (holds_of_abs hsg hcap)]
  exact absVal_fits hm (holds_of_abs hsg hcap) hcap

example : meanAbsChange ⟨false, 8⟩ [some 255, some 0, none, some 7, some 9] =
    TsFeat.meanAbsChange (cast [some 255, some 0, none, some 7, some 9]) :=
  change_exact_partial (by decide) (by decide) _ (by
    intro x hx
    have : ∀ o ∈ ([some 255, some 0, none, some 7, some 9] : Col ℤ), ∀ y ∈ o, IntCols.Spec.Holds ⟨false, 8⟩ y := by decide
    exact this _ hx x rfl) (by decide)

/-- **The greatest possible step counts as 1**: from the least to the greatest value of a signed type the mean change is 1 instead
of `2 ^ bits - 1`; and a `UInt64` value from `2 ^ 63` on is treated as missing. -/
theorem change_wrong {t : Ty} (h : t ∈ types) (hs : t.signed = true) :
    meanAbsChange t [some t.lo, some t.hi] = some 1 ∧
    TsFeat.meanAbsChange (cast [some t.lo, some t.hi]) = some (2 ^ t.bits - 1) ∧
    meanAbsChange ⟨false, 64⟩ [some (2 ^ 63), some 0, some 5] = some 5 ∧
    TsFeat.meanAbsChange (cast [some (2 ^ 63), some 0, some 5]) = some ((2 ^ 63 + 5) / 2) := by
  have hp : Spec.pairs [some t.lo, some t.hi] 1 = [(t.lo, t.hi)] := rfl
  refine ⟨?_, ?_, ?_, ?_⟩
  · have : vals (IntCols.abs (diffTy t) (List.zipWith (opt2 fun a b => wrap (diffTy t) (b - a)) (toDiff t [some t.lo, some t.hi])
        ((toDiff t [some t.lo, some t.hi]).drop 1))) = [1] := by
      revert t; decide +kernel
    unfold meanAbsChange
    dsimp only
    rw [mean_cast, this]
    norm_num [Spec.avg]
  · rw [change_float, hp]
    have hw := width h
    have h0 : (0 : ℤ) < 2 ^ t.bits := by positivity
    simp only [List.map_cons, List.map_nil]
    rw [hw, abs_of_nonneg (by omega)]
    norm_num [Spec.avg]
  · have : vals (IntCols.abs (diffTy ⟨false, 64⟩) (List.zipWith (opt2 fun a b => wrap (diffTy ⟨false, 64⟩) (b - a))
        (toDiff ⟨false, 64⟩ [some (2 ^ 63), some 0, some 5])
        ((toDiff ⟨false, 64⟩ [some (2 ^ 63), some 0, some 5]).drop 1))) = [5] := by
      decide +kernel
    unfold meanAbsChange
    dsimp only
    rw [mean_cast, this]
    norm_num [Spec.avg]
  · rw [change_float, show Spec.pairs [some (2 ^ 63), some 0, some 5] 1 = [(2 ^ 63, 0), (0, 5)] by decide +kernel,
      Spec.avg, if_neg (by simp)]
    norm_num

/-- **`query_mean_n_abs_max` is the same as on floats** unless the least value of a signed type occurs. -/
theorem top_exact_partial {t : Ty} (h : t ∈ types) (c : Col ℤ) (n : ℤ) (hc : ∀ x, some x ∈ c → IntCols.Spec.Holds t x)
    (hne : t.signed = true → some (-2 ^ (t.bits - 1)) ∉ c) : meanNAbsMax t c n = TsFeat.meanNAbsMax (cast c) n := by
  unfold meanNAbsMax TsFeat.meanNAbsMax
  split_ifs
  · rfl
  · congr 1
    have e : vals (IntCols.abs t c) = (vals c).map fun x => |x| := by
      unfold IntCols.abs
      rw [vals_map1]
      apply List.map_congr_left
      intro x hx
      exact absVal_of_ne h (hc x (mem_vals.1 hx)) fun hs e => hne hs (by rw [← e]; exact mem_vals.1 hx)
    rw [e, mean_cast, TsFeat.vals_some]
    symm
    apply mean_of_vals
    rw [TsFeat.vals_some, List.map_take]
    congr 1
    unfold cast
    rw [TsFeat.vals_map1', vals_map1, List.map_map]
    rw [List.map_insertionSort (r := fun a b : ℤ => b ≤ a) (s := fun a b : ℚ => b ≤ a) (f := fun x : ℤ => (x : ℚ)) _ (by
      intro a _ b _; simp)]
    rw [List.map_map]
    congr 1
    apply List.map_congr_left
    intro x _
    simp

example : meanNAbsMax ⟨true, 8⟩ [some (-127), some 100, none] 1 = TsFeat.meanNAbsMax (cast [some (-127), some 100, none]) 1 :=
  top_exact_partial (by decide) _ _ (by
    intro x hx
    have : ∀ o ∈ ([some (-127), some 100, none] : Col ℤ), ∀ y ∈ o, IntCols.Spec.Holds ⟨true, 8⟩ y := by decide
    exact this _ hx x rfl) (by decide)

/-- **The value of greatest magnitude of a signed type is never found**: the largest magnitude of the least value and 1 is
given as 1 instead of `2 ^ (bits - 1)`. -/
theorem top_wrong {t : Ty} (h : t ∈ types) (hs : t.signed = true) :
    meanNAbsMax t [some (-2 ^ (t.bits - 1)), some 1] 1 = some (some 1) ∧
    TsFeat.meanNAbsMax (cast [some (-2 ^ (t.bits - 1)), some 1]) 1 = some (some (2 ^ (t.bits - 1))) := by
  constructor
  · have : ((vals (IntCols.abs t [some (-2 ^ (t.bits - 1)), some 1])).insertionSort fun a b => b ≤ a).take (1 : ℤ).toNat = [1] := by
      revert t; decide +kernel
    unfold meanNAbsMax
    rw [if_neg (by norm_num), this, mean_cast]
    simp [Spec.avg, vals]
  · unfold TsFeat.meanNAbsMax
    rw [if_neg (by norm_num)]
    congr 1
    have hpos : (1 : ℚ) ≤ 2 ^ (t.bits - 1) := one_le_pow₀ (by norm_num)
    have e : ((vals (map1 (fun v : ℚ => |v|) (cast [some (-2 ^ (t.bits - 1)), some 1]))).insertionSort fun a b => b ≤ a).take
        (1 : ℤ).toNat = [2 ^ (t.bits - 1)] := by
      simp [cast, map1, vals, hpos]
    rw [e]
    simp [Pl.mean, Pl.count, Pl.sum, vals]

example : meanNAbsMax ⟨true, 8⟩ [some (-128), some 1] 1 = some (some 1) := (top_wrong (t := ⟨true, 8⟩) (by decide) rfl).1

end Verif.IntSeries
