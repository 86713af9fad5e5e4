import Verif.Model.IntCols
import Verif.Model.TsFeat

/-!
# Time series features on integer columns (`python/polars_ds/exprs/ts_features.py`)

As in `Verif.Model.IntCols`: `+`, `-`, `*`, `abs` and `dot` of integer columns wrap around in the data type, `mean` and `/` are
float operations, here exact rationals.
-/

namespace Verif.IntSeries
open Verif.Pl Verif.IntCols
open Verif.TsFeat (lag lead)
open Verif.Confusion (Val)

/-- The column cast to floats. -/
def cast (c : Col ℤ) : Col ℚ := map1 (fun x : ℤ => (x : ℚ)) c

/-- The products in `query_c3_stats` (`python/polars_ds/exprs/ts_features.py:353`). -/
def c3Rows (t : Ty) (c : Col ℤ) (l : ℕ) : Col ℤ := mul t (mul t c (lag l c)) (lag (2 * l) c)

/-- `query_c3_stats` (`python/polars_ds/exprs/ts_features.py:336-353`); `len` is an unsigned 32 bit number. -/
def c3 (t : Ty) (c : Col ℤ) (l : ℕ) : Val ℚ :=
  div (IntCols.sum t (c3Rows t c l)) (((c.length + 2 ^ 32 - 2 * l) % 2 ^ 32 : ℕ) : ℤ)

/-- The products in `query_time_reversal_asymmetry_stats` (`python/polars_ds/exprs/ts_features.py:390`). -/
def trasRows (t : Ty) (c : Col ℤ) (l : ℕ) : Col ℤ :=
  mul t (mul t (lead l c) (add t (lead (2 * l) c) c)) (sub t (lead (2 * l) c) c)

/-- `query_time_reversal_asymmetry_stats` (`python/polars_ds/exprs/ts_features.py:382-390`). -/
def tras (t : Ty) (c : Col ℤ) (l : ℕ) : Option ℚ := Pl.mean (cast (trasRows t c l))

/-- `query_auto_corr` with `normalize=False` (`python/polars_ds/exprs/ts_features.py:415-416`). -/
def autoCov (t : Ty) (c : Col ℤ) (l : ℕ) : Option ℚ := Pl.mean (cast (mul t c (lead l c)))

/-- The number under the root in `query_cid_ce` with `normalize=False` (`python/polars_ds/exprs/ts_features.py:372-379`). -/
def cidSq (t : Ty) (c : Col ℤ) : ℤ :=
  let z := sub t c (lead 1 c)
  dot t z z

/-- `query_cid_ce` with `normalize=False` (`python/polars_ds/exprs/ts_features.py:372-379`): the root of a negative number is
NaN. -/
noncomputable def cidCe (t : Ty) (c : Col ℤ) : Val ℝ :=
  if cidSq t c < 0 then .nan else .num √(cidSq t c : ℝ)

/-- The data type in which `diff` subtracts: unsigned types are made signed first, the smaller ones with more bits
(polars; called at `python/polars_ds/exprs/ts_features.py:80`). -/
def diffTy (t : Ty) : Ty := if t.signed then t else ⟨true, min 64 (2 * t.bits)⟩

/-- The cast to that type; a number it does not have becomes null. -/
def toDiff (t : Ty) (c : Col ℤ) : Col ℤ := c.map fun o => o.bind fun x => if x ≤ (diffTy t).hi then some x else none

/-- `query_mean_abs_change` (`python/polars_ds/exprs/ts_features.py:76-80`): `diff` without its first row. -/
def meanAbsChange (t : Ty) (c : Col ℤ) : Option ℚ :=
  let d := toDiff t c
  Pl.mean (cast (abs (diffTy t) (List.zipWith (opt2 fun a b => wrap (diffTy t) (b - a)) d (d.drop 1))))

/-- `query_mean_n_abs_max` (`python/polars_ds/exprs/ts_features.py:83-89`); `none` in the outer option is the `ValueError`. -/
def meanNAbsMax (t : Ty) (c : Col ℤ) (n : ℤ) : Option (Option ℚ) :=
  if n ≤ 0 then none
  else some (Pl.mean (cast ((((vals (abs t c)).insertionSort fun a b => b ≤ a).take n.toNat).map some)))

end Verif.IntSeries
