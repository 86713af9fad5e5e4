import Verif.Model.NumExpr
import Verif.Model.LinReg
import Mathlib.Data.List.Sort

/-!
# Time series features (`python/polars_ds/exprs/ts_features.py`)

Expressions over columns with nulls (`Verif/Model/PlExpr.lean`).  Arithmetic is exact; where the float result
can be infinite or NaN the result type is `Val` (`Verif/Model/Confusion.lean`).  A lag is a natural number.
-/

namespace Verif.TsFeat
open Verif.Pl Verif.Confusion

/-! ## Streaks -/

/-- `Expr.rle()`: the run lengths with their values, in order (`ts_features.py:140,172,203`).  A null is a
value of its own. -/
def rle {α : Type} [DecidableEq α] : List α → List (ℕ × α)
  | [] => []
  | a :: t => (fun
    | [] => [(1, a)]
    | (n, b) :: r => if a = b then (n + 1, b) :: r else (1, a) :: (n, b) :: r) (rle t)

/-- The lengths of the runs whose value is true; a null value does not pass `filter`
(`ts_features.py:143-145`). -/
def trueRuns (c : Col Bool) : List ℕ := ((rle c).filter fun r => r.2 == some true).map Prod.fst

/-- `query_longest_streak` (`ts_features.py:121-149`). -/
def longestStreak (c : Col Bool) : ℕ := (trueRuns c).max?.getD 0

/-- `query_avg_streak` (`ts_features.py:152-181`). -/
def avgStreak (c : Col Bool) : ℚ :=
  if (trueRuns c).isEmpty then 0 else ((trueRuns c).sum : ℚ) / ((trueRuns c).length : ℚ)

/-- `query_streak` (`ts_features.py:184-206`). -/
def streak (c : Col Bool) : List ℕ := (rle c).map Prod.fst

/-! ## Shifted columns -/

section
variable {K : Type}

/-- `Expr.shift(-k)`: row `i` gets the value of row `i + k`, null at the end (`ts_features.py:378,388-389`). -/
def lead (k : ℕ) (c : Col K) : Col K := c.drop k ++ List.replicate (min k c.length) none

/-- `Expr.shift(k)`: row `i` gets the value of row `i - k`, null at the beginning (`ts_features.py:353`). -/
def lag (k : ℕ) (c : Col K) : Col K := (List.replicate k none ++ c).take c.length

variable [Field K] [LinearOrder K]

/-- `query_c3_stats` (`ts_features.py:336-353`).  `xx.len() - two_lags` is an unsigned 32 bit subtraction, which
wraps; `truediv` is float division. -/
def c3 (c : Col K) (l : ℕ) : Val K :=
  Val.fdiv (.num (Pl.sum (map2 (· * ·) (map2 (· * ·) c (lag l c)) (lag (2 * l) c))))
    (.num (((c.length + 2 ^ 32 - 2 * l) % 2 ^ 32 : ℕ) : K))

/-- `query_time_reversal_asymmetry_stats` (`ts_features.py:382-390`). -/
def tras (c : Col K) (l : ℕ) : Option K :=
  mean (map2 (· * ·) (map2 (· * ·) (lead l c) (map2 (· + ·) (lead (2 * l) c) c))
    (map2 (· - ·) (lead (2 * l) c) c))

/-- `Expr.var(ddof)`: null unless there are more than `ddof` values (`ts_features.py:411`). -/
def varD (ddof : ℕ) (c : Col K) : Option K :=
  (mean c).bind fun m => if count c ≤ ddof then none
    else some (((vals c).map fun v => (v - m) ^ 2).sum / ((count c : K) - ddof))

/-- `xx - xx.mean()` (`ts_features.py:410`). -/
def centered (c : Col K) : Col K := c.map fun x => opt2 (· - ·) x (mean c)

/-- `query_auto_corr` with `normalize=True` (`ts_features.py:393-414`); `pl.len()` counts nulls too. -/
def autoCorr (c : Col K) (l ddof : ℕ) : Option (Val K) :=
  (varD ddof c).map fun v =>
    Val.fdiv (.num (dot (centered c) (lead l (centered c))))
      (if c.length < l then .nan else .num (((c.length - l : ℕ) : K) * v))

/-- `query_auto_corr` with `normalize=False` (`ts_features.py:415-416`). -/
def autoCov (c : Col K) (l : ℕ) : Option K := mean (map2 (· * ·) c (lead l c))

/-- `query_mean_abs_change` (`ts_features.py:76-80`): `diff` without its first row. -/
def meanAbsChange (c : Col K) : Option K :=
  mean (map1 (fun v => |v|) (List.zipWith (opt2 fun a b => b - a) c (c.drop 1)))

/-- `query_abs_energy` (`ts_features.py:68-73`). -/
def absEnergy (c : Col K) : K := dot c c

/-- `query_mean_n_abs_max` (`ts_features.py:83-89`): `top_k` takes the largest values (non-null ones first);
`none` in the outer option is the `ValueError`. -/
def meanNAbsMax (c : Col K) (n : ℤ) : Option (Option K) :=
  if n ≤ 0 then none
  else some (mean ((((vals (map1 (fun v => |v|) c)).insertionSort fun a b => b ≤ a).take n.toNat).map some))

/-- `query_mid_range` (`ts_features.py:51-56`). -/
def midRange (c : Col K) : Option K := opt2 (fun a b => (a - b) / 2) (vals c).max? (vals c).min?

/-- `query_range_count` (`ts_features.py:114-118`); `is_between` is null on a null, `sum` skips it. -/
def rangeCount (c : Col K) (lower upper : K) : ℕ :=
  ((map1 (fun v => decide (lower ≤ v ∧ v ≤ upper)) c).filter fun b => b == some true).length

/-- `query_ar_coeffs` (`ts_features.py:419-461`): the columns handed to `lin_reg`, features first, target last.
Feature `i` is `xx.shift(i).slice(lag)`. -/
def arColumns (c : Col K) (l : ℕ) : List (Col K) :=
  ((List.range l).map fun i => (lag (i + 1) c).drop l) ++ [c.drop l]

/-- The rows of a frame given by its columns. -/
def frameRow (cols : List (Col K)) (i : ℕ) : List (Option K) := cols.map fun c => c.getD i none

/-- A complete row as a row of the design matrix with `l` features and one target. -/
def toRow (l : ℕ) (r : List (Option K)) : LinReg.Row l 1 K :=
  (fun j => (r.getD j none).getD 0, fun _ => (r.getD l none).getD 0)

/-- The design rows of `query_ar_coeffs` for a series without nulls. -/
def arRows (c : Col K) (l : ℕ) : List (LinReg.Row l 1 K) :=
  (List.range (c.length - l)).map fun i => toRow l (frameRow (arColumns c l) i)

/-- `query_ar_coeffs` (`ts_features.py:419-461`) on a series without nulls: `lin_reg` with no penalty and the
default QR solver.  `none` is the `ValueError` on `lag <= 0`. -/
def arCoeffs (S : LinReg.Solver K) (c : Col K) (l : ℕ) : Option (Matrix (Fin l) (Fin 1) K) :=
  if l = 0 then none else some (LinReg.linReg S (arRows c l) 0 "qr")

/-- The same with `add_bias=True`: the bias is the last coefficient. -/
def arCoeffsBias (S : LinReg.Solver K) (c : Col K) (l : ℕ) : Option (Matrix (Fin (l + 1)) (Fin 1) K) :=
  if l = 0 then none else some (LinReg.linRegBias S (arRows c l) 0 "qr")

end

/-- `query_count_uniques` (`ts_features.py:107-111`): `is_unique` marks the values that occur once; a null is a
value. -/
def countUniques {α : Type} [DecidableEq α] (c : List α) : ℕ := (c.filter fun v => c.count v == 1).length

/-- `query_cid_ce` with `normalize=False` (`ts_features.py:371-379`). -/
noncomputable def cidCe (c : Col ℝ) : ℝ :=
  let z := map2 (· - ·) c (lead 1 c)
  √(dot z z)

/-- `query_cid_ce` with `normalize=True` (`ts_features.py:371-379`).  Without a deviation (fewer than two
values) the column is null; a zero deviation makes every known value `0/0`, and the sum of the squares NaN as
soon as two neighbors are known. -/
noncomputable def cidCeNorm (c : Col ℝ) : Val ℝ :=
  ((TTest.var1 c).map fun v =>
    if v = 0 then (if (vals (map2 (· - ·) c (lead 1 c))).isEmpty then .num 0 else .nan)
    else .num (cidCe (map1 (fun d => d / √v) (centered c)))).getD (.num 0)

end Verif.TsFeat
