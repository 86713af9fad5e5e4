import Verif.Model.PlExpr
import Verif.Model.Confusion
import Mathlib.Data.List.Sort
import Mathlib.Data.Rat.Floor

/-!
# `DIA.numeric_profile` (`python/polars_ds/eda/diagnosis.py:122-236`)

One row of the profile.  Numbers are exact rationals (every finite double is one; operations are not rounded).  polars'
`quantile`, `median`, `round`, `cut` and `value_counts` are not in `/repo` and are modelled by their documentation.
-/

namespace Verif.Profile
open Verif.Pl Verif.Confusion

/-! ## Numbers of a row -/

/-- The known values in order (polars sorts or partitions them for `quantile` and `median`,
`diagnosis.py:157-159`). -/
def sorted (c : Col ℚ) : List ℚ := (vals c).insertionSort (· ≤ ·)

/-- `quantile(k / 4)` with the default interpolation `nearest` (`diagnosis.py:157, 159`): the sorted value at the
position nearest to `k / 4 * (n - 1)`. -/
def quartile (k : ℕ) (c : Col ℚ) : Option ℚ := (sorted c)[(k * ((vals c).length - 1) + 2) / 4]?

/-- `min()` and `max()` (`diagnosis.py:156, 160`). -/
def minimum (c : Col ℚ) : Option ℚ := (sorted c).head?

/-- `max()` (`diagnosis.py:160`). -/
def maximum (c : Col ℚ) : Option ℚ := (sorted c).getLast?

/-- `median()` (`diagnosis.py:158`): the middle value or the mean of the two middle ones. -/
def median (c : Col ℚ) : Option ℚ :=
  let n := (vals c).length
  opt2 (fun a b => (a + b) / 2) (sorted c)[(n - 1) / 2]? (sorted c)[n / 2]?

/-- `round(2)` (`diagnosis.py:158`); ties are rounded up. -/
def round2 (x : ℚ) : ℚ := (⌊100 * x + 1 / 2⌋ : ℚ) / 100

/-- The condition of `outlier_cnt` for one value (`diagnosis.py:164-171`), given the quartiles. -/
def outlier (mult q1 q3 x : ℚ) : Bool :=
  decide (x < q1 - mult * (q3 - q1)) || decide (x > q3 + mult * (q3 - q1))

/-- `outlier_cnt` (`diagnosis.py:164-173`): comparisons with null are null, which `sum` skips. -/
def outlierCnt (mult : ℚ) (c : Col ℚ) : ℕ :=
  match quartile 1 c, quartile 3 c with
  | some q1, some q3 => (vals c).countP (outlier mult q1 q3)
  | _, _ => 0

/-- The row of a column without NaN and infinities (`diagnosis.py:150-173`), the histogram apart. -/
structure Row where
  nonNull : ℕ
  nullShare : ℚ
  min : Option ℚ
  q1 : Option ℚ
  median : Option ℚ
  q3 : Option ℚ
  max : Option ℚ
  iqr : Option ℚ
  outliers : ℕ

/-- The numbers of one column (`diagnosis.py:150-173`); mean and standard deviation are left out. -/
def row (mult : ℚ) (c : Col ℚ) : Row where
  nonNull := count c
  nullShare := ((c.countP fun o => o.isNone : ℕ) : ℚ) / (c.length : ℚ)
  min := minimum c
  q1 := quartile 1 c
  median := (median c).map round2
  q3 := quartile 3 c
  max := maximum c
  iqr := opt2 (· - ·) (quartile 3 c) (quartile 1 c)
  outliers := outlierCnt mult c

/-! ## The histogram -/

/-- `cuts` (`diagnosis.py:144-146`); the literal `1e-5` is taken exactly. -/
def cut (n i : ℕ) : ℚ :=
  (i : ℚ) / (n : ℚ) - (if i = 0 then 1 / 100000 else 0) + (if i + 1 = n then 1 / 100000 else 0)

/-- The interval `cut` puts a value in (`diagnosis.py:177`, `left_closed=True`): the number of breaks at or below it;
null for NaN. -/
def bin (n : ℕ) : Val ℚ → Option ℕ
  | .num z => some ((List.range n).countP fun i => decide (cut n i ≤ z))
  | .inf true => some n
  | .inf false => some 0
  | .nan => none

/-- IEEE subtraction (`diagnosis.py:175`). -/
def sub : Val ℚ → Val ℚ → Val ℚ
  | .num a, .num b => .num (a - b)
  | .num _, .inf b => .inf (!b)
  | .inf b, .num _ => .inf b
  | .inf b, .inf c => if b = c then .nan else .inf b
  | _, _ => .nan

/-- The finite numbers among values. -/
def finite (vs : List (Val ℚ)) : List ℚ := vs.filterMap fun v => match v with | .num x => some x | _ => none

/-- `min()` of a float column (`diagnosis.py:175`): NaN counts only if there is nothing else. -/
def vmin (vs : List (Val ℚ)) : Val ℚ :=
  if .inf false ∈ vs then .inf false else
  match (finite vs).min? with
  | some m => .num m
  | none => if .inf true ∈ vs then .inf true else .nan

/-- `max()` of a float column (`diagnosis.py:175`). -/
def vmax (vs : List (Val ℚ)) : Val ℚ :=
  if .inf true ∈ vs then .inf true else
  match (finite vs).max? with
  | some m => .num m
  | none => if .inf false ∈ vs then .inf false else .nan

/-- The scaled finite values (`diagnosis.py:175-176`); the minimum and maximum are those of all values. -/
def scaled (c : Col (Val ℚ)) : List (Val ℚ) :=
  let vs := vals c
  (finite vs).map fun x => Val.fdiv (sub (.num x) (vmin vs)) (sub (vmax vs) (vmin vs))

/-- `value_counts().sort()` of the bins, null first (`diagnosis.py:180-182`): only bins that occur are listed. -/
def bars (n : ℕ) (zs : List (Val ℚ)) : List ℕ :=
  let bs := zs.map (bin n)
  ((none :: (List.range (n + 1)).map some).map fun b => bs.countP fun x => decide (x = b)).filter fun k => decide (k ≠ 0)

/-- The histogram of a float column (`diagnosis.py:174-184`); `none` is the `IndexError` for no bins
(`diagnosis.py:145`). -/
def histogram (n : ℕ) (c : Col (Val ℚ)) : Option (List ℕ) :=
  if n = 0 then none else some (bars n (scaled c))

/-- Two's complement of 8 bits. -/
def wrap8 (x : ℤ) : ℤ := (x + 128) % 256 - 128

/-- The histogram of an `Int8` column (`diagnosis.py:174-184`): both differences are of type `Int8` and wrap, the
quotient is a float. -/
def histogramInt8 (n : ℕ) (c : Col ℤ) : Option (List ℕ) :=
  if n = 0 then none else
  match (vals c).min?, (vals c).max? with
  | some lo, some hi => some (bars n ((vals c).map fun x => Val.fdiv (.num (wrap8 (x - lo))) (.num (wrap8 (hi - lo)))))
  | _, _ => some []

end Verif.Profile
