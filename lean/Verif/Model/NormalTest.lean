import Mathlib.Analysis.SpecialFunctions.Pow.Real
import Verif.Model.Gamma
import Verif.Model.Confusion

/-!
# D'Agostino–Pearson normality test (`src/stats/normal_test.rs`)

`f64` arithmetic is real arithmetic; NaN is `none`.
-/

namespace Verif.NormalTest

open Verif.Confusion (Val)

/-- `w2` (`src/stats/normal_test.rs:19-21`). -/
noncomputable def w2 (n : ℝ) : ℝ :=
  let beta2 := 3 * (n ^ 2 + 27 * n - 70) * (n + 1) * (n + 3) / ((n - 2) * (n + 5) * (n + 7) * (n + 9))
  Real.sqrt (2 * (beta2 - 1)) - 1

/-- `skew_test_statistic` (`src/stats/normal_test.rs:16-27`). -/
noncomputable def skewStat (skew n : ℝ) : ℝ :=
  let y := skew * Real.sqrt ((n + 1) * (n + 3) / (6 * (n - 2)))
  let alpha := Real.sqrt (2 / (w2 n - 1))
  let tmp := y / alpha
  Real.log (tmp + Real.sqrt (tmp ^ 2 + 1)) / Real.sqrt (Real.log (w2 n) * (1 / 2))

/-- The standardised kurtosis `x` (`src/stats/normal_test.rs:32-34`). -/
noncomputable def kurX (kur n : ℝ) : ℝ :=
  let e := 3 * (n - 1) / (n + 1)
  let var := 24 * n * (n - 2) * (n - 3) / ((n + 1) ^ 2 * (n + 3) * (n + 5))
  (kur - e) / Real.sqrt var

/-- `a` (`src/stats/normal_test.rs:35-39`). -/
noncomputable def kurA (n : ℝ) : ℝ :=
  let b := 6 * (n ^ 2 - 5 * n + 2) / ((n + 7) * (n + 9)) *
    Real.sqrt (6 * (n + 3) * (n + 5) / (n * (n - 2) * (n - 3)))
  6 + 8 / b * (2 / b + Real.sqrt (1 + 4 / b ^ 2))

/-- `denom` (`src/stats/normal_test.rs:42`). -/
noncomputable def kurDenom (kur n : ℝ) : ℝ := 1 + kurX kur n * Real.sqrt (2 / (kurA n - 4))

/-- `kurtosis_test_statistic` (`src/stats/normal_test.rs:30-52`).  The cube root is taken of a number that is not
negative. -/
noncomputable def kurtStat (kur n : ℝ) : Option ℝ :=
  let tmp := 2 / (9 * kurA n)
  if kurDenom kur n = 0 then none
  else some ((1 - tmp - ((1 - 2 / kurA n) / |kurDenom kur n|) ^ (1 / 3 : ℝ)) / Real.sqrt tmp)

/-- What the expression gives: a panic, an error, or the statistic and the p-value (`none` = NaN). -/
inductive Res where
  | panic
  | err
  | ok (stat p : Option ℝ)

/-- `pl_normal_test` (`src/stats/normal_test.rs:55-81`).  `skew`, `kur`: null is `none`, NaN is `some none`.  The outer
`Option` is the fuel of the p-value's loops; NaN in either input makes both results NaN (`gamma.rs:76`, `:166`). -/
noncomputable def plugin (fuel : ℕ) (skew kur : Option (Option ℝ)) (n : ℕ) : Option Res :=
  match skew, kur with
  | some s, some k =>
    if n < 20 then some .err
    else
      match s, k.bind fun k => kurtStat k n with
      | some s, some z =>
        let k2 := skewStat s n * skewStat s n + z * z
        (Gamma.sf fuel k2 1 (1 / 2)).map fun r =>
          match r with
          | none => .err
          | some p => .ok (some k2) (some p)
      | _, _ => some (.ok none none)
  | _, _ => some .panic

/-- Central moment of a column without nulls, divided by its length (polars `moment`). -/
noncomputable def moment (l : List ℝ) (k : ℕ) : ℝ :=
  (l.map fun v => (v - l.sum / l.length) ^ k).sum / l.length

/-- polars `skew()` with its default `bias=True`: null on an empty column, `0/0 = NaN` on a constant one. -/
noncomputable def skew (l : List ℝ) : Option (Option ℝ) :=
  if l = [] then none
  else if moment l 2 = 0 then some none
  else some (some (moment l 3 / moment l 2 ^ (3 / 2 : ℝ)))

/-- polars `kurtosis(fisher=False)` with its default `bias=True`. -/
noncomputable def kurtosis (l : List ℝ) : Option (Option ℝ) :=
  if l = [] then none
  else if moment l 2 = 0 then some none
  else some (some (moment l 4 / moment l 2 ^ 2))

/-- `y.filter(y.is_finite())` (`python/polars_ds/exprs/stats.py:476`): nulls, NaN and infinities go. -/
def valid (col : List (Option (Val ℝ))) : List ℝ :=
  col.filterMap fun v => match v with
    | some (.num x) => some x
    | _ => none

/-- `normal_test` (`python/polars_ds/exprs/stats.py:457-484`). -/
noncomputable def normalTest (fuel : ℕ) (col : List (Option (Val ℝ))) : Option Res :=
  plugin fuel (skew (valid col)) (kurtosis (valid col)) (valid col).length

end Verif.NormalTest
