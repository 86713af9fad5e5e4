import Verif.Model.TTest
import Verif.Model.Confusion
import Mathlib.Analysis.SpecialFunctions.Log.Basic
import Mathlib.Analysis.SpecialFunctions.Trigonometric.Basic
import Mathlib.Algebra.Order.Floor.Ring

/-!
# Numeric column expressions

Element-wise functions of `src/num_ext/float_extras.rs` and expressions of
`python/polars_ds/exprs/num.py` over columns with nulls (`Verif/Model/PlExpr.lean`).  Values are exact reals;
where the float result is infinite or NaN the result type is `Val` (`Verif/Model/Confusion.lean`).
-/

namespace Verif.NumExpr
open Verif.Pl Verif.Confusion

/-! ## Element-wise functions -/

/-- `logit` (`src/num_ext/float_extras.rs:11-21`). -/
noncomputable def logit (x : ℝ) : Val ℝ :=
  if x = 0 then .inf false
  else if x = 1 then .inf true
  else if x < 0 ∨ x > 1 then .nan
  else .num (Real.log (x / (1 - x)))

/-- `expit` (`src/num_ext/float_extras.rs:31-33`). -/
noncomputable def expit (x : ℝ) : ℝ := 1 / (1 + Real.exp (-x))

/-- `f64::trunc`: rounding toward zero (`src/num_ext/float_extras.rs:186,190`). -/
noncomputable def truncR (x : ℝ) : ℝ := if 0 ≤ x then ((⌊x⌋ : ℤ) : ℝ) else ((⌈x⌉ : ℤ) : ℝ)

/-- `f64::fract`: `x - trunc x` (`src/num_ext/float_extras.rs:207,210`). -/
noncomputable def fractR (x : ℝ) : ℝ := x - truncR x

/-- A numeric column: of an integer type or of a float type. -/
inductive NumCol where
  | int (c : Col ℤ)
  | float (c : Col ℝ)

/-- `pl_trunc` (`src/num_ext/float_extras.rs:172-196`): integer columns are returned as they are. -/
noncomputable def plTrunc : NumCol → NumCol
  | .int c => .int c
  | .float c => .float (map1 truncR c)

/-- `pl_fract` (`src/num_ext/float_extras.rs:198-218`): an integer column becomes `vec![0f32; s.len()]`. -/
noncomputable def plFract : NumCol → Col ℝ
  | .int c => List.replicate c.length (some 0)
  | .float c => map1 fractR c

/-- `sinc` (`python/polars_ds/exprs/num.py:891-897`); a null input makes the condition null, which selects
`otherwise`, which is null. -/
noncomputable def sincR (x : ℝ) : ℝ :=
  let y := Real.pi * (if x = 0 then 1 / 10 ^ 20 else x)
  Real.sin y / y

/-- `sinc` on a column. -/
noncomputable def sinc (c : Col ℝ) : Col ℝ := map1 sincR c

/-! ## Norms across columns -/

/-- `pl.sum_horizontal` over one row: nulls are skipped (`python/polars_ds/exprs/num.py:97,113`). -/
def sumRow (r : List (Option ℝ)) : ℝ := (r.filterMap id).sum

/-- `pl.max_horizontal` over one row: nulls are skipped, null if there is no value
(`python/polars_ds/exprs/num.py:76`). -/
noncomputable def maxRow (r : List (Option ℝ)) : Option ℝ := (r.filterMap id).max?

/-- Division by the number of columns if asked for (`python/polars_ds/exprs/num.py:75-79`). -/
noncomputable def scale (normalize : Bool) (dim : Nat) (v : ℝ) : ℝ := if normalize then v / dim else v

/-- `l_inf_horizontal` (`python/polars_ds/exprs/num.py:64-79`), one row. -/
noncomputable def lInfRow (r : List (Option ℝ)) (normalize : Bool) : Option ℝ :=
  (maxRow (r.map (Option.map fun x => |x|))).map (scale normalize r.length)

/-- `l2_sq_horizontal` (`python/polars_ds/exprs/num.py:82-97`), one row. -/
noncomputable def l2sqRow (r : List (Option ℝ)) (normalize : Bool) : ℝ :=
  scale normalize r.length (sumRow (r.map (Option.map fun x => x ^ 2)))

/-- `l1_horizontal` (`python/polars_ds/exprs/num.py:100-115`), one row. -/
noncomputable def l1Row (r : List (Option ℝ)) (normalize : Bool) : ℝ :=
  scale normalize r.length (sumRow (r.map (Option.map fun x => |x|)))

/-! ## Monotonicity checks -/

/-- `Expr.diff()`: null first, then the difference with the previous row, null if either is null
(`python/polars_ds/exprs/num.py:129`). -/
noncomputable def diffCol : Col ℝ → Col ℝ
  | [] => []
  | x :: c => none :: List.zipWith (opt2 fun a b => b - a) (x :: c) c

/-- `Expr.all()`: nulls are ignored (`python/polars_ds/exprs/num.py:129`). -/
def allTrue (c : Col Bool) : Bool := (vals c).all id

/-- `is_increasing` (`python/polars_ds/exprs/num.py:118-131`). -/
noncomputable def isIncreasing (c : Col ℝ) (strict : Bool) : Bool :=
  if strict then allTrue (map1 (fun d => decide (d > 0)) (diffCol c))
  else allTrue (map1 (fun d => decide (d ≥ 0)) (diffCol c))

/-- `is_decreasing` (`python/polars_ds/exprs/num.py:134-150`). -/
noncomputable def isDecreasing (c : Col ℝ) (strict : Bool) : Bool :=
  if strict then allTrue (map1 (fun d => decide (d < 0)) (diffCol c))
  else allTrue (map1 (fun d => decide (d ≤ 0)) (diffCol c))

/-! ## Centering and scaling -/

/-- `xx - m` where `m` is a broadcast aggregate: null everywhere if the aggregate is null. -/
noncomputable def subScalar (c : Col ℝ) (m : Option ℝ) : Col ℝ := c.map fun x => opt2 (· - ·) x m

/-- `center` (`python/polars_ds/exprs/num.py:153-161`); also `detrend` with `method="mean"` (`:935`). -/
noncomputable def center (c : Col ℝ) : Col ℝ := subScalar c (mean c)

/-- `z_normalize` (`python/polars_ds/exprs/num.py:164-174`).  `std` is null below two values; a zero
deviation gives `0/0`. -/
noncomputable def zNormalize (c : Col ℝ) : Col (Val ℝ) :=
  (center c).map fun x => opt2 (fun a s => Val.fdiv (.num a) (.num s)) x ((TTest.var1 c).map Real.sqrt)

/-- `query_mad` with `use_mean=True` (`python/polars_ds/exprs/metrics.py:41-54`). -/
noncomputable def mad (c : Col ℝ) : Option ℝ := mean (map1 (fun v => |v|) (center c))

/-- `softmax` (`python/polars_ds/exprs/num.py:177-188`) over the reals. -/
noncomputable def softmax (c : Col ℝ) : Col ℝ :=
  let e := map1 Real.exp c
  map1 (fun v => v / Pl.sum e) e

/-- The float exponential: infinite above the overflow threshold `T` (709.78 for `f64`). -/
noncomputable def expF (T x : ℝ) : Val ℝ := if T < x then .inf true else .num (Real.exp x)

/-- Float addition of non-negative values. -/
def addPos : Val ℝ → Val ℝ → Val ℝ
  | .num a, .num b => .num (a + b)
  | .nan, _ => .nan
  | _, .nan => .nan
  | _, _ => .inf true

/-- `softmax` (`python/polars_ds/exprs/num.py:177-188`) with an exponential that overflows (the sum itself is
taken not to overflow). -/
noncomputable def softmaxF (T : ℝ) (c : List ℝ) : List (Val ℝ) :=
  let e := c.map (expF T)
  let s := e.foldl addPos (.num 0)
  e.map fun v => Val.fdiv v s

/-! ## Detrending -/

/-- `pl.cov(a, b)` with one delta degree of freedom over the rows where both are known
(`python/polars_ds/exprs/num.py:931`). -/
noncomputable def cov1 (a b : Col ℝ) : Option ℝ :=
  let l := vals (map2 Prod.mk a b)
  if l.length < 2 then none
  else
    let ma := (l.map Prod.fst).sum / (l.length : ℝ)
    let mb := (l.map Prod.snd).sum / (l.length : ℝ)
    some ((l.map fun r => (r.1 - ma) * (r.2 - mb)).sum / ((l.length : ℝ) - 1))

/-- Outcome of `detrend`. -/
inductive Detrended where
  | ok (c : Col ℝ)
  | shapeError

/-- `detrend` with `method="linear"` (`python/polars_ds/exprs/num.py:927-933`).  `N = ts.count()` skips nulls,
so the index column is shorter than a column with nulls: a shape error, except that an index of length one is
broadcast (and has no variance, so everything is null). -/
noncomputable def detrendLinear (ts : Col ℝ) : Detrended :=
  let N := count ts
  let x : Col ℝ := (List.range N).map fun i : Nat => some (i : ℝ)
  if N = ts.length then
    let coeff := opt2 (· / ·) (cov1 ts x) (TTest.var1 x)
    let const := opt2 (fun m c => m - c * ((N : ℝ) - 1) / 2) (mean ts) coeff
    .ok (subScalar (map2 (· - ·) ts (x.map fun i => opt2 (· * ·) i coeff)) const)
  else if N = 1 then .ok (List.replicate ts.length none)
  else .shapeError

end Verif.NumExpr
