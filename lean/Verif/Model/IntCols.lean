import Verif.Model.PlExpr
import Verif.Model.Confusion
import Mathlib.Data.Int.ModEq
import Mathlib.Data.Rat.Defs
import Mathlib.Algebra.Field.Rat
import Mathlib.Algebra.Order.Ring.Rat

/-!
# Expressions on integer columns

The Python expressions of the package do not cast their inputs, so on two integer columns of one data type `-`, `*`, `+` and
`abs` are polars' integer operations, which stay in the data type and wrap around; `sum` widens the 8 and 16 bit types to 64
bits and wraps around for the others; `/` is division of floats.  polars is not in `/repo`: this is part of the trusted
base.  Columns of two different data types are first cast to a common one by polars and are not modelled.  Floats are exact
rationals here.
-/

namespace Verif.IntCols
open Verif.Pl
open Verif.Confusion (Val)

/-- An integer data type of polars; `bits` is 8, 16, 32 or 64.  Columns of such a type reach, for instance,
`python/polars_ds/exprs/metrics.py:147`. -/
structure Ty where
  signed : Bool
  bits : ℕ
deriving DecidableEq, Repr

/-- The integer data types of polars. -/
def types : List Ty :=
  [⟨true, 8⟩, ⟨true, 16⟩, ⟨true, 32⟩, ⟨true, 64⟩, ⟨false, 8⟩, ⟨false, 16⟩, ⟨false, 32⟩, ⟨false, 64⟩]

/-- The least value of the type. -/
def Ty.lo (t : Ty) : ℤ := if t.signed then -2 ^ (t.bits - 1) else 0

/-- The greatest value of the type. -/
def Ty.hi (t : Ty) : ℤ := if t.signed then 2 ^ (t.bits - 1) - 1 else 2 ^ t.bits - 1

/-- The value of the type that a result wraps around to (release build, two's complement). -/
def wrap (t : Ty) (x : ℤ) : ℤ := (x - t.lo) % 2 ^ t.bits + t.lo

/-- The type in which `sum` of a column adds. -/
def sumTy (t : Ty) : Ty := if t.bits < 32 then ⟨true, 64⟩ else t

/-- `a - b` of two columns of the type (`python/polars_ds/exprs/metrics.py:72, 147, 169, 186`). -/
def sub (t : Ty) (a b : Col ℤ) : Col ℤ := map2 (fun x y => wrap t (x - y)) a b

/-- `a * b` of two columns of the type (`python/polars_ds/exprs/ts_features.py:353`). -/
def mul (t : Ty) (a b : Col ℤ) : Col ℤ := map2 (fun x y => wrap t (x * y)) a b

/-- `a + b` of two columns of the type (`python/polars_ds/exprs/metrics.py:262`). -/
def add (t : Ty) (a b : Col ℤ) : Col ℤ := map2 (fun x y => wrap t (x + y)) a b

/-- `abs` of a value: `wrapping_abs` of a signed type, nothing for an unsigned one. -/
def absVal (t : Ty) (x : ℤ) : ℤ := if t.signed then wrap t |x| else x

/-- `abs()` of a column (`python/polars_ds/exprs/metrics.py:169, 186`). -/
def abs (t : Ty) (a : Col ℤ) : Col ℤ := map1 (absVal t) a

/-- `sum()` of a column (`python/polars_ds/exprs/metrics.py:169`); nulls are skipped. -/
def sum (t : Ty) (a : Col ℤ) : ℤ := (vals a).foldl (fun s x => wrap (sumTy t) (s + x)) 0

/-- `dot` is `(a * b).sum()` (`python/polars_ds/exprs/metrics.py:73, 149`). -/
def dot (t : Ty) (a b : Col ℤ) : ℤ := sum t (mul t a b)

/-- `/` of two integers: both are cast to floats. -/
def div (a b : ℤ) : Val ℚ := Val.fdiv (.num (a : ℚ)) (.num (b : ℚ))

/-! ## Losses -/

/-- `query_l1` (`python/polars_ds/exprs/metrics.py:153-170`) with `normalize=False`. -/
def l1Sum (t : Ty) (a p : Col ℤ) : ℤ := sum t (abs t (sub t a p))

/-- `query_l1` (`python/polars_ds/exprs/metrics.py:153-170`) with `normalize=True`. -/
def l1 (t : Ty) (a p : Col ℤ) : Val ℚ := div (l1Sum t a p) (count a)

/-- `query_l2` (`python/polars_ds/exprs/metrics.py:132-150`) with `normalize=False`. -/
def l2Sum (t : Ty) (a p : Col ℤ) : ℤ := dot t (sub t a p) (sub t a p)

/-- `query_l2` (`python/polars_ds/exprs/metrics.py:132-150`) with `normalize=True`. -/
def l2 (t : Ty) (a p : Col ℤ) : Val ℚ := div (l2Sum t a p) (count a)

/-- `query_l_inf` (`python/polars_ds/exprs/metrics.py:173-186`): null without a complete row. -/
def lInf (t : Ty) (a p : Col ℤ) : Option ℤ := (vals (abs t (sub t a p))).max?

/-- `query_r2` (`python/polars_ds/exprs/metrics.py:59-76`); the mean is a float, so only the residual sum is one of integers. Null
without a value. -/
def r2 (t : Ty) (a p : Col ℤ) : Option (Val ℚ) :=
  (Pl.mean (map1 (fun x : ℤ => (x : ℚ)) a)).map fun m =>
    let d2 := map1 (fun x : ℤ => (x : ℚ) - m) a
    Val.fsub (.num 1) (Val.fdiv (.num (l2Sum t a p : ℚ)) (.num (Pl.dot d2 d2)))

/-- `query_smape` (`python/polars_ds/exprs/metrics.py:244-263`): the quotients of the rows, and their sum over the count of `a`. -/
def smapeRows (t : Ty) (a p : Col ℤ) : Col (Val ℚ) :=
  map2 div (abs t (sub t a p)) (add t (abs t a) (abs t p))

/-- `query_smape` (`python/polars_ds/exprs/metrics.py:263`). -/
def smape (t : Ty) (a p : Col ℤ) : Val ℚ :=
  Val.fdiv ((vals (smapeRows t a p)).foldl Val.fadd (.num 0)) (.num (count a : ℚ))

/-- `query_mape` with `weighted=True` (`python/polars_ds/exprs/metrics.py:238-239`). -/
def wmape (t : Ty) (a p : Col ℤ) : Val ℚ := div (l1Sum t a p) (sum t (abs t a))

/-! ## Transforms and features -/

/-- `scale(method="min_max")` (`python/polars_ds/modeling/transforms.py:202-214`) fitted on the column `train` and applied to the
column `c`, both of the type. The least and the greatest value are Python integers, so their difference is exact; the
least value fits the type of the column, so the literal takes that type. `none` is the exception without a value. -/
def minMax (t : Ty) (train c : Col ℤ) : Option (Col (Val ℚ)) :=
  (vals train).min?.bind fun a => (vals train).max?.map fun b => map1 (fun x => div (wrap t (x - a)) (b - a)) c

/-- `scale(method="abs_max")` (`python/polars_ds/modeling/transforms.py:215-222`): `max_horizontal` of the two absolute values. Without
a value the divisor is null. -/
def absMax (t : Ty) (train c : Col ℤ) : Col (Val ℚ) :=
  match (vals train).min?, (vals train).max? with
  | some a, some b => map1 (fun x => div x (max (absVal t a) (absVal t b))) c
  | _, _ => c.map fun _ => none

/-- One new column of `polynomial_features` (`python/polars_ds/modeling/transforms.py:614-618`): `pl.reduce` multiplies from left to
right. `row` are the values of the combination in one row; nulls are not modelled. -/
def polyFeature (t : Ty) : List ℤ → ℤ
  | [] => 1
  | x :: xs => xs.foldl (fun s y => wrap t (s * y)) x

/-- `query_abs_energy` (`python/polars_ds/exprs/ts_features.py:68-73`). -/
def absEnergy (t : Ty) (x : Col ℤ) : ℤ := dot t x x

/-- `query_mid_range` (`python/polars_ds/exprs/ts_features.py:51-56`): null without a value. -/
def midRange (t : Ty) (x : Col ℤ) : Option (Val ℚ) :=
  (vals x).min?.bind fun a => (vals x).max?.map fun b => div (wrap t (b - a)) 2

/-- `simple_lin_reg` without bias and weights (`python/polars_ds/exprs/expr_linear.py:95`). -/
def slope (t : Ty) (x y : Col ℤ) : Val ℚ := div (dot t x y) (dot t x x)

end Verif.IntCols
