import Mathlib.Algebra.Order.Field.Basic
import Mathlib.Algebra.BigOperators.Group.List.Basic

/-!
# Column expressions

Several functions of the package are compositions of polars expressions (`python/polars_ds/exprs/*.py`).  A
column is a list of optional values (`none` = null).  The operators below are the semantics of the polars
operators those functions call; polars itself is not in `/repo`, so these definitions are part of the trusted
base: element-wise operators propagate nulls, aggregations skip them.
-/

namespace Verif.Pl

/-- A column; `none` is a null. -/
abbrev Col (K : Type) := List (Option K)

variable {K L M : Type}

/-- Element-wise unary operator (nulls stay null).  Used by e.g. `python/polars_ds/exprs/stats.py:734`
(`pl.lit(1.0) / x`) and `stats.py:750` (`.ln()`). -/
def map1 (f : K → L) (c : Col K) : Col L := c.map (Option.map f)

/-- Binary operator on two optional values: null as soon as one of them is null. -/
def opt2 (f : K → L → M) : Option K → Option L → Option M
  | some a, some b => some (f a b)
  | _, _ => none

/-- Element-wise binary operator, as in `python/polars_ds/exprs/stats.py:851` (`(xx - wx) * (yy - wy)`). -/
def map2 (f : K → L → M) (a : Col K) (b : Col L) : Col M := List.zipWith (opt2 f) a b

/-- The non-null values of a column. -/
def vals (c : Col K) : List K := c.filterMap id

/-- `Expr.count()`: the number of non-null values (`python/polars_ds/exprs/stats.py:714`). -/
def count (c : Col K) : Nat := (vals c).length

/-- `Expr.sum()`: nulls are skipped (`python/polars_ds/exprs/stats.py:714`). -/
def sum [AddCommMonoid K] (c : Col K) : K := (vals c).sum

/-- `Expr.dot(other)`: the sum of the element-wise product (`python/polars_ds/exprs/stats.py:794`). -/
def dot [NonUnitalNonAssocSemiring K] (a b : Col K) : K := sum (map2 (· * ·) a b)

/-- `Expr.mean()`: null when there is no value (`python/polars_ds/exprs/stats.py:750`). -/
def mean [Field K] (c : Col K) : Option K :=
  if count c = 0 then none else some (sum c / (count c : K))

end Verif.Pl
