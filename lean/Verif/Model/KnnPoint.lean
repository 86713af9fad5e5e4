import Mathlib.Algebra.Order.Field.Basic
import Mathlib.Data.List.Sort
import Mathlib.Algebra.BigOperators.Group.List.Basic
import Verif.Model.PlExpr

/-!
# Distances from one point (`python/polars_ds/exprs/expr_knn.py:337-468`)

`within_dist_from` and `is_knn_from` are compositions of polars expressions.  A row is a list of optional values (`none` is
null), NaN does not occur.  Arithmetic is that of a linearly ordered field; the square root and the `haversine` expression
are parameters.
-/

namespace Verif.KnnPoint
open Verif.Pl

variable {K : Type} [Field K] [LinearOrder K]

/-- The functions that are not field operations: `Expr.sqrt` and the `haversine` expression
(`python/polars_ds/exprs/num.py`, arguments: latitude and longitude of both points). -/
structure Ops (K : Type) where
  sqrt : K → K
  hav : K → K → K → K → K

/-- `pl.sum_horizontal`: nulls are ignored; a row of nulls gives 0. -/
def sumH (xs : List (Option K)) : Option K := some (xs.filterMap id).sum

/-- `pl.max_horizontal`: nulls are ignored; a row of nulls gives null. -/
def maxH (xs : List (Option K)) : Option K := (xs.filterMap id).max?

/-- `f(e - pl.lit(xi)) for xi, e in zip(pt, oth)`. -/
def diffs (f : K → K) (pt : List K) (row : List (Option K)) : List (Option K) :=
  List.zipWith (fun x e => e.map fun v => f (v - x)) pt row

/-- The distance expression of `within_dist_from` and `is_knn_from`, without the argument checks
(`python/polars_ds/exprs/expr_knn.py:362-399`, `:429-466`; both functions build the same expressions).  `none` for the name of
an unknown metric. -/
def distExpr (ops : Ops K) (name : String) (pt : List K) : Option (List (Option K) → Option K) :=
  if name = "l1" then some fun row => sumH (diffs (fun t => |t|) pt row)
  else if name = "l2" ∨ name = "sql2" then some fun row => sumH (diffs (fun t => t ^ 2) pt row)
  else if name = "inf" then some fun row => maxH (diffs (fun t => |t|) pt row)
  else if name = "cosine" then some fun row =>
    let xNorm := (pt.map fun z => z * z).sum
    let othNorm := sumH (row.map fun e => e.map fun v => v * v)
    let dot := sumH (List.zipWith (fun x e => e.map fun v => x * v) pt row)
    (opt2 (fun d n => d / ops.sqrt (xNorm * n)) dot othNorm).map fun c => 1 - c
  else if name = "h" ∨ name = "haversine" then some fun row =>
    match row[0]?.join, row[1]?.join, pt[0]?, pt[1]? with
    | some a, some b, some c, some d => some (ops.hav a b c d)
    | _, _, _, _ => none
  else none

/-- What the Python functions raise. -/
inductive PtErr where
  | dimension | haversineDim | unknown
deriving Repr, DecidableEq

/-- The checks in front of the expression (`python/polars_ds/exprs/expr_knn.py:359-360, 390-394, 401`; `:426-427, 457-461,
468`): `nfeat` is the number of feature columns. -/
def distOf (ops : Ops K) (name : String) (pt : List K) (nfeat : Nat) : Except PtErr (List (Option K) → Option K) :=
  if pt.length ≠ nfeat then .error .dimension
  else if (name = "h" ∨ name = "haversine") ∧ (pt.length ≠ 2 ∨ nfeat < 2) then .error .haversineDim
  else match distExpr ops name pt with
    | some d => .ok d
    | none => .error .unknown

/-- `within_dist_from` (`python/polars_ds/exprs/expr_knn.py:337-401`).  The radius is given per row; a number is the same radius
for all rows. -/
def withinDistFrom (ops : Ops K) (name : String) (pt : List K) (nfeat : Nat) (rows : List (List (Option K)))
    (r : List (Option K)) : Except PtErr (List (Option Bool)) :=
  (distOf ops name pt nfeat).map fun d => List.zipWith (fun row r => opt2 (fun a b => decide (a ≤ b)) (d row) r) rows r

/-- `dist.bottom_k(k=k).max()`: the largest of the `k` smallest values; nulls come last and are ignored by `max`. -/
def kthBound (ds : List (Option K)) (k : Nat) : Option K :=
  (((ds.filterMap id).insertionSort (· ≤ ·)).take k).max?

/-- `is_knn_from` (`python/polars_ds/exprs/expr_knn.py:404-468`). -/
def isKnnFrom (ops : Ops K) (name : String) (pt : List K) (nfeat : Nat) (rows : List (List (Option K))) (k : Nat) :
    Except PtErr (List (Option Bool)) :=
  (distOf ops name pt nfeat).map fun d =>
    let ds := rows.map d
    ds.map fun x => opt2 (fun a b => decide (a ≤ b)) x (kthBound ds k)

end Verif.KnnPoint
