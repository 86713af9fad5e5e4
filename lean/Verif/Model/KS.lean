import Verif.Model.Arith
import Mathlib.Algebra.Order.Field.Basic
import Mathlib.Algebra.Order.Group.Unbundled.Abs

/-!
# Two-sample Kolmogorov-Smirnov statistic (`src/stats/ks.rs`)
-/

namespace Verif.KS
open Verif
variable {K : Type} [Field K] [LinearOrder K]

/-- `binary_search_right` (`src/stats/ks.rs:8-21`), entered with `left = 0`, `right = arr.len()`.
`none` is an index out of bounds. -/
def bsearchRight (arr : List K) (t : K) (left right : Nat) : Option Nat :=
  if left < right then
    match arr[left + (right - left) / 2]? with
    | none => none
    | some v =>
      if t < v then bsearchRight arr t left (left + (right - left) / 2)
      else bsearchRight arr t (left + (right - left) / 2 + 1) right
  else some left
termination_by right - left

/-- The gap at one sample point (`src/stats/ks.rs:44-49`). -/
def gapAt (v1 v2 : List K) (x : K) : Option K :=
  match bsearchRight v1 x 0 v1.length, bsearchRight v2 x 0 v2.length with
  | some a, some b => some |(a : K) / (v1.length : K) - (b : K) / (v2.length : K)|
  | _, _ => none

/-- `ks_2samp` (`src/stats/ks.rs:29-57`), first component; `fmin` is `f64::MIN`.  The second component (the
rejection threshold, a logarithm and a root of the sample sizes) is left out. -/
def ksStat (fmin : K) (v1 v2 : List K) : Option K :=
  ((v1 ++ v2).mapM (gapAt v1 v2)).map fun gs => gs.foldl max fmin

/-- Result of the expression: the degenerate `(0, NaN)`, or a statistic. -/
inductive Out (K : Type) where
  | tooSmall
  | stat (d : K)
  | panic
deriving Repr, DecidableEq

/-- `pl_ks_2samp` (`src/stats/ks.rs:60-74`) after the Python wrapper
(`python/polars_ds/exprs/stats.py:225-239`): keep finite values (`none` = null or not finite), sort, run. -/
def ks2samp (us : USort) (fmin : K) (c1 c2 : List (Option K)) : Out K :=
  let v1 := us.run (fun a b => decide (a ≤ b)) (c1.filterMap id)
  let v2 := us.run (fun a b => decide (a ≤ b)) (c2.filterMap id)
  if v1.length ≤ 30 ∨ v2.length ≤ 30 then .tooSmall
  else match ksStat fmin v1 v2 with
    | some d => .stat d
    | none => .panic

/-- The `is_binary` form (`python/polars_ds/exprs/stats.py:226-230`): split `var2` by `var1`. -/
def ksBinary (us : USort) (fmin : K) (rows : List (Option Int × Option K)) : Out K :=
  ks2samp us fmin ((rows.filter fun r => r.1 == some 1).map (·.2))
    ((rows.filter fun r => r.1 == some 0).map (·.2))

end Verif.KS
