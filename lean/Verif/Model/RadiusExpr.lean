import Verif.Model.KnnExpr
import Mathlib.Data.List.Dedup
import Mathlib.Data.List.Count

/-!
# Radius lists and neighbor counts (`src/num_ext/knn.rs:499-580`, `python/polars_ds/exprs/expr_knn.py:203-260, 471-560`)
-/

namespace Verif.KDT
open Verif FloatOps

variable {K : Type} [LinearOrder K] [Zero K] [Add K] [Sub K] [Mul K] [FloatOps K]

/-- `pl_query_radius_ptwise` with `query_radius_ptwise` (`src/num_ext/knn.rs:499-580`), sequential branch, on rows without
nulls. -/
def plRadiusPtwise (us : USort) (cosine hav : List K → List K → K) (ncols : Nat) (ids : List Nat) (rows : List (List K))
    (r : K) (sort : Bool) (metric : String) : Outcome (List (Option (List Nat))) :=
  match Dist.ofString cosine hav metric ncols with
  | .error e => .err e
  | .ok d =>
    match fromLeaves us d .midpoint ((ids.zip rows).map fun p => (⟨p.1, p.2⟩ : Leaf K Nat)) with
    | none => .panic
    | some (cfg, t) => .ok (rows.map fun q => ((within us cfg t q r sort).bind id).map fun nbs => nbs.map (·.item))

/-- `query_radius_ptwise` (`python/polars_ds/exprs/expr_knn.py:471-525`). -/
def queryRadiusPtwise (us : USort) (cosine hav : List K → List K → K) (ncols : Nat) (ids : List Nat) (rows : List (List K))
    (r : K) (sort : Bool) (metric : String) : Outcome (List (Option (List Nat))) :=
  if r ≤ 0 then .err "Input `r` must be > 0."
  else if metric = "cosine" ∨ metric = "h" ∨ metric = "haversine" then
    .err "Distance doesn't work with current implementation."
  else plRadiusPtwise us cosine hav ncols ids rows r sort metric

/-- `.value_counts(sort=True)`: each distinct value with the number of times it occurs, largest first (the order of equal
counts is left open). -/
def valueCounts (us : USort) (l : List Nat) : List (Nat × Nat) :=
  us.run (fun a b => decide (b.2 ≤ a.2)) (l.dedup.map fun a => (a, l.count a))

/-- `.explode().drop_nulls().value_counts(sort=True)` (`python/polars_ds/exprs/expr_knn.py:258`, `:560`): null lists and empty
lists explode to null. -/
def freqCnt (us : USort) (col : List (Option (List Nat))) : List (Nat × Nat) := valueCounts us (col.filterMap id).flatten

/-- `query_radius_freq_cnt` (`python/polars_ds/exprs/expr_knn.py:528-560`). -/
def queryRadiusFreqCnt (us : USort) (cosine hav : List K → List K → K) (ncols : Nat) (ids : List Nat) (rows : List (List K))
    (r : K) (metric : String) : Outcome (List (Nat × Nat)) :=
  match queryRadiusPtwise us cosine hav ncols ids rows r false metric with
  | .ok col => .ok (freqCnt us col)
  | .err e => .err e
  | .panic => .panic

/-- `query_knn_freq_cnt` (`python/polars_ds/exprs/expr_knn.py:203-258`) from the lists `query_knn_ptwise` returns.  The argument
`epsilon` is passed on and then replaced by 0 (`:187`). -/
def queryKnnFreqCnt (us : USort) (col : List (Option (List (NB K Nat)))) : List (Nat × Nat) :=
  freqCnt us (col.map fun l => l.map fun nbs => nbs.map (·.item))

/-! ## Leaves with NaN coordinates -/

/-- `DIST::dist` (`src/utils/mod.rs:308-341`) of a leaf whose coordinates may be NaN (`none`) from a finite point.  Sums with a
NaN are NaN (`none`); `Float::max` returns the other argument, so the `LINF` loop skips the coordinate. -/
def Dist.distNaN (d : Dist K) (a : List (Option K)) (q : List K) : Option K :=
  match d with
  | .linf => some ((a.zip q).foldl (fun acc p => p.1.elim acc fun x => accInf acc (x - p.2)) 0)
  | _ => (fullRow a).map fun v => d.dist v q

/-- `update_nb_within` (`src/arkadia/kdt.rs:307-318`) on such leaves: a comparison with NaN is false. -/
def scanNaN {A : Type} (d : Dist K) (leaves : List (A × List (Option K))) (q : List K) (r : K) : List (NB K A) :=
  leaves.filterMap fun p => (d.distNaN p.2 q).bind fun dist => if dist ≤ r then some ⟨dist, p.1⟩ else none

/-- `pl_query_radius_ptwise` on a frame with nulls (turned into NaN by `series_to_row_major_slice`, `src/utils/mod.rs:83-88`; no
row is left out of the tree) and at most `suggest_capacity` rows, so that the tree is one leaf and the query one scan.
Larger frames with nulls are not modelled.  The row asking has to be finite (`src/arkadia/mod.rs:137`). -/
def radiusSmall (us : USort) (d : Dist K) (ids : List Nat) (rows : List (List (Option K))) (r : K) (sort : Bool) :
    List (Option (List (NB K Nat))) :=
  rows.map fun row => (fullRow row).bind fun q =>
    if r ≤ 0 + eps then none
    else
      let nbs := scanNaN d (ids.zip rows) q r
      some (if sort then us.run (fun a b => decide (a.dist ≤ b.dist)) nbs else nbs)

end Verif.KDT
