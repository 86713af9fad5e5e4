import Verif.Model.KnnExpr
import Mathlib.Algebra.Field.Defs

/-!
# KNN regression (`src/arkadia/mod.rs` `KNNRegressor`, `src/num_ext/knn.rs` `pl_knn_avg`)
-/

namespace Verif.KDT
open Verif FloatOps
variable {K : Type} [Field K] [LinearOrder K] [FloatOps K]

/-- `KNNMethod` (`src/arkadia/mod.rs:33-39`). -/
inductive KNNMethod where
  | p1Weighted | weighted | notWeighted
deriving Repr, DecidableEq

/-- `KNNMethod::new` (`src/arkadia/mod.rs:42-52`). -/
def KNNMethod.new (weighted : Bool) (minDist : K) : KNNMethod :=
  if weighted then (if minDist ≤ eps then .p1Weighted else .weighted) else .notWeighted

/-- The weighted branches of `knn_regress` (`src/arkadia/mod.rs:195-208, 214-227`). -/
def weightedAvg (w : K → K) (nn : List (NB K K)) : Option K :=
  if nn.isEmpty then none
  else
    let weights := nn.map fun nb => w nb.dist
    let sum := weights.sum
    some ((nn.zip weights).foldl (fun acc p => acc + p.2 * p.1.item) 0 / sum)

/-- The aggregation of `knn_regress` (`src/arkadia/mod.rs:189-235`). -/
def knnAggregate (how : KNNMethod) (nn : List (NB K K)) : Option K :=
  match how with
  | .p1Weighted => weightedAvg (fun d => (1 + d)⁻¹) nn
  | .weighted => weightedAvg (fun d => d⁻¹) nn
  | .notWeighted =>
    if nn.isEmpty then none
    else some (nn.foldl (fun acc nb => acc + nb.item) 0 / (nn.length : K))

/-- `knn_regress` (`src/arkadia/mod.rs:173-240`).  The inner `none` of the search (fuel) is mapped to `none`;
the theorems show it does not occur. -/
def knnRegress (cfg : Cfg K) (t : Tree K K) (k : Nat) (q : List K) (minB maxB : K) (how : KNNMethod) :
    Option K :=
  match knnBounded cfg t k q maxB 0 with
  | none => none
  | some none => none
  | some (some nn) => knnAggregate how (nn.filter fun nb => decide (minB ≤ nb.dist))

/-- One output row of `pl_knn_avg` (`src/num_ext/knn.rs:122-124, 136-138`): a row containing a null is NaN
somewhere, which `knn_bounded` rejects (`src/arkadia/mod.rs:100-104`). -/
def knnAvgRow (cfg : Cfg K) (t : Tree K K) (k : Nat) (minB maxB : K) (how : KNNMethod)
    (r : List (Option K)) : Option K :=
  match fullRow r with
  | none => none
  | some q => knnRegress cfg t (k + 1) q minB maxB how

/-- All features non-null (`python/polars_ds/exprs/expr_knn.py:171,173,317`). -/
def allNotNull (r : List (Option K)) : Bool := r.all Option.isSome

/-- Three-valued `and` of `pl.all_horizontal` (polars): null unless decided. -/
def and3 : Option Bool → Bool → Option Bool
  | some a, b => some (a && b)
  | none, false => some false
  | none, true => none

/-- The `keep_mask` built by the Python wrapper (`python/polars_ds/exprs/expr_knn.py:169-175, 317`). -/
def keepMask (dataMask : Option (List (Option Bool))) (rows : List (List (Option K))) :
    List (Option Bool) :=
  match dataMask with
  | none => rows.map fun r => some (allNotNull r)
  | some m => List.zipWith (fun b r => and3 b (allNotNull r)) m rows

/-- `query_knn_avg` (`python/polars_ds/exprs/expr_knn.py:265-334`) and `pl_knn_avg`
(`src/num_ext/knn.rs:88-144`), sequential branch.  `target` is taken without nulls, as documented. -/
def knnAvg (us : USort) (cosine hav : List K → List K → K) (ncols : Nat) (target : List K)
    (rows : List (List (Option K))) (k : Nat) (weighted : Bool) (minB maxB : K) (metric : String) :
    Outcome (List (Option K)) :=
  if k < 1 then .err "Input `k` must be >= 1."
  else if metric = "cosine" ∨ metric = "h" ∨ metric = "haversine" then
    .err "Distance doesn't work with current implementation."
  else
    match Dist.ofString cosine hav metric ncols with
    | .error e => .err e
    | .ok d =>
      match fromLeaves us d .midpoint (filteredLeaves target (keepMask none rows) rows) with
      | none => .panic
      | some (cfg, t) => .ok (rows.map (knnAvgRow cfg t k minB maxB (KNNMethod.new weighted minB)))

/-- `query_knn_ptwise(..., return_dist=True)` (`python/polars_ds/exprs/expr_knn.py:100-200`) on top of
`pl_knn_ptwise_w_dist`.  The `epsilon` argument is not passed on: the plugin gets `0.0` (line 187). -/
def queryKnnPtwise (us : USort) (cosine hav : List K → List K → K) (ncols : Nat) (ids : List Nat)
    (dataMask evalMask : Option (List (Option Bool))) (rows : List (List (Option K)))
    (k : Nat) (bound : K) (metric : String) :
    Outcome (List (Option (List (NB K Nat)))) :=
  if k < 1 then .err "Input `k` must be >= 1."
  else if metric = "cosine" ∨ metric = "h" ∨ metric = "haversine" then
    .err "Distance doesn't work with current implementation."
  else knnPtwiseWDist us cosine hav ncols ids (keepMask dataMask rows) evalMask rows k bound 0 metric

end Verif.KDT
