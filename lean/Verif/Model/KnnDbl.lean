import Verif.Lemmas.IeeeDist
import Verif.Model.KnnAvg

/-!
# KNN regression in double arithmetic (`src/arkadia/mod.rs` `KNNRegressor`, `src/num_ext/knn.rs` `pl_knn_avg`)

The search is that of `Verif.Model.KDTree`; the averages of `Verif.Model.KnnAvg` with every operation rounded.
-/

namespace Verif.KnnDbl
open Verif Verif.KDT Verif.Ieee FloatOps
open Verif.FloatBits (f64)

/-- The doubles, without infinities and NaN. -/
abbrev D := Flt f64

/-- `recip()` (`src/arkadia/mod.rs:196, 213`).  Simplification: no overflow. -/
noncomputable def recip (x : D) : D := (ieee f64).round (1 / x.val)

/-- Division (`src/arkadia/mod.rs:203, 220, 233`).  Simplification: no overflow. -/
noncomputable def div (a b : D) : D := (ieee f64).round (a.val / b.val)

/-- `T::one()` (`src/arkadia/mod.rs:196`). -/
noncomputable def one : D := (ieee f64).round 1

/-- `nn.len() as f64` (`src/arkadia/mod.rs:228`). -/
noncomputable def ofNat (n : ℕ) : D := (ieee f64).round n

/-- `KNNMethod::new` (`src/arkadia/mod.rs:42-52`). -/
noncomputable def method (weighted : Bool) (minDist : D) : KNNMethod :=
  if weighted then (if minDist ≤ eps then .p1Weighted else .weighted) else .notWeighted

/-- The weighted branches of `knn_regress` (`src/arkadia/mod.rs:190-222`). -/
noncomputable def weightedAvg (w : D → D) (nn : List (NB D D)) : Option D :=
  if nn.isEmpty then none
  else
    let weights := nn.map fun nb => w nb.dist
    let sum := weights.foldl (· + ·) 0
    some (div ((nn.zip weights).foldl (fun acc p => acc + p.2 * p.1.item) 0) sum)

/-- The aggregation of `knn_regress` (`src/arkadia/mod.rs:189-235`). -/
noncomputable def aggregate (how : KNNMethod) (nn : List (NB D D)) : Option D :=
  match how with
  | .p1Weighted => weightedAvg (fun d => recip (one + d)) nn
  | .weighted => weightedAvg recip nn
  | .notWeighted =>
    if nn.isEmpty then none
    else some (div (nn.foldl (fun acc nb => acc + nb.item) 0) (ofNat nn.length))

/-- `knn_regress` (`src/arkadia/mod.rs:173-240`). -/
noncomputable def regress (cfg : Cfg D) (t : Tree D D) (k : ℕ) (q : List D) (minB maxB : D) (how : KNNMethod) : Option D :=
  match knnBounded cfg t k q maxB 0 with
  | none => none
  | some none => none
  | some (some nn) => aggregate how (nn.filter fun nb => decide (minB ≤ nb.dist))

/-- One output row of `pl_knn_avg` (`src/num_ext/knn.rs:122-124, 136-138`). -/
noncomputable def avgRow (cfg : Cfg D) (t : Tree D D) (k : ℕ) (minB maxB : D) (how : KNNMethod) (r : List (Option D)) : Option D :=
  match fullRow r with
  | none => none
  | some q => regress cfg t (k + 1) q minB maxB how

/-- `query_knn_avg` (`python/polars_ds/exprs/expr_knn.py:265-334`) and `pl_knn_avg` (`src/num_ext/knn.rs:88-144`), sequential branch.
`target` is taken without nulls, as documented. -/
noncomputable def knnAvg (us : USort) (cosine hav : List D → List D → D) (ncols : ℕ) (target : List D)
    (rows : List (List (Option D))) (k : ℕ) (weighted : Bool) (minB maxB : D) (metric : String) : Outcome (List (Option D)) :=
  if k < 1 then .err "Input `k` must be >= 1."
  else if metric = "cosine" ∨ metric = "h" ∨ metric = "haversine" then
    .err "Distance doesn't work with current implementation."
  else
    match Dist.ofString cosine hav metric ncols with
    | .error e => .err e
    | .ok d =>
      match fromLeaves us d .midpoint (filteredLeaves target (keepMask none rows) rows) with
      | none => .panic
      | some (cfg, t) => .ok (rows.map (avgRow cfg t k minB maxB (method weighted minB)))

end Verif.KnnDbl
