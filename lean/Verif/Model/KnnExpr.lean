import Verif.Model.KDTree
import Verif.Model.Parallel

/-!
# Neighbor expressions (`src/num_ext/knn.rs`)

A frame row is a list of optional values: `none` is a null (turned into NaN by
`series_to_row_major_slice`, so "not finite" for the query functions).
-/

namespace Verif.KDT
open Verif FloatOps

variable {K : Type} [LinearOrder K] [Zero K] [Add K] [Sub K] [Mul K] [FloatOps K]

/-- A row without nulls as plain coordinates. -/
def fullRow (r : List (Option K)) : Option (List K) := r.mapM id

/-- `row_major_slice_to_leaves_filtered` (`src/num_ext/knn.rs:71-83`): the leaves of the rows whose mask is
true (`null` counts as false).  Rows containing nulls never pass the mask built in Python
(`python/polars_ds/exprs/expr_knn.py`: all features non-null), so they are dropped here too. -/
def filteredLeaves {A : Type} (ids : List A) (mask : List (Option Bool)) (rows : List (List (Option K))) :
    List (Leaf K A) :=
  (mask.zip (ids.zip rows)).filterMap fun (f, id, r) =>
    if f.getD false then (fullRow r).map fun v => ⟨id, v⟩ else none

/-- Outcome of an expression: a column, or the Rust panic/err it ends with. -/
inductive Outcome (α : Type) where
  | ok (a : α)
  | err (msg : String)
  | panic
deriving Repr, DecidableEq

/-- One output row of `knn_ptwise_w_dist` (`src/num_ext/knn.rs:368-392, 415-434`): null if masked out, if the
row is not finite or the bound is too small; otherwise the neighbors (ids and distances). -/
def knnRow (cfg : Cfg K) (t : Tree K Nat) (k : Nat) (bound epsilon : K)
    (br : Bool × List (Option K)) : Option (List (NB K Nat)) :=
  if br.1 then
    match fullRow br.2 with
    | none => none
    | some q => ((knnBounded cfg t (k + 1) q bound epsilon).bind id)
  else none

/-- The `eval_mask` set-up (`src/num_ext/knn.rs:464-474`). -/
def evalMaskOf (m : Option (List (Option Bool))) (nrows : Nat) : List Bool :=
  match m with
  | some m => m.map fun b => b.getD false
  | none => List.replicate nrows true

/-- `pl_knn_ptwise_w_dist` (`src/num_ext/knn.rs:443-498`) with `knn_ptwise_w_dist` (`:328-440`), sequential
branch.  `evalMask = none` means `skip_eval = false`.  An empty set of kept rows panics
(`data[0]`, `src/arkadia/kdt.rs:124`). -/
def knnPtwiseWDist (us : USort) (cosine hav : List K → List K → K) (ncols : Nat) (ids : List Nat)
    (keep : List (Option Bool)) (evalMask : Option (List (Option Bool)))
    (rows : List (List (Option K))) (k : Nat) (bound epsilon : K) (metric : String) :
    Outcome (List (Option (List (NB K Nat)))) :=
  let em := evalMaskOf evalMask ids.length
  match Dist.ofString cosine hav metric ncols with
  | .error e => .err e
  | .ok d =>
    match fromLeaves us d .midpoint (filteredLeaves ids keep rows) with
    | none => .panic
    | some (cfg, t) => .ok ((em.zip rows).map (knnRow cfg t k bound epsilon))

/-- The parallel branch of `knn_ptwise_w_dist` (`src/num_ext/knn.rs:343-397`): the same rows split over
`n` workers finishing in some `order`. -/
def knnPtwiseWDistPar (us : USort) (cosine hav : List K → List K → K) (ncols : Nat) (ids : List Nat)
    (keep : List (Option Bool)) (evalMask : Option (List (Option Bool)))
    (rows : List (List (Option K))) (k : Nat) (bound epsilon : K) (metric : String)
    (n : Nat) (order : List Nat) : Outcome (Option (List (Option (List (NB K Nat))))) :=
  let em := evalMaskOf evalMask ids.length
  match Dist.ofString cosine hav metric ncols with
  | .error e => .err e
  | .ok d =>
    match fromLeaves us d .midpoint (filteredLeaves ids keep rows) with
    | none => .panic
    | some (cfg, t) => .ok (parMap (knnRow cfg t k bound epsilon) (em.zip rows) n order)

/-- `pl_dist_from_kth_nb` (`src/num_ext/knn.rs:216-273`) on rows without nulls: the distance of the last of
the at most `k + 1` neighbors. -/
def distFromKthNb (us : USort) (cosine hav : List K → List K → K) (ncols : Nat)
    (rows : List (List K)) (k : Nat) (bound epsilon : K) (metric : String) :
    Outcome (List (Option K)) :=
  match Dist.ofString cosine hav metric ncols with
  | .error e => .err e
  | .ok d =>
    match fromLeaves us d .midpoint (rows.map fun r => (⟨(), r⟩ : Leaf K Unit)) with
    | none => .panic
    | some (cfg, t) => .ok (rows.map fun q =>
        match (knnBounded cfg t (k + 1) q bound epsilon).bind id with
        | some nbs => nbs.getLast?.map (·.dist)
        | none => none)

/-- `pl_nb_cnt` (`src/num_ext/knn.rs:667-703`) on rows without nulls.  One radius for all rows (a null one
panics at `unwrap`), or one per row. -/
def nbCnt (us : USort) (cosine hav : List K → List K → K) (ncols : Nat)
    (radius : List (Option K)) (rows : List (List K)) (metric : String) :
    Outcome (List (Option Nat)) :=
  let tree (d : Dist K) := fromLeaves us d .midpoint (rows.map fun r => (⟨(), r⟩ : Leaf K Unit))
  match radius with
  | [none] => .panic
  | [some r] =>
    match Dist.ofString cosine hav metric ncols with
    | .error e => .err e
    | .ok d => match tree d with
      | none => .panic
      | some (cfg, t) => .ok (rows.map fun q => (withinCount cfg t q r).bind id)
  | rs =>
    if rs.length = rows.length then
      match Dist.ofString cosine hav metric ncols with
      | .error e => .err e
      | .ok d => match tree d with
        | none => .panic
        | some (cfg, t) => .ok ((rows.zip rs).map fun (q, r) =>
            match r with
            | some r => (withinCount cfg t q r).bind id
            | none => none)
    else .err "Inputs must have the same length or one of them must be a scalar."

/-- `cfavml::cosine` (external crate; documented value `1 - a·b / (|a||b|)`, with the zero-vector cases
`0` and `1`).  `div` is the division of `K`. -/
def cosineDist (div : K → K → K) (one : K) (a b : List K) : K :=
  let dot := (a.zip b).foldl (fun acc p => acc + p.1 * p.2) 0
  let na := a.foldl (fun acc x => acc + x * x) 0
  let nb := b.foldl (fun acc x => acc + x * x) 0
  if na = 0 ∧ nb = 0 then 0
  else if na = 0 ∨ nb = 0 then one
  else one - div dot (fsqrt (na * nb))

end Verif.KDT
