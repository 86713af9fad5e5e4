import Verif.Model.KDTree

/-!
# The Python class `KDTree` (`python/polars_ds/spatial.py`) and the radius queries of `PyKDT`
(`src/pymodels/py_kdt.rs:151-438`)

Query matrices have the width of the tree (the radius queries do not check it); an entry that is not finite is `none`.
The parallel branches collect the same rows in order (`collect_into_vec`) and are not distinguished.
-/

namespace Verif.KDT
open Verif FloatOps

variable {K : Type} [LinearOrder K] [Zero K] [Add K] [Sub K] [Mul K] [FloatOps K]

/-- A query matrix; `none` is NaN or an infinity. -/
structure QMat (K : Type) where
  ncols : Nat
  rows : List (List (Option K))

/-- `X.is_empty()`. -/
def QMat.isEmpty (X : QMat K) : Bool := X.rows.isEmpty || X.ncols == 0

/-- `self.kdt.within(pt, r, sort).unwrap_or(vec![])` for one row (`src/pymodels/py_kdt.rs:180-186`, `src/arkadia/mod.rs:135-152`):
a coordinate that is not finite is rejected, and a rejection becomes the empty list. The inner `getD` is for the fuel of
`withinLoop`, which never runs out (`within_exact`). -/
def withinRow (us : USort) (s : PyKDT K) (sort : Bool) (q : List (Option K)) (r : K) : List (NB K Nat) :=
  match q.mapM id with
  | none => []
  | some q => ((within us s.cfg s.tree q r sort).getD (some [])).getD []

/-- `self.kdt.within_count(sl, r).unwrap_or(0)` for one row (`src/pymodels/py_kdt.rs:378-388`). -/
def withinCountRow (s : PyKDT K) (q : List (Option K)) (r : K) : Nat :=
  match q.mapM id with
  | none => 0
  | some q => ((withinCount s.cfg s.tree q r).getD (some 0)).getD 0

/-- Errors that reach Python. -/
inductive SpErr where
  | empty
  | radiusSize
deriving DecidableEq, Repr

/-- `within_with_dist` (`src/pymodels/py_kdt.rs:315-363`); `within_idx_only` (`209-251`) keeps only the row numbers. -/
def PyKDT.withinAll (us : USort) (s : PyKDT K) (X : QMat K) (r : K) (sort : Bool) : Except SpErr (List (List (NB K Nat))) :=
  if X.isEmpty then .error .empty else .ok (X.rows.map fun q => withinRow us s sort q r)

/-- `within_with_dist_vec_r` (`src/pymodels/py_kdt.rs:253-313`); `within_idx_only_vec_r` (`151-207`) keeps only the row
numbers. -/
def PyKDT.withinVec (us : USort) (s : PyKDT K) (X : QMat K) (r : List K) (sort : Bool) :
    Except SpErr (List (List (NB K Nat))) :=
  if X.isEmpty then .error .empty
  else if r.length ≠ X.rows.length then .error .radiusSize
  else .ok (List.zipWith (withinRow us s sort) X.rows r)

/-- `within_count` (`src/pymodels/py_kdt.rs:365-394`). -/
def PyKDT.countAllWithin (s : PyKDT K) (X : QMat K) (r : K) : Except SpErr (List Nat) :=
  if X.isEmpty then .error .empty else .ok (X.rows.map fun q => withinCountRow s q r)

/-- `within_count_vec_r` (`src/pymodels/py_kdt.rs:396-437`). -/
def PyKDT.countVecWithin (s : PyKDT K) (X : QMat K) (r : List K) : Except SpErr (List Nat) :=
  if X.isEmpty then .error .empty
  else if r.length ≠ X.rows.length then .error .radiusSize
  else .ok (List.zipWith (withinCountRow s) X.rows r)

/-- The argument `r`: a number, or an array (already flattened by `np.ravel`). -/
inductive Radius (K : Type) where
  | scalar (r : K)
  | array (rs : List K)

/-- What a Python call evaluates to: a value, the object `None`, or an exception. -/
inductive PyRes (α : Type) where
  | value (a : α)
  | none
  | raised (e : SpErr)
deriving DecidableEq, Repr

/-- The result of a call, ready to be returned. -/
def PyRes.ofExcept {α : Type} : Except SpErr α → PyRes α
  | .ok a => .value a
  | .error e => .raised e

/-- The result of a call that is evaluated without `return`. -/
def PyRes.dropped {α : Type} : PyRes α → PyRes α
  | .value _ => .none
  | .none => .none
  | .raised e => .raised e

/-- `KDTree.within` with a scalar (`python/polars_ds/spatial.py:145-150`); with `return_dist=False` Python sees the row
numbers only. -/
def treeWithinScalar (us : USort) (s : PyKDT K) (X : QMat K) (r : K) (sort : Bool) : PyRes (List (List (NB K Nat))) :=
  .ofExcept (s.withinAll us X r sort)

/-- `KDTree.within` (`python/polars_ds/spatial.py:114-162`). For an array of length one the recursive call in line 154 is
not returned (and passes `parallel` in the place of `return_dist`). -/
def treeWithin (us : USort) (s : PyKDT K) (X : QMat K) (r : Radius K) (sort : Bool) : PyRes (List (List (NB K Nat))) :=
  match r with
  | .scalar r => treeWithinScalar us s X r sort
  | .array [r] => (treeWithinScalar us s X r sort).dropped
  | .array rs => .ofExcept (s.withinVec us X rs sort)

/-- `KDTree.within_count` with a scalar (`python/polars_ds/spatial.py:182-183`). -/
def treeCountScalar (s : PyKDT K) (X : QMat K) (r : K) : PyRes (List Nat) := .ofExcept (s.countAllWithin X r)

/-- `KDTree.within_count` (`python/polars_ds/spatial.py:164-192`); the call in line 187 is not returned. -/
def treeCount (s : PyKDT K) (X : QMat K) (r : Radius K) : PyRes (List Nat) :=
  match r with
  | .scalar r => treeCountScalar s X r
  | .array [r] => (treeCountScalar s X r).dropped
  | .array rs => .ofExcept (s.countVecWithin X rs)

/-- One of the two matrices of `KDTree.knn`, as a flat buffer; the distance of a padding is `none` (infinity). -/
inductive KnnMat (K : Type) where
  | dists (m : List (Option K))
  | ids (m : List Nat)
deriving DecidableEq, Repr

/-- `KDTree.knn` (`python/polars_ds/spatial.py:72-112`): the pair that `PyKDT::knn` returns
(`src/pymodels/py_kdt.rs:141-144`); a padding has the row number `u32::MAX`. -/
def knnPair (cells : List (Cell K)) : KnnMat K × KnnMat K :=
  (.dists (cells.map fun c => match c with | .found d _ => some d | .pad => Option.none),
   .ids (cells.map fun c => match c with | .found _ i => i | .pad => 4294967295))

end Verif.KDT
