import Verif.Model.KDTree
import Verif.Model.KnnExpr
import Verif.Lemmas.Arith
import Mathlib.Analysis.SpecialFunctions.Log.Basic

/-!
# Sample, approximate and nearest-neighbor entropy (`src/num_ext/entrophies.rs`)

A series is a list of values without nulls (the documentation asks for imputed data); `none` marks the NaN that
`series_to_row_major_slice` puts where a shifted column has run out of values.
-/

namespace Verif.Entropy
open Verif Verif.KDT FloatOps

variable {K : Type}

/-- `t.len() - m + 1` (`python/polars_ds/exprs/ts_features.py:549, 612`), unsigned 32-bit arithmetic of Polars. -/
def numRows (n m : Nat) : Nat := (n + 2 ^ 32 - m + 1) % 2 ^ 32

/-- `t.shift(-i).slice(0, length=rows)` (`python/polars_ds/exprs/ts_features.py:551-555, 613-617`). -/
def shiftCol (t : List K) (rows i : Nat) : List (Option K) :=
  ((t.drop i).map some ++ List.replicate (min i t.length) none).take rows

/-- The `m + 1` data columns handed to Rust. -/
def columns (t : List K) (m : Nat) : List (List (Option K)) :=
  (List.range (m + 1)).map (shiftCol t (numRows t.length m))

/-- `series_to_row_major_slice` (`src/utils/mod.rs:55-121`, modelled in detail in `Verif.Model.Parallel`) followed by
`chunks_exact(ncols)`: the rows of the frame. -/
def frameRows (cols : List (List (Option K))) : List (List (Option K)) :=
  match cols with
  | [] => []
  | c :: _ => (List.range c.length).map fun j => cols.map fun c => (c[j]?).getD none

/-- How an entropy ends.  `nanInTree` is the case where a NaN coordinate would enter the tree, which is not modelled. -/
inductive Result (α : Type) where
  | ok (a : α)
  | nan
  | panic
  | nanInTree
deriving Repr, DecidableEq

variable [LinearOrder K] [Zero K] [Add K] [Sub K] [Mul K] [FloatOps K]

/-- Tree over the rows with the max-norm, and `within_count(row, r).unwrap_or(0)` of every row
(`src/num_ext/entrophies.rs:41-64, 71-93, 122-142, 147-168`). -/
def counts (us : USort) (r : K) (rows : List (List (Option K))) : Result (List Nat) :=
  match rows.mapM fullRow with
  | none => .nanInTree
  | some rs =>
    match fromLeaves us .linf .midpoint (rs.map fun v => (⟨(), v⟩ : Leaf K Unit)) with
    | none => .panic
    | some (cfg, t) => .ok (rs.map fun q => ((withinCount cfg t q r).bind id).getD 0)

/-- The common part of `pl_sample_entropy` and `pl_approximate_entropy`: the early return
(`src/num_ext/entrophies.rs:35-37, 117-119`) and the counts of the length-`m` and length-`m + 1` templates. -/
def templateCounts (us : USort) (r : K) (t : List K) (m : Nat) : Result (List Nat × List Nat) :=
  let ncols := m + 1
  let data := frameRows (columns t m)
  let nrows := data.length
  if nrows < ncols ∨ r ≤ 0 then .nan
  else
    match counts us r (data.map fun row => row.take (ncols - 1)), counts us r (data.take (nrows - 1)) with
    | .ok b, .ok a => .ok (b, a)
    | .panic, _ => .panic
    | .ok _, .panic => .panic
    | _, _ => .nanInTree

/-- `pl_sample_entropy` (`src/num_ext/entrophies.rs:101-174`): the two numbers `(b, a)` whose quotient goes into `ln`.
The counts are added in `u32`, which wraps.  A null radius becomes `-1`. -/
def sampleBA (us : USort) (r : Option K) (minusOne : K) (t : List K) (m : Nat) : Result (Int × Int) :=
  match templateCounts us (r.getD minusOne) t m with
  | .ok (b, a) =>
    .ok (((b.sum % 2 ^ 32 : Nat) : Int) - b.length, ((a.sum % 2 ^ 32 : Nat) : Int) - a.length)
  | .nan => .nan
  | .panic => .panic
  | .nanInTree => .nanInTree

/-- `pl_approximate_entropy` (`src/num_ext/entrophies.rs:18-98`): the two lists of counts whose mean logarithms are
subtracted.  A null radius panics. -/
def approxCounts (us : USort) (r : Option K) (t : List K) (m : Nat) : Result (List Nat × List Nat) :=
  match r with
  | none => .panic
  | some r => templateCounts us r t m

/-- Mean of the logarithms of the shares, `phi` (`src/num_ext/entrophies.rs:50-65, 82-94`), over the reals. -/
noncomputable def phi (cs : List Nat) : ℝ :=
  (cs.foldl (fun (acc : ℝ) (c : Nat) => acc + Real.log ((c : ℝ) * ((cs.length : ℝ)⁻¹))) 0) * (cs.length : ℝ)⁻¹

/-- The last line of `pl_approximate_entropy` (`src/num_ext/entrophies.rs:97`). -/
noncomputable def approxValue (ba : List Nat × List Nat) : ℝ := |phi ba.2 - phi ba.1|

/-- `_knn_entropy_helper` (`src/num_ext/entrophies.rs:177-212`): the distance of the last of the `k + 1` neighbors of
every row (finite rows only), in row order. -/
def kthDistances (us : USort) (d : KDT.Dist K) (rows : List (List K)) (k : Nat) : Option (List K) :=
  match fromLeaves us d .midpoint (rows.map fun v => (⟨(), v⟩ : Leaf K Unit)) with
  | none => none
  | some (cfg, t) => rows.mapM fun q =>
      (knnUnchecked cfg t (k + 1) q maxVal 0).bind fun nbs => nbs.getLast?.map (·.dist)

end Verif.Entropy

namespace Verif.Entropy
open Verif

/-- `ratio * t.std(ddof=0)` (`python/polars_ds/exprs/ts_features.py:548`); null for an empty series. -/
noncomputable def sampleRadius (ratio : ℝ) (t : List ℝ) : Option ℝ :=
  if t = [] then none
  else some (ratio * Real.sqrt ((t.map fun x => (x - t.sum / t.length) ^ 2).sum / t.length))

/-- `query_sample_entropy` (`python/polars_ds/exprs/ts_features.py:519-568`): `m ≤ 1` is a `ValueError` (`none`). -/
noncomputable def querySampleEntropy (us : USort) (ratio : ℝ) (t : List ℝ) (m : Nat) :
    Option (Result (Int × Int)) :=
  if m ≤ 1 then none else some (sampleBA us (sampleRadius ratio t) (-1) t m)

end Verif.Entropy
