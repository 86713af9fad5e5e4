import Mathlib.Data.Rat.Floor
import Mathlib.Algebra.Order.Ring.Rat
import Mathlib.Algebra.Field.Rat
import Mathlib.Data.List.Dedup
import Mathlib.Data.Nat.Choose.Basic

/-!
# `split_by_ratio`, `sample`, `downsample`, `volume_neutral`, `random_cols`
(`python/polars_ds/sample_and_split/sample_and_split.py`)

Polars is not in this repository.  `shuffle` of the row numbers is an arbitrary list `ids` (a permutation of the
row numbers in the theorems); `filter` and `partition_by` keep the rows in order; `slice` is `drop` and `take`.
-/

namespace Verif.Split
variable {α R : Type}

/-- The rows kept by a boolean column `ids < thr`. -/
def keepBelow (rows : List α) (ids : List Nat) (thr : Nat) : List α :=
  ((rows.zip ids).filter fun p => decide (p.2 < thr)).map Prod.fst

/-- The rows left out by it. -/
def keepAbove (rows : List α) (ids : List Nat) (thr : Nat) : List α :=
  ((rows.zip ids).filter fun p => !decide (p.2 < thr)).map Prod.fst

/-- The first branch of `split_by_ratio` (`sample_and_split.py:223-240`) after the check of the ratio.  `trunc n v`
is `(n * v).cast(Int64)`.  A part without rows is missing in the dictionary, so that looking it up is a `KeyError`
(`none`). -/
def splitOne (trunc : Nat → R → Nat) (r : R) (ids : List Nat) (rows : List α) : Option (List α × List α) :=
  let train := keepBelow rows ids (trunc rows.length r)
  let test := keepAbove rows ids (trunc rows.length r)
  if train.isEmpty || test.isEmpty then none else some (train, test)

/-- The loop of the second branch (`sample_and_split.py:256-266`) on the shuffled frame. -/
def sliceLoop (trunc : Nat → R → Nat) (s : List α) : Nat → List R → List (List α)
  | _, [] => []
  | start, v :: vs =>
    (s.drop start).take (trunc s.length v) :: sliceLoop trunc s (start + trunc s.length v) vs

/-- `split_by_ratio` with a list of at least two ratios (`sample_and_split.py:245-266`) after the check of the sum;
`s` is the shuffled frame. -/
def splitMany (trunc : Nat → R → Nat) (rs : List R) (s : List α) : List (List α) := sliceLoop trunc s 0 rs

/-- `int(n * v)` in exact arithmetic, for ratios `≥ 0`. -/
def exact (n : Nat) (v : ℚ) : Nat := ⌊(n : ℚ) * v⌋₊

/-- `sample` with a number of rows or with a fraction, whose threshold is `thr`
(`sample_and_split.py:20-36, 39-53`). -/
def sample (thr : Nat) (ids : List Nat) (rows : List α) : List α := keepBelow rows ids thr

/-- One condition of `downsample` (`sample_and_split.py:160-161`): `.over(c)` computes the sampler separately where
`c` holds and where it does not; `| (~c)` keeps the latter.  `rank i` is the shuffled number of row `i` among the
rows with the same value of `c`, `thr` the threshold of the sampler. -/
def downsampleKeep (c : Nat → Bool) (rank : Nat → Nat) (thr : Nat) (i : Nat) : Bool := decide (rank i < thr) || !c i

/-- `downsample` for several conditions: row numbers kept out of `n`. -/
def downsample (n : Nat) (conds : List ((Nat → Bool) × (Nat → Nat) × Nat)) : List Nat :=
  (List.range n).filter fun i => conds.all fun q => downsampleKeep q.1 q.2.1 q.2.2 i

/-- The target of `volume_neutral` (`sample_and_split.py:81-84`): the smallest group size, at most
`target_volume`. -/
def volumeTarget {γ : Type} [DecidableEq γ] (keys : List γ) (targetVolume : Option Nat) : Option Nat :=
  match (keys.dedup.map fun g => keys.count g).min?, targetVolume with
  | some m, some t => some (min m t)
  | some m, none => some m
  | none, _ => none

/-- `volume_neutral` without controls (`sample_and_split.py:93-101`): row `i` is kept when its shuffled number in
its group is below the target. -/
def volumeNeutral {γ : Type} [DecidableEq γ] (keys : List γ) (rank : Nat → Nat) (targetVolume : Option Nat) :
    List Nat :=
  match volumeTarget keys targetVolume with
  | none => []
  | some t => (List.range keys.length).filter fun i => decide (rank i < t)

/-- `random_cols` (`sample_and_split.py:185-198`).  `draw` is the number returned by the unseeded
`random.randrange`; the argument `seed` is not used.  `combs k pool` stands for `itertools.combinations`, in its
documented order.  `none` is the `ValueError`, `some none` the `TypeError` of `list(None)`. -/
def randomCols {γ : Type} [DecidableEq γ] (combs : Nat → List γ → List (List γ)) (cols : List γ) (k : Nat)
    (keep : Option (List γ)) (_seed : Option Nat) (draw : Nat) : Option (Option (List γ)) :=
  let out := keep.getD []
  let pool := cols.filter fun c => decide (c ∉ out)
  if cols.length < k + out.length then none
  else some ((combs k pool)[draw]?.map fun r => out ++ r)

/-- The numbers `random.randrange(0, math.comb(pool_size, k))` can return (`sample_and_split.py:196`). -/
def drawBound {γ : Type} (cols : List γ) (keep : Option (List γ)) : Nat → Nat := fun k =>
  (cols.length - (keep.getD []).length).choose k

end Verif.Split
