import Verif.Model.Trapz
import Mathlib.Algebra.Order.Field.Basic
import Mathlib.Data.List.Sort
import Mathlib.Data.List.Dedup

/-!
# ROC AUC, average precision, precision/recall (`src/num_ext/tp_fp.rs`)

A row is `(score, label)`; labels are 0 or 1, already cast to `u32` by the Python side.  Counts are far below
`2^32`, so the `u32` columns are natural numbers.
-/

namespace Verif.Roc
variable {K : Type} [Field K] [LinearOrder K]

/-- One group of the frame: threshold, `cnt` and `pos_cnt_at_threshold`
(`src/num_ext/tp_fp.rs:52-59`). -/
structure Group (K : Type) where
  threshold : K
  cnt : Nat
  pos : Nat
deriving Repr, DecidableEq

/-- `group_by(threshold).agg(len, sum).sort(threshold)` (`src/num_ext/tp_fp.rs:52-59`; polars): one row per
distinct score, ascending. -/
def groups (rows : List (K × Nat)) : List (Group K) :=
  ((rows.map Prod.fst).dedup.insertionSort (· ≤ ·)).map fun t =>
    ⟨t, (rows.filter fun r => decide (r.1 = t)).length,
      ((rows.filter fun r => decide (r.1 = t)).map Prod.snd).sum⟩

/-- `cum_sum(false)` (polars), with the running total as argument. -/
def cumSum : Nat → List Nat → List Nat
  | _, [] => []
  | acc, a :: l => (acc + a) :: cumSum (acc + a) l

/-- `shift_and_fill(1, v)` (polars). -/
def shiftFill (v : Nat) (l : List Nat) : List Nat :=
  match l with
  | [] => []
  | _ => v :: l.dropLast

/-- The column `predicted_positive` (`src/num_ext/tp_fp.rs:61`): `n - cum_sum(cnt) + cnt`. -/
def predictedPositive (n : Nat) (g : List (Group K)) : List Nat :=
  List.zipWith (fun cs c => n - cs + c) (cumSum 0 (g.map (·.cnt))) (g.map (·.cnt))

/-- The column `tp` (`src/num_ext/tp_fp.rs:62-64`). -/
def tpCol (p : Nat) (g : List (Group K)) : List Nat :=
  shiftFill p ((cumSum 0 (g.map (·.pos))).map fun cs => p - cs)

/-- A row of the result of `tp_fp_frame` with `as_ratio = true`. -/
structure FrameRow (K : Type) where
  threshold : K
  tpr : K
  fpr : K
  precision : K
deriving Repr, DecidableEq

/-- `tp_fp_frame(.., as_ratio = true)` after its checks (`src/num_ext/tp_fp.rs:44-88`).  `tp.first()` and
`fp.first()` are divisors; a zero `fp.first()` gives NaN in Rust and is handled by the callers of the model. -/
def frame (rows : List (K × Nat)) (positive : Nat) : List (FrameRow K) :=
  let g := groups rows
  let pp := predictedPositive rows.length g
  let tp := tpCol positive g
  let fp := List.zipWith (· - ·) pp tp
  let tp0 := (tp.head?.getD 0 : Nat)
  let fp0 := (fp.head?.getD 0 : Nat)
  List.zipWith (fun (t : K) (r : Nat × Nat × Nat) =>
      ⟨t, (r.1 : K) / (tp0 : K), (r.2.1 : K) / (fp0 : K), (r.1 : K) / (r.2.2 : K)⟩)
    (g.map (·.threshold)) (tp.zip (fp.zip pp))

/-- Outcome of the metric expressions. -/
inductive Res (α : Type) where
  | val (v : α)
  | nan
  | err
  | panic
deriving Repr, DecidableEq

/-- The data quality checks (`src/num_ext/tp_fp.rs:32-43`): equal lengths, not empty, no nulls. -/
def checked (pred : List (Option K)) (actual : List (Option Nat)) : Option (List (K × Nat)) :=
  if actual.length ≠ pred.length ∨ actual.isEmpty ∨ pred.isEmpty then none
  else
    match pred.mapM id, actual.mapM id with
    | some p, some a => some (p.zip a)
    | _, _ => none

/-- `-trapz(tpr, fpr)`. -/
def aucOf (f : List (FrameRow K)) : K := -(Trapz.trapz (f.map (·.tpr)) (f.map (·.fpr)))

/-- `pl_roc_auc` (`src/num_ext/tp_fp.rs:216-242`).  `sum` skips nulls and is 0 on the empty column.  Without
negatives `fpr` is `0/0`, so the result is NaN. -/
def rocAuc (pred : List (Option K)) (actual : List (Option Nat)) : Res K :=
  let positive := (actual.filterMap id).sum
  if positive = 0 then .nan
  else match checked pred actual with
    | none => .err
    | some rows =>
      if positive = rows.length then .nan
      else .val (aucOf (frame rows positive))

/-- The fold of the average precision (`src/num_ext/tp_fp.rs:133-137`): `zip(y, y.skip(1)).zip(precision)`. -/
def avgPrecision (f : List (FrameRow K)) : K :=
  -1 * (((f.map (·.tpr)).zip (f.map (·.tpr)).tail).zip (f.map (·.precision))).foldl
    (fun acc p => (p.1.2 - p.1.1) * p.2 + acc) 0

/-- `probs.binary_search_by(..)` with both results merged (`src/num_ext/tp_fp.rs:117-120`; Rust std): on
strictly ascending data, the number of entries below the threshold. -/
def searchIndex (f : List (FrameRow K)) (threshold : K) : Nat :=
  (f.takeWhile fun r => decide (r.threshold < threshold)).length

/-- Precision, recall, F and average precision of `pl_combo_b` (`src/num_ext/tp_fp.rs:91-154`); the AUC is as
in `pl_roc_auc`.  `y[index]` panics when the index is the length.  `f` is `2pr/(p+r)`; it is NaN when both are
0, which is `none` here. -/
structure Combo (K : Type) where
  precision : K
  recall : K
  f : Option K
  avgPrecision : K
deriving Repr, DecidableEq

/-- `pl_combo_b` (`src/num_ext/tp_fp.rs:91-154`). -/
def comboB (pred : List (Option K)) (actual : List (Option Nat)) (threshold : K) : Res (Combo K) :=
  let positive := (actual.filterMap id).sum
  if positive = 0 then .nan
  else match checked pred actual with
    | none => .err
    | some rows =>
      let f := frame rows positive
      match f[searchIndex f threshold]? with
      | none => .panic
      | some r => .val ⟨r.precision, r.tpr,
          if r.precision + r.tpr = 0 then none
          else some (2 * (r.precision * r.tpr) / (r.precision + r.tpr)),
          avgPrecision f⟩

end Verif.Roc
