import Verif.Model.Confusion
import Verif.Model.Roc
import Verif.Model.Trapz

/-!
# The data behind the charts (`python/polars_ds/eda/plots.py`)

The frames and numbers that are handed to Altair; the drawing itself is not modelled.
-/

namespace Verif.Plots
open Verif.Roc

/-! ## ROC curves -/

section
variable {K : Type} [Field K] [LinearOrder K]

/-- `pl_tpr_fpr` (`src/num_ext/tp_fp.rs:156-182`, `python/polars_ds/exprs/metrics.py:370-388`): rows ascending in the
threshold.  Simplified: `nan` stands for a frame with NaN entries (no positive: one row of NaN; no negative: the column
`fpr` is NaN). -/
def tprFpr (pred : List (Option K)) (actual : List (Option Nat)) : Res (List (FrameRow K)) :=
  let positive := (actual.filterMap id).sum
  if positive = 0 then .nan
  else match checked pred actual with
    | none => .err
    | some rows => if positive = rows.length then .nan else .val (frame rows positive)

/-- Assignment `d[k] = v` to a Python dict: an existing key keeps its place. -/
def upsert {α : Type} (d : List (String × α)) (k : String) (v : α) : List (String × α) :=
  if d.any fun p => p.1 == k then d.map fun p => if p.1 == k then (k, v) else p else d ++ [(k, v)]

/-- A dict comprehension over pairs. -/
def dictOf {α : Type} (l : List (String × α)) : List (String × α) := l.foldl (fun d p => upsert d p.1 p.2) []

/-- Errors: `ValueError`s of the function, an error raised by the plugin. -/
inductive Err where
  | value
  | compute
deriving Repr, DecidableEq

/-- `auc` in the label: absent, NaN or a number. -/
abbrev Label (K : Type) := Option (Trapz.Res K)

/-- One curve: the prediction's name, the AUC in the label and the points (fpr, tpr) in order.  A curve with NaN
coordinates has no points here. -/
structure Curve (K : Type) where
  name : String
  auc : Label K
  points : Option (List (K × K))
deriving DecidableEq

/-- The points of a prediction (`python/polars_ds/eda/plots.py:513-537`): the origin, then the frame reversed. -/
def points (f : List (FrameRow K)) : List (K × K) := (0, 0) :: f.reverse.map fun r => (r.fpr, r.tpr)

/-- One round of the loop (`python/polars_ds/eda/plots.py:511-537`): the label's AUC is the integral over the frame
without the origin. -/
def curve (showAuc : Bool) (actual : List (Option Nat)) (p : String × List (Option K)) : Except Err (Curve K) :=
  match tprFpr p.2 actual with
  | .val f => .ok ⟨p.1, if showAuc then
      some (Trapz.plTrapz (f.reverse.map fun r => some r.tpr) (f.reverse.map fun r => some r.fpr)) else none,
      some (points f)⟩
  | .nan => .ok ⟨p.1, if showAuc then some .nan else none, none⟩
  | _ => .error .compute

/-- The dict of predictions (`python/polars_ds/eda/plots.py:484-501`). -/
def predDict (pred : Option (List (Option K))) (name : Option String) (preds : Option (List (List (Option K))))
    (names : Option (List String)) : Except Err (List (String × List (Option K))) :=
  match pred, name, preds, names with
  | some _, none, _, _ => .error .value
  | some c, some n, _, _ => .ok [(n, c)]
  | none, _, some cs, some ns => if cs.length ≠ ns.length then .error .value else .ok (dictOf (ns.zip cs))
  | none, _, _, _ => .error .value

/-- The target column read as a score: the entry that `new_dict["__actual__"] = target_series` leaves under that name. -/
def asScore (actual : List (Option Nat)) : List (Option K) := actual.map fun a => a.map fun n => (n : K)

/-- `plot_roc_auc` (`python/polars_ds/eda/plots.py:456-569`): the curves drawn.  `pred_names` is read before the target is
stored under `"__actual__"`; concatenating no frame at all is an error. -/
def plotRocAuc (target : List (Option Nat)) (pred : Option (List (Option K))) (name : Option String)
    (preds : Option (List (List (Option K)))) (names : Option (List String)) (showAuc : Bool) :
    Except Err (List (Curve K)) := do
  let d ← predDict pred name preds names
  if d.any fun p => decide (p.2.length ≠ target.length) then .error .value
  else
    let cs ← d.mapM fun p => curve showAuc target (p.1, if p.1 = "__actual__" then asScore target else p.2)
    if cs.isEmpty then .error .value else .ok cs

end

/-! ## Share of bad values -/

open Verif.Confusion (Val)

section
variable {K : Type}

/-- `is_finite()` -/
def isFinite : Val K → Bool
  | .num _ => true
  | _ => false

/-- `null_count()` plus `is_finite().not_().sum()` (`python/polars_ds/eda/plots.py:124-126`, `174-176`); a null is not
counted by the second. -/
def badCount (c : List (Option (Val K))) : Nat :=
  (c.filter fun v => v.isNone).length + (c.filter fun v => (v.map fun v => !isFinite v) == some true).length

/-- The share shown by `plot_feature_distr` (`python/polars_ds/eda/plots.py:116-152`); `none` is Python's
`ZeroDivisionError`. -/
def badShare (c : List (Option (Val K))) : Option ℚ := if c.length = 0 then none else some (badCount c / c.length)

/-- The shares per group (`python/polars_ds/eda/plots.py:172-176`), `keys` being the distinct groups in some order. -/
def badShares {G : Type} [DecidableEq G] (rows : List (G × Option (Val K))) (keys : List G) : List (G × ℚ) :=
  keys.map fun g =>
    let c := (rows.filter fun r => decide (r.1 = g)).map Prod.snd
    (g, badCount c / c.length)

end

end Verif.Plots
