import Verif.Model.PlExpr
import Mathlib.Analysis.SpecialFunctions.Log.Basic
import Mathlib.Analysis.SpecialFunctions.Trigonometric.DerivHyp

/-!
# Regression and classification losses (`python/polars_ds/exprs/metrics.py`)

Every function is a polars expression over the columns `a` (actual) and `p` (pred).
-/

namespace Verif.Metrics
open Verif.Pl

/-- `a - p` (`python/polars_ds/exprs/metrics.py:72, 147, 169, 186`). -/
noncomputable def diff (a p : Col ℝ) : Col ℝ := map2 (· - ·) a p

/-- The common shape `loss(a - p).sum() / a.count()` (`metrics.py:126-129, 168-170`). -/
noncomputable def lossOver (f : ℝ → ℝ) (a p : Col ℝ) (normalize : Bool) : ℝ :=
  let s := sum (map1 f (diff a p))
  if normalize then s / (count a : ℝ) else s

/-- `query_l1` (`metrics.py:153-170`). -/
noncomputable def l1 (a p : Col ℝ) (normalize : Bool) : ℝ := lossOver (fun d => |d|) a p normalize

/-- `query_l2` (`metrics.py:132-150`); `diff.dot(diff)` is the sum of the squares. -/
noncomputable def l2 (a p : Col ℝ) (normalize : Bool) : ℝ :=
  let s := dot (diff a p) (diff a p)
  if normalize then s / (count a : ℝ) else s

/-- `query_log_cosh` (`metrics.py:103-110`). -/
noncomputable def logCosh (a p : Col ℝ) (normalize : Bool) : ℝ :=
  let s := sum (map1 (fun d => Real.log (Real.cosh d)) (map2 (fun x y => y - x) a p))
  if normalize then s / (count a : ℝ) else s

/-- One row of `query_hubor_loss` (`metrics.py:125-127`). -/
noncomputable def huberTerm (delta d : ℝ) : ℝ :=
  let t := |d|
  if t ≤ delta then 0.5 * t ^ 2 else delta * (t - 0.5 * delta)

/-- `query_hubor_loss` (`metrics.py:113-129`).  `when(null)` takes the otherwise branch, which is null too, so a
row with a null stays null. -/
noncomputable def huber (delta : ℝ) (a p : Col ℝ) : ℝ := lossOver (huberTerm delta) a p true

/-- `query_msle` (`metrics.py:325-342`). -/
noncomputable def msle (a p : Col ℝ) (normalize : Bool) : ℝ :=
  let lp : ℝ → ℝ := fun x => Real.log (1 + x)
  let d := map2 (· - ·) (map1 lp a) (map1 lp p)
  let s := dot d d
  if normalize then s / (count a : ℝ) else s

/-- `query_l_inf` (`metrics.py:173-186`): null without a complete row. -/
noncomputable def lInf (a p : Col ℝ) : Option ℝ := (vals (map1 (fun d => |d|) (diff a p))).max?

/-- `query_r2` (`metrics.py:59-76`); `none` where the division is by zero or by null. -/
noncomputable def r2 (a p : Col ℝ) : Option ℝ :=
  match mean a with
  | none => none
  | some m =>
    let ssRes := dot (diff a p) (diff a p)
    let d2 := map1 (fun x => x - m) a
    let ssTot := dot d2 d2
    if ssTot = 0 then none else some (1 - ssRes / ssTot)

/-- `query_adj_r2` (`metrics.py:79-100`) for `k` explanatory variables with `k ≤ len` (`len()` is
unsigned, a larger `k` wraps around); `none` where a division is by zero or by null. -/
noncomputable def adjR2 (a p : Col ℝ) (k : ℕ) : Option ℝ :=
  match mean a with
  | none => none
  | some m =>
    let ssRes := dot (diff a p) (diff a p)
    let d2 := map1 (fun x => x - m) a
    let ssTot := dot d2 d2
    let dfRes : ℝ := (a.length : ℝ) - k
    let dfTot : ℝ := (a.length : ℝ) - 1
    if ssTot = 0 ∨ dfRes = 0 ∨ dfTot = 0 then none else some (1 - (ssRes / dfRes) / (ssTot / dfTot))

/-- `query_smape` (`metrics.py:244-263`); `none` is the NaN of a row with both values zero (`0 / 0`), which the
sum passes on. -/
noncomputable def smape (a p : Col ℝ) : Option ℝ :=
  let num := map1 (fun d => |d|) (diff a p)
  let den := map2 (fun x y => |x| + |y|) a p
  if 0 ∈ vals den then none else some (sum (map2 (· / ·) num den) / (count a : ℝ))

/-- `query_mape` (`metrics.py:220-239`) with `weighted=True`; `none` when the denominator is zero. -/
noncomputable def wmape (a p : Col ℝ) : Option ℝ :=
  let den := sum (map1 (fun x => |x|) a)
  if den = 0 then none else some (sum (map1 (fun d => |d|) (diff a p)) / den)

/-- `query_mape` with `weighted=False` (`metrics.py:241`), on columns where no actual is zero. -/
noncomputable def mape (a p : Col ℝ) : Option ℝ := mean (map2 (fun x y => |1 - y / x|) a p)

/-- `xlogy` (`src/num_ext/float_extras.rs:23-29`) for `y > 0` or `x = 0` (otherwise the float
logarithm is infinite or NaN, which the reals do not have). -/
noncomputable def xlogy (x y : ℝ) : ℝ := if x = 0 then 0 else x * Real.log y

/-- `query_log_loss` (`metrics.py:189-217`) with `normalize=True`; null rows are skipped by `mean`. -/
noncomputable def logLoss (a p : Col ℝ) : Option ℝ :=
  let first := map2 xlogy a p
  let second := map2 xlogy (map1 (fun x => 1 - x) a) (map1 (fun x => 1 - x) p)
  (mean (map2 (· + ·) first second)).map fun x => -x

/-- `p.filter(cond)`: rows whose condition is true; a null condition drops the row
(`metrics.py:635, 653-656`). -/
def filterBy {K : Type} (p : Col K) (c : Col Bool) : Col K :=
  ((p.zip c).filter fun q => q.2 == some true).map Prod.fst

/-- `query_fairness` (`metrics.py:619-635`): null when one of the two groups has no value. -/
noncomputable def fairness (p : Col ℝ) (c : Col Bool) : Option ℝ :=
  opt2 (fun x y => |x - y|) (mean (filterBy p c)) (mean (filterBy p (map1 (fun b => !b) c)))

/-- A quotient of the p-percent score (`metrics.py:657-658`) for means that are not negative: a number, infinity or NaN. -/
inductive Q where
  | num (x : ℝ) | inf | nan

/-- Float division of two non-negative numbers (`metrics.py:657`). -/
noncomputable def qdiv (x y : ℝ) : Q :=
  if y = 0 then (if x = 0 then .nan else .inf) else .num (x / y)

/-- `1 / ratio` (`metrics.py:658`). -/
noncomputable def qinv : Q → Q
  | .num x => if x = 0 then .inf else .num (1 / x)
  | .inf => .num 0
  | .nan => .nan

/-- `pl.min_horizontal` on two floats that are either both NaN or neither (`metrics.py:658`). -/
noncomputable def qmin : Q → Q → Q
  | .num x, .num y => .num (min x y)
  | .num x, .inf => .num x
  | .inf, .num y => .num y
  | .inf, .inf => .inf
  | _, _ => .nan

/-- `query_p_pct_score` (`metrics.py:638-658`); `none` when a group has no value. -/
noncomputable def pPct (p : Col ℝ) (c : Col Bool) : Option Q :=
  opt2 (fun x y => qmin (qdiv x y) (qinv (qdiv x y))) (mean (filterBy p c))
    (mean (filterBy p (map1 (fun b => !b) c)))

end Verif.Metrics
