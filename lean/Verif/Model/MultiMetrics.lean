import Verif.Model.Roc
import Verif.Model.Metrics
import Verif.Model.Weighted

/-!
# Multiclass AUC, Gini, cross entropy, scaled error (`python/polars_ds/exprs/metrics.py`)
-/

namespace Verif.MultiMetrics
open Verif.Pl

/-! ## Multiclass AUC and Gini -/

section Auc

variable {K : Type} [Field K] [LinearOrder K]
open Verif.Roc

/-- Sum of metric values: an error wins over a panic, a panic over NaN, NaN over numbers. -/
def addRes : Res K → Res K → Res K
  | .err, _ => .err
  | _, .err => .err
  | .panic, _ => .panic
  | _, .panic => .panic
  | .nan, _ => .nan
  | _, .nan => .nan
  | .val a, .val b => .val (a + b)

/-- `c * value`; NaN stays NaN even for `c = 0`. -/
def scaleRes (c : K) : Res K → Res K
  | .val a => .val (c * a)
  | r => r

/-- `pl.sum_horizontal` of expressions of one value each (`python/polars_ds/exprs/metrics.py:548, 553`). -/
def sumRes (l : List (Res K)) : Res K := l.foldr addRes (.val 0)

/-- `query_roc_auc(a == i, p.list.get(i))` (`python/polars_ds/exprs/metrics.py:546-552`) on rows of a label and the
predicted probabilities; `list.get` raises when a list is too short.  Simplified: no nulls. -/
def classAuc (rows : List (Nat × List K)) (i : Nat) : Res K :=
  match rows.mapM (fun r => r.2[i]?) with
  | none => .err
  | some ps => rocAuc (ps.map some) (rows.map fun r => some (if r.1 = i then 1 else 0))

/-- `(a == i).sum()` -/
def classCount (rows : List (Nat × List K)) (i : Nat) : Nat := rows.countP fun r => decide (r.1 = i)

/-- `query_multi_roc_auc(strategy="macro")` (`python/polars_ds/exprs/metrics.py:545-548`) -/
def macroAuc (n : Nat) (rows : List (Nat × List K)) : Res K :=
  scaleRes (1 / (n : K)) (sumRes ((List.range n).map (classAuc rows)))

/-- `query_multi_roc_auc(strategy="weighted")` (`python/polars_ds/exprs/metrics.py:549-555`) -/
def weightedAuc (n : Nat) (rows : List (Nat × List K)) : Res K :=
  scaleRes (1 / (rows.length : K))
    (sumRes ((List.range n).map fun i => scaleRes (classCount rows i : K) (classAuc rows i)))

/-- `query_gini` (`python/polars_ds/exprs/metrics.py:391-406`) -/
def gini (pred : List (Option K)) (actual : List (Option Nat)) : Res K :=
  match rocAuc pred actual with
  | .val a => .val (a * 2 - 1)
  | r => r

end Auc

/-! ## Categorical cross entropy -/

/-- Outcome of the cross entropy: an error, infinity (a probability 0), NaN, or a number. -/
inductive Loss
  | err
  | inf
  | nan
  | val (x : ℝ)

/-- `list.get(i)`: a negative index counts from the end; `none` = out of bounds (an error). -/
def listGet (l : List ℝ) (i : Int) : Option ℝ :=
  if 0 ≤ i then l[i.toNat]? else if 0 ≤ (l.length : Int) + i then l[((l.length : Int) + i).toNat]? else none

/-- `list.arg_max()`: the first position of the largest entry. -/
noncomputable def argMax (l : List ℝ) : Option Nat :=
  l.max?.bind fun m => l.findIdx? fun x => decide (x = m)

/-- The picked probabilities; a null label or null probabilities give null, an index out of bounds an error. -/
def pick (a : Option Int) (p : Option (List ℝ)) : Option (Option ℝ) :=
  match a, p with
  | some i, some l => (listGet l i).map some
  | _, _ => some none

/-- The sum `-y_prob.log().sum()`, divided by `a.count()` if `normalize` (`python/polars_ds/exprs/metrics.py:585-587`),
`cnt` the number of non-null labels. -/
noncomputable def entropyOf (ys : List ℝ) (cnt : Nat) (normalize : Bool) : Loss :=
  if ys.any (fun y => decide (y < 0)) then .nan
  else if ys.any (fun y => decide (y = 0)) then .inf
  else if normalize then (if cnt = 0 then .nan else .val (-(ys.map Real.log).sum / cnt))
  else .val (-(ys.map Real.log).sum)

/-- `query_cat_cross_entropy(dense=True)` (`python/polars_ds/exprs/metrics.py:560-587`) -/
noncomputable def crossEntropy (a : List (Option Int)) (p : List (Option (List ℝ))) (normalize : Bool) : Loss :=
  match (List.zipWith pick a p).mapM id with
  | none => .err
  | some ys => entropyOf (ys.filterMap id) (a.filterMap id).length normalize

/-- `query_cat_cross_entropy(dense=False)`: the label is the position of the largest entry. -/
noncomputable def crossEntropyOneHot (a : List (Option (List ℝ))) (p : List (Option (List ℝ))) (normalize : Bool) :
    Loss :=
  match (List.zipWith (fun r l => pick (r.bind fun v => (argMax v).map Int.ofNat) l) a p).mapM id with
  | none => .err
  | some ys => entropyOf (ys.filterMap id) (a.filterMap id).length normalize

/-! ## Scaled error and absolute deviation -/

/-- `Expr.diff(n)` for positive `n`: null in the first `n` rows. -/
def diffN (n : Nat) (c : Col ℝ) : Col ℝ :=
  (c.take n).map (fun _ => none) ++ List.zipWith (opt2 fun a b => b - a) c (c.drop n)

/-- `mean()` or `median()`; null on no values. -/
noncomputable def centre (useMean : Bool) (c : Col ℝ) : Option ℝ :=
  if useMean then mean c else if count c = 0 then none else some (Weighted.median c)

/-- What `train` is: a number (the loss of the naive forecast) or an expression. -/
inductive Train
  | number (x : ℝ)
  | column (c : Col ℝ)

/-- The `train` argument as the caller gives it: a Python float, a Python int, or a column or expression. -/
inductive TrainArg
  | pyFloat (x : ℝ)
  | pyInt (k : Int)
  | expr (c : Col ℝ)

/-- Only a float is taken as a number (`isinstance(train, float)`, `python/polars_ds/exprs/metrics.py:305`); an int
becomes a literal (`python/polars_ds/_utils.py:53-54`), a column of one row. -/
def TrainArg.toTrain : TrainArg → Train
  | .pyFloat x => .number x
  | .pyInt k => .column [some (k : ℝ)]
  | .expr c => .column c

/-- `query_mase` (`python/polars_ds/exprs/metrics.py:266-322`): the outer `none` is the `ValueError`, the inner one
null.  Division as of numbers that are not negative (`Metrics.qdiv`). -/
noncomputable def mase (a p : Col ℝ) (train : Train) (freq : Int) (useMean : Bool) : Option (Option Metrics.Q) :=
  if freq < 1 then none
  else
    let num := centre useMean (map1 (fun d => |d|) (map2 (· - ·) a p))
    some (match train with
      | .number x => num.map fun e => Metrics.qdiv e x
      | .column c => opt2 Metrics.qdiv num (centre useMean (map1 (fun d => |d|) (diffN freq.toNat c))))

/-- `query_mad` (`python/polars_ds/exprs/metrics.py:41-57`) -/
noncomputable def mad (x : Col ℝ) (useMean : Bool) : Option ℝ :=
  (centre useMean x).bind fun m => centre useMean (map1 (fun v => |v - m|) x)

end Verif.MultiMetrics
