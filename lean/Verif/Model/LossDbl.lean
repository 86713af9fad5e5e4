import Verif.Model.ScaleDbl

/-!
# Regression losses of Float64 columns in double arithmetic (`python/polars_ds/exprs/metrics.py`)

The columns hold finite numbers and nulls.  `rd` rounds to the nearest double; overflow is not modelled.  `sum` stands for polars'
`sum()` of a Float64 column: a fixed function that adds the known values in some order (`IsSumFn`).
-/

namespace Verif.LossDbl
open Verif Verif.Doubles Verif.ScaleDbl
open Verif.Pl (Col vals map2 count)
open Verif.Confusion (Val)

/-- polars' `sum()`, called at `python/polars_ds/exprs/metrics.py:169-170, 263` and inside `dot`. -/
def IsSumFn (sum : List ℝ → ℝ) : Prop := ∀ l, IsSum l (sum l)

/-- `a - p` (`python/polars_ds/exprs/metrics.py:147, 169`) on the rows where both are known. -/
noncomputable def diff (a p : Col ℝ) : List ℝ := vals (map2 (fun x y => rd (x - y)) a p)

/-- `x.dot(x)` (`python/polars_ds/exprs/metrics.py:149-150`): polars adds up the products. -/
noncomputable def dotSelf (sum : List ℝ → ℝ) (d : List ℝ) : ℝ := sum (d.map fun x => rd (x * x))

/-- `query_l1` (`python/polars_ds/exprs/metrics.py:153-170`). -/
noncomputable def l1 (sum : List ℝ → ℝ) (normalize : Bool) (a p : Col ℝ) : Val ℝ :=
  if normalize then fdiv (sum ((diff a p).map abs)) (count a) else .num (sum ((diff a p).map abs))

/-- `query_l2` (`python/polars_ds/exprs/metrics.py:132-150`). -/
noncomputable def l2 (sum : List ℝ → ℝ) (normalize : Bool) (a p : Col ℝ) : Val ℝ :=
  if normalize then fdiv (dotSelf sum (diff a p)) (count a) else .num (dotSelf sum (diff a p))

/-- `query_l_inf` (`python/polars_ds/exprs/metrics.py:173-186`): null without a complete row. -/
noncomputable def lInf (a p : Col ℝ) : Option ℝ := ((diff a p).map abs).max?

/-- `a.mean()` (`python/polars_ds/exprs/metrics.py:74`); not used without a value. -/
noncomputable def mean (sum : List ℝ → ℝ) (a : Col ℝ) : ℝ := rd (sum (vals a) / (vals a).length)

/-- `1.0 - x` (`python/polars_ds/exprs/metrics.py:76`). -/
noncomputable def oneMinus : Val ℝ → Val ℝ
  | .num x => .num (rd (1 - x))
  | .inf pos => .inf (!pos)
  | .nan => .nan

/-- `query_r2` (`python/polars_ds/exprs/metrics.py:59-76`). -/
noncomputable def r2 (sum : List ℝ → ℝ) (a p : Col ℝ) : Val ℝ :=
  oneMinus (fdiv (dotSelf sum (diff a p)) (dotSelf sum ((vals a).map fun x => rd (x - mean sum a))))

/-- The quotients of `query_smape` (`python/polars_ds/exprs/metrics.py:261-263`). -/
noncomputable def smapeTerms (a p : Col ℝ) : List (Val ℝ) := vals (map2 (fun x y => fdiv |rd (x - y)| (rd (|x| + |y|))) a p)

/-- The numbers among the quotients, for `.sum()` (`python/polars_ds/exprs/metrics.py:263`). -/
def getNum : Val ℝ → Option ℝ
  | .num x => some x
  | _ => none

/-- `query_smape` (`python/polars_ds/exprs/metrics.py:244-263`): a quotient `0 / 0` makes the sum NaN. -/
noncomputable def smape (sum : List ℝ → ℝ) (a p : Col ℝ) : Val ℝ :=
  if (smapeTerms a p).any (fun v => (getNum v).isNone) then .nan
  else fdiv (sum ((smapeTerms a p).filterMap getNum)) (count a)

end Verif.LossDbl
