import Verif.Model.Confusion
import Verif.Model.Metrics
import Verif.Model.Weighted

/-!
# Symmetry ratio and coefficient of variation of a series

Real numbers instead of floats; `none` entries are nulls, NaN entries are not represented.
-/

namespace Verif.Spread
open Verif.Pl Verif.Metrics Verif.Confusion

/-- `query_symm_ratio` (`python/polars_ds/exprs/ts_features.py:59-65`); null without values. -/
noncomputable def symmRatio (c : Col ℝ) : Option Q :=
  match mean c, (vals c).max?, (vals c).min? with
  | some m, some hi, some lo => some (qdiv |m - Weighted.median c| (hi - lo))
  | _, _, _ => none

/-- `Expr.std(ddof=ddof)`, used by `query_cv` (`python/polars_ds/exprs/ts_features.py:104`): null unless there are more values
than `ddof`. -/
noncomputable def std (ddof : Nat) (c : Col ℝ) : Option ℝ :=
  if count c ≤ ddof then none
  else some (√(((vals c).map fun v => (v - sum c / (count c : ℝ)) ^ 2).sum / ((count c : ℝ) - ddof)))

/-- Float division of a number that is not negative by any number (`python/polars_ds/exprs/ts_features.py:104`); a zero
divisor counts as positive. -/
noncomputable def fdiv (x y : ℝ) : Val ℝ :=
  if y = 0 then (if x = 0 then .nan else .inf true) else .num (x / y)

/-- `query_cv` (`python/polars_ds/exprs/ts_features.py:92-104`). -/
noncomputable def cv (ddof : Nat) (c : Col ℝ) : Option (Val ℝ) := opt2 fdiv (std ddof c) (mean c)

end Verif.Spread
