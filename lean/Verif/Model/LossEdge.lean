import Verif.Model.PlExpr
import Verif.Model.Confusion
import Mathlib.Analysis.SpecialFunctions.Log.Basic

/-!
# Log loss and percentage errors where a logarithm or a quotient is not finite

`query_log_loss` and `query_mape` (`python/polars_ds/exprs/metrics.py:189-241`) on rows where a logarithm is of zero
or of a negative number, or a quotient is by zero.  Finite values are exact reals; infinities and NaN are those of
IEEE arithmetic (`Confusion.Val`).  Labels are finite; predicted probabilities may be NaN.
-/

namespace Verif.LossEdge
open Verif.Pl Verif.Confusion

/-- `f64::ln` (`src/num_ext/float_extras.rs:27`): minus infinity at zero, NaN below. -/
noncomputable def ln : Val ℝ → Val ℝ
  | .num y => if y < 0 then .nan else if y = 0 then .inf false else .num (Real.log y)
  | .inf true => .inf true
  | .inf false => .nan
  | .nan => .nan

/-- A finite number times a value (`src/num_ext/float_extras.rs:27`). -/
noncomputable def mul (x : ℝ) : Val ℝ → Val ℝ
  | .num y => .num (x * y)
  | .inf b => if x = 0 then .nan else .inf (b == decide (0 < x))
  | .nan => .nan

/-- IEEE addition: infinities of different sign give NaN (`metrics.py:216-217`). -/
def add : Val ℝ → Val ℝ → Val ℝ
  | .num x, .num y => .num (x + y)
  | .num _, .inf b => .inf b
  | .inf b, .num _ => .inf b
  | .inf b, .inf c => if b = c then .inf b else .nan
  | _, _ => .nan

/-- `1.0 - p` (`metrics.py:210, 241`). -/
def oneMinus : Val ℝ → Val ℝ
  | .num y => .num (1 - y)
  | .inf b => .inf (!b)
  | .nan => .nan

/-- Unary minus (`metrics.py:216-217`). -/
def neg : Val ℝ → Val ℝ
  | .num y => .num (-y)
  | .inf b => .inf (!b)
  | .nan => .nan

/-- `Expr.abs()` (`metrics.py:241`). -/
noncomputable def absV : Val ℝ → Val ℝ
  | .num y => .num |y|
  | .inf _ => .inf true
  | .nan => .nan

/-- IEEE division of finite numbers (`metrics.py:241`).  The sign of a zero divisor is taken to be plus: it decides
only the sign of the infinity, which `abs` removes. -/
noncomputable def div (x y : ℝ) : Val ℝ :=
  if y = 0 then (if x = 0 then .nan else .inf (decide (0 < x))) else .num (x / y)

/-- `Expr.sum()` (`metrics.py:217`): nulls are skipped.  polars sums in blocks; the order does not matter for exact
reals, infinities and NaN. -/
def sumV (c : Col (Val ℝ)) : Val ℝ := (vals c).foldr add (.num 0)

/-- `Expr.mean()` (`metrics.py:216, 241`): the sum over the number of values, null if there are none. -/
noncomputable def meanV (c : Col (Val ℝ)) : Option (Val ℝ) :=
  if count c = 0 then none else some (mul (1 / (count c : ℝ)) (sumV c))

/-- `xlogy` (`src/num_ext/float_extras.rs:23-29`). -/
noncomputable def xlogy (x : ℝ) (y : Val ℝ) : Val ℝ :=
  if x = 0 ∧ y ≠ .nan then .num 0 else mul x (ln y)

/-- `query_log_loss` (`metrics.py:189-217`); `pl_xlogy` is null where one of its arguments is
(`src/num_ext/float_extras.rs:273-281`). -/
noncomputable def logLoss (normalize : Bool) (a : Col ℝ) (p : Col (Val ℝ)) : Option (Val ℝ) :=
  let first := map2 xlogy a p
  let second := map2 xlogy (map1 (fun x => 1 - x) a) (map1 oneMinus p)
  let s := map2 add first second
  if normalize then (meanV s).map neg else some (neg (sumV s))

/-- `query_mape` with `weighted=False` (`metrics.py:241`). -/
noncomputable def mape (a p : Col ℝ) : Option (Val ℝ) :=
  meanV (map1 absV (map1 oneMinus (map2 div p a)))

end Verif.LossEdge
