import Verif.Model.PlExpr

/-!
# `simple_lin_reg` (`python/polars_ds/exprs/expr_linear.py:45-106`)

Field elements instead of floats. A quotient by zero and a null are both `none`.
-/

namespace Verif.SimpleLr
open Verif.Pl

variable {K : Type} [Field K] [DecidableEq K]

/-- `/` of two scalars; `none` when the result is not a finite number. -/
def quot (a b : K) : Option K := if b = 0 then none else some (a / b)

/-- Slope with a constant, no weights (`expr_linear.py:75-78`). -/
def slopeBias (x y : Col K) (xm ym : K) : Option K :=
  quot (dot (map1 (· - xm) x) (map1 (· - ym) y)) (dot (map1 (· - xm) x) (map1 (· - xm) x))

/-- Slope with a constant and weights (`expr_linear.py:85`). -/
def slopeBiasW (w x y : Col K) (xm ym : K) : Option K :=
  quot (dot w (map2 (· * ·) (map1 (· - xm) x) (map1 (· - ym) y))) (dot w (map1 (· ^ 2) (map1 (· - xm) x)))

/-- The two means (`expr_linear.py:76-77`, `82-84`). -/
def means (w : Option (Col K)) (x y : Col K) : Option (K × K) :=
  match w with
  | none => (mean x).bind fun xm => (mean y).map fun ym => (xm, ym)
  | some w => (quot (dot w x) (sum w)).bind fun xm => (quot (dot w y) (sum w)).map fun ym => (xm, ym)

/-- The coefficients `beta`, `alpha` with a constant (`expr_linear.py:74-86`). -/
def fitBias (w : Option (Col K)) (x y : Col K) : Option (K × K) :=
  (means w x y).bind fun m =>
    (match w with
      | none => slopeBias x y m.1 m.2
      | some w => slopeBiasW w x y m.1 m.2).map fun b => (b, m.2 - b * m.1)

/-- The coefficient `beta` without a constant (`expr_linear.py:95-100`). -/
def fitPlain (w : Option (Col K)) (x y : Col K) : Option K :=
  match w with
  | none => quot (dot x y) (dot x x)
  | some w => quot (dot w (map2 (· * ·) x y)) (dot w (map1 (· ^ 2) x))

/-- `simple_lin_reg(..., return_pred=False)`: the list of coefficients (`expr_linear.py:92-93`, `105`). -/
def coeffs (bias : Bool) (w : Option (Col K)) (x y : Col K) : Option (List K) :=
  if bias then (fitBias w x y).map fun c => [c.1, c.2] else (fitPlain w x y).map fun b => [b]

/-- `simple_lin_reg(..., return_pred=True)`: the columns `pred` and `resid` (`expr_linear.py:88-91`, `102-103`). -/
def preds (bias : Bool) (w : Option (Col K)) (x y : Col K) : Option (Col K × Col K) :=
  if bias then
    (fitBias w x y).map fun c => (map1 (fun v => c.1 * v + c.2) x, map2 (fun u v => u - (c.1 * v + c.2)) y x)
  else (fitPlain w x y).map fun b => (map1 (fun v => b * v) x, map2 (fun u v => u - b * v) y x)

end Verif.SimpleLr
