import Mathlib.Algebra.Field.Defs
import Mathlib.Algebra.BigOperators.Group.List.Defs

/-!
# Trapezoid integration (`src/num_ext/trapz.rs`)
-/

namespace Verif.Trapz
variable {K : Type} [Field K]

/-- `trapz` (`src/num_ext/trapz.rs:7-18`).  `add_vector`, `sub_vector` and `dot` of the crate `cfavml` are the
elementwise sum, difference and the inner product.  `y.len() - 1` underflows for empty input; callers exclude
it. -/
def trapz (y x : List K) : K :=
  match y, x with
  | [y0], [x0] => y0 * x0 * (-(1 / 2))
  | _, _ =>
    let yd := List.zipWith (· + ·) y.tail y
    let xd := List.zipWith (· - ·) x.tail x
    1 / 2 * (List.zipWith (· * ·) yd xd).sum

/-- `trapz_dx` (`src/num_ext/trapz.rs:20-24`); called with at least two values. -/
def trapzDx (y : List K) (dx : K) : K :=
  let s := y.tail.dropLast.sum
  let ss := 1 / 2 * (y.head?.getD 0 + y.getLast?.getD 0)
  dx * (s + ss)

/-- Results of the expression. -/
inductive Res (K : Type) where
  | val (v : K)
  | nan
  | err (msg : String)
deriving Repr, DecidableEq

/-- `pl_trapz` (`src/num_ext/trapz.rs:27-49`). -/
def plTrapz (y x : List (Option K)) : Res K :=
  if y.length < 1 then .nan
  else
    match y.mapM id, x.mapM id with
    | some y, some x =>
      match x with
      | [dx] => if 1 < y.length then .val (trapzDx y dx) else .val (trapz y x)
      | _ =>
        if x.length = y.length then .val (trapz y x)
        else .err "Input must have the same length or x must be a scalar."
    | _, _ => .nan

end Verif.Trapz
