import Verif.Model.PlExpr
import Mathlib.Data.Rat.Cast.Order
import Mathlib.Algebra.Order.Field.Rat

/-!
# xi correlation (`src/stats/xi_corr.rs`, `python/polars_ds/exprs/stats.py:987-1028`)

Rows hold an `x` and a `y` value, null allowed.  Values only matter through their order.
-/

namespace Verif.Xi
open Verif.Pl

variable {α β : Type} [LinearOrder α] [LinearOrder β]

/-- `yy.rank(method="max")` (`stats.py:1013`): a non-null entry gets the number of non-null entries that are
not larger; nulls stay null. -/
def rankMax (y : List (Option β)) : List (Option ℚ) :=
  y.map (Option.map fun v => (((vals y).filter fun u => decide (u ≤ v)).length : ℚ))

/-- `(-yy).rank(method="max")` (`stats.py:1014`): negation reverses the order of the values. -/
def rankMaxNeg (y : List (Option β)) : List (Option ℚ) :=
  y.map (Option.map fun v => (((vals y).filter fun u => decide (v ≤ u)).length : ℚ))

/-- `diff(1, NullBehavior::Ignore).abs()` (`xi_corr.rs:17`): the first entry is null, so is every difference
with a null. -/
def absDiff : List (Option ℚ) → List (Option ℚ)
  | [] => []
  | _ :: [] => []
  | a :: b :: t => opt2 (fun u v => |v - u|) a b :: absDiff (b :: t)

/-- The select of `_xi_corr` (`xi_corr.rs:14-18`) on the rank columns `r` and `l`, already in the order of
`x_rk`; `none` is the NaN of a zero denominator (where the numerator is zero as well). -/
def xiSelect (r l : List (Option ℚ)) : Option ℚ :=
  let n : ℚ := r.length
  let num := n / 2 * sum (absDiff r)
  let den := sum (l.map (Option.map fun v => v * (n - v)))
  if den = 0 then none else some (1 - num / den)

/-- `xi_corr(x, y)` on rows already put in the order of `x.rank(method="random")`
(`stats.py:1011-1028`, `xi_corr.rs:6-24`).  The random rank is any order compatible with `x`: see `Ordered`. -/
def xiCorr (rows : List (Option α × Option β)) : Option ℚ :=
  xiSelect (rankMax (rows.map Prod.snd)) (rankMaxNeg (rows.map Prod.snd))

/-- A row order that `x.rank(method="random")` followed by `sort(["x_rk"])` can produce
(`stats.py:1012`, `xi_corr.rs:13`): a permutation of the rows, null `x` first (polars' default), then by
increasing `x`; the seed decides between equal values. -/
def Ordered (rows out : List (Option α × Option β)) : Prop :=
  out.Perm rows ∧ out.Pairwise fun a b =>
    match a.1, b.1 with
    | none, _ => True
    | some _, none => False
    | some u, some v => u ≤ v

end Verif.Xi
