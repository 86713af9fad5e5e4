import Mathlib.Analysis.SpecialFunctions.Complex.Arg
import Verif.Model.PlExpr

/-!
# Haversine distance (`src/utils/mod.rs:244-262`, `src/num_ext/haversine.rs`)
-/

namespace Verif.Haversine
open Verif.Pl

/-- `f64::to_radians` (used at `src/utils/mod.rs:249-252`). -/
noncomputable def toRad (x : ℝ) : ℝ := x * Real.pi / 180

/-- The variable `a` of `haversine_elementwise` (`src/utils/mod.rs:249-255`). -/
noncomputable def havA (lat1 lon1 lat2 lon2 : ℝ) : ℝ :=
  let dLat := toRad (lat2 - lat1)
  let dLon := toRad (lon2 - lon1)
  Real.sin (dLat / 2) * Real.sin (dLat / 2) +
    Real.sin (dLon / 2) * Real.sin (dLon / 2) * Real.cos (toRad lat1) * Real.cos (toRad lat2)

/-- `haversine_elementwise` (`src/utils/mod.rs:244-258`); `y.atan2(x)` is the argument of `x + i y`. -/
noncomputable def havElem (lat1 lon1 lat2 lon2 : ℝ) : ℝ :=
  let a := havA lat1 lon1 lat2 lon2
  6371 * (2 * Complex.arg ⟨√(1 - a), √a⟩)

/-- `haversine` on two-element slices (`src/utils/mod.rs:260-262`); other lengths panic or are ignored in the
Rust code, which only reaches this with two columns. -/
noncomputable def havSlice (p q : List ℝ) : ℝ :=
  havElem (p.getD 0 0) (p.getD 1 0) (q.getD 0 0) (q.getD 1 0)

/-- Outcome of the expression. -/
inductive Out (α : Type) where
  | err | panic
  | ok (a : α)

/-- One row of the result (`haversine.rs:21-26`, `38-44`): null as soon as one coordinate is null. -/
noncomputable def row : Option ℝ → Option ℝ → Option ℝ → Option ℝ → Option ℝ
  | some a, some b, some c, some d => some (havElem a b c d)
  | _, _, _, _ => none

/-- The zip of the four columns (`haversine.rs:33-46`). -/
noncomputable def rows4 : Col ℝ → Col ℝ → Col ℝ → Col ℝ → Col ℝ
  | a :: as, b :: bs, c :: cs, d :: ds => row a b c d :: rows4 as bs cs ds
  | _, _, _, _ => []

/-- `naive_haversine` (`haversine.rs:6-53`): a one-row `y` is broadcast (its `unwrap` panics on a null), else
all four lengths must agree. -/
noncomputable def naive (xLat xLon yLat yLon : Col ℝ) : Out (Col ℝ) :=
  match yLat, yLon with
  | [c], [d] =>
    match c, d with
    | some c, some d => .ok (List.zipWith (fun a b => row a b (some c) (some d)) xLat xLon)
    | _, _ => .panic
  | _, _ =>
    if xLat.length = xLon.length ∧ xLon.length = yLat.length ∧ yLat.length = yLon.length then
      .ok (rows4 xLat xLon yLat yLon)
    else .err

end Verif.Haversine
