import Verif.Model.FloatBits
import Mathlib.Analysis.Real.Sqrt
import Mathlib.Data.Int.Log
import Mathlib.Algebra.Order.Floor.Ring

/-!
# IEEE 754 rounding

The arithmetic of Rust's `f64` and `f32`, which the whole crate computes with: every operation returns the
exact result rounded to the nearest number of the format, ties to the even significand, with gradual
underflow.  Overflow is left out: the exponent is bounded below only (`Verif.Props.Ieee` gives a range of
inputs for which no operation of a distance overflows).
-/

namespace Verif.Ieee
open Verif.FloatBits

/-- The nearest integer, ties to even (IEEE 754 `roundTiesToEven`), on which the `+ - * sqrt` of
`src/utils/mod.rs:308-341` are built. -/
noncomputable def rne (y : ℝ) : ℤ :=
  if Int.fract y < 1 / 2 then ⌊y⌋
  else if 1 / 2 < Int.fract y then ⌊y⌋ + 1
  else if Even ⌊y⌋ then ⌊y⌋ else ⌊y⌋ + 1

/-- The exponent of the unit in the last place of `x`: `frac` below its leading bit, at least that of the
subnormal numbers (IEEE 754). -/
noncomputable def ulp (F : Fmt) (x : ℝ) : ℤ := max (Int.log 2 |x| - F.frac) F.low

/-- The exact result `x` of an operation rounded to the format (`roundTiesToEven`), used by every `+ - * sqrt`
of `DIST::dist` (`src/utils/mod.rs:308-341`) and of the tree (`src/arkadia/kdt.rs:15-57`).  Simplification: no
overflow to infinity. -/
noncomputable def fl (F : Fmt) (x : ℝ) : ℝ := rne (x / 2 ^ ulp F x) * 2 ^ ulp F x

end Verif.Ieee
