import Verif.Model.Doubles
import Verif.Model.Haversine

/-!
# Haversine distance in double arithmetic (`src/utils/mod.rs:244-258`)

`Verif.Model.Haversine` is exact.  Here every operation is rounded.  The trigonometric functions of the platform are not in `/repo`: they are
arbitrary functions.  NaN is `none`.
-/

namespace Verif.HavDbl
open Verif.Doubles

/-- The functions of the platform called at `src/utils/mod.rs:254-256`. -/
structure Plat where
  sin : ℝ → ℝ
  cos : ℝ → ℝ
  atan2 : ℝ → ℝ → ℝ

/-- `f64::to_radians` (called at `src/utils/mod.rs:249-252`): one product with the constant `PI / 180.0`. -/
noncomputable def toRad (x : ℝ) : ℝ := rd (x * rd (rd Real.pi / 180))

/-- The variable `a` of `haversine_elementwise` (`src/utils/mod.rs:249-255`).  Simplification: nothing overflows. -/
noncomputable def havA (P : Plat) (lat1 lon1 lat2 lon2 : ℝ) : ℝ :=
  let s := P.sin (rd (toRad (rd (lat2 - lat1)) / 2))
  let t := P.sin (rd (toRad (rd (lon2 - lon1)) / 2))
  rd (rd (s * s) + rd (rd (rd (t * t) * P.cos (toRad lat1)) * P.cos (toRad lat2)))

open Classical in
/-- `haversine_elementwise` (`src/utils/mod.rs:244-258`): the root of a negative number is NaN. -/
noncomputable def hav (P : Plat) (lat1 lon1 lat2 lon2 : ℝ) : Option ℝ :=
  let a := havA P lat1 lon1 lat2 lon2
  if a < 0 ∨ rd (1 - a) < 0 then none
  else some (rd (6371 * rd (2 * P.atan2 (rd √a) (rd √(rd (1 - a))))))

end Verif.HavDbl
