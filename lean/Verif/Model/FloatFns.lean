import Verif.Model.Ieee
import Mathlib.Data.EReal.Inv

/-!
# `logit`, `expit`, `exp2` and `gamma` on float and integer columns (`src/num_ext/float_extras.rs`)

A float is `none` (NaN) or an extended real; both zeros are one value.  The functions of the C library (`exp`, `ln`, `exp2`,
`tgamma`) are parameters; integer columns are cast to `f32`.
-/

namespace Verif.FloatFns
open Verif.FloatBits Verif.Ieee Verif.Pl

/-- A float that is not NaN, or NaN. -/
abbrev Fv := Option EReal

/-- The exact result of an operation rounded to the format, with overflow (IEEE 754; every `+ - /` of
`src/num_ext/float_extras.rs:11-33`). -/
noncomputable def rnd (F : Fmt) (x : ℝ) : EReal :=
  if (2 : ℝ) ^ (F.low + F.frac + 2 ^ F.expo - 2) ≤ |fl F x| then if 0 < x then ⊤ else ⊥ else (fl F x : EReal)

/-- `1 + t` for `t ≥ 0` (`src/num_ext/float_extras.rs:32`). -/
noncomputable def onePlus (F : Fmt) (t : EReal) : EReal := if t = ⊤ then ⊤ else rnd F (1 + t.toReal)

/-- `1 / s` for `s > 0` (`src/num_ext/float_extras.rs:32`). -/
noncomputable def recip (F : Fmt) (s : EReal) : EReal := if s = ⊤ then 0 else rnd F (1 / s.toReal)

/-- `expit` (`src/num_ext/float_extras.rs:31-33`) with the library's `exp`. -/
noncomputable def expit (F : Fmt) (exp : EReal → EReal) : Fv → Fv
  | none => none
  | some x => some (recip F (onePlus F (exp (-x))))

/-- The last branch of `logit` (`src/num_ext/float_extras.rs:19`) for `x` between 0 and 1: `ln` of the rounded quotient. -/
noncomputable def logitIn (F : Fmt) (ln : EReal → EReal) (x : ℝ) : EReal := ln (rnd F (x / fl F (1 - x)))

/-- `logit` (`src/num_ext/float_extras.rs:11-21`) with the library's `ln`.  NaN passes all comparisons and stays NaN. -/
noncomputable def logit (F : Fmt) (ln : EReal → EReal) : Fv → Fv
  | none => none
  | some x =>
    if x = 0 then some ⊥ else if x = 1 then some ⊤ else if x < 0 ∨ 1 < x then none
    else some (logitIn F ln x.toReal)

/-- A numeric column. -/
inductive Column where
  | int (c : Col ℤ)
  | float32 (c : Col Fv)
  | float64 (c : Col Fv)

/-- A float column. -/
inductive Result where
  | float32 (c : Col Fv)
  | float64 (c : Col Fv)

/-- The match on the column type in `pl_logit`, `pl_expit`, `pl_gamma`, `pl_exp2` (`src/num_ext/float_extras.rs:67-170`):
integers are cast to `f32` (`cast_and_apply_in_place`, 35-49), floats keep their type; nulls stay. -/
noncomputable def apply (g32 g64 : Fv → Fv) : Column → Result
  | .int c => .float32 (map1 (fun i : ℤ => g32 (some (rnd f32 i))) c)
  | .float32 c => .float32 (map1 g32 c)
  | .float64 c => .float64 (map1 g64 c)

/-- `pl_expit` (`src/num_ext/float_extras.rs:93-116`). -/
noncomputable def plExpit (exp32 exp64 : EReal → EReal) : Column → Result := apply (expit f32 exp32) (expit f64 exp64)

/-- `pl_logit` (`src/num_ext/float_extras.rs:66-90`). -/
noncomputable def plLogit (ln32 ln64 : EReal → EReal) : Column → Result := apply (logit f32 ln32) (logit f64 ln64)

/-- `pl_exp2` (`src/num_ext/float_extras.rs:145-168`) with the library's functions. -/
noncomputable def plExp2 (exp2f exp2 : EReal → EReal) : Column → Result := apply (Option.map exp2f) (Option.map exp2)

/-- `pl_gamma` (`src/num_ext/float_extras.rs:119-142`) with the library's functions. -/
noncomputable def plGamma (gammaf gamma : Fv → Fv) : Column → Result := apply gammaf gamma

end Verif.FloatFns
