import Verif.Model.PlExpr
import Mathlib.Data.EReal.Operations
import Mathlib.Algebra.Order.Field.Power

/-!
# `next_up` and `next_down` on the bits of floats

`pl_next_up` and `pl_next_down` (`src/num_ext/float_extras.rs:219-271`) apply `f64::next_up`, `f32::next_up` and their
counterparts of the Rust standard library, which work on the bits.  The two formats are instances of `Fmt`; a float is its bits
read as a natural number.
-/

namespace Verif.FloatBits
open Verif.Pl

/-- A binary interchange format: bits of the fraction, bits of the exponent, exponent of the smallest positive number. -/
structure Fmt where
  frac : ℕ
  expo : ℕ
  low : ℤ

/-- `f32`. -/
def f32 : Fmt := ⟨23, 8, -149⟩

/-- `f64`. -/
def f64 : Fmt := ⟨52, 11, -1074⟩

/-- The bits of `INFINITY`; also the magnitude bits from which on a float is infinite or NaN. -/
def Fmt.inf (F : Fmt) : ℕ := (2 ^ F.expo - 1) * 2 ^ F.frac

/-- `SIGN_MASK`. -/
def Fmt.sign (F : Fmt) : ℕ := 2 ^ (F.expo + F.frac)

/-- `bits & !SIGN_MASK`. -/
def Fmt.abs (F : Fmt) (b : ℕ) : ℕ := b % F.sign

/-- `is_nan`. -/
def Fmt.isNan (F : Fmt) (b : ℕ) : Bool := decide (F.inf < F.abs b)

/-- `next_up` of the standard library (called at `src/num_ext/float_extras.rs:233,237`, and at 52 for integers). -/
def Fmt.nextUp (F : Fmt) (b : ℕ) : ℕ :=
  if F.isNan b || b == F.inf then b
  else if F.abs b = 0 then 1
  else if b = F.abs b then b + 1
  else b - 1

/-- `next_down` (called at `src/num_ext/float_extras.rs:260,264`, and at 56 for integers). -/
def Fmt.nextDown (F : Fmt) (b : ℕ) : ℕ :=
  if F.isNan b || b == F.sign + F.inf then b
  else if F.abs b = 0 then F.sign + 1
  else if b = F.abs b then b - 1
  else b + 1

/-- The magnitude bits of the `f32` nearest to a positive integer below `2 ^ 64`, ties to even: the cast of an integer column in
`cast_and_apply_in_place` (polars; called at `src/num_ext/float_extras.rs:51-57`). -/
def roundMag (a : ℕ) : ℕ :=
  let e := Nat.log2 a
  if e ≤ 23 then (e + 126) * 2 ^ 23 + a * 2 ^ (23 - e)
  else
    let d := 2 ^ (e - 23)
    let q := a / d
    let r := a % d
    let m := if 2 * r < d then q else if d < 2 * r then q + 1 else if q % 2 = 0 then q else q + 1
    (e + 126) * 2 ^ 23 + m

/-- The `f32` of an integer. -/
def ofInt (i : ℤ) : ℕ :=
  if i = 0 then 0 else if 0 < i then roundMag i.natAbs else f32.sign + roundMag i.natAbs

/-- A numeric column: integers, or the bits of floats. -/
inductive Column where
  | int (c : Col ℤ)
  | float32 (c : Col ℕ)
  | float64 (c : Col ℕ)
  deriving DecidableEq

/-- The result: a float column. -/
inductive Result where
  | float32 (c : Col ℕ)
  | float64 (c : Col ℕ)
  deriving DecidableEq

/-- `pl_next_up` (`src/num_ext/float_extras.rs:219-243`). -/
def plNextUp : Column → Result
  | .int c => .float32 (map1 (fun i => f32.nextUp (ofInt i)) c)
  | .float32 c => .float32 (map1 f32.nextUp c)
  | .float64 c => .float64 (map1 f64.nextUp c)

/-- `pl_next_down` (`src/num_ext/float_extras.rs:246-270`). -/
def plNextDown : Column → Result
  | .int c => .float32 (map1 (fun i => f32.nextDown (ofInt i)) c)
  | .float32 c => .float32 (map1 f32.nextDown c)
  | .float64 c => .float64 (map1 f64.nextDown c)

end Verif.FloatBits
