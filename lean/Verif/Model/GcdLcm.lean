import Mathlib.Data.Int.GCD

/-!
# gcd and lcm of `i32` columns (`src/num_ext/gcd_lcm.rs`)
-/

namespace Verif.GcdLcm

/-- Wrap-around to the `i32` range. -/
def wrap32 (x : Int) : Int := (x + 2 ^ 31) % 2 ^ 32 - 2 ^ 31

/-- `num::integer::gcd` for `i32` (num-integer, not in this repository): the binary algorithm yields the
non-negative gcd, wrapped for the one value `2^31` that is not an `i32`. -/
def gcd32 (a b : Int) : Int := wrap32 (Int.gcd a b)

/-- `num::integer::lcm` for `i32` (num-integer, not in this repository): 0 if both are 0, else
`(a * (b / gcd(a, b))).abs()` with wrap-around. -/
def lcm32 (a b : Int) : Int :=
  if a = 0 ∧ b = 0 then 0
  else
    let x := wrap32 (a * wrap32 (b.tdiv (gcd32 a b)))
    wrap32 x.natAbs

/-- Outcome of a plugin call. -/
inductive Res
  | ok (out : List (Option Int))
  | panic
  | shapeMismatch
  deriving DecidableEq

/-- `binary_elementwise_values` of polars on one row: null if either side is null. -/
def rowOp (f : Int → Int → Int) (p : Option Int × Option Int) : Option Int :=
  match p.1, p.2 with
  | some x, some y => some (f x y)
  | _, _ => none

/-- `pl_gcd` and `pl_lcm` (`src/num_ext/gcd_lcm.rs:6-22` and `24-40`) for the function `f`: one scalar on the right
(a null scalar panics in `unwrap`), or row by row; null rows stay null. -/
def binaryCol (f : Int → Int → Int) (a b : List (Option Int)) : Res :=
  if b.length = 1 then
    match b[0]? with
    | some (some y) => .ok (a.map fun x => x.map fun x => f x y)
    | _ => .panic
  else if a.length = b.length then
    .ok ((a.zip b).map (rowOp f))
  else .shapeMismatch

/-- `pl_gcd` (`src/num_ext/gcd_lcm.rs:6-22`). -/
def plGcd (a b : List (Option Int)) : Res := binaryCol gcd32 a b
/-- `pl_lcm` (`src/num_ext/gcd_lcm.rs:24-40`). -/
def plLcm (a b : List (Option Int)) : Res := binaryCol lcm32 a b

end Verif.GcdLcm
