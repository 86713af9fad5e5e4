/-!
# Leading digit counts (`src/num_ext/benford.rs`)

A column is a list of slots, each a validity bit and the stored value; `into_no_null_iter` visits the stored value of
every slot.
-/

namespace Verif.Benford

/-- The loop of `first_digit` (`src/num_ext/benford.rs:11-14`); Rust's `%` and `/` truncate.  `fuel` bounds the number
of steps. -/
def digitLoop : Nat → Int → Int → Int
  | 0, _, d => d
  | fuel + 1, v, d => if v = 0 then d else digitLoop fuel (v.tdiv 10) (v.tmod 10)

/-- `first_digit` (`src/num_ext/benford.rs:6-16`).  The integer types differ in their range only; the operations do
not overflow. -/
def firstDigit (u : Int) : Int := digitLoop u.natAbs u 0

/-- The array index of an integer (`src/num_ext/benford.rs:22-77`): `d.abs() as usize`, where `d` is not negative for the
unsigned types. -/
def intIndex (u : Int) : Nat := (firstDigit u).natAbs

/-- `char::to_digit(10)`; the characters that occur are decimal digits (`none` = the panic of `unwrap`). -/
def toDigit (c : Char) : Option Nat := if c.isDigit then some (c.toNat - 48) else none

/-- The array index of a finite float with decimal form `s` (`src/num_ext/benford.rs:78-91`). -/
def floatIndex (s : List Char) : Option Nat :=
  toDigit ((s.find? fun c => decide (c ≠ '0') && decide (c ≠ '.')).getD '0')

/-- `out[i] += 1` for each index, then `out[1..]` (`src/num_ext/benford.rs:20`, `107-113`); `none` = index out of
bounds. -/
def tally (idx : List Nat) : Option (List Nat) :=
  if idx.all fun i => decide (i < 10) then
    some ((List.range 10).map fun d => idx.count d).tail
  else none

/-- `pl_benford_law` on an integer column. -/
def benfordInt (s : List (Bool × Int)) : Option (List Nat) := tally (s.map fun p => intIndex p.2)

/-- `pl_benford_law` on a float column (`src/num_ext/benford.rs:78-105`).  A slot stores `none` for a value that is not
finite, otherwise the text of `x.abs().to_string()`. -/
def benfordFloat (s : List (Bool × Option (List Char))) : Option (List Nat) :=
  match (s.filterMap fun p => p.2).mapM floatIndex with
  | some idx => tally idx
  | none => none

end Verif.Benford
