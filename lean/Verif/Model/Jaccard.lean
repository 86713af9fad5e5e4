import Mathlib.Data.List.Dedup
import Mathlib.Algebra.Field.Defs

/-!
# Jaccard similarity of columns and of lists (`src/num_ext/jaccard.rs`)

A column is a list of slots, each a validity bit and the stored value; `into_no_null_iter` visits the stored value of
every slot.  Hash sets are lists without repetition.
-/

namespace Verif.Jaccard
variable {α K : Type} [DecidableEq α] [Field K]

/-- Result of an `f64` division of natural numbers. -/
inductive FDiv (K : Type)
  | nan
  | inf
  | val (x : K)
  deriving DecidableEq

/-- `a as f64 / b as f64`. -/
def natDiv (a b : Nat) : FDiv K :=
  if b = 0 then (if a = 0 then .nan else .inf) else .val ((a : K) / (b : K))

/-- `usize::abs_diff`. -/
def absDiff (a b : Nat) : Nat := (a - b) + (b - a)

/-- `pl_jaccard` (`src/num_ext/jaccard.rs:90-227`) for two columns of the same supported type.  The branches for the
types differ only in the type of the values. -/
def jaccardCol (s1 s2 : List (Bool × α)) (countNull : Bool) : FDiv K :=
  let hasNulls := fun (s : List (Bool × α)) => s.any fun p => !p.1
  let adj := if countNull then (hasNulls s1 && hasNulls s2).toNat else 0
  let hs1 := (s1.map Prod.snd).dedup
  let hs2 := (s2.map Prod.snd).dedup
  let adjusted := (hs1.filter fun x => decide (x ∈ hs2)).length + adj
  natDiv adjusted (absDiff (hs1.length + hs2.length) adjusted)

/-- `jaccard_str` and `jaccard_int` (`src/num_ext/jaccard.rs:15-37`) on two lists with nulls; the sets contain
`Option` values. -/
def jaccardList (a b : List (Option α)) : FDiv K :=
  let hs1 := a.dedup
  let hs2 := b.dedup
  let s3 := (hs1.filter fun x => decide (x ∈ hs2)).length
  natDiv s3 (hs1.length + hs2.length - s3)

/-- `pl_list_jaccard` (`src/num_ext/jaccard.rs:58-88`) on a row: null if a list is null. -/
def jaccardRow (a b : Option (List (Option α))) : Option (FDiv K) :=
  match a, b with
  | some a, some b => some (jaccardList a b)
  | _, _ => none

end Verif.Jaccard
