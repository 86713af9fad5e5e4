import Mathlib.Data.List.Dedup
import Mathlib.Algebra.Field.Defs
import Mathlib.Algebra.Order.Ring.Defs
import Mathlib.Algebra.Order.Group.Unbundled.Abs

/-!
# N-gram set similarities (`src/str_ext/mod.rs`, `str_jaccard.rs`, `sorensen_dice.rs`, `overlap.rs`, `tversky.rs`)

A string is its list of bytes (the theorems hold for every letter type).  A hash set is the list of its members
without repetition.
-/

namespace Verif.StrSim
variable {α K : Type} [DecidableEq α] [Field K]

/-- `slice::windows(n)` for `n ≥ 1`. -/
def windows (n : Nat) (w : List α) : List (List α) :=
  (List.range (w.length + 1 - n)).map fun i => (w.drop i).take n

/-- The set built from one word (`src/str_ext/mod.rs:37-47`); `none` is the panic of `windows(0)`. -/
def gramSet (w : List α) (ngram : Nat) : Option (List (List α)) :=
  if w.length < ngram then some [w]
  else if ngram = 0 then none
  else some (windows ngram w).dedup

/-- `str_set_sim_helper` (`src/str_ext/mod.rs:24-51`): sizes of both sets and of the intersection. -/
def setSim (w1 w2 : List α) (ngram : Nat) : Option (Nat × Nat × Nat) :=
  if w1.length = 0 ∨ w2.length = 0 then some (0, 0, 0)
  else
    match gramSet w1 ngram, gramSet w2 ngram with
    | some s1, some s2 => some (s1.length, s2.length, (s1.filter fun g => decide (g ∈ s2)).length)
    | _, _ => none

open Classical in
/-- `f64` division of `a ≥ 0` by `b`, where `0 / 0` is NaN (`none`).  In these functions `b = 0` only if
`a = 0`. -/
noncomputable def fdiv (a b : K) : Option K := if b = 0 then none else some (a / b)

/-- `str_jaccard` (`src/str_ext/str_jaccard.rs:17-20`).  The outer option is a panic, the inner one NaN. -/
noncomputable def strJaccard (w1 w2 : List α) (ngram : Nat) : Option (Option K) :=
  (setSim w1 w2 ngram).map fun t => fdiv (t.2.2 : K) ((t.1 + t.2.1 - t.2.2 : Nat) : K)

/-- `sorensen_dice` (`src/str_ext/sorensen_dice.rs:16-19`). -/
noncomputable def sorensenDice (w1 w2 : List α) (ngram : Nat) : Option (Option K) :=
  (setSim w1 w2 ngram).map fun t => fdiv ((2 * t.2.2 : Nat) : K) ((t.1 + t.2.1 : Nat) : K)

/-- `overlap_coeff` (`src/str_ext/overlap.rs:16-19`). -/
noncomputable def overlapCoeff (w1 w2 : List α) (ngram : Nat) : Option (Option K) :=
  (setSim w1 w2 ngram).map fun t => fdiv (t.2.2 : K) ((min t.1 t.2.1 : Nat) : K)

/-- `usize::abs_diff`. -/
def absDiff (a b : Nat) : Nat := (a - b) + (b - a)

/-- `tversky_sim` (`src/str_ext/tversky.rs:17-22`). -/
noncomputable def tverskySim (w1 w2 : List α) (ngram : Nat) (alpha beta : K) : Option (Option K) :=
  (setSim w1 w2 ngram).map fun t =>
    fdiv (t.2.2 : K) ((t.2.2 : K) + alpha * (absDiff t.1 t.2.2 : Nat) + beta * (absDiff t.2.1 t.2.2 : Nat))

end Verif.StrSim
