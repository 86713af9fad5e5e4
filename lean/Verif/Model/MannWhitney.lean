import Verif.Model.Arith
import Mathlib.Algebra.Order.Field.Basic

/-!
# Mann-Whitney U (`src/stats/mann_whitney_u.rs`, `python/polars_ds/exprs/stats.py:293-334`)
-/

namespace Verif.MWU
open Verif
variable {K : Type} [Field K] [LinearOrder K]

/-- Loop state of `mann_whitney_tie_sum` (`src/stats/mann_whitney_u.rs:9-11`): current rank (initially NaN,
equal to nothing), its count, the accumulant. -/
structure TieState (K : Type) where
  rank : Option K
  cnt : K
  acc : K

/-- Loop body (`src/stats/mann_whitney_u.rs:12-20`). -/
def tieStep (s : TieState K) (v : K) : TieState K :=
  if s.rank = some v then { s with cnt := s.cnt + 1 }
  else ⟨some v, 1, s.acc + s.cnt * (s.cnt + 1) * (s.cnt - 1)⟩

/-- `mann_whitney_tie_sum` (`src/stats/mann_whitney_u.rs:7-22`). -/
def tieSum (ranks : List K) : K := (ranks.foldl tieStep ⟨none, 0, 0⟩).acc

/-- `rank()` of polars with the default method "average" (external): the mean position of the value's group. -/
def rankAvg (l : List K) : List K :=
  l.map fun x => ((l.countP fun y => decide (y < x) : Nat) : K) +
    (((l.countP fun y => decide (y = x) : Nat) : K) + 1) / 2

/-- What reaches the p-value: both statistics, the mean, and the squared standard deviation. -/
structure Stats (K : Type) where
  u1 : K
  u2 : K
  mean : K
  var : K
deriving Repr, DecidableEq

/-- `mann_whitney_u` (`python/polars_ds/exprs/stats.py:318-334`) and the first half of `pl_mann_whitney_u`
(`src/stats/mann_whitney_u.rs:28-42`) on the finite values of both columns.  The normal tail function, the
square root and the choice by `alternative` are left out. -/
def mannWhitney (us : USort) (xs ys : List K) : Stats K :=
  let n1 : K := (xs.length : Nat)
  let n2 : K := (ys.length : Nat)
  let ranks := rankAvg (xs ++ ys)
  let u1 := (ranks.take xs.length).foldl (· + ·) 0 - (n1 * (n1 + 1)) / 2
  let u2 := n1 * n2 - u1
  let mean := n1 * n2 / 2
  let sorted := us.run (fun a b => decide (a ≤ b)) ranks
  let n : K := (sorted.length : Nat)
  ⟨u1, u2, mean, (mean / 6) * ((n + 1) - tieSum sorted / (n * (n - 1)))⟩

end Verif.MWU
