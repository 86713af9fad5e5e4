import Mathlib.Algebra.Order.Field.Basic
import Mathlib.Algebra.BigOperators.Group.List.Basic

/-!
# Specification: correlation of two columns
-/

namespace Verif.Confusion.Spec
variable {K : Type} [Field K]

/-- Numerator of the Pearson correlation: `n Σxy - Σx Σy`. -/
def covN (r : List (K × K)) : K :=
  r.length * (r.map fun p => p.1 * p.2).sum - (r.map (·.1)).sum * (r.map (·.2)).sum

/-- `n Σx² - (Σx)²`. -/
def varN (x : List K) : K := x.length * (x.map fun a => a * a).sum - x.sum * x.sum

/-- Pearson correlation of a list of pairs, for a given square root. -/
def pearson (sqrt : K → K) (r : List (K × K)) : K :=
  covN r / sqrt (varN (r.map (·.1)) * varN (r.map (·.2)))

/-- A row of label and score counted as: label `a` and "above the threshold" equal to `b`. -/
def cell {K : Type} [LT K] [DecidableLT K] (t : K) (rows : List (Bool × K)) (a b : Bool) : Nat :=
  rows.countP fun r => r.1 == a && decide (t < r.2) == b

end Verif.Confusion.Spec
