import Mathlib.Algebra.Order.Field.Basic
import Mathlib.Algebra.BigOperators.Group.Finset.Basic
import Mathlib.Algebra.BigOperators.Group.List.Basic

/-!
# Specification for Mann-Whitney U
-/

namespace Verif.MWU
variable {K : Type} [Field K] [LinearOrder K]

/-- Score of `x` against `y`: a win, half a win on a tie, or nothing. -/
def Spec.score (x y : K) : K := if y < x then 1 else if y = x then 1 / 2 else 0

/-- Total score of the first sample over all pairs. -/
def Spec.wins (xs ys : List K) : K := (xs.map fun x => (ys.map fun y => Spec.score x y).sum).sum

/-- Sum over the tie groups of `t^3 - t`. -/
def Spec.tieTerm (ranks : List K) : K :=
  ∑ r ∈ ranks.toFinset, ((ranks.count r : K) ^ 3 - (ranks.count r : K))

end Verif.MWU
