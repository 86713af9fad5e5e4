import Mathlib.Algebra.Order.Field.Basic
import Mathlib.Algebra.BigOperators.Group.List.Basic

/-!
# Weighted monotone least squares
-/

namespace Verif.Iso
variable {K : Type} [Field K] [LinearOrder K]

/-- Weighted squared error of `z` against the data `(value, weight)`. -/
def Spec.cost (data : List (K × K)) (z : List K) : K :=
  ((data.zip z).map fun p => p.1.2 * (p.1.1 - p.2) ^ 2).sum

/-- Weighted mean of a block of `(value, weight)`. -/
def Spec.mean (B : List (K × K)) : K := (B.map fun p => p.2 * p.1).sum / (B.map (·.2)).sum

/-- The weights the caller asked for: the given ones, or all ones. -/
def Spec.weightsOf {K : Type} [One K] (ws : Option (List K)) (n : Nat) : List K := ws.getD (List.replicate n 1)

end Verif.Iso
