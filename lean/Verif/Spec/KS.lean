import Mathlib.Algebra.Order.Field.Basic

/-!
# Empirical distribution functions
-/

namespace Verif.KS
variable {K : Type} [Field K] [LinearOrder K]

/-- Share of the sample at or below `t`. -/
def Spec.ecdf (sample : List K) (t : K) : K := (sample.countP fun x => decide (x ≤ t) : Nat) / (sample.length : K)

end Verif.KS
