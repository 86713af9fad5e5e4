import Mathlib.Algebra.Field.Defs

/-!
# Area of a polyline
-/

namespace Verif.Trapz
variable {K : Type} [Field K]

/-- Sum of the areas of the trapezoids between consecutive points `(x, y)`. -/
def Spec.area : List (K × K) → K
  | p :: q :: rest => (q.1 - p.1) * ((p.2 + q.2) / 2) + Spec.area (q :: rest)
  | _ => 0

end Verif.Trapz
