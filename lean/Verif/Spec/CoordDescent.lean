import Verif.Spec.LinReg
import Mathlib.Algebra.Order.Group.Unbundled.Abs

/-! # Elastic net objectives -/

namespace Verif.CD.Spec
open Verif.LinReg.Spec
variable {K : Type} [Field K] [LinearOrder K] {d : Nat}

/-- `1/2 |y - X b|² + n l1 |b|₁ + n/2 l2 |b|²`. -/
def elastic (rows : List ((Fin d → K) × K)) (l1 l2 : K) (b : Fin d → K) : K :=
  sse rows b / 2 + (rows.length : K) * l1 * ∑ i, |b i| + (rows.length : K) * l2 / 2 * ∑ i, b i ^ 2

/-- The same with a free intercept `c`. -/
def elasticBias (rows : List ((Fin d → K) × K)) (l1 l2 : K) (b : Fin d → K) (c : K) : K :=
  (rows.map fun r => (r.2 - (dot r.1 b + c)) ^ 2).sum / 2 + (rows.length : K) * l1 * ∑ i, |b i| +
    (rows.length : K) * l2 / 2 * ∑ i, b i ^ 2

end Verif.CD.Spec
