import Mathlib.Algebra.Order.Field.Basic
import Mathlib.Algebra.BigOperators.Fin
import Mathlib.Algebra.BigOperators.Group.List.Basic

/-!
# Least squares objectives

`xs` lists feature vectors with one target value.
-/

namespace Verif.LinReg.Spec
variable {K : Type} [Field K] {d : Nat}

/-- The linear prediction. -/
def dot (x b : Fin d → K) : K := ∑ i, x i * b i

/-- Sum of squared residuals. -/
def sse (rows : List ((Fin d → K) × K)) (b : Fin d → K) : K := (rows.map fun r => (r.2 - dot r.1 b) ^ 2).sum

/-- Ridge objective. -/
def ridge (rows : List ((Fin d → K) × K)) (lam : K) (b : Fin d → K) : K := sse rows b + lam * ∑ i, b i ^ 2

/-- Ridge objective with a free intercept `c`. -/
def ridgeBias (rows : List ((Fin d → K) × K)) (lam : K) (b : Fin d → K) (c : K) : K :=
  (rows.map fun r => (r.2 - (dot r.1 b + c)) ^ 2).sum + lam * ∑ i, b i ^ 2

/-- Weighted sum of squared residuals; each row carries its weight. -/
def wsse (rows : List (K × (Fin d → K) × K)) (b : Fin d → K) : K :=
  (rows.map fun r => r.1 * (r.2.2 - dot r.2.1 b) ^ 2).sum

/-- The same with an intercept `c`. -/
def wsseBias (rows : List (K × (Fin d → K) × K)) (b : Fin d → K) (c : K) : K :=
  (rows.map fun r => r.1 * (r.2.2 - (dot r.2.1 b + c)) ^ 2).sum

/-- No non-zero direction is invisible to the data. -/
def FullRank (rows : List ((Fin d → K) × K)) : Prop :=
  ∀ v : Fin d → K, (∀ r ∈ rows, dot r.1 v = 0) → v = 0

/-- The same for a model with an intercept. -/
def FullRankBias (rows : List ((Fin d → K) × K)) : Prop :=
  ∀ (v : Fin d → K) (c : K), (∀ r ∈ rows, dot r.1 v + c = 0) → v = 0 ∧ c = 0

end Verif.LinReg.Spec
