import Verif.Model.LinReg
import Mathlib.Data.Matrix.Diagonal

/-!
# Least squares with a cut-off for small singular values (`src/linalg/lr_solvers.rs:188-226`)
-/

namespace Verif.Rcond
open Verif.LinReg Matrix
variable {K : Type} [Field K] [LinearOrder K] {d : Nat}

/-- What `xtx.thin_svd()` returns for a square matrix, with the entrywise square roots of `S`
(`src/linalg/lr_solvers.rs:208-210`).  `faer` is not in this repository: the contract is a factorisation
`U diag(S) Vᵀ` with orthogonal factors; `sv` are the non-negative square roots of `S`. -/
structure Svd (A : Matrix (Fin d) (Fin d) K) where
  U : Matrix (Fin d) (Fin d) K
  V : Matrix (Fin d) (Fin d) K
  sv : Fin d → K
  orthU : Uᵀ * U = 1
  orthV : Vᵀ * V = 1
  nonneg : ∀ i, 0 ≤ sv i
  eq : A = U * diagonal (fun i => sv i ^ 2) * Vᵀ

/-- The normal matrix with `lambda` on the diagonal (`src/linalg/lr_solvers.rs:195-206`). -/
def normalMatrix (rows : List (Row d 1 K)) (lam : K) (hasBias : Bool) : Matrix (Fin d) (Fin d) K :=
  let n1 := absDiff d hasBias.toNat
  if 0 ≤ lam ∧ 1 ≤ n1 then addDiag (gram rows) lam n1 else gram rows

/-- `max_singular_value` (`src/linalg/lr_solvers.rs:214`); the fold starts below every square root. -/
def maxSv (sv : Fin d → K) : K := (List.finRange d).foldl (fun m i => max m (sv i)) 0

/-- `s_inv` (`src/linalg/lr_solvers.rs:215-222`). -/
def sInv (sv : Fin d → K) (rcond : K) (i : Fin d) : K :=
  if rcond * maxSv sv ≤ sv i ^ 2 then (sv i ^ 2)⁻¹ else 0

/-- `faer_solve_lstsq_rcond` (`src/linalg/lr_solvers.rs:188-226`): coefficients and singular values. -/
def solveRcond (rows : List (Row d 1 K)) (lam : K) (hasBias : Bool) (svd : Svd (normalMatrix rows lam hasBias))
    (rcond : K) : (Fin d → K) × (Fin d → K) :=
  (fun i => (svd.V * diagonal (sInv svd.sv rcond) * svd.Uᵀ * xty rows) i 0, svd.sv)

end Verif.Rcond
