import Verif.Model.Online

/-!
# Coordinate descent for lasso and elastic net (`src/linalg/lr_solvers.rs:293-375`)

Arithmetic is exact.  A column whose squared norm plus penalty is zero makes the code divide by zero; the theorems
ask for positive norms.
-/

namespace Verif.CD
open Verif.LinReg
variable {K : Type} [Field K] [LinearOrder K] {d : Nat}

/-- `soft_threshold_l1` (`src/linalg/lr_solvers.rs:293-296`).  The sign of zero does not matter for a
non-negative `lambda`. -/
def softThreshold (z lam : K) : K := (if 0 ≤ z then 1 else -1) * max (|z| - lam) 0

/-- `xtx` entry (`src/linalg/lr_solvers.rs:334`). -/
def xtx (rows : List ((Fin d → K) × K)) (i j : Fin d) : K := (rows.map fun r => r.1 i * r.1 j).sum

/-- `xty` entry (`src/linalg/lr_solvers.rs:333`). -/
def xty (rows : List ((Fin d → K) × K)) (j : Fin d) : K := (rows.map fun r => r.1 j * r.2).sum

/-- `norms[j]` (`src/linalg/lr_solvers.rs:328-331`). -/
def norm (rows : List ((Fin d → K) × K)) (l2 : K) (j : Fin d) : K :=
  (rows.map fun r => r.1 j * r.1 j).sum + (rows.length : K) * l2

/-- One coordinate update (`src/linalg/lr_solvers.rs:339-353`) with the running `max_change`. -/
def coord (rows : List ((Fin d → K) × K)) (l1 l2 : K) (st : (Fin d → K) × K) (j : Fin d) : (Fin d → K) × K :=
  let before := st.1 j
  let beta0 := Function.update st.1 j 0
  let mainUpdate := xty rows j - ∑ k, xtx rows j k * beta0 k
  let after := softThreshold mainUpdate ((rows.length : K) * l1) / norm rows l2 j
  (Function.update st.1 j after, max |after - before| st.2)

/-- The bias update (`src/linalg/lr_solvers.rs:354-361`): the mean residual of the other columns. -/
def biasStep (rows : List ((Fin d → K) × K)) (hasBias : Bool) (beta : Fin d → K) : Fin d → K :=
  let n1 := absDiff d hasBias.toNat
  if h : hasBias = true ∧ n1 < d then
    Function.update beta ⟨n1, h.2⟩
      ((rows.map fun r => r.2 - ∑ k : Fin d, if k.val < n1 then r.1 k * beta k else 0).sum / (rows.length : K))
  else beta

/-- The coordinates `0..n1`. -/
def coords (d : Nat) (hasBias : Bool) : List (Fin d) :=
  (List.finRange d).filter fun j => decide (j.val < absDiff d hasBias.toNat)

/-- One iteration of the outer loop (`src/linalg/lr_solvers.rs:337-361`). -/
def sweep (rows : List ((Fin d → K) × K)) (l1 l2 : K) (hasBias : Bool) (beta : Fin d → K) : (Fin d → K) × K :=
  let st := (coords d hasBias).foldl (coord rows l1 l2) (beta, 0)
  (biasStep rows hasBias st.1, st.2)

/-- The outer loop (`src/linalg/lr_solvers.rs:337-366`). -/
def loop (rows : List ((Fin d → K) × K)) (l1 l2 : K) (hasBias : Bool) (tol : K) : Nat → (Fin d → K) → (Fin d → K)
  | 0, beta => beta
  | k + 1, beta =>
    let st := sweep rows l1 l2 hasBias beta
    if st.2 < tol then st.1 else loop rows l1 l2 hasBias tol k st.1

/-- `faer_coordinate_descent` (`src/linalg/lr_solvers.rs:307-375`). -/
def coordinateDescent (rows : List ((Fin d → K) × K)) (l1 l2 : K) (hasBias : Bool) (tol : K) (maxIter : Nat) :
    Fin d → K := loop rows l1 l2 hasBias tol maxIter 0

end Verif.CD
