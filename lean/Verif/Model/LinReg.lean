import Mathlib.LinearAlgebra.Matrix.NonsingularInverse
import Mathlib.Algebra.Order.Field.Basic
import Mathlib.Data.Fin.Tuple.Basic

/-!
# Batch linear regression (`src/linalg/lr_solvers.rs`, `src/linalg/mod.rs`)

A design matrix with its targets is the list of its rows.  A row with `t` targets is a pair of a feature vector
and a target vector.  Arithmetic is exact.
-/

namespace Verif.LinReg

/-- One row of `[X | Y]`. -/
abbrev Row (d t : Nat) (K : Type) := (Fin d → K) × (Fin t → K)

/-- The dense solvers of `faer` used by the crate.  `faer` is not in this repository; the contract of a
decomposition is that it solves a system whose matrix is invertible.  `svd` and `llt` can fail (`none`). -/
structure Solver (K : Type) [Field K] where
  qr : {d t : Nat} → Matrix (Fin d) (Fin d) K → Matrix (Fin d) (Fin t) K → Matrix (Fin d) (Fin t) K
  qrInverse : {d : Nat} → Matrix (Fin d) (Fin d) K → Matrix (Fin d) (Fin d) K
  svd : {d t : Nat} → Matrix (Fin d) (Fin d) K → Matrix (Fin d) (Fin t) K → Option (Matrix (Fin d) (Fin t) K)
  llt : {d t : Nat} → Matrix (Fin d) (Fin d) K → Matrix (Fin d) (Fin t) K → Option (Matrix (Fin d) (Fin t) K)
  qr_spec : ∀ {d t : Nat} (A : Matrix (Fin d) (Fin d) K) (B : Matrix (Fin d) (Fin t) K),
    IsUnit A.det → A * qr A B = B
  qrInverse_spec : ∀ {d : Nat} (A : Matrix (Fin d) (Fin d) K), IsUnit A.det → A * qrInverse A = 1
  svd_spec : ∀ {d t : Nat} (A : Matrix (Fin d) (Fin d) K) (B M : Matrix (Fin d) (Fin t) K),
    IsUnit A.det → svd A B = some M → A * M = B
  llt_spec : ∀ {d t : Nat} (A : Matrix (Fin d) (Fin d) K) (B M : Matrix (Fin d) (Fin t) K),
    IsUnit A.det → llt A B = some M → A * M = B

/-- `LRSolverMethods` (`src/linalg/mod.rs:32-38`). -/
inductive Method where
  | svd
  | choleskey
  | qr
deriving Repr, DecidableEq

/-- `LRSolverMethods::from(&str)` (`src/linalg/mod.rs:40-49`): everything but `"svd"` is QR. -/
def Method.ofString (s : String) : Method :=
  if s = "qr" then .qr else if s = "svd" then .svd else if s = "choleskey" then .qr else .qr

/-- `LRMethods` (`src/linalg/mod.rs:53-59`). -/
inductive LRMethod where
  | normal
  | l1
  | l2
  | elasticNet
deriving Repr, DecidableEq

variable {K : Type} [Field K] [LinearOrder K]

/-- `LRMethods::from((f64, f64))` (`src/linalg/mod.rs:75-87`). -/
def LRMethod.ofRegs (l1 l2 : K) : LRMethod :=
  if 0 < l1 ∧ l2 ≤ 0 then .l1
  else if l1 ≤ 0 ∧ 0 < l2 then .l2
  else if 0 < l1 ∧ 0 < l2 then .elasticNet
  else .normal

variable {d t : Nat}

/-- `xt * x`. -/
def gram (rows : List (Row d t K)) : Matrix (Fin d) (Fin d) K :=
  fun i j => (rows.map fun r => r.1 i * r.1 j).sum

/-- `xt * y`. -/
def xty (rows : List (Row d t K)) : Matrix (Fin d) (Fin t) K :=
  fun i k => (rows.map fun r => r.1 i * r.2 k).sum

/-- The loop adding `lambda` to the first `n1` diagonal entries (`src/linalg/lr_solvers.rs:242-248`,
`src/linalg/lr_online_solvers.rs:138-144`). -/
def addDiag (A : Matrix (Fin d) (Fin d) K) (lam : K) (n1 : Nat) : Matrix (Fin d) (Fin d) K :=
  fun i j => if i = j ∧ i.val < n1 then A i j + lam else A i j

/-- `x.ncols().abs_diff(has_bias as usize)`. -/
def absDiff (a b : Nat) : Nat := max a b - min a b

/-- `faer_solve_lstsq` (`src/linalg/lr_solvers.rs:231-264`). -/
def solveLstsq (S : Solver K) (rows : List (Row d t K)) (lam : K) (hasBias : Bool) (how : Method) :
    Matrix (Fin d) (Fin t) K :=
  let n1 := absDiff d hasBias.toNat
  let xtx := if 0 ≤ lam ∧ 1 ≤ n1 then addDiag (gram rows) lam n1 else gram rows
  match how with
  | .svd => match S.svd xtx (xty rows) with
    | some m => m
    | none => S.qr xtx (xty rows)
  | .choleskey => match S.llt xtx (xty rows) with
    | some m => m
    | none => S.qr xtx (xty rows)
  | .qr => S.qr xtx (xty rows)

/-- `faer_weighted_lstsq` (`src/linalg/lr_solvers.rs:268-291`).  Rows carry their weight. -/
def wgram (rows : List (K × Row d t K)) : Matrix (Fin d) (Fin d) K :=
  fun i j => (rows.map fun r => r.2.1 i * r.1 * r.2.1 j).sum

/-- `xtw * y` (`src/linalg/lr_solvers.rs:278-289`). -/
def wxty (rows : List (K × Row d t K)) : Matrix (Fin d) (Fin t) K :=
  fun i k => (rows.map fun r => r.2.1 i * r.1 * r.2.2 k).sum

/-- `faer_weighted_lstsq` (`src/linalg/lr_solvers.rs:268-291`). -/
def weightedLstsq (S : Solver K) (rows : List (K × Row d t K)) (how : Method) : Matrix (Fin d) (Fin t) K :=
  match how with
  | .svd => match S.svd (wgram rows) (wxty rows) with
    | some m => m
    | none => S.qr (wgram rows) (wxty rows)
  | .choleskey => match S.llt (wgram rows) (wxty rows) with
    | some m => m
    | none => S.qr (wgram rows) (wxty rows)
  | .qr => S.qr (wgram rows) (wxty rows)

/-- Appending the constant column 1 as the last feature (`src/num_ext/linear_regression.rs:153-155`,
`src/linalg/lr_solvers.rs:59-61`). -/
def withOne (r : Row d t K) : Row (d + 1) t K := (Fin.snoc r.1 1, r.2)

/-- The coefficients computed by `pl_lstsq` / `LR::fit` on complete rows without an l1 penalty
(`src/num_ext/linear_regression.rs:317-320`, `src/linalg/lr_solvers.rs:57-66`), no bias. -/
def linReg (S : Solver K) (rows : List (Row d t K)) (lam : K) (solver : String) : Matrix (Fin d) (Fin t) K :=
  solveLstsq S rows lam false (Method.ofString solver)

/-- The same with a bias: the last coefficient belongs to the constant column. -/
def linRegBias (S : Solver K) (rows : List (Row d t K)) (lam : K) (solver : String) :
    Matrix (Fin (d + 1)) (Fin t) K :=
  solveLstsq S (rows.map withOne) lam true (Method.ofString solver)

end Verif.LinReg
