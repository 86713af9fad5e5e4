import Mathlib.Algebra.Order.Field.Basic
import Mathlib.Algebra.Order.AbsoluteValue.Basic
import Mathlib.Algebra.BigOperators.Group.List.Basic

/-!
# The model objects `LR`, `ElasticNet` and `OnlineLR`
(`src/linalg/mod.rs:103-186`, `src/linalg/lr_solvers.rs:8-179`, `src/linalg/lr_online_solvers.rs:18-121`,
`src/pymodels/py_lr.rs`, `python/polars_ds/linear_models.py`)

A coefficient matrix is `none` when it is the empty `0 x 0` matrix `Mat::new()`, and the list of its entries when it
is an `n x 1` matrix.
-/

namespace Verif.LRObject
variable {K : Type} [Field K] [LinearOrder K]

/-- Errors of the object methods; `panic` is an index out of bounds. -/
inductive Err
  | notFit
  | dimension
  | notEnough
  | panic
  deriving DecidableEq, Repr

/-- The fields of `LR` / `ElasticNet` that change (`src/linalg/lr_solvers.rs:9-14, 70-77`). -/
structure Obj (K : Type) where
  coefs : Option (List K)
  hasBias : Bool
  deriving DecidableEq, Repr

/-- `LR::new`, `ElasticNet::new` (`src/linalg/lr_solvers.rs:17-24, 80-89`). -/
def new (hasBias : Bool) : Obj K := { coefs := none, hasBias := hasBias }

/-- `set_coeffs_and_bias` (`src/linalg/lr_solvers.rs:35-48, 117-131`); `eps` is `T::epsilon()`. -/
def setCoeffsAndBias (eps : K) (coeffs : List K) (bias : K) (_ : Obj K) : Obj K :=
  if eps < |bias| then { coefs := some (coeffs ++ [bias]), hasBias := true }
  else { coefs := some coeffs, hasBias := false }

/-- Rust `LR::from_values` (`src/linalg/lr_solvers.rs:26-33`). -/
def rustFromValues (eps : K) (coeffs : List K) (bias : K) : Obj K :=
  { coefs := some coeffs, hasBias := decide (eps < |bias|) }

/-- Python `LR.from_values`, `ElasticNet.from_values` (`python/polars_ds/linear_models.py:127-155, 377-408`). -/
def fromValues (eps : K) (coeffs : List K) (bias : K) : Obj K :=
  setCoeffsAndBias eps coeffs bias (new (decide (bias ≠ 0)))

/-- `bias()` (`src/linalg/mod.rs:109-116`).  With `has_bias` on an empty matrix `nrows() - 1` wraps around and the
access is out of bounds. -/
def bias (o : Obj K) : Except Err K :=
  if o.hasBias then
    match o.coefs with
    | none => .error .panic
    | some l => match l.getLast? with
      | none => .error .panic
      | some b => .ok b
  else .ok 0

/-- `coefficients()` (`src/linalg/mod.rs:120-127`). -/
def coefficients (o : Obj K) : Except Err (Option (List K)) :=
  if o.hasBias then
    match o.coefs with
    | none => .error .panic
    | some [] => .error .panic
    | some (a :: l) => .ok (some ((a :: l).dropLast))
  else .ok o.coefs

/-- `is_fit()` (`src/linalg/mod.rs:144-146`). -/
def isFit (o : Obj K) : Except Err Bool :=
  match coefficients o with
  | .error e => .error e
  | .ok c => .ok c.isSome

/-- `coeffs_as_vec()` (`src/linalg/mod.rs:148-158`). -/
def coeffsAsVec (o : Obj K) : Except Err (List K) :=
  match coefficients o with
  | .error e => .error e
  | .ok none => .error .notFit
  | .ok (some l) => .ok l

/-- One entry of `X * coefficients`. -/
def rowDot (x c : List K) : K := (List.zipWith (· * ·) x c).sum

/-- `predict()` (`src/linalg/mod.rs:168-185`) on a matrix with `ncols` columns. -/
def predict (eps : K) (o : Obj K) (ncols : Nat) (x : List (List K)) : Except Err (List K) :=
  match coefficients o with
  | .error e => .error e
  | .ok c =>
    if ncols ≠ (c.getD []).length then .error .dimension
    else match c with
      | none => .error .notFit
      | some c =>
        match bias o with
        | .error e => .error e
        | .ok b =>
          if o.hasBias = true ∧ eps < |b| then .ok (x.map fun r => rowDot r c + b)
          else .ok (x.map fun r => rowDot r c)

/-- `fit()` (`src/linalg/mod.rs:134-142`); `ElasticNet` overrides it without the row count check
(`src/linalg/lr_solvers.rs:170-178`).  `solve` is the solver applied to the matrix, with the bias flag. -/
def fit (solve : List (List K) → List K → Bool → List K) (wide : Bool) (ncols : Nat) (x : List (List K)) (y : List K)
    (o : Obj K) : Except Err (Obj K) :=
  if x.length ≠ y.length then .error .dimension
  else if (!wide && decide (x.length < ncols)) || x.isEmpty || y.isEmpty then .error .notEnough
  else .ok { o with coefs := some (solve x y o.hasBias) }

/-- The Python methods `LR.bias()` and `OnlineLR.bias()` evaluate the attribute and return nothing
(`python/polars_ds/linear_models.py:189-190, 576-577`). -/
def pyBias (o : Obj K) : Except Err (Option K) :=
  match bias o with
  | .error e => .error e
  | .ok _ => .ok none

/-- Python `ElasticNet.bias()` (`python/polars_ds/linear_models.py:442-443`). -/
def pyBiasEN (o : Obj K) : Except Err (Option K) :=
  match bias o with
  | .error e => .error e
  | .ok b => .ok (some b)

/-- `OnlineLR`: an object together with the rows of its inverse (`src/linalg/lr_online_solvers.rs:18-23`). -/
structure Online (K : Type) where
  obj : Obj K
  inv : List (List K)
  deriving DecidableEq, Repr

/-- `set_coeffs_bias_inverse` (`src/linalg/lr_online_solvers.rs:35-59`); `icols` is the number of columns of
`inv`. -/
def setCoeffsBiasInverse (eps : K) (coeffs : List K) (b : K) (icols : Nat) (inv : List (List K)) (o : Online K) :
    Except Err (Online K) :=
  if coeffs.length ≠ icols then .error .dimension
  else .ok { obj := setCoeffsAndBias eps coeffs b o.obj, inv := inv }

/-- Python `OnlineLR.from_coeffs_bias_inverse` (`python/polars_ds/linear_models.py:534-552`). -/
def fromCoeffsBiasInverse (eps : K) (coeffs : List K) (b : K) (icols : Nat) (inv : List (List K)) :
    Except Err (Online K) :=
  setCoeffsBiasInverse eps coeffs b icols inv { obj := new (decide (0 < b)), inv := [] }

end Verif.LRObject
