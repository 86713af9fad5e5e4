import Verif.Model.PlExpr
import Verif.Model.Confusion
import Mathlib.Data.Matrix.Mul
import Mathlib.Data.Matrix.Diagonal
import Mathlib.Data.Real.Basic

/-!
# Singular values and principal components (`src/num_ext/pca.rs`, `python/polars_ds/exprs/num.py:268-361`)

The singular value decomposition itself is done by the `faer` crate, which is not in `/repo`; its contract is
the structure `Svd` below.  Everything around it is modelled: centering, dropping of rows with nulls, the
projection, the conversion of singular values to explained variances and ratios.
-/

namespace Verif.Pca
open Verif.Pl Verif.Confusion

/-- Contract of `faer::linalg::svd::svd` (`src/num_ext/pca.rs:55-71, 101-119`) on a matrix with at least as many
rows as columns: orthonormal factors, singular values non-negative and in descending order. -/
structure Svd {m p : Nat} (X : Matrix (Fin m) (Fin p) ℝ) (s : Fin p → ℝ) (V : Matrix (Fin p) (Fin p) ℝ) : Prop where
  left : ∃ U : Matrix (Fin m) (Fin p) ℝ, U.transpose * U = 1 ∧ X = U * Matrix.diagonal s * V.transpose
  right : V.transpose * V = 1
  nonneg : ∀ i, 0 ≤ s i
  anti : ∀ i j, i ≤ j → s j ≤ s i

/-- `let components = mat * v` (`src/num_ext/pca.rs:121`); column `i` is `pc{i+1}`. -/
def components {m p : Nat} (X : Matrix (Fin m) (Fin p) ℝ) (V : Matrix (Fin p) (Fin p) ℝ) :
    Matrix (Fin m) (Fin p) ℝ := X * V

/-- Outcome of `pl_principal_components`. -/
inductive Pcs where
  | nan
  | panic
  | cols (c : List (List ℝ))

/-- `pl_principal_components` (`src/num_ext/pca.rs:81-133`): NaN for fewer rows than `k`; with fewer rows than
columns the buffer for the right factor is `dim × dim` with `dim = nrows`, not `ncols` rows, which the
decomposition rejects (panic); otherwise the first `k` columns of `X V`. -/
def principalComponents {m p : Nat} (k : Nat) (X : Matrix (Fin m) (Fin p) ℝ) (V : Matrix (Fin p) (Fin p) ℝ) : Pcs :=
  if m < k then .nan
  else if m < p then .panic
  else .cols (((List.finRange p).take k).map fun j => (List.finRange m).map fun i => components X V i j)

/-- `f - f.mean()` for every feature, before rows with nulls are dropped
(`python/polars_ds/exprs/num.py:294, 325, 357`). -/
noncomputable def centerCol (c : Col ℝ) : Col ℝ :=
  c.map fun x => opt2 (· - ·) x (mean c)

/-- `drop_nulls` on the frame (`src/utils/mod.rs:26-27`): the rows in which every column is known.  Two columns,
for the statement about centering. -/
def dropNulls2 (a b : Col ℝ) : List (ℝ × ℝ) := vals (map2 Prod.mk a b)

/-- `as_explained_var` (`python/polars_ds/exprs/num.py:300-301`): inside `list.eval`, `pl.count()` is the number
of elements of the list of singular values. -/
noncomputable def explainedVar (s : List ℝ) : List (Val ℝ) :=
  s.map fun v => Val.fdiv (.num (v ^ 2)) (.num ((s.length : ℝ) - 1))

/-- `as_ratio` (`python/polars_ds/exprs/num.py:302-303`) applied to plain singular values. -/
noncomputable def asRatio (s : List ℝ) : List (Val ℝ) :=
  s.map fun v => Val.fdiv (.num v) (.num s.sum)

/-- `as_explained_var` followed by `as_ratio`, for at least two features (so that all variances are numbers). -/
noncomputable def explainedRatio (s : List ℝ) : List (Val ℝ) :=
  asRatio (s.map fun v => v ^ 2 / ((s.length : ℝ) - 1))

end Verif.Pca
