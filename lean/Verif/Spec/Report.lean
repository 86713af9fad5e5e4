import Mathlib.Data.Real.Basic
import Mathlib.Algebra.BigOperators.Fin

/-!
# Least squares with weights, and leaving rows out
-/

namespace Verif.LrReport.Spec

variable {n d : Nat}

/-- The prediction for row `r`. -/
def pred (x : Fin n → Fin d → ℝ) (b : Fin d → ℝ) (r : Fin n) : ℝ := ∑ j, x r j * b j

/-- Weighted sum of squared errors. -/
def loss (w : Fin n → ℝ) (x : Fin n → Fin d → ℝ) (y : Fin n → ℝ) (b : Fin d → ℝ) : ℝ := ∑ r, w r * (y r - pred x b r) ^ 2

/-- `b` is a best fit. -/
def Best (w : Fin n → ℝ) (x : Fin n → Fin d → ℝ) (y : Fin n → ℝ) (b : Fin d → ℝ) : Prop :=
  ∀ c, loss w x y b ≤ loss w x y c

/-- All rows count once. -/
def all : Fin n → ℝ := fun _ => 1

/-- All rows but `r` count once. -/
def without (r : Fin n) : Fin n → ℝ := fun s => if s = r then 0 else 1

/-- The rows with a weight determine the coefficients. -/
def Determined (w : Fin n → ℝ) (x : Fin n → Fin d → ℝ) : Prop :=
  ∀ c : Fin d → ℝ, (∀ r, w r ≠ 0 → pred x c r = 0) → c = 0

/-- `y` with `a` added in row `r`. -/
def bump (y : Fin n → ℝ) (r : Fin n) (a : ℝ) : Fin n → ℝ := fun s => if s = r then y s + a else y s

/-- The mean of a column. -/
noncomputable def mean (y : Fin n → ℝ) : ℝ := (∑ r, y r) / n

/-- Sum of squares around the mean. -/
noncomputable def sst (y : Fin n → ℝ) : ℝ := ∑ r, (y r - mean y) ^ 2

/-- `R²` of coefficients. -/
noncomputable def rSquared (x : Fin n → Fin d → ℝ) (y : Fin n → ℝ) (b : Fin d → ℝ) : ℝ := 1 - loss all x y b / sst y

/-- Adjusted `R²` for `d` coefficients, the constant included. -/
noncomputable def adjRSquared (x : Fin n → Fin d → ℝ) (y : Fin n → ℝ) (b : Fin d → ℝ) : ℝ :=
  1 - (loss all x y b / ((n : ℝ) - d)) / (sst y / ((n : ℝ) - 1))

end Verif.LrReport.Spec
