import Verif.Model.LinReg
import Verif.Model.TTest
import Mathlib.Data.Matrix.Basic
import Mathlib.Data.Matrix.Mul

/-!
# Regression reports (`src/num_ext/linear_regression.rs:577-866`, `python/polars_ds/exprs/expr_linear.py:538-604`)

Real numbers instead of floats. `x` and `y` are the rows that `series_to_mat_for_lstsq` keeps (modelled in
`Verif/Model/NullPolicy.lean`), the constant column included. `none` inside a report is a value that is not a finite
number (NaN or infinite); `none` for the report is a panic. The decompositions of `faer` are the contract
`LinReg.Solver`. `src/num_ext/linear_regression_f32.rs` is the same text with `f32` for `f64`.
-/

namespace Verif.LrReport
open Matrix Verif.LinReg Verif.TTest Verif.Pl

/-- `StandardError` (`src/num_ext/linear_regression.rs:100-107`). -/
inductive StdErr where
  | se
  | hc0
  | hc1
  | hc2
  | hc3
deriving DecidableEq, Repr

/-- `StandardError::from` (`src/num_ext/linear_regression.rs:109-119`). -/
def StdErr.ofString (s : String) : StdErr :=
  if s = "hc0" then .hc0 else if s = "hc1" then .hc1 else if s = "hc2" then .hc2 else if s = "hc3" then .hc3 else .se

/-- The name of the standard error column (`src/num_ext/linear_regression.rs:121-131`). -/
def StdErr.column : StdErr → String
  | .se => "std_err"
  | .hc0 => "hc0_se"
  | .hc1 => "hc1_se"
  | .hc2 => "hc2_se"
  | .hc3 => "hc3_se"

/-- The fields promised by `report_output` (`src/num_ext/linear_regression.rs:55-67`). -/
def declaredFields : List String :=
  ["features", "beta", "std_err", "t", "p>|t|", "0.025", "0.975", "r2", "adj_r2"]

/-- The fields of the struct that `pl_lin_reg_report` builds (`src/num_ext/linear_regression.rs:696-727`). -/
def actualFields (kind : StdErr) : List String :=
  ["features", "beta", kind.column, "t", "p>|t|", "0.025", "0.975", "r2", "adj_r2"]

/-- The feature names (`src/num_ext/linear_regression.rs:586-595`). -/
def names (features : List String) (bias : Bool) : List String :=
  features ++ if bias then ["__bias__"] else []

/-- `student_t_ppf(0.975, df)` (`src/stats_utils/beta.rs:365-388`) with `inv_beta_reg`
(`src/stats_utils/beta.rs:201-361`), whose value for positive `df` is the parameter `ppf`
(modelled in `Model/StudentPpf.lean`). For `df ≤ 0` the call
`checked_beta_reg(a, b, p).unwrap()` in `inv_beta_reg` (`beta.rs:308`) panics, because `a = df / 2` is not positive. -/
noncomputable def tAlpha (ppf : ℝ → ℝ) (df : ℝ) : Option ℝ := if df ≤ 0 then none else some (ppf df)

/-- One report; `r2` and `adjR2` are repeated on every row of the output. -/
structure Report (d : Nat) where
  beta : Fin d → ℝ
  stdErr : Fin d → Option ℝ
  t : Fin d → Option ℝ
  p : Fin d → Option ℝ
  lo : Fin d → Option ℝ
  hi : Fin d → Option ℝ
  r2 : Option ℝ
  adjR2 : Option ℝ

/-- A quotient of floats that is a finite number. -/
noncomputable def quot (a b : ℝ) : Option ℝ := if b = 0 then none else some (a / b)

variable {n d : Nat}

/-- `xtx_inv` (`src/num_ext/linear_regression.rs:606-608`). -/
def xtxInv (S : Solver ℝ) (x : Matrix (Fin n) (Fin d) ℝ) : Matrix (Fin d) (Fin d) ℝ := S.qrInverse (xᵀ * x)

/-- `xtx_inv_xt` (`src/num_ext/linear_regression.rs:609`). -/
def hat (S : Solver ℝ) (x : Matrix (Fin n) (Fin d) ℝ) : Matrix (Fin d) (Fin n) ℝ := xtxInv S x * xᵀ

/-- `coeffs` (`src/num_ext/linear_regression.rs:610`). -/
def betas (S : Solver ℝ) (x : Matrix (Fin n) (Fin d) ℝ) (y : Fin n → ℝ) : Fin d → ℝ := hat S x *ᵥ y

/-- `y - x * &coeffs` (`src/num_ext/linear_regression.rs:615`, `783`). -/
def resid (x : Matrix (Fin n) (Fin d) ℝ) (y : Fin n → ℝ) (b : Fin d → ℝ) : Fin n → ℝ := y - x *ᵥ b

/-- `x.get_r(i) * xtx_inv_xt.get(.., i)` (`src/num_ext/linear_regression.rs:648`). -/
def leverage (S : Solver ℝ) (x : Matrix (Fin n) (Fin d) ℝ) (r : Fin n) : ℝ := x r ⬝ᵥ fun i => hat S x i r

/-- The diagonal of `xtx_inv_xt * diag * xtx_inv_xt.transpose()` (`src/num_ext/linear_regression.rs:634`, `659`). -/
def sandwich (A : Matrix (Fin d) (Fin n) ℝ) (v : Fin n → ℝ) (i : Fin d) : ℝ := (A * diagonal v * Aᵀ) i i

/-- `dof` (`src/num_ext/linear_regression.rs:613`, `781`). -/
def dof (n d : Nat) : ℝ := (n : ℝ) - d

/-- `std_err` (`src/num_ext/linear_regression.rs:623-662`). In HC2 and HC3 a leverage of one divides by zero; the
residual of such a row is zero and the product is NaN, which reaches every coefficient through the matrix product. -/
noncomputable def stdErrs (S : Solver ℝ) (kind : StdErr) (x : Matrix (Fin n) (Fin d) ℝ) (e : Fin n → ℝ) (i : Fin d) : Option ℝ :=
  match kind with
  | .se => some √((∑ r, e r * e r) / dof n d * xtxInv S x i i)
  | .hc0 => some √(sandwich (hat S x) (fun r => e r * e r) i * 1)
  | .hc1 => some √(sandwich (hat S x) (fun r => e r * e r) i * ((n : ℝ) / ((n - d : Nat) : ℝ)))
  | .hc2 =>
    if ∃ r, leverage S x r = 1 then none
    else some √(sandwich (hat S x) (fun r => e r * e r * (1 / (1 - leverage S x r))) i)
  | .hc3 =>
    if ∃ r, leverage S x r = 1 then none
    else some √(sandwich (hat S x) (fun r => e r * e r * (1 / (1 - leverage S x r) ^ 2)) i)

/-- `ratio` (`src/num_ext/linear_regression.rs:618-619`, `788-789`): `y_var` is `target.var()` over the known values of
the whole target column (`expr_linear.py:588`, `595`). -/
noncomputable def ratio (target : Col ℝ) (e : Fin n → ℝ) : Option ℝ :=
  (var1 target).bind fun v => quot (∑ r, e r * e r) (v * n)

/-- The report from coefficients, residuals and standard errors (`src/num_ext/linear_regression.rs:617-693`,
`786-825`). -/
noncomputable def assemble (E : BetaEnv) (ppf : ℝ → ℝ) (target : Col ℝ) (b : Fin d → ℝ) (e : Fin n → ℝ)
    (se : Fin d → Option ℝ) : Option (Report d) :=
  (tAlpha ppf (dof n d)).map fun ta =>
    let t := fun i => (se i).bind fun s => quot (b i) s
    { beta := b
      stdErr := se
      t := t
      p := fun i => (t i).bind fun v => (studentSf E |v| (dof n d)).map fun q => 2 * q
      lo := fun i => (se i).map fun s => b i - ta * s
      hi := fun i => (se i).map fun s => b i + ta * s
      r2 := (ratio target e).map fun q => 1 - q
      adjR2 := (ratio target e).bind fun q => (quot ((n : ℝ) - 1) (dof n d - 1)).map fun f => 1 - q * f }

/-- `pl_lin_reg_report` (`src/num_ext/linear_regression.rs:577-732`). -/
noncomputable def linRegReport (S : Solver ℝ) (E : BetaEnv) (ppf : ℝ → ℝ) (kind : StdErr) (target : Col ℝ)
    (x : Matrix (Fin n) (Fin d) ℝ) (y : Fin n → ℝ) : Option (Report d) :=
  let b := betas S x y
  let e := resid x y b
  assemble E ppf target b e (stdErrs S kind x e)

/-- The weighted coefficients (`src/num_ext/linear_regression.rs:773-778`). -/
def wbetas (S : Solver ℝ) (w : Fin n → ℝ) (x : Matrix (Fin n) (Fin d) ℝ) (y : Fin n → ℝ) : Fin d → ℝ :=
  fun i => S.qr (xᵀ * diagonal w * x) (xᵀ * diagonal w * (Matrix.of fun r (_ : Fin 1) => y r)) i 0

/-- `std_err` of `pl_wls_report` (`src/num_ext/linear_regression.rs:784-785`, `794-796`). -/
noncomputable def wstdErrs (S : Solver ℝ) (w : Fin n → ℝ) (x : Matrix (Fin n) (Fin d) ℝ) (e : Fin n → ℝ) (i : Fin d) :
    Option ℝ :=
  some √((∑ r, w r * e r ^ 2) / dof n d * S.qrInverse (xᵀ * diagonal w * x) i i)

/-- `pl_wls_report` (`src/num_ext/linear_regression.rs:735-863`). The weights are taken from the whole column: a null
weight makes `cont_slice().unwrap()` panic (line 742), and so does a number of weights other than the number of
kept rows in the matrix product (line 773). -/
noncomputable def wlsReport (S : Solver ℝ) (E : BetaEnv) (ppf : ℝ → ℝ) (weights target : Col ℝ)
    (x : Matrix (Fin n) (Fin d) ℝ) (y : Fin n → ℝ) : Option (Report d) :=
  if weights.contains none ∨ weights.length ≠ n then none
  else
    let w : Fin n → ℝ := fun r => ((weights[r.val]?).getD none).getD 0
    let b := wbetas S w x y
    let e := resid x y b
    assemble E ppf target b e (wstdErrs S w x e)

end Verif.LrReport
