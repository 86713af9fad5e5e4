import Verif.Model.PlExpr
import Mathlib.Analysis.SpecialFunctions.Log.Basic
import Mathlib.Analysis.SpecialFunctions.Sqrt

/-!
# t tests (`src/stats/t_test.rs`, `src/stats_utils/beta.rs`, `python/polars_ds/exprs/stats.py:48-189`)

Real numbers instead of floats.  A column entry `none` is a null or, where the wrapper drops non-finite values,
a non-finite value; NaN and infinities inside the un-sanitised branch are not represented.
-/

namespace Verif.TTest
open Verif.Pl

/-- `Alternative` (`src/stats/mod.rs:20-24`). -/
inductive Alt where
  | twoSided
  | less
  | greater
deriving DecidableEq, Repr

/-- `Alternative::from` (`src/stats/mod.rs:26-35`); `s` is already lower-cased (`to_lowercase` is not
modelled).  Unknown words fall through to the two-sided test. -/
def Alt.ofLower (s : String) : Alt :=
  if s = "two-sided" ∨ s = "two" then .twoSided
  else if s = "less" then .less
  else if s = "greater" then .greater
  else .twoSided

/-- Constants and the log-gamma function used by `checked_beta_reg`: `PREC_ACC`
(`src/stats_utils/mod.rs`), `f64::MIN_POSITIVE` and `gamma::ln_gamma` (`src/stats_utils/gamma.rs:51-73`).  They
are parameters here; `Verif.BetaTail.Spec.Standard` gives them the values of the code. -/
structure BetaEnv where
  eps : ℝ
  minPos : ℝ
  lnGamma : ℝ → ℝ

/-- Replace a tiny number by `fpmin` (`src/stats_utils/beta.rs:101-103`, `114-116`, `119-121`,
`128-130`, `134-136`). -/
noncomputable def clampTiny (fpmin v : ℝ) : ℝ := if |v| < fpmin then fpmin else v

/-- The continued fraction loop of `checked_beta_reg` (`src/stats_utils/beta.rs:108-149`): `fuel` rounds are
left, `m` is the loop variable; the value is `h` when the loop ends, either by convergence (line 142) or by
exhausting the 140 rounds. -/
noncomputable def betaLoop (eps fpmin a b x : ℝ) : Nat → Nat → ℝ → ℝ → ℝ → ℝ
  | 0, _, _, _, h => h
  | fuel + 1, m, c, d, h =>
    let qab := a + b
    let qap := a + 1
    let qam := a - 1
    let mm : ℝ := m
    let m2 := mm * 2
    let aa := mm * (b - mm) * x / ((qam + m2) * (a + m2))
    let d := 1 / clampTiny fpmin (1 + aa * d)
    let c := clampTiny fpmin (1 + aa / c)
    let h := h * d * c
    let aa := -(a + mm) * (qab + mm) * x / ((a + m2) * (qap + m2))
    let d := 1 / clampTiny fpmin (1 + aa * d)
    let c := clampTiny fpmin (1 + aa / c)
    let del := d * c
    let h := h * del
    if |del - 1| ≤ eps then h else betaLoop eps fpmin a b x fuel (m + 1) c d h

/-- `checked_beta_reg` (`src/stats_utils/beta.rs:62-157`); `none` is an `Err`. -/
noncomputable def checkedBetaReg (E : BetaEnv) (a b x : ℝ) : Option ℝ :=
  if a ≤ 0 then none
  else if b ≤ 0 then none
  else if ¬ (0 ≤ x ∧ x ≤ 1) then none
  else
    let bt := if x = 0 ∨ x = 1 then 0 else
      Real.exp (E.lnGamma (a + b) - E.lnGamma a - E.lnGamma b + a * Real.log x + b * Real.log (1 - x))
    let fpmin := E.minPos / E.eps
    if x ≥ (a + 1) / (a + b + 2) then
      -- swapped: a ↔ b, x ↦ 1 - x
      let d := 1 / clampTiny fpmin (1 - (b + a) * (1 - x) / (b + 1))
      some (1 - bt * betaLoop E.eps fpmin b a (1 - x) 140 1 1 d d / b)
    else
      let d := 1 / clampTiny fpmin (1 - (a + b) * x / (a + 1))
      some (bt * betaLoop E.eps fpmin a b x 140 1 1 d d / a)

/-- `student_t_sf` (`src/stats_utils/beta.rs:24-38`); the branch for infinite `df` does not arise for real
numbers. -/
noncomputable def studentSf (E : BetaEnv) (x df : ℝ) : Option ℝ :=
  let h := df / (df + x * x)
  match checkedBetaReg E (df / 2) (1 / 2) h with
  | none => none
  | some i => some (if x ≤ 0 then 1 - 1 / 2 * i else 1 / 2 * i)

/-- `fisher_snedecor_sf` (`src/stats_utils/beta.rs:51-60`) for finite arguments. -/
noncomputable def fisherSf (E : BetaEnv) (x d1 d2 : ℝ) : Option ℝ :=
  if x < 0 then none
  else checkedBetaReg E (d2 / 2) (d1 / 2) (1 - d1 * x / (d1 * x + d2))

/-- The `match alt` on the p-value (`src/stats/t_test.rs:19-26`, `46-53`, `78-86`). -/
noncomputable def pOf (E : BetaEnv) (t df : ℝ) : Alt → Option ℝ
  | .less => studentSf E (-t) df
  | .greater => studentSf E t df
  | .twoSided => (studentSf E |t| df).map fun p => 2 * p

/-- What a t test expression produces. -/
inductive Out where
  /-- the expression raises -/
  | err
  /-- the plugin panics -/
  | panic
  /-- statistic and p-value both NaN -/
  | nan
  /-- statistic, p-value (`none` = NaN) -/
  | ok (t : ℝ) (p : Option ℝ)

/-- `ttest_ind` (`src/stats/t_test.rs:9-29`). -/
noncomputable def ttestInd (E : BetaEnv) (m1 m2 v1 v2 n : ℝ) (alt : Alt) : Out :=
  let denom := √((v1 + v2) / n)
  if denom = 0 then .nan
  else .ok ((m1 - m2) / denom) (pOf E ((m1 - m2) / denom) (2 * n - 2) alt)

/-- `ttest_1samp` (`src/stats/t_test.rs:32-57`). -/
noncomputable def ttest1samp (E : BetaEnv) (mean pop var n : ℝ) (alt : Alt) : Out :=
  let denom := √(var / n)
  if denom = 0 then .err
  else
    let t := (mean - pop) / denom
    match pOf E t (n - 1) alt with
    | none => .err
    | some p => .ok t (some p)

/-- `welch_t` (`src/stats/t_test.rs:60-90`). -/
noncomputable def welchT (E : BetaEnv) (m1 m2 v1 v2 n1 n2 : ℝ) (alt : Alt) : Out :=
  let vn1 := v1 / n1
  let vn2 := v2 / n2
  let denom := √(vn1 + vn2)
  if denom = 0 then .err
  else
    let t := (m1 - m2) / denom
    let df := (vn1 + vn2) ^ 2 / (vn1 ^ 2 / (n1 - 1) + vn2 ^ 2 / (n2 - 1))
    match pOf E t df alt with
    | none => .err
    | some p => .ok t (some p)

/-- `Expr.var()` with one delta degree of freedom (`python/polars_ds/exprs/stats.py:80`): null for fewer than
two values. -/
noncomputable def var1 (c : Col ℝ) : Option ℝ :=
  if count c < 2 then none
  else
    let m := sum c / (count c : ℝ)
    some (((vals c).map fun v => (v - m) ^ 2).sum / ((count c : ℝ) - 1))

/-- `ttest_ind(var1, var2, equal_var=True)` (`python/polars_ds/exprs/stats.py:77-88`) and `pl_ttest_2samp`
(`src/stats/t_test.rs:93-117`): a missing mean or variance becomes NaN and is rejected; the count is that of the
first column. -/
noncomputable def ttestIndEqualVar (E : BetaEnv) (x y : Col ℝ) (alt : Alt) : Out :=
  match mean x, mean y, var1 x, var1 y with
  | some m1, some m2, some v1, some v2 => ttestInd E m1 m2 v1 v2 (count x) alt
  | _, _, _, _ => .err

/-- `ttest_ind(var1, var2)` (`python/polars_ds/exprs/stats.py:89-103`) and `pl_welch_t`
(`src/stats/t_test.rs:120-144`): the columns are first restricted to finite values; a missing mean or variance
is unwrapped. -/
noncomputable def ttestIndWelch (E : BetaEnv) (x y : Col ℝ) (alt : Alt) : Out :=
  match mean x, mean y, var1 x, var1 y with
  | some m1, some m2, some v1, some v2 => welchT E m1 m2 v1 v2 (count x) (count y) alt
  | _, _, _, _ => .panic

/-- `ttest_1samp(var1, pop_mean)` (`python/polars_ds/exprs/stats.py:106-133`) and `pl_ttest_1samp`
(`src/stats/t_test.rs:147-167`). -/
noncomputable def ttestOneSample (E : BetaEnv) (x : Col ℝ) (pop : ℝ) (alt : Alt) : Out :=
  match mean x, var1 x with
  | some m, some v => ttest1samp E m pop v (count x) alt
  | _, _ => .panic

end Verif.TTest
