import Verif.Model.TTest
import Verif.Model.Confusion
import Verif.Model.Report
import Mathlib.Analysis.SpecialFunctions.Pow.Real
import Mathlib.Algebra.Order.Floor.Semiring

/-!
# The quantile of Student's distribution

`inv_beta_reg` and `student_t_ppf` of `src/stats_utils/beta.rs`. Numbers are real numbers, with one exception: the
exponential in the Newton quotient overflows to infinity as in the code, because this decides whether the search ends.
Loops carry a budget of rounds: the result `none` means that the budget was used up.
-/

namespace Verif.StudentPpf

open Verif.TTest Verif.Confusion

/-- `ln_beta` (`src/stats_utils/beta.rs:163-169`) for positive arguments, where it is not NaN. -/
noncomputable def lnBeta (E : BetaEnv) (a b : ℝ) : ℝ := E.lnGamma a + E.lnGamma b - E.lnGamma (a + b)

/-- The first approximation of the upper point of the normal distribution (`src/stats_utils/beta.rs:257-258`). -/
noncomputable def hastings (x : ℝ) : ℝ :=
  let p := √(-Real.log (x * x))
  p - (2.30753 + 0.27061 * p) / (1 + (0.99229 + 0.04481 * p) * p)

/-- The start of the search before it is clamped (`src/stats_utils/beta.rs:257-289`). `powf(3.0)` is the cube. The
square root of line 271 is NaN in the code for a negative number. -/
noncomputable def guess (lnB a b x : ℝ) : ℝ :=
  let q := hastings x
  if 1 < a ∧ 1 < b then
    let r := (q * q - 3) / 6
    let s := 1 / (2 * a - 1)
    let t := 1 / (2 * b - 1)
    let h := 2 / (s + t)
    let w := q * √(h + r) / h - (t - s) * (r + 5 / 6 - 2 / (3 * h))
    a / (a + b * Real.exp (2 * w))
  else
    let t := 1 / (9 * b)
    let t := 2 * b * (1 - t + q * √t) ^ 3
    if t ≤ 0 then 1 - Real.exp ((Real.log ((1 - x) * b) + lnB) / b)
    else
      let t := 2 * (2 * a + b - 1) / t
      if t ≤ 1 then Real.exp ((Real.log (x * a) + lnB) / a) else 1 - 2 / (t + 1)

/-- `p.clamp(0.0001, 0.9999)` (`src/stats_utils/beta.rs:291`). -/
noncomputable def clampP (p : ℝ) : ℝ := max 0.0001 (min 0.9999 p)

/-- `acu` (`src/stats_utils/beta.rs:295-296`): the exponent `e` is the negative number `-5/a² - x^(-0.2) - 13`, cut to
an integer towards zero. -/
noncomputable def acu (a x : ℝ) : ℝ :=
  let k := ⌊5 / a / a + 1 / x ^ (0.2 : ℝ) + 13⌋₊
  if k < 30 then 1 / 10 ^ k else 1 / 10 ^ 30

/-- `(q - x) * y.exp()` (`src/stats_utils/beta.rs:309`): the exponential is infinite from `2^1024` on. -/
noncomputable def quotient (d y : ℝ) : Val ℝ :=
  if Real.exp y < 2 ^ 1024 then .num (d * Real.exp y)
  else if d = 0 then .nan
  else .inf (0 < d)

/-- The test `q * qprev <= 0.0` (`src/stats_utils/beta.rs:313`). -/
noncomputable def signTest (q : Val ℝ) (qprev : ℝ) : Bool :=
  match q with
  | .num q => decide (q * qprev ≤ 0)
  | .inf pos => if pos then decide (qprev < 0) else decide (0 < qprev)
  | .nan => false

/-- The step of one round: the new point, the square of the step, and whether the search ends. -/
structure Step where
  pnext : ℝ
  sq : ℝ
  stop : Bool

/-- The two inner loops (`src/stats_utils/beta.rs:319-344`), which both divide `g` by 3 when a test fails. The square of
an infinite step, or of one that is not a number, is not smaller than `prev`. -/
noncomputable def search (acu p prev : ℝ) (q : Val ℝ) : Nat → ℝ → Option Step
  | 0, _ => none
  | fuel + 1, g =>
    match q with
    | .num v =>
      let adj := g * v
      let pnext := p - adj
      if adj * adj < prev ∧ 0 ≤ pnext ∧ pnext ≤ 1 then
        if prev ≤ acu ∨ v * v ≤ acu then some ⟨pnext, adj * adj, true⟩
        else if pnext ≠ 0 ∧ pnext ≠ 1 then some ⟨pnext, adj * adj, false⟩
        else search acu p prev q fuel (g / 3)
      else search acu p prev q fuel (g / 3)
    | _ => search acu p prev q fuel (g / 3)

/-- How a call ends. -/
inductive Res where
  /-- `checked_beta_reg(a, b, p).unwrap()` panics -/
  | panic
  | ok (p : ℝ)

/-- The outer loop (`src/stats_utils/beta.rs:303-353`). The square and `prev` are those of line 314. -/
noncomputable def newton (E : BetaEnv) (lnB a b x acu : ℝ) : Nat → ℝ → ℝ → ℝ → ℝ → Option Res
  | 0, _, _, _, _ => none
  | fuel + 1, p, qprev, sq, prev =>
    match checkedBetaReg E a b p with
    | none => some .panic
    | some i =>
      let q := quotient (i - x) (lnB + (1 - a) * Real.log p + (1 - b) * Real.log (1 - p))
      let prev := if signTest q qprev then (if sq > 1 / 10 ^ 30 then sq else 1 / 10 ^ 30) else prev
      match search acu p prev q (fuel + 1) 1 with
      | none => none
      | some s =>
        if s.stop then some (.ok s.pnext)
        else if s.pnext = p then some (.ok p)
        else
          match q with
          | .num v => newton E lnB a b x acu fuel s.pnext v s.sq prev
          | _ => none

/-- `inv_beta_reg` (`src/stats_utils/beta.rs:201-361`). The assertion of line 244 is not compiled in a release build. -/
noncomputable def invBetaReg (E : BetaEnv) (fuel : Nat) (a b x : ℝ) : Option Res :=
  let lnB := lnBeta E a b
  if x = 0 then some (.ok 0)
  else if x = 1 then some (.ok 1)
  else if 1 / 2 < x then
    match newton E lnB b a (1 - x) (acu b (1 - x)) fuel (clampP (guess lnB b a (1 - x))) 0 1 1 with
    | some (.ok p) => some (.ok (1 - p))
    | r => r
  else newton E lnB a b x (acu a x) fuel (clampP (guess lnB a b x)) 0 1 1

/-- What `student_t_ppf` returns. -/
inductive Out where
  | panic
  /-- minus (`neg`) or plus infinity -/
  | inf (neg : Bool)
  | ok (t : ℝ)

/-- `student_t_ppf` (`src/stats_utils/beta.rs:365-388`). -/
noncomputable def studentPpf (E : BetaEnv) (fuel : Nat) (x df : ℝ) : Option Out :=
  if ¬ (0 ≤ x ∧ x ≤ 1) then some .panic
  else
    let x1 := if x ≥ 1 / 2 then 1 - x else x
    match invBetaReg E fuel (1 / 2 * df) (1 / 2) (2 * x1) with
    | none => none
    | some .panic => some .panic
    | some (.ok y) =>
      if y = 0 then some (.inf (decide ¬ x ≥ 1 / 2))
      else some (.ok (if x ≥ 1 / 2 then √(df * (1 - y) / y) else -√(df * (1 - y) / y)))

/-- The call `student_t_ppf(0.975, dof)` of a report (`src/num_ext/linear_regression.rs:681`, `813`), and the report with
its value. `none`: the call has not returned; `some none`: it panics. The value at `0.975` is never infinite. -/
noncomputable def withQuantile {ρ : Type} (E : BetaEnv) (fuel : Nat) (df : ℝ) (report : (ℝ → ℝ) → Option ρ) :
    Option (Option ρ) :=
  match studentPpf E fuel 0.975 df with
  | none => none
  | some (.ok t) => some (report fun _ => t)
  | some _ => some none

/-- `pl_lin_reg_report` (`src/num_ext/linear_regression.rs:577-732`) with its quantile. -/
noncomputable def linRegReport {n d : Nat} (S : LinReg.Solver ℝ) (E : BetaEnv) (fuel : Nat) (kind : LrReport.StdErr)
    (target : Pl.Col ℝ) (x : Matrix (Fin n) (Fin d) ℝ) (y : Fin n → ℝ) : Option (Option (LrReport.Report d)) :=
  withQuantile E fuel (LrReport.dof n d) fun q => LrReport.linRegReport S E q kind target x y

/-- `pl_wls_report` (`src/num_ext/linear_regression.rs:735-863`) with its quantile. -/
noncomputable def wlsReport {n d : Nat} (S : LinReg.Solver ℝ) (E : BetaEnv) (fuel : Nat) (weights target : Pl.Col ℝ)
    (x : Matrix (Fin n) (Fin d) ℝ) (y : Fin n → ℝ) : Option (Option (LrReport.Report d)) :=
  withQuantile E fuel (LrReport.dof n d) fun q => LrReport.wlsReport S E q weights target x y

end Verif.StudentPpf
