import Mathlib.Analysis.SpecialFunctions.Log.Basic
import Mathlib.Analysis.SpecialFunctions.Trigonometric.Basic

/-!
# The logarithm of the gamma function

`src/stats_utils/gamma.rs`, over the reals: the literals stand for the decimal numbers written in the source, `PI` and
`E` for the real constants.
-/

namespace Verif.LnGamma

/-- `GAMMA_R` (`src/stats_utils/gamma.rs:5`). -/
def gammaR : ℚ := 10.900511

/-- `GAMMA_DK` (`src/stats_utils/gamma.rs:7-19`). -/
def dk : List ℚ :=
  [2.48574089138753565546e-5, 1.05142378581721974210, -3.45687097222016235469, 4.51227709466894823700,
   -2.98285225323576655721, 1.05639711577126713077, -1.95428773191645869583e-1, 1.70970543404441224307e-2,
   -5.71926117404305781283e-4, 4.63399473359905636708e-6, -2.71994908488607703910e-9]

/-- `LN_PI` (`src/stats_utils/mod.rs:22`). -/
def lnPi : ℚ := 1.1447298858494001741434273513530587116472948129153

/-- `LN_2_SQRT_E_OVER_PI` (`src/stats_utils/mod.rs:24`). -/
def ln2SqrtEOverPi : ℚ := 0.6207822376352452223455184457816472122518527279025978

/-- The fold over the enumerated coefficients, starting from the first (`src/stats_utils/gamma.rs:53-57`, `65-69`);
`den` is the denominator that goes with an index. -/
noncomputable def series (den : ℝ → ℝ) : ℝ :=
  (dk.zipIdx.drop 1).foldl (fun s t => s + (t.1 : ℝ) / den t.2) (dk.headD 0 : ℚ)

/-- `ln_gamma` (`src/stats_utils/gamma.rs:51-73`). Rust's logarithm of a number that is not positive is NaN or an infinity;
here it has Lean's value, so the definition is meant for positive arguments. -/
noncomputable def lnGamma (x : ℝ) : ℝ :=
  if x < 1 / 2 then
    lnPi - Real.log (Real.sin (Real.pi * x)) - Real.log (series fun k => k - x) - ln2SqrtEOverPi -
      (1 / 2 - x) * Real.log ((1 / 2 - x + gammaR) / Real.exp 1)
  else
    Real.log (series fun k => x + k - 1) + ln2SqrtEOverPi + (x - 1 / 2) * Real.log ((x - 1 / 2 + gammaR) / Real.exp 1)

end Verif.LnGamma
