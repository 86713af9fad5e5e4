import Verif.Model.PlExpr
import Mathlib.Analysis.SpecialFunctions.Log.Basic
import Mathlib.Analysis.SpecialFunctions.Sqrt

/-!
# Weighted statistics and similarities (`python/polars_ds/exprs/stats.py:704-984`)

Real numbers instead of floats; a division by zero gives `0` here and `NaN` or an infinity in the code, so
every theorem asks for the denominators it uses to be non-zero.
-/

namespace Verif.Weighted
open Verif.Pl

/-- `hmean` (`python/polars_ds/exprs/stats.py:704-714`). -/
noncomputable def hmean (x : Col ℝ) : ℝ := (count x : ℝ) / sum (map1 (fun v => 1 / v) x)

/-- `weighted_hmean` (`python/polars_ds/exprs/stats.py:717-738`).  The dot product on line 734 is `x` with
`1 / x`; the weights only enter through their sum. -/
noncomputable def weightedHmean (x w : Col ℝ) (isNormalized : Bool) : ℝ :=
  let d := dot x (map1 (fun v => 1 / v) x)
  if isNormalized then 1 / d else 1 / (d / sum w)

/-- `gmean` (`python/polars_ds/exprs/stats.py:741-750`). -/
noncomputable def gmean (x : Col ℝ) : Option ℝ := (mean (map1 Real.log x)).map Real.exp

/-- `weighted_gmean` (`python/polars_ds/exprs/stats.py:753-772`). -/
noncomputable def weightedGmean (x w : Col ℝ) (isNormalized : Bool) : ℝ :=
  if isNormalized then Real.exp (dot (map1 Real.log x) w)
  else Real.exp (dot (map1 Real.log x) w / sum w)

/-- `weighted_mean` (`python/polars_ds/exprs/stats.py:775-797`). -/
noncomputable def weightedMean (x w : Col ℝ) (isNormalized : Bool) : ℝ :=
  if isNormalized then dot x w else dot x w / sum w

/-- Subtracting a scalar and squaring, `(x - wm).pow(2)` (`python/polars_ds/exprs/stats.py:823`). -/
noncomputable def sqDev (x : Col ℝ) (m : ℝ) : Col ℝ := map1 (fun v => (v - m) ^ 2) x

/-- `weighted_var` (`python/polars_ds/exprs/stats.py:800-826`). -/
noncomputable def weightedVar (x w : Col ℝ) (freqWeights : Bool) : ℝ :=
  let s := dot w (sqDev x (weightedMean x w false))
  if freqWeights then s / (sum w - 1) else s / sum w

/-- `weighted_cov` (`python/polars_ds/exprs/stats.py:829-851`). -/
noncomputable def weightedCov (x y w : Col ℝ) : ℝ :=
  dot w (map2 (· * ·) (map1 (fun v => v - weightedMean x w false) x)
    (map1 (fun v => v - weightedMean y w false) y)) / sum w

/-- `weighted_corr` (`python/polars_ds/exprs/stats.py:854-879`).  `syy` (line 878) squares `xx` minus the
mean of `yy`. -/
noncomputable def weightedCorr (x y w : Col ℝ) : ℝ :=
  let num := weightedCov x y w
  let sxx := dot w (sqDev x (weightedMean x w false))
  let syy := dot w (sqDev x (weightedMean y w false))
  num * sum w / √(sxx * syy)

/-- `cosine_sim` (`python/polars_ds/exprs/stats.py:882-896`): both norms are rooted, then their product is
rooted again. -/
noncomputable def cosineSim (x y : Col ℝ) : ℝ :=
  dot x y / √(√(dot x x) * √(dot y y))

/-- `weighted_cosine_sim` (`python/polars_ds/exprs/stats.py:899-923`). -/
noncomputable def weightedCosineSim (x y w : Col ℝ) : ℝ :=
  let wx2 := dot (map1 (fun v => v ^ 2) x) w
  let wy2 := dot (map1 (fun v => v ^ 2) y) w
  dot (map2 (· * ·) w x) y / √(wx2 * wy2)

/-- `Expr.median()` of the non-null values: the middle one, or the mean of the middle two. -/
noncomputable def median (c : Col ℝ) : ℝ :=
  let s := (vals c).mergeSort (fun a b => decide (a ≤ b))
  let n := s.length
  if n % 2 = 1 then s.getD (n / 2) 0 else (s.getD (n / 2 - 1) 0 + s.getD (n / 2) 0) / 2

/-- The weighted deviations of one side of `bicor` (`python/polars_ds/exprs/stats.py:971-982`): deviation from
the median, times `(1 - u²)²` where `|u| < 1` and `0` elsewhere, `u` being the deviation over `c` times the
median absolute deviation. -/
noncomputable def bicorDev (a : Col ℝ) (c : ℝ) : Col ℝ :=
  let diff := map1 (fun v => v - median a) a
  let s := c * median (map1 (fun v => |v|) diff)
  map1 (fun d => d * ((1 - (d / s) ^ 2) ^ 2 * (if 1 - |d / s| > 0 then 1 else 0))) diff

/-- `bicor` (`python/polars_ds/exprs/stats.py:949-984`). -/
noncomputable def bicor (a b : Col ℝ) (c : ℝ) : ℝ :=
  let aa := bicorDev a c
  let bb := bicorDev b c
  dot aa bb / √(dot aa aa * dot bb bb)

end Verif.Weighted
