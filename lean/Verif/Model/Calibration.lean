import Mathlib.Data.Real.Basic
import Mathlib.Data.List.Sort

/-!
# Probability calibration plot (`plot_prob_calibration`, `python/polars_ds/eda/plots.py:348-457`)

Real numbers instead of floats.  `qcut` of polars is not in this repository; it is modelled from its documentation: the breaks
are the quantiles with linear interpolation, the bins are closed on the right, repeated breaks are an error, null scores get
a null bin.  The order of the points by bin is immaterial for the chart, which connects them by their first coordinate.
-/

namespace Verif.Calibration

/-- A row of the frame of one score and the target (`plots.py:412`). -/
structure Row where
  score : Option ℝ
  actual : ℝ

/-- The quantile `i / n` of a sorted list with linear interpolation (polars). -/
noncomputable def quantile (s : List ℝ) (i n : ℕ) : ℝ :=
  let h := i * (s.length - 1)
  s.getD (h / n) 0 + (s.getD (h / n + 1) (s.getD (h / n) 0) - s.getD (h / n) 0) * ((h % n : ℕ) / n : ℝ)

/-- The present scores. -/
def scores (rows : List Row) : List ℝ := rows.filterMap Row.score

/-- The breaks of `qcut(n)` (polars; called at `plots.py:414`). -/
noncomputable def breaks (n : ℕ) (rows : List Row) : List ℝ :=
  (List.range (n - 1)).map fun i => quantile ((scores rows).insertionSort (· ≤ ·)) (i + 1) n

open Classical in
/-- The bin of a value: the number of breaks below it (polars). -/
noncomputable def bin (bs : List ℝ) (x : ℝ) : ℕ := bs.countP fun b => decide (b < x)

/-- `mean()` of a group (`plots.py:418-419`). -/
noncomputable def mean (l : List ℝ) : ℝ := l.sum / l.length

/-- The rows of a bin. -/
noncomputable def group (bs : List ℝ) (rows : List Row) (k : ℕ) : List Row :=
  rows.filter fun r => decide (r.score.map (bin bs) = some k)

/-- The point of a group of rows (`plots.py:417-420`). -/
noncomputable def point (g : List Row) : ℝ × ℝ := (mean (scores g), mean (g.map Row.actual))

/-- The points of the bins that occur, sorted by bin (`plots.py:416-421`). -/
noncomputable def binPoints (n : ℕ) (bs : List ℝ) (rows : List Row) : List (Option ℝ × ℝ) :=
  (((List.range n).map (group bs rows)).filter fun g => !g.isEmpty).map fun g => (some (point g).1, (point g).2)

/-- The group of the rows with a null bin: no mean score (`plots.py:416-421`); sorted first. -/
noncomputable def nullPoints (rows : List Row) : List (Option ℝ × ℝ) :=
  if (rows.filter fun r => r.score.isNone).isEmpty then []
  else [(none, mean ((rows.filter fun r => r.score.isNone).map Row.actual))]

open Classical in
/-- The points of one score (`plots.py:411-427`); `none` is the error on repeated breaks. -/
noncomputable def calibration (n : ℕ) (rows : List Row) : Option (List (Option ℝ × ℝ)) :=
  if scores rows = [] then some (nullPoints rows)
  else if (breaks n rows).Nodup then some (nullPoints rows ++ binPoints n (breaks n rows) rows)
  else none

end Verif.Calibration
