import Verif.Model.Doubles

/-!
# PSI and information value in double arithmetic (`src/num_ext/psi.rs`, `src/num_ext/woe_iv.rs`)

`Verif.Model.Psi` and `Verif.Model.Woe` are exact.  Here every operation is rounded.  The logarithm of the platform is not in `/repo`:
it is a parameter `ln`.
-/

namespace Verif.PsiDbl
open Verif.Doubles

/-- A share, clipped from below (`src/num_ext/psi.rs:56-63`).  Counts are 32 bit integers.  Simplification: `total` is not 0. -/
noncomputable def share (c total : ℕ) : ℝ := max (quot c total) (rd (1 / 10000))

/-- `psi_bin` (`src/num_ext/psi.rs:69-70`) and `iv` (`src/num_ext/woe_iv.rs:44-48`, `:69`) from the two shares.  The division of the
logarithm by `ln(e)`, which is 1 in doubles, is left out. -/
noncomputable def contribution (ln : ℝ → ℝ) (a b : ℝ) : ℝ := rd (rd (a - b) * ln (rd (a / b)))

/-- The `psi_bin` column of `psi_frame` (`src/num_ext/psi.rs:41-72`) from the counts of the baseline and of the new data. -/
noncomputable def psiBins (ln : ℝ → ℝ) (cnt1 cnt2 : List ℕ) : List ℝ :=
  (cnt1.zip cnt2).map fun p => contribution ln (share p.1 cnt1.sum) (share p.2 cnt2.sum)

/-- The sum of a column (`python/polars_ds/exprs/num.py:482`).  Simplification: from the first row to the last; polars adds blocks. -/
noncomputable def total (l : List ℝ) : ℝ := l.foldl (fun s x => rd (s + x)) 0

/-- `psi` (`python/polars_ds/exprs/num.py:474-482`) from the counts. -/
noncomputable def psi (ln : ℝ → ℝ) (cnt1 cnt2 : List ℕ) : ℝ := total (psiBins ln cnt1 cnt2)

/-- `good_pct` and `bad_pct` (`src/num_ext/woe_iv.rs:39-42`) from the count of the category and of all categories; the sums are exact. -/
noncomputable def smoothed (k n : ℕ) : ℝ := quot (k + 1) (n + 2)

/-- `woe` of a category (`src/num_ext/woe_iv.rs:44-48`): `g` of the `goods` rows with target 1 and `b` of the `bads` rows with target 0. -/
noncomputable def woe (ln : ℝ → ℝ) (g goods b bads : ℕ) : ℝ := ln (rd (smoothed g goods / smoothed b bads))

/-- `iv` of a category (`src/num_ext/woe_iv.rs:65-74`). -/
noncomputable def iv (ln : ℝ → ℝ) (g goods b bads : ℕ) : ℝ := contribution ln (smoothed g goods) (smoothed b bads)

end Verif.PsiDbl
