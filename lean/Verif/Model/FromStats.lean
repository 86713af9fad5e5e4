import Verif.Model.TTest

/-!
# `ttest_ind_from_stats`: a column against the mean, the variance and the count of another sample
-/

namespace Verif.TTest
open Verif.Pl

/-- `welch_t` (`src/stats/t_test.rs:60-90`) for a count that may be 0 or 1: then the degrees of freedom are zero or NaN and
`student_t_sf` returns an error, unless the division by zero is reported first. -/
noncomputable def welchCount (E : BetaEnv) (m1 m2 v1 v2 n1 : ℝ) (n2 : Nat) (alt : Alt) : Out :=
  if n2 ≤ 1 then .err else welchT E m1 m2 v1 v2 n1 n2 alt

/-- `ttest_ind_from_stats` (`python/polars_ds/exprs/stats.py:136-189`) with `pl_ttest_2samp` and `pl_welch_t`
(`src/stats/t_test.rs:93-117`, `120-144`): the same plugins as `ttest_ind`, with literals for the second sample. For the
Welch test the column is first restricted to its finite values (`none` entries are dropped by the aggregations); a missing
mean or variance of the column is an error in the first branch and is unwrapped in the second. -/
noncomputable def ttestIndFromStats (E : BetaEnv) (x : Col ℝ) (m2 v2 : ℝ) (cnt : Nat) (alt : Alt) (equalVar : Bool) : Out :=
  if equalVar then
    match mean x, var1 x with
    | some m1, some v1 => ttestInd E m1 m2 v1 v2 (count x) alt
    | _, _ => .err
  else
    match mean x, var1 x with
    | some m1, some v1 => welchCount E m1 m2 v1 v2 (count x) cnt alt
    | _, _ => .panic

end Verif.TTest
