import Verif.Model.Ieee
import Verif.Model.StrSim
import Verif.Model.EditDist
import Verif.Model.Kendall
import Verif.Model.KS
import Verif.Model.Jaccard

/-!
# Similarities and statistics computed with doubles

The counting parts are those of the other models; here the last steps, which divide counts, are in IEEE 754 double
arithmetic: `fl f64` after every conversion and every operation.
-/

namespace Verif.Doubles
open Verif Verif.FloatBits Verif.Ieee

/-- The double nearest to a real number. -/
noncomputable abbrev rd (x : ℝ) : ℝ := fl f64 x

/-- `a as f64 / b as f64` for counts. -/
noncomputable def quot (a b : ℕ) : ℝ := rd (rd a / rd b)

variable {α : Type} [DecidableEq α]

/-- `str_jaccard` (`src/str_ext/str_jaccard.rs:17-20`).  Outer option: panic; inner: NaN. -/
noncomputable def strJaccard (w1 w2 : List α) (ngram : ℕ) : Option (Option ℝ) :=
  (StrSim.setSim w1 w2 ngram).map fun t =>
    if t.1 + t.2.1 - t.2.2 = 0 then none else some (quot t.2.2 (t.1 + t.2.1 - t.2.2))

/-- `sorensen_dice` (`src/str_ext/sorensen_dice.rs:16-19`). -/
noncomputable def sorensenDice (w1 w2 : List α) (ngram : ℕ) : Option (Option ℝ) :=
  (StrSim.setSim w1 w2 ngram).map fun t =>
    if t.1 + t.2.1 = 0 then none else some (quot (2 * t.2.2) (t.1 + t.2.1))

/-- `overlap_coeff` (`src/str_ext/overlap.rs:16-19`). -/
noncomputable def overlapCoeff (w1 w2 : List α) (ngram : ℕ) : Option (Option ℝ) :=
  (StrSim.setSim w1 w2 ngram).map fun t =>
    if min t.1 t.2.1 = 0 then none else some (quot t.2.2 (min t.1 t.2.1))

/-- `tversky_sim` (`src/str_ext/tversky.rs:17-22`). -/
noncomputable def tverskyDen (t : ℕ × ℕ × ℕ) (alpha beta : ℝ) : ℝ :=
  rd (rd (rd t.2.2 + rd (alpha * rd (StrSim.absDiff t.1 t.2.2))) + rd (beta * rd (StrSim.absDiff t.2.1 t.2.2)))

open Classical in
/-- `tversky_sim` (`src/str_ext/tversky.rs:17-22`).  `0 / 0` is NaN; with nonnegative weights the denominator is zero only
if the intersection is empty. -/
noncomputable def tverskySim (w1 w2 : List α) (ngram : ℕ) (alpha beta : ℝ) : Option (Option ℝ) :=
  (StrSim.setSim w1 w2 ngram).map fun t =>
    if tverskyDen t alpha beta = 0 then none else some (rd (rd t.2.2 / tverskyDen t alpha beta))

/-- `normalized_similarity` of `rapidfuzz` (external), called at `src/str_ext/levenshtein.rs:32`: one minus the distance over its
largest value, both converted. -/
noncomputable def normSim (d m : ℕ) : ℝ := if m = 0 then 1 else rd (1 - quot d m)

/-- `str_leven(return_sim=True)` on two strings (`src/str_ext/levenshtein.rs:29-33`). -/
noncomputable def levSim (x y : List Char) : ℝ := normSim (EditDist.lev x y) (max x.length y.length)

/-- The end of `pl_kendall_tau` (`src/stats/kendall_tau.rs:121-125`): `none` is NaN or an infinity. -/
noncomputable def tau : Kendall.Tau → Option ℝ
  | .nan => none
  | .quot num d1 d2 =>
    if d1 = 0 ∨ d2 = 0 then none else some (rd (rd num / rd (Real.sqrt (rd (rd d1 * rd d2)))))

/-- The gap at one sample point of `ks_2samp` (`src/stats/ks.rs:44-49`), from the two counts. -/
noncomputable def ksGap (a n b m : ℕ) : ℝ := |rd (quot a n - quot b m)|

/-- The gap at a sample point (`src/stats/ks.rs:44-49`). -/
noncomputable def ksAt (v1 v2 : List ℝ) (x : ℝ) : Option ℝ :=
  match KS.bsearchRight v1 x 0 v1.length, KS.bsearchRight v2 x 0 v2.length with
  | some a, some b => some (ksGap a v1.length b v2.length)
  | _, _ => none

/-- `ks_2samp` (`src/stats/ks.rs:29-57`), first component. -/
noncomputable def ksStat (fmin : ℝ) (v1 v2 : List ℝ) : Option ℝ :=
  ((v1 ++ v2).mapM (ksAt v1 v2)).map fun gs => gs.foldl max fmin

/-- `pl_ks_2samp` (`src/stats/ks.rs:60-74`) after the Python wrapper (`python/polars_ds/exprs/stats.py:225-239`). -/
noncomputable def ks2samp (us : USort) (fmin : ℝ) (c1 c2 : List (Option ℝ)) : KS.Out ℝ :=
  let v1 := us.run (fun a b => decide (a ≤ b)) (c1.filterMap id)
  let v2 := us.run (fun a b => decide (a ≤ b)) (c2.filterMap id)
  if v1.length ≤ 30 ∨ v2.length ≤ 30 then .tooSmall
  else match ksStat fmin v1 v2 with
    | some d => .stat d
    | none => .panic

/-- `(c - min) / (max - min)` of `scale(method="min_max")` (`python/polars_ds/modeling/transforms.py:202-214`) on a double. -/
noncomputable def minMax (lo hi x : ℝ) : ℝ := rd (rd (x - lo) / rd (hi - lo))

end Verif.Doubles
