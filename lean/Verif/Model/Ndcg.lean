import Verif.Model.Arith
import Mathlib.Analysis.SpecialFunctions.Log.Base
import Mathlib.Data.List.Dedup
import Mathlib.Data.Real.Basic

/-!
# Normalised discounted cumulative gain (`python/polars_ds/exprs/metrics.py:660-883`)
-/

namespace Verif.Ndcg

/-- A row of the frame: the group key, the relevance and the score (nulls and NaN are not modelled). -/
structure Row where
  grp : ℕ
  rel : ℝ
  score : ℝ

/-- `discount_mask` (`metrics.py:803-811`): `if k:` is false for `None` and for `0`. -/
noncomputable def mask (k : Option ℤ) (rank : ℕ) : ℝ :=
  match k with
  | none => 1
  | some k => if k = 0 then 1 else if (rank : ℤ) ≤ k then 1 else 0

/-- `discount` (`metrics.py:813-815`). -/
noncomputable def disc (k : Option ℤ) (rank : ℕ) : ℝ := (1 / Real.logb 2 ((rank : ℝ) + 1)) * mask k rank

/-- `df.sort([group_col, sort_by_column], descending=True)` (`metrics.py:768, 843`); polars' default sort is not
stable, so the order of equal rows is left to an arbitrary sort. -/
noncomputable def sortDesc (us : USort) (key : Row → ℝ) (df : List Row) : List Row :=
  us.run (fun x y => decide (y.grp < x.grp ∨ (y.grp = x.grp ∧ key y ≤ key x))) df

/-- The rows of one group, in the order of the frame (`.over(group_col)`, `.group_by(group_col)`,
`metrics.py:796, 771`). -/
def inGroup (g : ℕ) (df : List Row) : List Row := df.filter fun r => r.grp == g

/-- `rank` counts the rows of the group from one (`metrics.py:790-801`); the group's sum of `relevance * discount`
(`metrics.py:770-771`). -/
noncomputable def dcgFrom (k : Option ℤ) : ℕ → List Row → ℝ
  | _, [] => 0
  | rank, r :: rs => r.rel * disc k rank + dcgFrom k (rank + 1) rs

/-- `_get_dcg_score_ignore_ties` (`metrics.py:751-771`) for one group. -/
noncomputable def dcgIgnore (us : USort) (k : Option ℤ) (key : Row → ℝ) (df : List Row) (g : ℕ) : ℝ :=
  dcgFrom k 1 (inGroup g (sortDesc us key df))

/-- `discount_cumsum` beside each row (`metrics.py:848`). -/
noncomputable def cumRows (k : Option ℤ) : ℕ → ℝ → List Row → List (Row × ℝ)
  | _, _, [] => []
  | rank, acc, r :: rs => (r, acc + disc k rank) :: cumRows k (rank + 1) (acc + disc k rank) rs

/-- `.rank(method='min', descending=True)` (`metrics.py:849-854`). -/
noncomputable def minRank (s : List Row) (v : ℝ) : ℕ := 1 + (s.filter fun r => decide (v < r.score)).length

/-- A line of `df_diff` after the first aggregation (`metrics.py:856-858`). -/
structure TieRow where
  rank : ℕ
  cum : ℝ
  rel : ℝ
  num : ℕ

/-- The aggregation over one rank (`metrics.py:856-858`): last cumulated discount, sum of relevances, row count. -/
noncomputable def tieRow (k : Option ℤ) (s : List Row) (q : ℕ) : TieRow :=
  let g := (cumRows k 1 0 s).filter fun x => minRank s x.1.score == q
  { rank := q, cum := (g.getLast?.map Prod.snd).getD 0, rel := (g.map fun x => x.1.rel).sum, num := g.length }

/-- One line per rank, sorted by rank (`metrics.py:856-858`). -/
noncomputable def tieTable (k : Option ℤ) (s : List Row) : List TieRow :=
  ((s.map fun r => minRank s r.score).dedup.mergeSort (fun a b => decide (a ≤ b))).map (tieRow k s)

/-- `num_repetitions` (`metrics.py:865, 877`): minus the number of rows up to the next rank. -/
noncomputable def reps (t : TieRow) : List TieRow → ℝ
  | [] => -1 * (t.num : ℝ)
  | u :: _ => (t.rank : ℝ) - u.rank

/-- `discount_diff` (`metrics.py:861, 874`). -/
noncomputable def discDiff (prev : Option ℝ) (t : TieRow) : ℝ :=
  if t.rank = 1 then t.cum else (prev.map fun c => t.cum - c).getD 0

/-- The group's sum of `average_gain * discount_diff` (`metrics.py:881-883`). -/
noncomputable def tieSum : Option ℝ → List TieRow → ℝ
  | _, [] => 0
  | prev, t :: ts => (t.rel / reps t ts * (-1)) * discDiff prev t + tieSum (some t.cum) ts

/-- `_get_dcg_score_with_ties` (`metrics.py:818-883`) for one group. -/
noncomputable def dcgTies (us : USort) (k : Option ℤ) (key : Row → ℝ) (df : List Row) (g : ℕ) : ℝ :=
  tieSum none (tieTable k (inGroup g (sortDesc us key df)))

/-- `ndcg` of one group (`metrics.py:729-744`).  A zero ideal gives NaN when the score is zero too, replaced by
zero; with relevances that are not negative a zero ideal implies a zero score. -/
noncomputable def ndcgGroup (us : USort) (k : Option ℤ) (ignoreTies : Bool) (df : List Row) (g : ℕ) : ℝ :=
  let d := if ignoreTies then dcgTies us k Row.score df g else dcgIgnore us k Row.score df g
  let ideal := dcgIgnore us k Row.rel df g
  if ideal = 0 then 0 else d / ideal

/-- The groups kept: those with more than one row (`metrics.py:728, 746`). -/
def keptGroups (df : List Row) : List ℕ :=
  (df.map Row.grp).dedup.filter fun g => (inGroup g df).length != 1

/-- `calculate_ndcg` (`metrics.py:660-747`): `cols` are the names of the frame's columns.  `example_id` is
written in the code instead of `group_col` at lines 728, 739, 740 (and 848-861). -/
noncomputable def calculate (us : USort) (cols : List String) (groupCol : String) (k : Option ℤ)
    (ignoreTies : Bool) (df : List Row) : Except String (Option ℝ) :=
  if "example_id" ∉ cols then .error "ColumnNotFound: example_id"
  else if groupCol ≠ "example_id" then .error "ColumnNotFound: example_id"
  else
    let gs := keptGroups df
    .ok (if gs = [] then none else some ((gs.map (ndcgGroup us k ignoreTies df)).sum / (gs.length : ℝ)))

end Verif.Ndcg
