import Mathlib.Analysis.SpecialFunctions.Log.Basic
import Mathlib.Analysis.SpecialFunctions.Exp

/-!
# Weight of evidence, information value and target encoding (`src/num_ext/woe_iv.rs`, `src/num_ext/target_encode.rs`)

Rows are pairs of a category and a target, `none` being null.  Arithmetic over the reals.
-/

namespace Verif.Woe
variable {κ : Type} [DecidableEq κ]

/-- `drop_nulls` (`src/num_ext/woe_iv.rs:31`, `src/num_ext/target_encode.rs:34`). -/
def clean (rows : List (Option κ × Option ℝ)) : List (κ × ℝ) :=
  rows.filterMap fun p => match p.1, p.2 with | some k, some t => some (k, t) | _, _ => none

/-- The targets of a category after `group_by`. -/
def targets (rows : List (Option κ × Option ℝ)) (k : κ) : List ℝ :=
  ((clean rows).filter fun p => decide (p.1 = k)).map Prod.snd

/-- `goods` (`src/num_ext/woe_iv.rs:33-36`). -/
def goods (rows : List (Option κ × Option ℝ)) (k : κ) : ℝ := (targets rows k).sum

/-- `cnt`. -/
def cnt (rows : List (Option κ × Option ℝ)) (k : κ) : ℝ := ((targets rows k).length : ℝ)

/-- `good_pct` (`src/num_ext/woe_iv.rs:39`); `ks` lists the categories in an unspecified order. -/
noncomputable def goodPct (rows : List (Option κ × Option ℝ)) (ks : List κ) (k : κ) : ℝ :=
  (goods rows k + 1) / ((ks.map (goods rows)).sum + 2)

/-- `bad_pct` (`src/num_ext/woe_iv.rs:40-42`). -/
noncomputable def badPct (rows : List (Option κ × Option ℝ)) (ks : List κ) (k : κ) : ℝ :=
  (cnt rows k - goods rows k + 1) / ((ks.map (cnt rows)).sum - (ks.map (goods rows)).sum + 2)

/-- `woe` (`src/num_ext/woe_iv.rs:44-48`). -/
noncomputable def woe (rows : List (Option κ × Option ℝ)) (ks : List κ) (k : κ) : ℝ :=
  Real.log (goodPct rows ks k / badPct rows ks k)

/-- `iv` (`src/num_ext/woe_iv.rs:65-74`). -/
noncomputable def iv (rows : List (Option κ × Option ℝ)) (ks : List κ) (k : κ) : ℝ :=
  (goodPct rows ks k - badPct rows ks k) * woe rows ks k

/-- `info_value(..., return_sum=True)` (`python/polars_ds/exprs/num.py:695`). -/
noncomputable def ivSum (rows : List (Option κ × Option ℝ)) (ks : List κ) : ℝ := (ks.map (iv rows ks)).sum

/-- The frame of `woe` and `info_value` for a numeric feature (`python/polars_ds/exprs/num.py:616-623`, `685-694`,
`src/num_ext/woe_iv.rs:23-26`): the feature is filtered to its finite values, cut into bins (`bin`), and put into one
frame with the unfiltered target; columns of different length are an error (`none`).  A value that is null, NaN or
infinite is `none`. -/
def numericFrame {α : Type} (bin : List α → α → κ) (x : List (Option α)) (t : List (Option ℝ)) :
    Option (List (Option κ × Option ℝ)) :=
  let valid := x.filterMap id
  if valid.length = t.length then some ((valid.map fun v => some (bin valid v)).zip t) else none

/-- The weight of the category mean (`src/num_ext/target_encode.rs:37-43`). -/
noncomputable def alpha (minSamplesLeaf smoothing cnt : ℝ) : ℝ :=
  1 / (1 + Real.exp (-(cnt - minSamplesLeaf) / smoothing))

/-- `get_target_encode_frame` (`src/num_ext/target_encode.rs:19-49`): the encoded value of category `k`. -/
noncomputable def encode (rows : List (Option κ × Option ℝ)) (targetMean minSamplesLeaf smoothing : ℝ) (k : κ) : ℝ :=
  let a := alpha minSamplesLeaf smoothing (cnt rows k)
  a * (goods rows k / cnt rows k) + (1 - a) * targetMean

/-- The categories of the result, one row each (`group_by` after `drop_nulls`), in an unspecified order: the function
gives the membership test. -/
def encoded (rows : List (Option κ × Option ℝ)) (k : Option κ) : Bool :=
  match k with
  | none => false
  | some k => (clean rows).any fun p => decide (p.1 = k)

/-- `t.mean()` (`python/polars_ds/exprs/num.py:997`): over all targets that are not null; `none` if there are none. -/
noncomputable def overallMean (rows : List (Option κ × Option ℝ)) : Option ℝ :=
  let ts := rows.filterMap Prod.snd
  if ts.length = 0 then none else some (ts.sum / (ts.length : ℝ))

end Verif.Woe
