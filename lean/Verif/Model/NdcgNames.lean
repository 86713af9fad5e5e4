import Verif.Model.Ndcg
import Mathlib.Logic.Function.Basic

/-!
# Temporary columns of `calculate_ndcg` (`python/polars_ds/exprs/metrics.py:660-883`)

`Verif.Model.Ndcg` computes with values only.  Here the frame has named columns, and the columns the code adds on
the way ("ones", "rank", "discount_mask", "discount", "discounted_relevance") may meet columns of the user.
-/

namespace Verif.NdcgNames

/-- A row of the user's frame: the value of `example_id` and the values of the other columns by name (only the names
listed in `Frame.cols` mean anything; nulls and NaN are not modelled). -/
structure FRow where
  id : ℕ
  val : String → ℝ

/-- The frame given to `calculate_ndcg` (`metrics.py:660`): the names of the columns other than `example_id`, and
the rows. -/
structure Frame where
  cols : List String
  rows : List FRow

/-- `df.with_columns(expr.alias(n))` for an expression computed row by row (`metrics.py:770, 790, 803-815`): a column
of that name is replaced, otherwise one is added. -/
noncomputable def withColumn (f : Frame) (n : String) (e : FRow → ℝ) : Frame where
  cols := if n ∈ f.cols then f.cols else f.cols ++ [n]
  rows := f.rows.map fun r => { r with val := Function.update r.val n (e r) }

/-- `pl.col("ones").cum_sum().over(group_col).alias("rank")` (`metrics.py:794-798`): the running sum within the rows
of the same group; `seen` are the rows above. -/
noncomputable def rankRows : List FRow → List FRow → List FRow
  | _, [] => []
  | seen, r :: rs =>
    let total := (((seen ++ [r]).filter fun s => s.id == r.id).map fun s => s.val "ones").sum
    { r with val := Function.update r.val "rank" total } :: rankRows (seen ++ [r]) rs

/-- The value of `discount_mask` (`metrics.py:803-811`): `if k:` is false for `None` and for `0`. -/
noncomputable def maskAt (k : Option ℤ) (rank : ℝ) : ℝ :=
  match k with
  | none => 1
  | some k => if k = 0 then 1 else if rank ≤ (k : ℝ) then 1 else 0

/-- `_get_rank_discount_at_k` (`metrics.py:773-816`).  Selecting all columns but "ones" together with a column called
"rank" fails if the frame has a column "rank". -/
noncomputable def rankDiscount (k : Option ℤ) (f : Frame) : Except String Frame :=
  let f := withColumn f "ones" fun _ => 1
  let names := (f.cols.filter fun n => n != "ones") ++ ["rank"]
  if ¬ names.Nodup then .error "DuplicateError"
  else
    let f : Frame := { cols := names, rows := rankRows [] f.rows }
    let f := withColumn f "discount_mask" fun r => maskAt k (r.val "rank")
    .ok (withColumn f "discount" fun r => (1 / Real.logb 2 (r.val "rank" + 1)) * r.val "discount_mask")

/-- `df.sort([group_col, sort_by_column], descending=True)` (`metrics.py:768`), `group_col` being `example_id`. -/
noncomputable def sortFrame (us : USort) (by_ : String) (f : Frame) : Frame :=
  let le := fun x y : FRow => decide (y.id < x.id ∨ (y.id = x.id ∧ y.val by_ ≤ x.val by_))
  { f with rows := us.run le f.rows }

/-- `_get_dcg_score_ignore_ties` (`metrics.py:751-771`): the sum of each group. -/
noncomputable def dcgIgnore (us : USort) (k : Option ℤ) (rel by_ : String) (f : Frame) :
    Except String (ℕ → ℝ) :=
  if by_ ∉ f.cols then .error "ColumnNotFound"
  else match rankDiscount k (sortFrame us by_ f) with
    | .error e => .error e
    | .ok f =>
      if rel ∉ f.cols then .error "ColumnNotFound"
      else
        let f := withColumn f "discounted_relevance" fun r => r.val rel * r.val "discount"
        .ok fun g => ((f.rows.filter fun r => r.id == g).map fun r => r.val "discounted_relevance").sum

/-- The groups with more than one row (`metrics.py:728, 746`). -/
def keptGroups (rows : List FRow) : List ℕ :=
  (rows.map FRow.id).dedup.filter fun g => (rows.filter fun r => r.id == g).length != 1

/-- `calculate_ndcg` with `group_col="example_id"` and `ignore_ties=False`, the default (`metrics.py:660-747`); other
group columns and `ignore_ties=True` are in `Verif.Model.Ndcg`, without names.  `rel` and `score` are not
`example_id` itself. -/
noncomputable def calculate (us : USort) (k : Option ℤ) (rel score : String) (f : Frame) :
    Except String (Option ℝ) :=
  match dcgIgnore us k rel score f, dcgIgnore us k rel rel f with
  | .error e, _ => .error e
  | .ok _, .error e => .error e
  | .ok d, .ok ideal =>
    let gs := keptGroups f.rows
    .ok (if gs = [] then none
      else some ((gs.map fun g => if ideal g = 0 then 0 else d g / ideal g).sum / (gs.length : ℝ)))

end Verif.NdcgNames
