import Verif.Model.SplitDbl
import Mathlib.Logic.Function.Basic
import Mathlib.Data.List.Sort
import Mathlib.Data.String.Basic

/-!
# Column names in `split_by_ratio` and `row_validation`
(`python/polars_ds/sample_and_split/sample_and_split.py:201-266`, `python/polars_ds/eda/diagnosis.py:268-340`)

`Verif.Model.Split`, `Verif.Model.SplitDbl` and `Verif.Model.Dia` have rows without names.  Here the frame has named
columns, and the columns the code adds on the way (`__id`, `__tt`, `__index__`, the names of the rules, `__reason__`)
may meet columns of the user.  Errors of polars and of Python are the name of the exception.
-/

namespace Verif.FrameNames
variable {V : Type}

/-- A frame: the names of its columns in order, and its rows; only the names listed in `names` mean anything in a row
(a polars frame, not in `/repo`). -/
structure Frame (V : Type) where
  names : List String
  rows : List (String → V)

/-- What the user sees of a frame: the names, and the cells row by row. -/
def Frame.table (f : Frame V) : List String × List (List V) := (f.names, f.rows.map fun r => f.names.map r)

/-- `with_row_index(name=n)` of polars (called at `sample_and_split.py:229, 249` and `diagnosis.py:294`): the row number as first
column, an error if the name is taken. -/
def withRowIndex (num : ℕ → V) (n : String) (f : Frame V) : Except String (Frame V) :=
  if n ∈ f.names then .error "DuplicateError"
  else .ok { names := n :: f.names, rows := f.rows.zipIdx.map fun p => Function.update p.1 n (num p.2) }

/-- `with_columns(e.alias(n))` of polars (called at `sample_and_split.py:231-235, 250`) with the values `vs` of the column: a column
of that name is replaced, otherwise one is added. -/
def withColumn (n : String) (vs : List V) (f : Frame V) : Frame V where
  names := if n ∈ f.names then f.names else f.names ++ [n]
  rows := (f.rows.zip vs).map fun p => Function.update p.1 n p.2

/-- `select(pl.col("*").exclude(["__id", "__tt"]))` (`sample_and_split.py:238-239, 262`). -/
def dropTemp (names : List String) (rows : List (String → V)) : Frame V where
  names := names.filter fun n => n != "__id" && n != "__tt"
  rows := rows

open Classical in
/-- `split_by_ratio` with one ratio (`sample_and_split.py:223-240`): `ids` is the shuffle, `num` and `bool` make cells of numbers
and booleans. -/
noncomputable def splitOne (num : ℕ → V) (bool : Bool → V) (r : ℝ) (ids : List ℕ) (f : Frame V) :
    Except String (List (Frame V)) :=
  if r ≤ 0 ∨ 1 ≤ r then .error "ValueError"
  else do
    let g ← withRowIndex num "__id" f
    let t := withColumn "__tt" (ids.map fun i => bool (decide (i < SplitDbl.truncRows g.rows.length r))) g
    match Split.splitOne SplitDbl.truncRows r ids t.rows with
    | none => .error "KeyError"
    | some (train, test) => .ok [dropTemp t.names train, dropTemp t.names test]

open Classical in
/-- `split_by_ratio` with a list of ratios (`sample_and_split.py:241-266`): `s` puts the rows in the order of the shuffle
(`sort("__tt")`), an arbitrary rearrangement of the list. -/
noncomputable def splitList (num : ℕ → V) (bool : Bool → V) (sum : List ℝ → ℝ) (rs : List ℝ) (ids : List ℕ)
    (s : List (String → V) → List (String → V)) (f : Frame V) : Except String (List (Frame V)) :=
  match rs with
  | [r] => splitOne num bool r ids f
  | rs =>
    if sum rs ≠ 1 then .error "ValueError"
    else do
      let g ← withRowIndex num "__id" f
      let t := withColumn "__tt" (ids.map num) g
      .ok ((Split.splitMany SplitDbl.truncRows rs (s t.rows)).map (dropTemp t.names))

/-- A rule of `row_validation` (`diagnosis.py:270`): a boolean (or null) for each row of the frame, and the explanation. -/
structure Rule (V : Type) where
  test : (String → V) → Option Bool
  name : String

/-- A row of the report: the kept cells and the reasons. -/
structure Line (V : Type) where
  cells : List V
  reasons : List String

/-- The report: the names of its columns and its rows. -/
structure Report (V : Type) where
  names : List String
  lines : List (Line V)

/-- `pl.all_horizontal(..).not_()` (`diagnosis.py:320`) is true exactly if one rule is false. -/
def violated (rules : List (Rule V)) (r : String → V) : Bool := rules.any fun q => q.test r == some false

/-- The reasons of a row (`diagnosis.py:323-340`): the sorted names of the rules that are not true, or the name of the first
rule that is false. -/
def reasonsOf (all : Bool) (rules : List (Rule V)) (r : String → V) : List String :=
  if all then ((rules.filter fun q => q.test r != some true).map Rule.name).insertionSort (· ≤ ·)
  else ((rules.find? fun q => q.test r == some false).map Rule.name).toList

/-- `select` of polars with the names of its columns (called at `diagnosis.py:316, 329, 334`): columns that are missing and
names that appear twice are errors. -/
def checkSelect (have_ cols added : List String) : Except String Unit :=
  if ¬ ∀ c ∈ cols, c ∈ have_ then .error "ColumnNotFoundError"
  else if ¬ (cols ++ added).Nodup then .error "DuplicateError"
  else .ok ()

/-- `row_validation` (`diagnosis.py:268-340`).  Simplifications: `filter` and `all_horizontal` without rules, and rules whose
explanation polars reads as a pattern (`^..$` or `*`), are left out; a rule gives one boolean per row. -/
def rowValidation (num : ℕ → V) (rules : List (Rule V)) (idCol : Option String) (keep : Option (List String)) (all : Bool)
    (f : Frame V) : Except String (Report V) := do
  let (g, ids) ← match idCol with
    | none => (withRowIndex num "__index__" f).map fun g => (g, ["__index__"])
    | some c => Except.ok (f, [c])
  if ¬ (rules.map Rule.name).Nodup then .error "ValueError"
  else
    let toKeep := ids ++ keep.getD []
    checkSelect g.names toKeep (rules.map Rule.name)
    checkSelect (toKeep ++ rules.map Rule.name) toKeep ["__reason__"]
    .ok { names := toKeep ++ ["__reason__"],
          lines := (g.rows.filter (violated rules)).map fun r => ⟨toKeep.map r, reasonsOf all rules r⟩ }

end Verif.FrameNames
