import Verif.Model.Dia
import Verif.Model.Xi

/-!
# Tables of correlations (`python/polars_ds/eda/diagnosis.py:436-463`, `675-703`, `python/polars_ds/exprs/stats.py:1031-1055`)

A frame is a list of named columns with nulls. The correlation of two columns is one cell of a table. The sort of polars
does not promise an order among equal keys, so the answer of `infer_corr` is a relation.
-/

namespace Verif.CorrTable
open Verif.Pl

/-- One cell: null, NaN or a number. -/
inductive Cell
  | null
  | nan
  | num (v : ℝ)

/-- The five correlations that `corr` calls (`python/polars_ds/exprs/stats.py:1046-1053`): two of polars, three of the
package. -/
structure Lib (C : Type) where
  pearson : C → C → Cell
  spearman : C → C → Cell
  xi : C → C → Cell
  kendall : C → C → Cell
  bicor : C → C → Cell

/-- `corr` (`python/polars_ds/exprs/stats.py:1031-1055`); `none` is the `ValueError`. -/
def corr {C : Type} (lib : Lib C) (method : String) : Option (C → C → Cell) :=
  if method = "pearson" then some lib.pearson
  else if method = "spearman" then some lib.spearman
  else if method = "xi" then some lib.xi
  else if method = "kendall" then some lib.kendall
  else if method = "bicor" then some lib.bicor
  else none

/-- Pearson's correlation as polars documents it: on the rows where both values are known, NaN if one of the columns is
constant there (zero by zero). -/
noncomputable def pearson (x y : Col ℝ) : Cell :=
  let rows := (x.zip y).filterMap fun p => opt2 (fun a b => ((a, b) : ℝ × ℝ)) p.1 p.2
  let u := rows.map Prod.fst
  let v := rows.map Prod.snd
  if (u.map fun a => (a - u.sum / u.length) ^ 2).sum = 0 ∨ (v.map fun b => (b - v.sum / v.length) ^ 2).sum = 0 then .nan
  else .num (Dia.pearson u v)

/-- `xi_corr` (`python/polars_ds/exprs/stats.py:987-1028`) as a correlation of two columns: some order that the random
ranks allow is used; see `Xi.Ordered`. -/
def IsXi (f : Col ℝ → Col ℝ → Cell) : Prop :=
  ∀ x y, ∃ out, Xi.Ordered (x.zip y) out ∧
    f x y = (match Xi.xiCorr out with | none => .nan | some q => .num (q : ℝ))

/-- `sort(pl.col("corr").abs(), descending=True)` (`python/polars_ds/eda/diagnosis.py:701-703`): nulls come first
(`nulls_last` is not set), and NaN is larger than every number for polars. `before a b` says that `a` may precede `b`. -/
def before : Cell → Cell → Prop
  | .null, _ => True
  | .nan, .null => False
  | .nan, _ => True
  | .num a, .num b => |b| ≤ |a|
  | .num _, _ => False

/-- The rows of `infer_corr` before the sort (`python/polars_ds/eda/diagnosis.py:685-701`): the numeric columns, then the
boolean ones, in the order of the frame; each pair once, the earlier column is `x`. -/
def pairRows {C : Type} (r : C → C → Cell) (numerics bools : List (String × C)) : List (String × String × Cell) :=
  (CondEntropy.combos (numerics ++ bools)).map fun p => (p.1.1, p.2.1, r p.1.2 p.2.2)

/-- `infer_corr` (`python/polars_ds/eda/diagnosis.py:675-703`). The boolean columns are already numbers 0 and 1 here
(`cast(pl.UInt8)`, line 695). With fewer than two columns nothing is selected and `.row(0)` fails (line 698).
`none` is an exception. -/
inductive InferCorr {C : Type} (lib : Lib C) (method : String) (numerics bools : List (String × C)) :
    Option (List (String × String × Cell)) → Prop
  | unknown : corr lib method = none → InferCorr lib method numerics bools none
  | empty : pairRows (fun _ _ => .null) numerics bools = [] → InferCorr lib method numerics bools none
  | table (r out) : corr lib method = some r → pairRows r numerics bools ≠ [] →
      out.Perm (pairRows r numerics bools) → out.Pairwise (fun a b => before a.2.2 b.2.2) →
      InferCorr lib method numerics bools (some out)

/-- `DIA.corr` (`python/polars_ds/eda/diagnosis.py:436-463`): `frame` are all columns, `numerics` the names of the numeric
ones, `subset` the columns that the selected expressions give. Only their names are used (line 451); the expressions
are not. A numeric column named `column` clashes with the column of names (line 456), `concat` of nothing fails
(line 462), and so does a name that is not a column of the frame. -/
def diaCorr {C : Type} (lib : Lib C) (method : String) (frame : List (String × C)) (numerics : List String)
    (subset : List (String × C)) : Option (List (String × List (String × Cell))) :=
  match corr lib method with
  | none => none
  | some r =>
    if "column" ∈ numerics ∨ subset = [] then none
    else (subset.map Prod.fst).mapM fun x =>
      (frame.lookup x).bind fun cx =>
        (numerics.mapM fun y => (frame.lookup y).map fun cy => (y, r cx cy)).map fun cells => (x, cells)

end Verif.CorrTable
