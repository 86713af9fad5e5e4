import Mathlib.Data.Rat.Defs
import Mathlib.Data.List.Dedup
import Mathlib.Algebra.Order.Field.Rat
import Mathlib.Algebra.BigOperators.Group.List.Basic

/-!
# `DIA.str_stats` (`python/polars_ds/eda/diagnosis.py:408-434`)

A text is its list of characters. `null_count`, `n_unique`, `value_counts`, `len_bytes`, `len_chars`, `min`, `mean` and
`max` are polars code, modelled by their documented meaning. The two quantile columns are not modelled.
-/

namespace Verif.StrStats

/-- A text: its Unicode characters. -/
abbrev Text := List Char

/-- `str.len_bytes()`: the number of bytes in UTF-8. -/
def lenBytes (t : Text) : Nat := (t.map Char.utf8Size).sum

/-- `str.len_chars()` -/
def lenChars (t : Text) : Nat := t.length

/-- The lengths of the known texts (an operation on a null gives null, and the aggregations skip nulls). -/
def lens (f : Text → Nat) (c : List (Option Text)) : List Nat := (c.filterMap id).map f

/-- `.mean()`, null without a known value. -/
def mean (l : List Nat) : Option ℚ := if l = [] then none else some ((l.sum : ℚ) / l.length)

/-- `value_counts(sort=True)`: each value, null included, with the number of its rows, most frequent first. The order among
equally frequent ones is not specified. -/
def ValueCounts (c : List (Option Text)) (out : List (Option Text × Nat)) : Prop :=
  out.Perm (c.dedup.map fun v => (v, c.count v)) ∧ out.Pairwise fun a b => b.2 ≤ a.2

/-- One row of the report. -/
structure Row where
  column : String
  nullCount : Nat
  nUnique : Nat
  mostFreq : Option Text
  mostFreqCnt : Nat
  minByte : Option Nat
  minChar : Option Nat
  avgByte : Option ℚ
  avgChar : Option ℚ
  maxByte : Option Nat
  maxChar : Option Nat

/-- The row of one column (`python/polars_ds/eda/diagnosis.py:414-432`); `vc1` and `vc2` are the two evaluations of
`value_counts(sort=True)`. -/
def statsRow (name : String) (c : List (Option Text)) (vc1 vc2 : List (Option Text × Nat)) : Option Row :=
  match vc1.head?, vc2.head? with
  | some a, some b => some
    { column := name
      nullCount := c.count none
      nUnique := c.dedup.length
      mostFreq := a.1
      mostFreqCnt := b.2
      minByte := (lens lenBytes c).min?
      minChar := (lens lenChars c).min?
      avgByte := mean (lens lenBytes c)
      avgChar := mean (lens lenChars c)
      maxByte := (lens lenBytes c).max?
      maxChar := (lens lenChars c).max? }
  | _, _ => none

/-- A possible row for a column: `value_counts` may order equally frequent values as it likes, each time it is evaluated. -/
def IsRow (name : String) (c : List (Option Text)) (row : Row) : Prop :=
  ∃ vc1 vc2, ValueCounts c vc1 ∧ ValueCounts c vc2 ∧ statsRow name c vc1 vc2 = some row

/-- `str_stats` (`python/polars_ds/eda/diagnosis.py:408-434`) on the string columns of a frame with at least one row. `none`
is an exception: there is no string column and `concat` gets an empty list (line 434), or a column is named `count`, for
which `value_counts` cannot name its two fields (lines 418-421). -/
inductive Report (strs : List (String × List (Option Text))) : Option (List Row) → Prop
  | noColumns : strs = [] → Report strs none
  | nameClash : "count" ∈ strs.map Prod.fst → Report strs none
  | table (rows : List Row) : strs ≠ [] → "count" ∉ strs.map Prod.fst →
      List.Forall₂ (fun s row => IsRow s.1 s.2 row) strs rows → Report strs (some rows)

end Verif.StrStats
