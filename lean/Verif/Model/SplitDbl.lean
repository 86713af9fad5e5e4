import Verif.Model.Split
import Verif.Model.Doubles

/-!
# Ratios of `split_by_ratio` and `sample` in double arithmetic (`python/polars_ds/sample_and_split/sample_and_split.py`)

`Verif.Model.Split` takes the number of rows for a ratio as a parameter.  Here it is computed as Python and polars do,
with every operation rounded to a double.
-/

namespace Verif.SplitDbl
open Verif.Doubles
variable {α : Type}

/-- `int(n * v)` (`sample_and_split.py:262`), `(pl.len() * v).cast(..)` (`sample_and_split.py:24-26, 232`): the number of
rows is exact as a double, the product is rounded and cut. -/
noncomputable def truncRows (n : ℕ) (v : ℝ) : ℕ := ⌊rd ((n : ℝ) * v)⌋₊

/-- `sum(ratios)` (`sample_and_split.py:245`) up to Python 3.11: from left to right, each addition rounded. -/
noncomputable def sumPlain (rs : List ℝ) : ℝ := rs.foldl (fun s x => rd (s + x)) 0

/-- One addition of `sum` from Python 3.12 on: the running sum and the collected rounding errors (CPython, not in
`/repo`; called at `sample_and_split.py:245`). -/
noncomputable def compAdd (s : ℝ × ℝ) (x : ℝ) : ℝ × ℝ :=
  let t := rd (s.1 + x)
  if |x| ≤ |s.1| then (t, rd (s.2 + rd (rd (s.1 - t) + x))) else (t, rd (s.2 + rd (rd (x - t) + s.1)))

/-- `sum(ratios)` (`sample_and_split.py:245`) from Python 3.12 on. -/
noncomputable def sumComp (rs : List ℝ) : ℝ :=
  let s := rs.foldl compAdd (0, 0)
  rd (s.1 + s.2)

open Classical in
/-- `split_by_ratio` with a list of ratios (`sample_and_split.py:241-266`): `ids` is the shuffle for a single ratio, `s` the
shuffled frame for several.  `none` in the single case is the missing part (`sample_and_split.py:238-239`). -/
noncomputable def splitList (sum : List ℝ → ℝ) (rs : List ℝ) (ids : List ℕ) (rows s : List α) :
    Except String (List (List α)) :=
  match rs with
  | [r] =>
    if r ≤ 0 ∨ 1 ≤ r then .error "ValueError"
    else match Split.splitOne truncRows r ids rows with
      | none => .error "KeyError"
      | some (train, test) => .ok [train, test]
  | rs => if sum rs ≠ 1 then .error "ValueError" else .ok (Split.splitMany truncRows rs s)

/-- `sample(df, value)` with a float (`sample_and_split.py:20-26, 53`). -/
noncomputable def sampleFrac (v : ℝ) (ids : List ℕ) (rows : List α) : List α :=
  Split.sample (truncRows rows.length v) ids rows

end Verif.SplitDbl
