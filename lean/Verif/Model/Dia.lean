import Mathlib.Data.Rat.Defs
import Mathlib.Algebra.Order.Field.Basic
import Mathlib.Data.List.Dedup
import Mathlib.Data.List.Sort
import Mathlib.Data.Finset.Card
import Mathlib.Analysis.Real.Sqrt
import Verif.Model.CondEntropy

/-!
# The data inspection assistant `DIA` (`python/polars_ds/eda/diagnosis.py`)

A column is a list of optional values (`none` = null); a frame is a list of named columns.  `n_unique`, `null_count`,
`is_between`, `all_horizontal`, `list.arg_min`, `cut`, `value_counts` and `corr` are polars code, modelled by their
documented meaning.
-/

namespace Verif.Dia

/-! ## Guesses on columns -/

section Infer

variable {V : Type} [DecidableEq V]

/-- A frame: the names and columns; `V` stands for the values of all types. -/
abbrev Frame (V : Type) := List (String × List (Option V))

/-- `n_unique`: null counts as a value. -/
def nUnique (c : List (Option V)) : Nat := c.dedup.length

/-- `null_count` -/
def nullCount (c : List (Option V)) : Nat := c.count none

/-- `[c for c, ok in zip(self._frame.columns, is_ok) if ok is True]`
(python/polars_ds/eda/diagnosis.py:539, 569, 602, 635, 672). -/
def namesWhere (ok : List (Option V) → Bool) (f : Frame V) : List String :=
  (f.filter fun c => ok c.2).map Prod.fst

/-- The test in `infer_k_distinct` (python/polars_ds/eda/diagnosis.py:653-670). -/
def kDistinct (k : Nat) (includeNull : Bool) (c : List (Option V)) : Bool :=
  if includeNull then decide (nUnique c = k) || (decide (0 < nullCount c) && decide (nUnique c = k + 1))
  else decide (nUnique c = k)

/-- `infer_k_distinct` (python/polars_ds/eda/diagnosis.py:637-672); `none` is the `ValueError`. -/
def inferKDistinct (f : Frame V) (k : Int) (includeNull : Bool) : Option (List String) :=
  if k < 1 then none else some (namesWhere (kDistinct k.toNat includeNull) f)

/-- `infer_const` (python/polars_ds/eda/diagnosis.py:571-602): the code of `infer_k_distinct` with 1 and 2. -/
def inferConst (f : Frame V) (includeNull : Bool) : List String :=
  namesWhere (fun c => if includeNull then
    decide (nUnique c = 1) || (decide (0 < nullCount c) && decide (nUnique c = 2)) else decide (nUnique c = 1)) f

/-- `infer_binary` (python/polars_ds/eda/diagnosis.py:604-635): the code of `infer_k_distinct` with 2 and 3. -/
def inferBinary (f : Frame V) (includeNull : Bool) : List String :=
  namesWhere (fun c => if includeNull then
    decide (nUnique c = 2) || (decide (0 < nullCount c) && decide (nUnique c = 3)) else decide (nUnique c = 2)) f

/-- `infer_high_null` (python/polars_ds/eda/diagnosis.py:520-539): `null_count >= len * threshold`. -/
def inferHighNull (f : Frame V) (threshold : ℚ) : List String :=
  namesWhere (fun c => decide ((nullCount c : ℚ) ≥ (c.length : ℚ) * threshold)) f

/-- `infer_discrete` (python/polars_ds/eda/diagnosis.py:541-569): `simple` are the boolean and categorical columns,
which are not checked and not returned. -/
def inferDiscrete (f : Frame V) (simple : List String) (threshold : ℚ) (maxValCnt : Int) : List String :=
  namesWhere (fun c => decide ((nUnique c : Int) < maxValCnt) || decide ((nUnique c : ℚ) < threshold * (c.length : ℚ)))
    (f.filter fun c => decide (c.1 ∉ simple))

end Infer

section Prob

variable {K : Type} [Field K] [LinearOrder K]

/-- The test of float columns in `infer_prob` (python/polars_ds/eda/diagnosis.py:500): `is_between(0.0, 1.0).all()`,
nulls skipped. -/
def probFloat (c : List (Option K)) : Bool := (c.filterMap id).all fun v => decide (0 ≤ v) && decide (v ≤ 1)

/-- One row of the test of list columns in `infer_prob` (python/polars_ds/eda/diagnosis.py:502-512): not negative, sum
1 up to `1e-6`, and all lengths of the column the same.  Simplified: no nulls in the lists. -/
def probRow (c : List (List K)) (r : List K) : Bool :=
  r.all (fun v => decide (0 ≤ v)) && decide (|r.sum - 1| < 1 / 1000000) &&
    decide (c.all fun a => c.all fun b => decide (a.length = b.length))

/-- `infer_prob` (python/polars_ds/eda/diagnosis.py:491-518): the test of a list column has one value per row, and
`.row(0)` takes the first; without rows (and with a list column) `.row(0)` raises (`none`). -/
def inferProb (floats : List (String × List (Option K))) (lists : List (String × List (List K))) :
    Option (List String) :=
  if lists.any (fun c => c.2.isEmpty) then none
  else some ((floats.filter fun c => probFloat c.2).map Prod.fst ++
    (lists.filter fun c => (c.2.head?.map (probRow c.2)).getD false).map Prod.fst)

end Prob

/-! ## The cache of the guesses -/

section Cache

variable {Q : Type} [DecidableEq Q]

/-- What a user of the object does: ask (a method with arguments is a query), or change the list that an earlier
answer to a query was. -/
inductive Act (Q : Type)
  | ask (q : Q)
  | change (q : Q) (l : List String)

/-- `functools.lru_cache` on the methods (python/polars_ds/eda/diagnosis.py:520, 541, 571, 604, 637): the entries, the
one used last in front, at most `size` (128).  The list handed out is the list in the cache, so changing it changes the
entry (if it is still there). -/
def act (size : Nat) (compute : Q → List String) (cache : List (Q × List String)) :
    Act Q → List (Q × List String) × Option (List String)
  | .ask q => match cache.lookup q with
    | some l => ((q, l) :: cache.filter (fun e => decide (e.1 ≠ q)), some l)
    | none => (((q, compute q) :: cache).take size, some (compute q))
  | .change q l => (cache.map fun e => if e.1 = q then (q, l) else e, none)

/-- A history of uses: the answers in order. -/
def answers (size : Nat) (compute : Q → List String) : List (Q × List String) → List (Act Q) → List (Option (List String))
  | _, [] => []
  | cache, a :: as => (act size compute cache a).2 :: answers size compute (act size compute cache a).1 as

end Cache

/-! ## Validation -/

section Valid

variable {R : Type}

/-- `pl.all_horizontal` on booleans (three valued). -/
def allHorizontal (bs : List (Option Bool)) : Option Bool :=
  if some false ∈ bs then some false else if none ∈ bs then none else some true

/-- The reasons given for a row by `row_validation` (python/polars_ds/eda/diagnosis.py:320-339): with `all_reasons` the
sorted names of the rules whose value is not true (a null condition takes the `otherwise` branch), else the name at
`list.arg_min` (the first false one). -/
def reasons (rules : List ((R → Option Bool) × String)) (allReasons : Bool) (r : R) : List String :=
  if allReasons then ((rules.filter fun p => decide (p.1 r ≠ some true)).map Prod.snd).insertionSort (· ≤ ·)
  else ((rules.find? fun p => decide (p.1 r = some false)).map Prod.snd).toList

/-- `row_validation` (python/polars_ds/eda/diagnosis.py:267-340) with the row number as identifier; `none` is the
`ValueError` on duplicate rule names.  Simplified: the kept columns are the row itself. -/
def rowValidation (rules : List ((R → Option Bool) × String)) (allReasons : Bool) (rows : List R) :
    Option (List ((R × Nat) × List String)) :=
  if (rules.map Prod.snd).Nodup then
    some ((rows.zipIdx.filter fun p => decide (allHorizontal (rules.map fun q => q.1 p.1) = some false)).map
      fun p => (p, reasons rules allReasons p.1))
  else none

/-- `col_validation` (python/polars_ds/eda/diagnosis.py:235-265) for rules that give one value each: the root name of
the rule (`name.keep()`), its value and its message.  Two rules with the same root name are a duplicate column in
`select` (`none`). -/
def colValidation (rules : List (String × Option Bool × String)) : Option (List (String × String)) :=
  if (rules.map Prod.fst).Nodup then
    some ((rules.filter fun r => decide (r.2.1 = some false)).map fun r => (r.1, r.2.2))
  else none

end Valid

/-! ## Correlation of nulls -/

section NullCorr

variable {V : Type}

/-- `is_null` as numbers (python/polars_ds/eda/diagnosis.py:365-368; `corr` casts booleans to floats). -/
def isNull (c : List (Option V)) : List ℝ := c.map fun v => if v.isNone then 1 else 0

/-- `pl.corr(x, y)`, Pearson's correlation. -/
noncomputable def pearson (x y : List ℝ) : ℝ :=
  let mx := x.sum / x.length
  let my := y.sum / y.length
  (List.zipWith (fun a b => (a - mx) * (b - my)) x y).sum /
    (Real.sqrt (x.map fun a => (a - mx) ^ 2).sum * Real.sqrt (y.map fun b => (b - my) ^ 2).sum)

/-- `cnt == 0 or cnt == n` (python/polars_ds/eda/diagnosis.py:370-375). -/
def invalid (c : List (Option V)) : Bool :=
  decide ((c.filter Option.isNone).length = 0) || decide ((c.filter Option.isNone).length = c.length)

/-- `null_corr` (python/polars_ds/eda/diagnosis.py:342-396) on the selected (and filtered) columns: the pairs of columns,
both valid, with the correlation, sorted by its absolute value, largest first. -/
noncomputable def nullCorr (f : List (String × List (Option V))) : List (String × String × ℝ) :=
  (((CondEntropy.combos f).filter fun p => !(invalid p.1.2 || invalid p.2.2)).map fun p =>
    (p.1.1, p.2.1, pearson (isNull p.1.2) (isNull p.2.2))).insertionSort fun a b => |b.2.2| ≤ |a.2.2|

end NullCorr

/-! ## The dependency plot -/

section Plot

variable {N : Type} [DecidableEq N]

/-- The parents of `c` in the frame of dependencies (`child`, `parent`), `group_by("child")`
(python/polars_ds/eda/diagnosis.py:788-795). -/
def parents (deps : List (N × N)) (c : N) : List N := (deps.filter fun d => decide (d.1 = c)).map Prod.snd

/-- The children of `p`, `group_by("parent")`. -/
def children (deps : List (N × N)) (p : N) : List N := (deps.filter fun d => decide (d.2 = p)).map Prod.fst

/-- One turn of the inner loop (python/polars_ds/eda/diagnosis.py:802-807): `p` is dropped when one of the parents kept
so far is a child of `p`. -/
def dropStep (deps : List (N × N)) (kept : List N) (p : N) : List N :=
  if kept.any (fun q => decide (q ∈ children deps p)) then kept.filter fun q => decide (q ≠ p) else kept

/-- The parents drawn for `c` (python/polars_ds/eda/diagnosis.py:800-807). -/
def drawnParents (deps : List (N × N)) (c : N) : List N :=
  (parents deps c).foldl (dropStep deps) (parents deps c)

/-- The edges drawn by `plot_dependency` (python/polars_ds/eda/diagnosis.py:773-815), from parent to child. -/
def edges (deps : List (N × N)) : List (N × N) :=
  ((deps.map Prod.fst).dedup).flatMap fun c => (drawnParents deps c).map fun p => (p, c)

end Plot

/-! ## The numeric profile -/

section Profile

/-- A value of a float column. -/
inductive Num
  | nan
  | inf (neg : Bool)
  | fin (q : ℚ)
  deriving DecidableEq

/-- A row of `special_values_report` (python/polars_ds/eda/diagnosis.py:102-120), counts only: nulls, NaN, infinite. -/
def specialValues (c : List (Option Num)) : Nat × Nat × Nat :=
  (c.count none, c.countP (fun v => decide (v = some .nan)),
    c.countP fun v => decide (v = some (.inf true)) || decide (v = some (.inf false)))

/-- The cuts of the histogram (python/polars_ds/eda/diagnosis.py:143-145): `i / n_bins`, the first lowered and the last
raised by `1e-5`. -/
def cuts (n : Nat) : List ℚ :=
  (List.range n).map fun i : Nat => (i : ℚ) / n - (if i = 0 then 1 / 100000 else 0)
    + (if i = n - 1 then 1 / 100000 else 0)

/-- `cut(left_closed=True)`: the number of the bin is the number of breaks not above the value. -/
def bin (breaks : List ℚ) (u : ℚ) : Nat := breaks.countP fun b => decide (b ≤ u)

/-- The histogram of a column (python/polars_ds/eda/diagnosis.py:166-176) with minimum `lo` and maximum `hi`:
`value_counts` has an entry for every bin that occurs, sorted by bin.  Simplified: the finite values only, `lo < hi`. -/
def histogram (n : Nat) (lo hi : ℚ) (xs : List ℚ) : List Nat :=
  let bins := xs.map fun x => bin (cuts n) ((x - lo) / (hi - lo))
  (bins.dedup.insertionSort (· ≤ ·)).map fun b => bins.count b

/-- `outlier_cnt` (python/polars_ds/eda/diagnosis.py:155-165) with the quartiles `q1` and `q3`. -/
def outliers (q1 q3 m : ℚ) (xs : List ℚ) : Nat :=
  xs.countP fun x => decide (x < q1 - m * (q3 - q1)) || decide (x > q3 + m * (q3 - q1))

end Profile

end Verif.Dia
