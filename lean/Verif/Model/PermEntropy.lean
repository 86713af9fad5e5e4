import Verif.Model.PlExpr
import Mathlib.Analysis.SpecialFunctions.Log.Base
import Mathlib.Data.List.Dedup

/-!
# Entropy of discrete columns, permutation entropy and rank features
(`python/polars_ds/exprs/ts_features.py`)
-/

namespace Verif.PermEntropy
open Verif.Pl

/-- `Series.entropy(base, normalize=True)` of a column of counts (`ts_features.py:497`, `:772`).  Not modelled:
`normalize=False`. -/
noncomputable def countsEntropy (base : ℝ) (cs : List ℕ) : ℝ :=
  -(cs.map fun (c : ℕ) => (c : ℝ) / (cs.sum : ℝ) * Real.logb base ((c : ℝ) / (cs.sum : ℝ))).sum

/-- `unique_counts()` or `value_counts().struct.field("count")` (`ts_features.py:497`, `:770-771`): one count per
distinct value, a null being a value.  The order of the counts does not enter the entropy. -/
def valueCounts {α : Type} [DecidableEq α] (s : List α) : List ℕ := s.dedup.map fun v => s.count v

/-- `query_entropy` (`ts_features.py:484-497`). -/
noncomputable def queryEntropy {α : Type} [DecidableEq α] (base : ℝ) (s : List α) : ℝ :=
  countsEntropy base (valueCounts s)

/-! ## Permutation entropy -/

/-- The order used by `arg_sort`: nulls first. -/
def nle {K : Type} [LE K] : Option K → Option K → Prop
  | none, _ => True
  | some _, none => False
  | some a, some b => a ≤ b

/-- `pl.element().arg_sort()` on the entries of one list (`ts_features.py:769`, `:781`).  polars is not in this
repository; the contract is that of a comparison sort: the result is a permutation of the indices, in
non-decreasing order of the entries with nulls first, and depends only on how the entries compare.  How ties
are broken is left open. -/
structure ArgSort (K : Type) [LE K] where
  run : List (Option K) → List ℕ
  perm : ∀ w, (run w).Perm (List.range w.length)
  sorted : ∀ w, (run w).Pairwise fun i j => nle (w.getD i none) (w.getD j none)
  order : ∀ w w', w.length = w'.length →
    (∀ i j, i < w.length → j < w.length →
      (nle (w.getD i none) (w.getD j none) ↔ nle (w'.getD i none) (w'.getD j none))) → run w = run w'

variable {K : Type}

/-- The windows of `query_permute_entropy` (`ts_features.py:764-785`).  `concat_list(t, t.shift(-1), ...)` puts
the next entries beside each row, null beyond the end; for `tau > 1` every column is thinned by
`gather_every(tau)`.  `head`/`slice` take a 32 bit unsigned length, which wraps. -/
def windows (c : Col K) (tau d : ℕ) : List (List (Option K)) :=
  if tau = 1 then
    (List.range (min c.length ((c.length + 2 ^ 32 + 1 - d) % 2 ^ 32))).map fun i =>
      (List.range d).map fun j => c.getD (i + j) none
  else
    (List.range (min ((c.length + tau - 1) / tau) ((c.length / tau + 2 ^ 32 + 1 - d / tau) % 2 ^ 32))).map fun i =>
      (List.range d).map fun j => c.getD (i * tau + j) none

/-- `query_permute_entropy` (`ts_features.py:734-785`); `none` is the `ValueError`. -/
noncomputable def permuteEntropy [LE K] (A : ArgSort K) (base : ℝ) (c : Col K) (tau d : ℕ) : Option ℝ :=
  if d ≤ 1 then none
  else if tau < 1 then none
  else some (countsEntropy base (valueCounts ((windows c tau d).map A.run)))

/-! ## Rank features -/

/-- `x.rank() / x.len()` (`ts_features.py:690`): the average rank of each value, divided by the number of rows;
null for a null. -/
def rankFeature [LinearOrder K] (c : Col K) : Col ℚ :=
  map1 (fun v => ((((vals c).filter fun u => decide (u < v)).length : ℚ) +
    ((((vals c).filter fun u => decide (u = v)).length : ℚ) + 1) / 2) / (c.length : ℚ)) c

/-- `query_copula_entropy` (`ts_features.py:682-691`): the negated KNN entropy `E` of the rank features. -/
def copulaEntropy [LinearOrder K] {R : Type} [Neg R] (E : List (Col ℚ) → R) (features : List (Col K)) : R :=
  -E (features.map rankFeature)

/-- `query_cond_indep` (`ts_features.py:694-711`). -/
def condIndep [LinearOrder K] {R : Type} [Neg R] [Sub R] (E : List (Col ℚ) → R) (x y z : Col K) : R :=
  copulaEntropy E [x, y, z] - copulaEntropy E [y, z] - copulaEntropy E [x, z]

/-- The columns built by `query_transfer_entropy` (`ts_features.py:727-730`): `x2`, `s`, `x1`.  `pl.len() - lag`
is a 32 bit unsigned difference. -/
def transferCols (x s : Col K) (lag : ℕ) : Col K × Col K × Col K :=
  let m := (x.length + 2 ^ 32 - lag) % 2 ^ 32
  ((x.drop lag).take m, s.take m, x.take m)

/-- `query_transfer_entropy` (`ts_features.py:714-731`); `none` is the `ValueError`. -/
def transferEntropy [LinearOrder K] {R : Type} [Neg R] [Sub R] (E : List (Col ℚ) → R) (x s : Col K) (lag : ℕ) :
    Option R :=
  if lag < 1 then none
  else some (condIndep E (transferCols x s lag).1 (transferCols x s lag).2.1 (transferCols x s lag).2.2)

end Verif.PermEntropy
