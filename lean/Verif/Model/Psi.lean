import Verif.Model.Stopword
import Mathlib.Order.WithBot
import Mathlib.Order.Defs.LinearOrder
import Mathlib.Data.List.Dedup
import Mathlib.Analysis.SpecialFunctions.Log.Basic

/-!
# Population stability index (`src/num_ext/psi.rs`, `python/polars_ds/exprs/num.py:405-592`)

Breakpoints are finite values and `+inf`, modelled by `WithTop`.  Data are finite (the Python side filters).
Logarithms are over the reals.
-/

namespace Verif.Psi
variable {α : Type} [LinearOrder α]

/-- Comparison of entry `i` with `x`. -/
def cmpAt (bp : List α) (x : α) (i : Nat) : Ordering :=
  match bp[i]? with
  | some y => compare y x
  | none => .lt

/-- `bp.binary_search(x)`, `Ok` and `Err` index alike (Rust standard library, not in this repository;
`src/num_ext/psi.rs:30-33`). -/
def bsIndex (bp : List α) (x : α) : Nat :=
  if bp.length = 0 then 0
  else
    let base := Stopword.searchLoop (cmpAt bp x) bp.length bp.length 0
    if cmpAt bp x base = .eq then base else base + (if cmpAt bp x base = .lt then 1 else 0)

/-- `psi_with_bps_helper` (`src/num_ext/psi.rs:19-37`): `none` = index out of bounds. -/
def psiCounts (bp : List α) (s : List α) : Option (List Nat) :=
  let idx := s.map (bsIndex bp)
  if idx.all fun i => decide (i < bp.length) then some ((List.range bp.length).map fun i => idx.count i) else none

/-- A column of shares, clipped from below (`src/num_ext/psi.rs:56-63`); `none` = NaN (the total is 0). -/
noncomputable def shares (cnt : List Nat) : Option (List ℝ) :=
  if cnt.sum = 0 then none else some (cnt.map fun c : Nat => max ((c : ℝ) / (cnt.sum : ℝ)) (1 / 10000))

/-- The `psi_bin` column (`src/num_ext/psi.rs:65-71`). -/
noncomputable def psiBin (a b : ℝ) : ℝ := (a - b) * Real.log (a / b)

/-- `psi_frame` (`src/num_ext/psi.rs:41-72`): the rows of the report, as baseline share, actual share and
contribution; `none` if a total is 0. -/
noncomputable def psiFrame (cnt1 cnt2 : List Nat) : Option (List (ℝ × ℝ × ℝ)) :=
  match shares cnt1, shares cnt2 with
  | some a, some b => some ((a.zip b).map fun p => (p.1, p.2, psiBin p.1 p.2))
  | _, _ => none

/-- `psi_w_breakpoints` and `pl_psi_w_bps` (`python/polars_ds/exprs/num.py:548-592`, `src/num_ext/psi.rs:75-94`), the
counts of one column: `+inf` is appended to the breakpoints. -/
def countsWithBreakpoints (breakpoints s : List α) : Option (List Nat) :=
  psiCounts (breakpoints.map (fun b : α => (b : WithTop α)) ++ [⊤]) (s.map fun x : α => (x : WithTop α))

/-- The right end of the bin of `x` in polars' `qcut(..., left_closed=False, include_breaks=True)` with the quantiles
`q` (not in this repository): the first quantile `≥ x`, or `+inf`. -/
def qcutBreak (q : List α) (x : α) : WithTop α :=
  match q.find? fun b => decide (x ≤ b) with
  | some b => (b : WithTop α)
  | none => ⊤

/-- The breakpoints `psi` learns from the baseline (`python/polars_ds/exprs/num.py:460-471`): the right ends that occur,
in order.  `q` are the quantiles of the baseline, ascending and without repetition. -/
def learnedBreaks (q base : List α) : List (WithTop α) :=
  (q.map (fun b : α => (b : WithTop α)) ++ [⊤]).filter fun b => decide (b ∈ base.map (qcutBreak q))

/-- The counts `psi` learns from the baseline (`value_counts`). -/
def learnedCounts (q base : List α) : List Nat :=
  (learnedBreaks q base).map fun b => (base.map (qcutBreak q)).count b

/-- The counts `psi` and `pl_psi_report` use for the new data (`src/num_ext/psi.rs:97-117`). -/
def newCounts (q base new : List α) : Option (List Nat) :=
  psiCounts (learnedBreaks q base) (new.map fun x : α => (x : WithTop α))

section discrete
variable {γ : Type} [DecidableEq γ]

/-- `value_counts` of a column with nulls: the distinct entries with their numbers; the order is not specified, here
the order of the last occurrences. -/
def valueCounts (s : List (Option γ)) : List (Option γ × Nat) := s.dedup.map fun c => (c, s.count c)

/-- Two keys match in a polars join: nulls do not match anything. -/
def keyMatch (a b : Option γ) : Bool :=
  match a, b with
  | some x, some y => decide (x = y)
  | _, _ => false

/-- The full join of the counts with nulls filled by 0 (`src/num_ext/psi.rs:121-147`): the rows as actual and baseline
count. -/
def fullJoin (actual baseline : List (Option γ × Nat)) : List (Nat × Nat) :=
  (actual.flatMap fun a =>
    let m := baseline.filter fun b => keyMatch a.1 b.1
    if m.isEmpty then [(a.2, 0)] else m.map fun b => (a.2, b.2)) ++
  ((baseline.filter fun b => !actual.any fun a => keyMatch a.1 b.1).map fun b => (0, b.2))

/-- `psi_discrete` with `return_report=False` (`python/polars_ds/exprs/num.py:485-545`, `src/num_ext/psi.rs:121-165`);
`none` = NaN. -/
noncomputable def psiDiscrete (new baseline : List (Option γ)) : Option ℝ :=
  let rows := fullJoin (valueCounts new) (valueCounts baseline)
  (psiFrame (rows.map Prod.snd) (rows.map Prod.fst)).map fun r => (r.map fun p => p.2.2).sum

end discrete

end Verif.Psi
