import Verif.Model.Arith
import Mathlib.Order.Defs.LinearOrder

/-!
# Kendall's tau (`src/stats/kendall_tau.rs`)

The `u32` columns are lists of naturals.  The `i64`/`usize` counters are unbounded (they fit for fewer than
`2^32` rows).
-/

namespace Verif.Kendall
open Verif

/-- The key order of `.sort(["x", "y"])` (`src/stats/kendall_tau.rs:14`). -/
def lexLe (a b : Nat × Nat) : Bool := a.1 < b.1 || (a.1 == b.1 && a.2 ≤ b.2)

/-- `(c * (c - 1)) >> 1` (`src/stats/kendall_tau.rs:46, 50, 52, 58`). -/
def half (c : Nat) : Nat := (c * (c - 1)) / 2

/-- State of the first loop (`src/stats/kendall_tau.rs:32-36`). -/
structure TieState where
  tiedX : Nat
  tiedXY : Nat
  cx : Nat
  cxy : Nat
  xj : Nat
  yj : Nat
deriving Repr, DecidableEq

/-- One iteration of the first loop (`src/stats/kendall_tau.rs:37-56`). -/
def tieStep (s : TieState) (p : Nat × Nat) : TieState :=
  let s' :=
    if p.1 = s.xj then
      if p.2 = s.yj then { s with cx := s.cx + 1, cxy := s.cxy + 1 }
      else { s with cx := s.cx + 1, tiedXY := s.tiedXY + half s.cxy, cxy := 1 }
    else
      { s with tiedX := s.tiedX + half s.cx, cx := 1, tiedXY := s.tiedXY + half s.cxy, cxy := 1 }
  { s' with xj := p.1, yj := p.2 }

/-- The first loop with the two closing additions (`src/stats/kendall_tau.rs:32-59`). -/
def ties (p : Nat × Nat) (rest : List (Nat × Nat)) : Nat × Nat :=
  let s := rest.foldl tieStep ⟨0, 0, 1, 1, p.1, p.2⟩
  (s.tiedX + half s.cx, s.tiedXY + half s.cxy)

/-- The inner merge loop on the slices `yy[i..i_end]` and `yy[j..j_end]`
(`src/stats/kendall_tau.rs:75-99`): the merged slice and the number added to `swaps`.  The companion array
`xx` is moved along in the code but never read again; it is left out. -/
def mergeCount : List Nat → List Nat → List Nat × Nat
  | [], b => (b, 0)
  | a, [] => (a, 0)
  | x :: a, y :: b =>
    if x ≤ y then
      let r := mergeCount a (y :: b)
      (x :: r.1, r.2)
    else
      let r := mergeCount (x :: a) b
      (y :: r.1, r.2 + (a.length + 1))
termination_by a b => a.length + b.length

/-- The `offset` loop (`src/stats/kendall_tau.rs:67-101`): merge consecutive segments pairwise.
The copy buffers are modelled by the returned list. -/
def pass (seg : Nat) : Nat → List Nat → List Nat × Nat
  | 0, l => (l, 0)
  | fuel + 1, l =>
    if l = [] then ([], 0)
    else
      let m := mergeCount (l.take seg) ((l.drop seg).take seg)
      let r := pass seg fuel (l.drop (2 * seg))
      (m.1 ++ r.1, m.2 + r.2)

/-- The `while seg_size < n` loop (`src/stats/kendall_tau.rs:61-105`). -/
def sortLoop : Nat → Nat → List Nat × Nat → List Nat × Nat
  | 0, _, s => s
  | fuel + 1, seg, s =>
    if seg < s.1.length then
      let r := pass seg s.1.length s.1
      sortLoop fuel (2 * seg) (r.1, s.2 + r.2)
    else s

/-- One iteration of the last loop (`src/stats/kendall_tau.rs:110-118`); state `(tied_y, ties, prev)`. -/
def tieYStep (s : Nat × Nat × Nat) (v : Nat) : Nat × Nat × Nat :=
  if v = s.2.2 then (s.1, s.2.1 + 1, v) else (s.1 + half s.2.1, 1, v)

/-- The last loop with its closing addition (`src/stats/kendall_tau.rs:107-119`). -/
def tiesY : List Nat → Nat
  | [] => 0
  | v :: rest =>
    let s := rest.foldl tieYStep (0, 1, v)
    s.1 + half s.2.1

/-- The result: NaN, or `num / sqrt(d1 * d2)` (`src/stats/kendall_tau.rs:121-124`); the three integers are
kept apart because the final division and root are floating point. -/
inductive Tau where
  | nan
  | quot (num d1 d2 : Int)
deriving Repr, DecidableEq

/-- A row where both columns are present (`src/stats/kendall_tau.rs:13`). -/
def bothPresent (r : Option Nat × Option Nat) : Option (Nat × Nat) :=
  match r.1, r.2 with
  | some x, some y => some (x, y)
  | _, _ => none

/-- `pl_kendall_tau` (`src/stats/kendall_tau.rs:8-126`): drop rows with a null, sort, count. -/
def kendallTau (us : USort) (rows : List (Option Nat × Option Nat)) : Tau :=
  match us.run lexLe (rows.filterMap bothPresent) with
  | [] => .nan
  | [_] => .nan
  | p :: q :: rest =>
    let l := p :: q :: rest
    let n := l.length
    let nPairs : Int := ((n * (n - 1)) / 2 : Nat)
    let t := ties p (q :: rest)
    let s := sortLoop n 1 (l.map (·.2), 0)
    let ty := tiesY s.1
    .quot (nPairs - t.1 - ty + t.2 - (2 * s.2 : Nat)) (nPairs - t.1) (nPairs - ty)

/-- A non-null value smaller than `x`. -/
def below {α : Type} [LinearOrder α] (x : α) : Option α → Bool
  | some y => decide (y < x)
  | none => false

/-- `rank(method="min")` of polars on one column (external): one plus the number of smaller non-null values;
null stays null. -/
def rankMin {α : Type} [LinearOrder α] (col : List (Option α)) : List (Option Nat) :=
  col.map fun v => v.map fun x => 1 + col.countP (below x)

/-- `pds.kendall_tau` (`python/polars_ds/exprs/stats.py:926-946`) on two columns of any ordered values (NaN
already mapped to null by `fill_nan(None)`); zipped rows. -/
def kendallTauExpr {α β : Type} [LinearOrder α] [LinearOrder β] (us : USort)
    (rows : List (Option α × Option β)) : Tau :=
  kendallTau us ((rankMin (rows.map (·.1))).zip (rankMin (rows.map (·.2))))

end Verif.Kendall
