import Mathlib.Algebra.Order.Field.Basic
import Mathlib.Algebra.BigOperators.Group.List.Basic
import Verif.Model.Parallel

/-!
# Counting similar windows (`src/num_ext/subseq_sim.rs`, `query_similar_count`)

`none` in a column is a null.  Values are in an ordered field; the square root is a parameter.
-/

namespace Verif.Subseq
open Verif

variable {K : Type} [Field K] [LinearOrder K]

/-- How a call ends. -/
inductive Outcome where
  | ok (n : Nat)
  | err
  | panic
deriving Repr, DecidableEq

/-- `slice::windows(w)` for `w > 0`: the contiguous windows from left to right, none if the slice is shorter. -/
def windows (w : Nat) : List K → List (List K)
  | [] => []
  | x :: xs => if (x :: xs).length < w then [] else (x :: xs).take w :: windows w xs

/-- The loop of `src/num_ext/subseq_sim.rs:48-53`; `cfavml::squared_euclidean` (`:42, 57`, external crate) is the same
sum in some other order, which is the same value in a field. -/
def sqDist (a b : List K) : K :=
  (a.zip b).foldl (fun acc p => acc + (p.1 - p.2) * (p.1 - p.2)) 0

/-- `(d < threshold) as u32`. -/
def hit (threshold : K) (q w : List K) : Nat := if sqDist w q < threshold then 1 else 0

/-- `pl_subseq_sim_cnt_l2` (`src/num_ext/subseq_sim.rs:22-66`), sequential branches.  `cont_slice().unwrap()` panics
when the target has a null.  The `u32` count does not overflow: a column has fewer than `2^32` rows. -/
def cntL2 (target : List (Option K)) (q : List K) (threshold : K) : Outcome :=
  match target.mapM id with
  | none => .panic
  | some seq =>
    if q.length > seq.length then .err
    else .ok ((windows q.length seq).foldl (fun acc w => acc + hit threshold q w) 0)

/-- The parallel branch (`src/num_ext/subseq_sim.rs:40-43`): the windows are added up in the order `order` in which the
workers reach them. -/
def cntL2Par (order : List (List K) → List (List K)) (target : List (Option K)) (q : List K) (threshold : K) :
    Outcome :=
  match target.mapM id with
  | none => .panic
  | some seq =>
    if q.length > seq.length then .err
    else .ok (((order (windows q.length seq)).map (hit threshold q)).sum)

/-- Mean of a window. -/
def mean (l : List K) : K := l.sum / l.length

/-- Variance with `ddof = 1`. -/
def var (l : List K) : K := (l.map fun x => (x - mean l) * (x - mean l)).sum / ((l.length : K) - 1)

/-- `rolling_mean` / `rolling_var` of Polars with `min_samples = window_size` (external crate): row `i` looks at the
`w` rows ending at `i`, null before the first full window. -/
def rolling (f : List K → K) (w : Nat) (l : List K) : List (Option K) :=
  (List.range l.length).map fun i => if i + 1 < w then none else some (f ((l.drop (i + 1 - w)).take w))

/-- `t.rolling_mean(window_size=len(q)).slice(len(q) - 1, None)` (`python/polars_ds/exprs/ts_features.py:287`). -/
def meanCol (w : Nat) (l : List K) : List (Option K) := (rolling mean w l).drop (w - 1)

/-- `pl.max_horizontal(t.rolling_var(..).slice(..), 1e-10)` (`python/polars_ds/exprs/ts_features.py:288-291`); `floor` is
`1e-10`. -/
def varCol (floor : K) (w : Nat) (l : List K) : List (Option K) :=
  ((rolling var w l).drop (w - 1)).map fun v => v.map fun v => max v floor

/-- `(qq - qq.mean()) / qq.std()` (`python/polars_ds/exprs/ts_features.py:295`); `none` stands for the NaNs obtained
when the standard deviation is zero. -/
def normQuery (sqrt : K → K) (q : List K) : Option (List K) :=
  if sqrt (var q) = 0 then none else some (q.map fun x => (x - mean q) / sqrt (var q))

/-- One window: `rolling_mean[i]`, `rolling_var[i]` panic outside the columns.  A NaN query is never below the
threshold. -/
def zHit (sqrt : K → K) (rm rv : List K) (threshold : K) (zq : Option (List K)) (i : Nat) (w : List K) :
    Option Nat :=
  match rm[i]?, rv[i]? with
  | some m, some v =>
    match zq with
    | some zq => some (hit threshold zq (w.map fun x => (x - m) / sqrt v))
    | none => some 0
  | _, _ => none

/-- `usize` subtraction `seq.len() + 1 - window_size` (`src/num_ext/subseq_sim.rs:87`), wrapping. -/
def totalWindows (n w : Nat) : Nat := (n + 1 + 2 ^ 64 - w) % 2 ^ 64

/-- The sum of the hits of the windows numbered from `o` on. -/
def zSum (sqrt : K → K) (rm rv : List K) (threshold : K) (zq : Option (List K)) (o : Nat) (ws : List (List K)) :
    Option Nat :=
  (ws.zipIdx.mapM fun p => zHit sqrt rm rv threshold zq (p.2 + o) p.1).map List.sum

/-- One worker of the parallel branch (`src/num_ext/subseq_sim.rs:95-106`): slicing past the end panics. -/
def zWorker (sqrt : K → K) (rm rv : List K) (threshold : K) (zq : Option (List K)) (ws : List (List K))
    (ol : Nat × Nat) : Option Nat :=
  if ol.1 + ol.2 ≤ ws.length then zSum sqrt rm rv threshold zq ol.1 ((ws.drop ol.1).take ol.2) else none

/-- `pl_subseq_sim_cnt_zl2` (`src/num_ext/subseq_sim.rs:68-123`) on the columns built in Python
(`python/polars_ds/exprs/ts_features.py:286-304`).  `threads = none` is the sequential branch. -/
def cntZL2 (sqrt : K → K) (floor : K) (threads : Option Nat) (target : List (Option K)) (q : List K)
    (threshold : K) : Outcome :=
  match target.mapM id with
  | none => .panic
  | some seq =>
    match (meanCol q.length seq).mapM id, (varCol floor q.length seq).mapM id with
    | some rm, some rv =>
      let ws := windows q.length seq
      let zq := normQuery sqrt q
      let n := match threads with
        | none => zSum sqrt rm rv threshold zq 0 ws
        | some k =>
          ((splitOffsets (totalWindows seq.length q.length) k).mapM (zWorker sqrt rm rv threshold zq ws)).map
            List.sum
      match n with
      | some n => .ok n
      | none => .panic
    | _, _ => .err

/-- `query_similar_count` (`python/polars_ds/exprs/ts_features.py:239-312`): a query of at most one value is a
`ValueError`. -/
def similarCount (sqrt : K → K) (floor : K) (z : Bool) (threads : Option Nat) (target : List (Option K)) (q : List K)
    (threshold : K) : Outcome :=
  if q.length ≤ 1 then .err
  else if z then cntZL2 sqrt floor threads target q threshold
  else cntL2 target q threshold

/-- `return_ratio` (`python/polars_ds/exprs/ts_features.py:310-311`). -/
def ratio (n rows w : Nat) : K := (n : K) / ((rows : K) - (w : K) + 1)

end Verif.Subseq
