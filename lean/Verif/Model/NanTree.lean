import Verif.Model.KnnExpr
import Verif.Model.RadiusExpr

/-!
# The tree on rows with NaN coordinates (`src/arkadia/kdt.rs`)

Nulls of a feature column become NaN (`none_to_nan`, `src/utils/mod.rs:83-90`), and a NaN of the user stays one.  `KDTree.lean`
models the tree on rows without NaN; here a coordinate is `none` if it is NaN.  Every comparison with NaN is false and
`Float::min`, `Float::max` return the other argument.  Infinite coordinates are not modelled.
-/

namespace Verif.KDT
open Verif FloatOps

variable {K : Type} [LinearOrder K] [Zero K] [Add K] [Sub K] [Mul K] [FloatOps K] {A : Type}

/-- `slice::partition_point` (Rust std) on any slice: as documented if the slice is partitioned, otherwise an unspecified
position.  A leaf with NaN is not always partitioned (`src/arkadia/kdt.rs:246-247`): NaN sorts to the front, not being `>= mid`,
and is not `< mid` either. -/
structure PPoint where
  run : {α : Type} → (α → Bool) → List α → Nat
  le : ∀ {α : Type} (p : α → Bool) (l : List α), run p l ≤ l.length
  part : ∀ {α : Type} (p : α → Bool) (l : List α), (∀ x ∈ l.dropWhile p, p x = false) → run p l = (l.takeWhile p).length

/-- `update_bounds` (`src/arkadia/kdt.rs:169-174, 664-669`): NaN leaves a bound as it is. -/
def Box.updateN (b : Box K) (row : List (Option K)) : Box K :=
  ⟨List.zipWith (fun m x => x.elim m (min m)) b.lo row, List.zipWith (fun m x => x.elim m (max m)) b.hi row⟩

/-- `find_bounds` (`src/arkadia/kdt.rs:95-105, 470-480`). -/
def nFindBounds (dim : Nat) (data : List (Leaf (Option K) A)) : Box K :=
  data.foldl (fun b p => b.updateN p.row) (emptyBox dim)

/-- `KDT` / `OwnedKDT` with NaN coordinates (`src/arkadia/kdt.rs:75-90, 446-465`).  Bounds and split values are numbers: a split
happens only if a row is `< mid` or, by median, if no value is NaN. -/
inductive NTree (K A : Type) where
  | leaf (b : Box K) (data : List (Leaf (Option K) A))
  | node (axis : Nat) (value : K) (b : Box K) (l r : NTree K A)

/-- The `bounds` field. -/
def NTree.box : NTree K A → Box K
  | .leaf b _ => b
  | .node _ _ b _ _ => b

/-- `value_at` (`src/arkadia/leaf.rs`). -/
def nVal (p : Leaf (Option K) A) (i : Nat) : Option K := p.row.getD i none

/-- Split of an overfull leaf (`src/arkadia/kdt.rs:240-249, 698-722`); `none` is the panic of `partial_cmp(..).unwrap()`, which
happens as soon as one value is NaN: sorting two or more rows compares every one of them.  The midpoint of an axis with no
number at all is `-inf` in the code and some number here; it decides nothing, all its comparisons being with NaN. -/
def nSplit (us : USort) (pp : PPoint) (cfg : Cfg K) (b : Box K) (axis : Nat) (data : List (Leaf (Option K) A)) :
    Option (K × List (Leaf (Option K) A) × List (Leaf (Option K) A)) :=
  match cfg.method with
  | .midpoint =>
    let lo := b.lo.getD axis 0
    let hi := b.hi.getD axis 0
    let mid := lo + half (hi - lo)
    let ge : Leaf (Option K) A → Bool := fun p => (nVal p axis).elim false fun x => decide (mid ≤ x)
    let s := us.run (fun p q => !(ge p) || ge q) data
    let i := pp.run (fun p => (nVal p axis).elim false fun x => decide (x < mid)) s
    some (mid, s.take i, s.drop i)
  | .median =>
    if data.all fun p => (nVal p axis).isSome then
      let s := us.run (fun p q => (nVal p axis).elim false fun x => (nVal q axis).elim false fun y => decide (x ≤ y)) data
      let i := s.length / 2
      some (((s[i]?).bind (nVal · axis)).getD 0, s.take i, s.drop i)
    else none

/-- `add_unchecked` (`src/arkadia/kdt.rs:222-276, 691-760`). -/
def NTree.add (us : USort) (pp : PPoint) (cfg : Cfg K) (p : Leaf (Option K) A) (depth : Nat) : NTree K A → Option (NTree K A)
  | .leaf b data =>
    if (data ++ [p]).length > cfg.capacity then
      (nSplit us pp cfg (b.updateN p.row) (depth % cfg.dim) (data ++ [p])).map fun s =>
        if s.2.1.isEmpty then .leaf (b.updateN p.row) s.2.2
        else .node (depth % cfg.dim) s.1 (b.updateN p.row) (.leaf (nFindBounds cfg.dim s.2.1) s.2.1)
          (.leaf (nFindBounds cfg.dim s.2.2) s.2.2)
    else some (.leaf (b.updateN p.row) (data ++ [p]))
  | .node axis v b l r =>
    if (nVal p axis).elim false fun x => decide (x < v) then
      (l.add us pp cfg p (depth + 1)).map fun l' => .node axis v (b.updateN p.row) l' r
    else (r.add us pp cfg p (depth + 1)).map fun r' => .node axis v (b.updateN p.row) l r'

/-- The loop of `from_leaves_unchecked` (`src/arkadia/kdt.rs:126-128, 506-508`). -/
def NTree.addAll (us : USort) (pp : PPoint) (cfg : Cfg K) : NTree K A → List (Leaf (Option K) A) → Option (NTree K A)
  | t, [] => some t
  | t, p :: ps => (t.add us pp cfg p 0).bind fun t' => t'.addAll us pp cfg ps

/-- `from_leaves_unchecked` (`src/arkadia/kdt.rs:123-130, 499-510`); `none` is a panic. -/
def nFromLeaves (us : USort) (pp : PPoint) (d : Dist K) (m : SplitMethod) (ps : List (Leaf (Option K) A)) :
    Option (Cfg K × NTree K A) :=
  match ps with
  | [] => none
  | p :: _ =>
    let dim := p.row.length
    let cfg : Cfg K := ⟨dim, suggestCapacity dim, d, m⟩
    (NTree.addAll us pp cfg (.leaf (emptyBox dim) []) ps).map fun t => (cfg, t)

/-- Number of nodes; used as fuel for the stack loops. -/
def NTree.size : NTree K A → Nat
  | .leaf _ _ => 1
  | .node _ _ _ l r => l.size + r.size + 1

/-- The descent to a leaf (`src/arkadia/kdt.rs:347-364, 381-395, 412-429`); the point is finite. -/
def nDescend (d : Dist K) (q : List K) (keep : K → Bool) :
    NTree K A → List (K × NTree K A) → List (K × NTree K A) × List (Leaf (Option K) A)
  | .leaf _ data, pending => (pending, data)
  | .node axis v _ l r, pending =>
    if q.getD axis 0 < v then
      nDescend d q keep l (if keep (boxDist d r.box q) then (boxDist d r.box q, r) :: pending else pending)
    else nDescend d q keep r (if keep (boxDist d l.box q) then (boxDist d l.box q, l) :: pending else pending)

/-- `update_nb_within` (`src/arkadia/kdt.rs:307-318, 789-801`). -/
def nUpdateNbWithin (d : Dist K) (q : List K) (radius : K) (nbs : List (NB K A)) (data : List (Leaf (Option K) A)) :
    List (NB K A) :=
  data.foldl (fun acc p => (d.distNaN p.row q).elim acc fun dist => if dist ≤ radius then acc ++ [⟨dist, p.item⟩] else acc) nbs

/-- `within` main loop (`src/arkadia/mod.rs:142-145`, `src/arkadia/kdt.rs:369-397, 862-890`). -/
def nWithinLoop (d : Dist K) (q : List K) (radius : K) :
    Nat → List (K × NTree K A) → List (NB K A) → Option (List (NB K A))
  | _, [], nbs => some nbs
  | 0, _ :: _, _ => none
  | fuel + 1, (bd, t) :: pending, nbs =>
    if bd > radius then nWithinLoop d q radius fuel pending nbs
    else
      nWithinLoop d q radius fuel (nDescend d q (fun x => decide (x ≤ radius)) t pending).1
        (nUpdateNbWithin d q radius nbs (nDescend d q (fun x => decide (x ≤ radius)) t pending).2)

/-- `within` (`src/arkadia/mod.rs:135-152`): `None` for a radius up to epsilon and for a point that is not finite.  The inner
option would be `none` only if the fuel ran out. -/
def nWithin (us : USort) (cfg : Cfg K) (t : NTree K A) (q : List (Option K)) (radius : K) (sort : Bool) :
    Option (Option (List (NB K A))) :=
  if radius ≤ 0 + eps then none
  else (fullRow q).map fun q => (nWithinLoop cfg.d q radius t.size [(minVal, t)] []).map fun nbs =>
    if sort then us.run (fun a b => decide (a.dist ≤ b.dist)) nbs else nbs

/-- `within_count` main loop (`src/arkadia/mod.rs:160-164`, `src/arkadia/kdt.rs:400-436, 893-929`). -/
def nWithinCountLoop (d : Dist K) (q : List K) (radius : K) : Nat → List (K × NTree K A) → Nat → Option Nat
  | _, [], n => some n
  | 0, _ :: _, _ => none
  | fuel + 1, (bd, t) :: pending, n =>
    if bd > radius then nWithinCountLoop d q radius fuel pending (n + 0)
    else
      nWithinCountLoop d q radius fuel (nDescend d q (fun x => decide (x ≤ radius)) t pending).1
        (n + (nDescend d q (fun x => decide (x ≤ radius)) t pending).2.foldl (fun acc p =>
          acc + ((d.distNaN p.row q).elim 0 fun dist => if dist ≤ radius then 1 else 0)) 0)

/-- `within_count` (`src/arkadia/mod.rs:154-167`). -/
def nWithinCount (cfg : Cfg K) (t : NTree K A) (q : List (Option K)) (radius : K) : Option (Option Nat) :=
  if radius ≤ 0 + eps then none
  else (fullRow q).map fun q => nWithinCountLoop cfg.d q radius t.size [(minVal, t)] 0

/-- The body of the loop in `update_top_k` (`src/arkadia/kdt.rs:288-302, 772-786`): a NaN distance fails `dist <= bound`. -/
def nTopKStep (d : Dist K) (k : Nat) (q : List K) (bound : K) (s : List (NB K A) × K) (p : Leaf (Option K) A) :
    List (NB K A) × K :=
  (d.distNaN p.row q).elim s fun dist =>
    if dist ≤ bound ∧ (dist < s.2 ∨ s.1.length < k) then
      let idx := partitionPoint (fun (x : NB K A) => decide (x.dist ≤ dist)) s.1
      let ins := s.1.insertIdx idx ⟨dist, p.item⟩
      let ins' := if ins.length > k then ins.dropLast else ins
      (ins', max s.2 dist)
    else s

/-- `update_top_k` (`src/arkadia/kdt.rs:278-304, 763-787`). -/
def nUpdateTopK (d : Dist K) (k : Nat) (q : List K) (curMax bound : K) (topk : List (NB K A))
    (data : List (Leaf (Option K) A)) : List (NB K A) :=
  (data.foldl (nTopKStep d k q bound) (topk, curMax)).1

/-- The `knn*` main loop (`src/arkadia/mod.rs:84-89, 106-114, 126-132`, `src/arkadia/kdt.rs:329-366, 819-859`). -/
def nKnnLoop (d : Dist K) (q : List K) (k : Nat) (bound epsilon : K) :
    Nat → List (K × NTree K A) → List (NB K A) → Option (List (NB K A))
  | _, [], topk => some topk
  | 0, _ :: _, _ => none
  | fuel + 1, (bd, t) :: pending, topk =>
    if bd > currentMax k bound topk then nKnnLoop d q k bound epsilon fuel pending topk
    else
      nKnnLoop d q k bound epsilon fuel
        (nDescend d q (fun x => decide (x + epsilon < currentMax k bound topk)) t pending).1
        (nUpdateTopK d k q (currentMax k bound topk) bound topk
          (nDescend d q (fun x => decide (x + epsilon < currentMax k bound topk)) t pending).2)

/-- `knn_bounded` (`src/arkadia/mod.rs:94-117`): `None` also for a point that is not finite. -/
def nKnnBounded (cfg : Cfg K) (t : NTree K A) (k : Nat) (q : List (Option K)) (bound epsilon : K) :
    Option (Option (List (NB K A))) :=
  if k = 0 ∨ q.length ≠ cfg.dim ∨ bound ≤ eps then none
  else (fullRow q).map fun q => nKnnLoop cfg.d q k bound epsilon t.size [(minVal, t)] []

/-! ## The expressions -/

/-- `pl_query_radius_ptwise` with `query_radius_ptwise` (`src/num_ext/knn.rs:499-580`), sequential branch, on any frame: every
row is in the tree, nulls as NaN. -/
def plRadiusPtwiseN (us : USort) (pp : PPoint) (cosine hav : List K → List K → K) (ncols : Nat) (ids : List Nat)
    (rows : List (List (Option K))) (r : K) (sort : Bool) (metric : String) : Outcome (List (Option (List Nat))) :=
  match Dist.ofString cosine hav metric ncols with
  | .error e => .err e
  | .ok d =>
    match nFromLeaves us pp d .midpoint ((ids.zip rows).map fun p => (⟨p.1, p.2⟩ : Leaf (Option K) Nat)) with
    | none => .panic
    | some (cfg, t) => .ok (rows.map fun q => ((nWithin us cfg t q r sort).bind id).map fun nbs => nbs.map (·.item))

/-- `row_major_slice_to_leaves_filtered` (`src/num_ext/knn.rs:71-83`) on any frame.  The mask built in Python is false for a row
with a null (`python/polars_ds/exprs/expr_knn.py:157-166`) but not for one with a NaN. -/
def maskedLeaves {A : Type} (ids : List A) (mask : List (Option Bool)) (rows : List (List (Option K))) : List (Leaf (Option K) A) :=
  (mask.zip (ids.zip rows)).filterMap fun (f, id, r) => if f.getD false then some ⟨id, r⟩ else none

/-- `pl_knn_ptwise` with `knn_ptwise` (`src/num_ext/knn.rs:150-213`, `:275-325`), sequential branch, on any frame. -/
def plKnnPtwiseN (us : USort) (pp : PPoint) (cosine hav : List K → List K → K) (ncols : Nat) (ids : List Nat)
    (keep : List (Option Bool)) (eval : List Bool) (rows : List (List (Option K))) (k : Nat) (maxBound epsilon : K)
    (metric : String) : Outcome (List (Option (List (NB K Nat)))) :=
  match Dist.ofString cosine hav metric ncols with
  | .error e => .err e
  | .ok d =>
    match nFromLeaves us pp d .midpoint (maskedLeaves ids keep rows) with
    | none => .panic
    | some (cfg, t) => .ok ((eval.zip rows).map fun p =>
        if p.1 then (nKnnBounded cfg t (k + 1) p.2 maxBound epsilon).bind id else none)

/-- `pl_dist_from_kth_nb` (`src/num_ext/knn.rs:216-273`), sequential branch, on any frame: every row is in the tree. -/
def plDistFromKthN (us : USort) (pp : PPoint) (cosine hav : List K → List K → K) (ncols : Nat) (rows : List (List (Option K)))
    (k : Nat) (maxBound epsilon : K) (metric : String) : Outcome (List (Option K)) :=
  match Dist.ofString cosine hav metric ncols with
  | .error e => .err e
  | .ok d =>
    match nFromLeaves us pp d .midpoint (rows.map fun r => (⟨(), r⟩ : Leaf (Option K) Unit)) with
    | none => .panic
    | some (cfg, t) => .ok (rows.map fun q =>
        ((nKnnBounded cfg t (k + 1) q maxBound epsilon).bind id).bind fun nbs => nbs.getLast?.map (·.dist))

/-- `pl_nb_cnt` (`src/num_ext/knn.rs:667-703`) with one radius, on any frame. -/
def plNbCntN (us : USort) (pp : PPoint) (cosine hav : List K → List K → K) (ncols : Nat) (radius : K)
    (rows : List (List (Option K))) (metric : String) : Outcome (List (Option Nat)) :=
  match Dist.ofString cosine hav metric ncols with
  | .error e => .err e
  | .ok d =>
    match nFromLeaves us pp d .midpoint (rows.map fun r => (⟨(), r⟩ : Leaf (Option K) Unit)) with
    | none => .panic
    | some (cfg, t) => .ok (rows.map fun q => (nWithinCount cfg t q radius).bind id)

end Verif.KDT
