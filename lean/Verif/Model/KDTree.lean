import Verif.Model.Arith

/-!
# Model of `src/arkadia` (KD-tree) and `src/pymodels/py_kdt.rs`

`KDT` (borrowed rows) and `OwnedKDT` (owned rows) are the same algorithm; `KDT` always splits at the
midpoint.  Both are modelled by `Tree` with a configuration choosing the split method.
-/

namespace Verif.KDT
open Verif

variable {K : Type} [LinearOrder K] [Zero K] [Add K] [Sub K] [Mul K]

/-- `enum DIST` (`src/utils/mod.rs:264-273`). -/
inductive Dist (K : Type) where
  | l1 | l2 | l2simd | sql2 | sql2simd | linf
  | any (f : List K → List K → K)

/-- `DIST::new_from_str_informed` (`src/utils/mod.rs:277-305`).  `cosine` and `haversine` are the two
function values the Rust code passes to `DIST::ANY`. -/
def Dist.ofString (cosine haversine : List K → List K → K) (s : String) (dim : Nat) :
    Except String (Dist K) :=
  if s = "l1" then .ok .l1
  else if s = "l2" then (if dim < 16 then .ok .l2 else .ok .l2simd)
  else if s = "sql2" then (if dim < 16 then .ok .sql2 else .ok .sql2simd)
  else if s = "linf" || s = "inf" then .ok .linf
  else if s = "cosine" then .ok (.any cosine)
  else if s = "h" || s = "haversine" then
    (if dim = 2 then .ok (.any haversine)
     else .error "Haversine distance only works with 2-d data.")
  else .error "Unknown distance metric."

variable [FloatOps K]
open FloatOps

/-- The accumulation step of the `l1` loops (`src/utils/mod.rs:314`, `src/arkadia/kdt.rs:20,22`). -/
def accL1 (acc t : K) : K := acc + fabs t
/-- The accumulation step of the squared loops (`src/utils/mod.rs:320,331`,
`src/arkadia/kdt.rs:31,33,42,44`; `powi(2)` is `t * t`). -/
def accSq (acc t : K) : K := acc + t * t
/-- The accumulation step of the `linf` loops (`src/utils/mod.rs:338`, `src/arkadia/kdt.rs:53,55`). -/
def accInf (acc t : K) : K := max acc (fabs t)

/-- `zip(..).fold(T::zero(), ..)` of `DIST::dist` (`src/utils/mod.rs:310-338`). -/
def distFold (f : K → K → K) (a b : List K) : K :=
  (a.zip b).foldl (fun acc p => f acc (p.1 - p.2)) 0

/-- `DIST::dist` (`src/utils/mod.rs:308-341`). -/
def Dist.dist (d : Dist K) (a b : List K) : K :=
  match d with
  | .l1 => distFold accL1 a b
  | .l2 => fsqrt (distFold accSq a b)
  | .l2simd => fsqrt (simdSq a b)
  | .sql2 => distFold accSq a b
  | .sql2simd => simdSq a b
  | .linf => distFold accInf a b
  | .any f => f a b

/-- The `bounds` vector (`src/arkadia/kdt.rs:84,456`): first `dim` entries are minima (`lo`), the second
`dim` entries maxima (`hi`).  Simplification: the two halves are kept as two lists. -/
structure Box (K : Type) where
  lo : List K
  hi : List K
deriving Repr, DecidableEq

/-- One loop of `_closest_dist_to_box` (`src/arkadia/kdt.rs:18-24` and the analogous loops). -/
def boxFold (f : K → K → K) : K → List K → List K → List K → K
  | acc, l :: lo, h :: hi, p :: pt =>
    boxFold f (if p > h then f acc (p - h) else if p < l then f acc (p - l) else acc) lo hi pt
  | acc, _, _, _ => acc

/-- `new_point` of the `ANY` branch: the point clamped to the box (`src/arkadia/kdt.rs:61-68`). -/
def clampPt : List K → List K → List K → List K
  | l :: lo, h :: hi, p :: pt => (if p > h then h else if p < l then l else p) :: clampPt lo hi pt
  | _, _, pt => pt

/-- `_closest_dist_to_box` (`src/arkadia/kdt.rs:14-73`). -/
def boxDist (d : Dist K) (b : Box K) (q : List K) : K :=
  match d with
  | .l1 => boxFold accL1 0 b.lo b.hi q
  | .l2 | .l2simd => fsqrt (boxFold accSq 0 b.lo b.hi q)
  | .sql2 | .sql2simd => boxFold accSq 0 b.lo b.hi q
  | .linf => boxFold accInf 0 b.lo b.hi q
  | .any f => f q (clampPt b.lo b.hi q)

/-- `Leaf` / `OwnedLeaf` (`src/arkadia/leaf.rs:3-13`): a row with its payload. -/
structure Leaf (K A : Type) where
  item : A
  row : List K
deriving Repr, DecidableEq

/-- `NB` (`src/arkadia/neighbor.rs:5-8`). -/
structure NB (K A : Type) where
  dist : K
  item : A
deriving Repr, DecidableEq

/-- `SplitMethod` (`src/arkadia/utils.rs:4-9`). -/
inductive SplitMethod where
  | midpoint | median
deriving Repr, DecidableEq

/-- `From<bool> for SplitMethod` (`src/arkadia/utils.rs:11-19`). -/
def SplitMethod.ofBool (balanced : Bool) : SplitMethod := if balanced then .median else .midpoint

/-- The per-tree constants of `OwnedKDT` (`src/arkadia/kdt.rs:446-465`); every node carries the same copy. -/
structure Cfg (K : Type) where
  dim : Nat
  capacity : Nat
  d : Dist K
  method : SplitMethod

/-- `OwnedKDT` / `KDT` (`src/arkadia/kdt.rs:75-90, 446-465`).  A node without children is a leaf
(`is_leaf`, `:164,637`); children always come in pairs (`:747-748`). -/
inductive Tree (K A : Type) where
  | leaf (b : Box K) (data : List (Leaf K A))
  | node (axis : Nat) (value : K) (b : Box K) (l r : Tree K A)
deriving Repr

variable {A : Type}

/-- The `bounds` field. -/
def Tree.box : Tree K A → Box K
  | .leaf b _ => b
  | .node _ _ b _ _ => b

/-- The inverted box of an empty tree: minima `max_value`, maxima `min_value`
(`src/arkadia/kdt.rs:133-134, 596-597`). -/
def emptyBox (dim : Nat) : Box K := ⟨List.replicate dim maxVal, List.replicate dim minVal⟩

/-- `update_bounds` (`src/arkadia/kdt.rs:169-174, 664-669`). -/
def Box.update (b : Box K) (row : List K) : Box K :=
  ⟨List.zipWith min b.lo row, List.zipWith max b.hi row⟩

/-- `find_bounds` (`src/arkadia/kdt.rs:95-105, 470-480`). -/
def findBounds (dim : Nat) (data : List (Leaf K A)) : Box K :=
  data.foldl (fun b p => b.update p.row) (emptyBox dim)

/-- `new_empty` (`src/arkadia/kdt.rs:132-146, 595-611`). -/
def newEmpty (dim : Nat) : Tree K A := .leaf (emptyBox dim) []

/-- `suggest_capacity` (`src/arkadia/utils.rs:21-33`). -/
def suggestCapacity (dim : Nat) : Nat :=
  if dim < 5 then 10 else if dim < 10 then 20 else if dim < 15 then 40
  else if dim < 20 then 100 else 4098

/-- `value_at` (`src/arkadia/leaf.rs`).  An index beyond the row would panic in Rust; the theorems assume
rows of length `dim`, for which it never happens. -/
def Leaf.valueAt (p : Leaf K A) (i : Nat) : K := p.row.getD i 0

/-- Split of an overfull leaf: `(split_value, left, right)` (`src/arkadia/kdt.rs:240-249, 698-722`). -/
def splitData (us : USort) (cfg : Cfg K) (b : Box K) (axis : Nat) (data : List (Leaf K A)) :
    K × List (Leaf K A) × List (Leaf K A) :=
  match cfg.method with
  | .midpoint =>
    let lo := b.lo.getD axis 0
    let hi := b.hi.getD axis 0
    let mid := lo + half (hi - lo)
    -- bool keys: false < true, so rows with value >= mid go last
    let s := us.run (fun p q => !(decide (mid ≤ p.valueAt axis)) || decide (mid ≤ q.valueAt axis)) data
    let i := partitionPoint (fun p => decide (p.valueAt axis < mid)) s
    (mid, s.take i, s.drop i)
  | .median =>
    let s := us.run (fun p q => decide (p.valueAt axis ≤ q.valueAt axis)) data
    let i := s.length / 2
    -- data[split_idx]: exists, the list is non-empty here
    (((s[i]?).map (·.valueAt axis)).getD 0, s.take i, s.drop i)

/-- `add_unchecked` (`src/arkadia/kdt.rs:222-276, 691-760`). -/
def Tree.add (us : USort) (cfg : Cfg K) (p : Leaf K A) (depth : Nat) : Tree K A → Tree K A
  | .leaf b data =>
    let b' := b.update p.row
    let data' := data ++ [p]
    if data'.length > cfg.capacity then
      let axis := depth % cfg.dim
      let (v, left, right) := splitData us cfg b' axis data'
      if left.isEmpty then .leaf b' right
      else .node axis v b' (.leaf (findBounds cfg.dim left) left) (.leaf (findBounds cfg.dim right) right)
    else .leaf b' data'
  | .node axis v b l r =>
    let b' := b.update p.row
    if p.valueAt axis < v then .node axis v b' (l.add us cfg p (depth + 1)) r
    else .node axis v b' l (r.add us cfg p (depth + 1))

/-- The loop of `from_leaves_unchecked` (`src/arkadia/kdt.rs:123-130, 499-510`) on a given start tree. -/
def Tree.addAll (us : USort) (cfg : Cfg K) (t : Tree K A) (ps : List (Leaf K A)) : Tree K A :=
  ps.foldl (fun t p => t.add us cfg p 0) t

/-- `from_leaves_unchecked` (`src/arkadia/kdt.rs:123-130, 499-510`); empty data panics at `data[0]`. -/
def fromLeaves (us : USort) (d : Dist K) (m : SplitMethod) (ps : List (Leaf K A)) :
    Option (Cfg K × Tree K A) :=
  match ps with
  | [] => none
  | p :: _ =>
    let dim := p.row.length
    let cfg : Cfg K := ⟨dim, suggestCapacity dim, d, m⟩
    some (cfg, (newEmpty dim).addAll us cfg ps)

/-- Number of nodes; used as fuel for the stack loops. -/
def Tree.size : Tree K A → Nat
  | .leaf _ _ => 1
  | .node _ _ _ l r => l.size + r.size + 1

/-- `count_all` (`src/arkadia/kdt.rs:648-661`), the stack as a list with its top first. -/
def countLoop : Nat → List (Tree K A) → Nat → Option Nat
  | _, [], ans => some ans
  | 0, _ :: _, _ => none
  | fuel + 1, t :: stack, ans =>
    match t with
    | .leaf _ data => countLoop fuel stack (ans + data.length)
    | .node _ _ _ l r => countLoop fuel (r :: l :: stack) ans

/-- `count_all` (`src/arkadia/kdt.rs:648-661`). -/
def Tree.countAll (t : Tree K A) : Option Nat := countLoop t.size [t] 0

/-- The `while !current.is_leaf()` descent shared by the three `*_one_step` functions
(`src/arkadia/kdt.rs:347-364, 381-395, 412-429` and `:840-857, 873-888, 905-922`): walk to the nearer
leaf, pushing each sibling whose box distance passes `keep`.  Returns the new stack and the leaf's data. -/
def descend (d : Dist K) (q : List K) (keep : K → Bool) :
    Tree K A → List (K × Tree K A) → List (K × Tree K A) × List (Leaf K A)
  | .leaf _ data, pending => (pending, data)
  | .node axis v _ l r, pending =>
    if q.getD axis 0 < v then
      let bd := boxDist d r.box q
      descend d q keep l (if keep bd then (bd, r) :: pending else pending)
    else
      let bd := boxDist d l.box q
      descend d q keep r (if keep bd then (bd, l) :: pending else pending)

/-- `update_nb_within` (`src/arkadia/kdt.rs:307-318, 789-801`). -/
def updateNbWithin (d : Dist K) (q : List K) (radius : K) (nbs : List (NB K A))
    (data : List (Leaf K A)) : List (NB K A) :=
  data.foldl (fun acc p =>
    let dist := d.dist p.row q
    if dist ≤ radius then acc ++ [⟨dist, p.item⟩] else acc) nbs

/-- `within` main loop with `within_one_step` inlined (`src/arkadia/mod.rs:142-145`,
`src/arkadia/kdt.rs:369-397, 862-890`). -/
def withinLoop (d : Dist K) (q : List K) (radius : K) :
    Nat → List (K × Tree K A) → List (NB K A) → Option (List (NB K A))
  | _, [], nbs => some nbs
  | 0, _ :: _, _ => none
  | fuel + 1, (bd, t) :: pending, nbs =>
    if bd > radius then withinLoop d q radius fuel pending nbs
    else
      let (pending', data) := descend d q (fun x => decide (x ≤ radius)) t pending
      withinLoop d q radius fuel pending' (updateNbWithin d q radius nbs data)

/-- `within_count` main loop (`src/arkadia/mod.rs:160-164`, `src/arkadia/kdt.rs:400-436, 893-929`).
The `u32` accumulator is a `Nat` here. -/
def withinCountLoop (d : Dist K) (q : List K) (radius : K) :
    Nat → List (K × Tree K A) → Nat → Option Nat
  | _, [], n => some n
  | 0, _ :: _, _ => none
  | fuel + 1, (bd, t) :: pending, n =>
    if bd > radius then withinCountLoop d q radius fuel pending (n + 0)
    else
      let (pending', data) := descend d q (fun x => decide (x ≤ radius)) t pending
      withinCountLoop d q radius fuel pending'
        (n + data.foldl (fun acc p => acc + (if d.dist p.row q ≤ radius then 1 else 0)) 0)

/-- `within` (`src/arkadia/mod.rs:135-152`).  The outer option is the Rust `Option` (rejected radius), the
inner one would be `none` only if the fuel ran out.  Every point of the model is finite. -/
def within (us : USort) (cfg : Cfg K) (t : Tree K A) (q : List K) (radius : K) (sort : Bool) :
    Option (Option (List (NB K A))) :=
  if radius ≤ 0 + eps then none
  else
    some ((withinLoop cfg.d q radius t.size [(minVal, t)] []).map fun nbs =>
      if sort then us.run (fun a b => decide (a.dist ≤ b.dist)) nbs else nbs)

/-- `within_count` (`src/arkadia/mod.rs:154-167`). -/
def withinCount (cfg : Cfg K) (t : Tree K A) (q : List K) (radius : K) : Option (Option Nat) :=
  if radius ≤ 0 + eps then none
  else some (withinCountLoop cfg.d q radius t.size [(minVal, t)] 0)

/-- The body of the loop in `update_top_k` (`src/arkadia/kdt.rs:288-302, 772-786`).
State: `(top_k, cur_max)`. -/
def topKStep (d : Dist K) (k : Nat) (q : List K) (bound : K) (s : List (NB K A) × K)
    (p : Leaf K A) : List (NB K A) × K :=
  let dist := d.dist p.row q
  if dist ≤ bound ∧ (dist < s.2 ∨ s.1.length < k) then
    let idx := partitionPoint (fun (x : NB K A) => decide (x.dist ≤ dist)) s.1
    let ins := s.1.insertIdx idx ⟨dist, p.item⟩
    let ins' := if ins.length > k then ins.dropLast else ins
    (ins', max s.2 dist)
  else s

/-- `update_top_k` (`src/arkadia/kdt.rs:278-304, 763-787`). -/
def updateTopK (d : Dist K) (k : Nat) (q : List K) (curMax bound : K) (topk : List (NB K A))
    (data : List (Leaf K A)) : List (NB K A) :=
  (data.foldl (topKStep d k q bound) (topk, curMax)).1

/-- `current_max` of `knn_one_step` (`src/arkadia/kdt.rs:339-343, 830-834`).  `last().unwrap()` is
reached only with `top_k.len() >= k > 0`. -/
def currentMax (k : Nat) (bound : K) (topk : List (NB K A)) : K :=
  if topk.length < k then bound else (topk.getLast?.map (·.dist)).getD bound

/-- The `knn*` main loop with `knn_one_step` inlined (`src/arkadia/mod.rs:84-89, 106-114, 126-132`,
`src/arkadia/kdt.rs:329-366, 819-859`). -/
def knnLoop (d : Dist K) (q : List K) (k : Nat) (bound epsilon : K) :
    Nat → List (K × Tree K A) → List (NB K A) → Option (List (NB K A))
  | _, [], topk => some topk
  | 0, _ :: _, _ => none
  | fuel + 1, (bd, t) :: pending, topk =>
    let cm := currentMax k bound topk
    if bd > cm then knnLoop d q k bound epsilon fuel pending topk
    else
      let (pending', data) := descend d q (fun x => decide (x + epsilon < cm)) t pending
      knnLoop d q k bound epsilon fuel pending' (updateTopK d k q cm bound topk data)

/-- `knn_bounded_unchecked` (`src/arkadia/mod.rs:119-133`). -/
def knnUnchecked (cfg : Cfg K) (t : Tree K A) (k : Nat) (q : List K) (bound epsilon : K) :
    Option (List (NB K A)) :=
  knnLoop cfg.d q k bound epsilon t.size [(minVal, t)] []

/-- `knn_bounded` (`src/arkadia/mod.rs:94-117`); points of the model are finite. -/
def knnBounded (cfg : Cfg K) (t : Tree K A) (k : Nat) (q : List K) (bound epsilon : K) :
    Option (Option (List (NB K A))) :=
  if k = 0 ∨ q.length ≠ cfg.dim ∨ bound ≤ eps then none
  else some (knnUnchecked cfg t k q bound epsilon)

/-- `knn` (`src/arkadia/mod.rs:79-92`): unbounded search, `max_value` as the bound. -/
def knn (cfg : Cfg K) (t : Tree K A) (k : Nat) (q : List K) (epsilon : K) :
    Option (Option (List (NB K A))) :=
  if k = 0 ∨ q.length ≠ cfg.dim then none
  else some (knnUnchecked cfg t k q maxVal epsilon)

/-! ## `PyKDT` (`src/pymodels/py_kdt.rs`) -/

/-- `PyKDT` (`src/pymodels/py_kdt.rs:16-18`): the tree with its constants; payloads are row numbers. -/
structure PyKDT (K : Type) where
  cfg : Cfg K
  tree : Tree K Nat

/-- Errors of the Python methods. -/
inductive PyErr where
  | notContiguousOrEmpty | dimensionMismatch | badMetric (msg : String) | badK
deriving Repr, DecidableEq

/-- A 2-d numpy array: number of columns and rows.  `rows.length` is the number of rows; the buffer is
taken to be C-contiguous. -/
structure Mat (K : Type) where
  ncols : Nat
  rows : List (List K)
deriving Repr, DecidableEq

/-- `X.is_empty()`: no element. -/
def Mat.isEmpty (X : Mat K) : Bool := X.rows.isEmpty || X.ncols == 0

/-- `row_major_slice_to_leaves` (`src/pymodels/py_kdt.rs:20-25`) and the numbering loop of `add`
(`:69-72`): rows paired with consecutive numbers from `start`. -/
def number (start : Nat) : List (List K) → List (Leaf K Nat)
  | [] => []
  | r :: rs => ⟨start, r⟩ :: number (start + 1) rs

/-- `PyKDT::new` (`src/pymodels/py_kdt.rs:37-50`). -/
def PyKDT.new (us : USort) (cosine haversine : List K → List K → K) (X : Mat K) (balanced : Bool)
    (distance : String) : Except PyErr (PyKDT K) :=
  match Dist.ofString cosine haversine distance X.ncols with
  | .error e => .error (.badMetric e)
  | .ok d =>
    if X.isEmpty then .error .notContiguousOrEmpty
    else
      match fromLeaves us d (.ofBool balanced) (number 0 X.rows) with
      | none => .error .notContiguousOrEmpty  -- not reached: the matrix is non-empty
      | some (cfg, t) => .ok ⟨cfg, t⟩

/-- `PyKDT::count` (`src/pymodels/py_kdt.rs:52-54`). -/
def PyKDT.count (s : PyKDT K) : Option Nat := s.tree.countAll

/-- `PyKDT::add` (`src/pymodels/py_kdt.rs:60-77`). -/
def PyKDT.add (us : USort) (s : PyKDT K) (X : Mat K) : Except PyErr (PyKDT K) :=
  if X.isEmpty then .error .notContiguousOrEmpty
  else if X.ncols ≠ s.cfg.dim then .error .dimensionMismatch
  else
    let cur := (s.tree.countAll).getD 0
    .ok ⟨s.cfg, s.tree.addAll us s.cfg (number cur X.rows)⟩

/-- A cell of the padded result matrices: a found neighbor, or the padding `(inf, u32::MAX)`. -/
inductive Cell (K : Type) where
  | found (dist : K) (id : Nat)
  | pad
deriving Repr, DecidableEq

/-- The per-query part of `PyKDT::knn` (`src/pymodels/py_kdt.rs:109-121, 125-138`): push the found
neighbors, then `k.abs_diff(n_found)` paddings. -/
def padRow (k : Nat) (nbs : List (NB K Nat)) : List (Cell K) :=
  nbs.map (fun nb => Cell.found nb.dist nb.item) ++
    List.replicate (if k ≥ nbs.length then k - nbs.length else nbs.length - k) Cell.pad

/-- `PyKDT::knn` (`src/pymodels/py_kdt.rs:79-149`): the flat buffer before the `reshape((nrows, k))`.
The parallel branch (`nrows >= 16`) collects the same rows in order (`collect_into_vec`), then pads. -/
def PyKDT.knn (s : PyKDT K) (X : Mat K) (k : Nat) (epsilon bound : K) :
    Except PyErr (Option (List (Cell K))) :=
  if X.isEmpty then .error .notContiguousOrEmpty
  else if k < 1 ∨ X.ncols ≠ s.cfg.dim then .error .badK
  else .ok ((X.rows.mapM fun q => knnUnchecked s.cfg s.tree k q bound epsilon).map
    fun nn => nn.flatMap (padRow k))

end Verif.KDT
