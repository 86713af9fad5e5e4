/-!
# Work splitting and concurrent writes (`src/utils/mod.rs`)
-/

namespace Verif

/-- `split_offsets` (`src/utils/mod.rs:124-141`): `(offset, len)` per worker.  `n = 0` would divide by zero
in Rust; the pool size is at least one. -/
def splitOffsets (len n : Nat) : List (Nat × Nat) :=
  if n = 1 then [(0, len)]
  else
    let chunk := len / n
    (List.range n).map fun p =>
      let offset := p * chunk
      let l := if p = n - 1 then len - offset else chunk
      (p * chunk, l)

/-- Task `i` writes its result into slot `i` (indexed parallel `collect` of rayon, external crate). -/
def taskStep {α : Type} (tasks : List (Unit → α)) (slots : List (Option α)) (i : Nat) :
    List (Option α) :=
  match tasks[i]? with
  | some t => slots.set i (some (t ()))
  | none => slots

/-- Result slots of an indexed parallel `collect` (rayon): task `i` writes its result into slot `i`.
`order` is the order in which the tasks finish. -/
def runTasks {α : Type} (tasks : List (Unit → α)) (order : List Nat) : List (Option α) :=
  order.foldl (taskStep tasks) (List.replicate tasks.length none)

/-- The shared shape of the parallel branches (`src/num_ext/knn.rs:115-131, 167-191, 233-254, 509-531`,
`src/str_ext/generic_str_distancer.rs:59-85`): split the rows by `split_offsets`, let each worker map its
slice `&data[offset..offset + len]`, and concatenate the chunks in worker order.
`none` if some slot was never filled. -/
def parMap {α β : Type} (f : α → β) (rows : List α) (n : Nat) (order : List Nat) : Option (List β) :=
  let tasks := (splitOffsets rows.length n).map fun ol => fun (_ : Unit) =>
    ((rows.drop ol.1).take ol.2).map f
  ((runTasks tasks order).mapM id).map List.flatten

/-- A write of one cell. -/
structure Write (α : Type) where
  pos : Nat
  val : α

/-- The writes of column `col` among `m` columns, chunk by chunk
(`src/utils/mod.rs:98-110`: `chunk_offset` is the number of rows in the chunks before). -/
def columnWrites {α : Type} (m col : Nat) : Nat → List (List α) → List (Write α)
  | _, [] => []
  | chunkOffset, c :: cs =>
    (c.zipIdx.map fun (v, r) => ⟨col + chunkOffset * m + r * m, v⟩) ++
      columnWrites m col (chunkOffset + c.length) cs

/-- Errors of `series_to_row_major_slice`. -/
inductive RowMajorErr where
  | noData | shapeMismatch
deriving Repr, DecidableEq

/-- The checks of `series_to_row_major_slice` (`src/utils/mod.rs:62-72`) and the write sequences of its
parallel writers, one per column (`:77-110`).  A column is a list of chunks.  Values are already cast. -/
def rowMajorWriters {α : Type} (cols : List (List (List α))) :
    Except RowMajorErr (Nat × List (List (Write α))) :=
  match cols with
  | [] => .error .noData
  | c0 :: cs =>
    let height := c0.flatten.length
    if cs.all (fun c => c.flatten.length == height) then
      .ok (height, (c0 :: cs).zipIdx.map fun (c, j) => columnWrites cols.length j 0 c)
    else .error .shapeMismatch

/-- Perform writes on an uninitialised buffer (`none` = never written).  A write outside the buffer would
be undefined behaviour; here it is ignored, and the theorems show there is none. -/
def performWrites {α : Type} (buf : List (Option α)) (ws : List (Write α)) : List (Option α) :=
  ws.foldl (fun b w => b.set w.pos (some w.val)) buf

end Verif
