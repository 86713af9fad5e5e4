import Mathlib.Data.List.Dedup

/-!
# `PartitionHelper` (`python/polars_ds/partition/partition.py`)

Strings are lists of characters.  Polars is not in this repository: `partition_by(by, as_dict=True)` is modelled by
its documentation, one entry for each key tuple that occurs, with the rows of that key, in order of first
occurrence.
-/

namespace Verif.Partition
variable {α : Type}

/-- A cell of a key column: null, a string or category, or a boolean (`partition.py:43-49` allows only these). -/
inductive Cell
  | null
  | str (s : List Char)
  | bool (b : Bool)
  deriving DecidableEq, Repr

/-- Python's `str(k)`. -/
def pyStr : Cell → List Char
  | .null => ['N', 'o', 'n', 'e']
  | .str s => s
  | .bool true => ['T', 'r', 'u', 'e']
  | .bool false => ['F', 'a', 'l', 's', 'e']

/-- `separator.join((str(k) for k in keys))` (`partition.py:52`). -/
def name (sep : List Char) (key : List Cell) : List Char := sep.intercalate (key.map pyStr)

/-- `partition_by(by=by, as_dict=True)`: rows are pairs of a key tuple and a payload. -/
def partitionBy (rows : List (List Cell × α)) : List (List Cell × List (List Cell × α)) :=
  ((rows.map Prod.fst).reverse.dedup.reverse).map fun k => (k, rows.filter fun r => decide (r.1 = k))

/-- Assignment to a Python dictionary: a later value replaces an earlier one in its place. -/
def dictSet {κ ν : Type} [DecidableEq κ] : List (κ × ν) → κ → ν → List (κ × ν)
  | [], k, v => [(k, v)]
  | (k', v') :: d, k, v => if k' = k then (k, v) :: d else (k', v') :: dictSet d k v

/-- The dictionary comprehension of `PartitionHelper.__init__` (`partition.py:51-54`). -/
def parts (sep : List Char) (rows : List (List Cell × α)) : List (List Char × List (List Cell × α)) :=
  ((partitionBy rows).map fun p => (name sep p.1, p.2)).foldl (fun d p => dictSet d p.1 p.2) []

/-- `PartitionHelper.get` (`partition.py:69-70`). -/
def get {κ ν : Type} [DecidableEq κ] (d : List (κ × ν)) (k : κ) : Option ν := (d.find? fun p => decide (p.1 = k)).map Prod.snd

end Verif.Partition
