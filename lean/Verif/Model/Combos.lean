import Mathlib.Data.List.Sort

/-!
# Combinations and products (`src/num_ext/iterations.rs`, `python/polars_ds/exprs/expr_iter.py`)
-/

namespace Verif.Combos
variable {α : Type}

/-- `count_combinations` (`src/num_ext/iterations.rs:18-24`), without wrap-around.  It only sets the capacity of the
builder. -/
def countCombinations (n k : Nat) : Nat :=
  if n < k then 0
  else (List.range' 1 (min k (n - k))).foldl (fun acc v => acc * (n - v + 1) / v) 1

/-- `iter.combinations(k)`: `itertools` is not in this repository.  Its documented order is that of the positions:
first all combinations with the first element, then those without. -/
def combos : Nat → List α → List (List α)
  | 0, _ => [[]]
  | _ + 1, [] => []
  | k + 1, x :: xs => (combos k xs).map (x :: ·) ++ combos (k + 1) xs

/-- `pl_combinations` (`src/num_ext/iterations.rs:89-114`); `none` is the error.  The data types play no role. -/
def plCombinations (xs : List α) (k : Nat) : Option (List (List α)) :=
  if xs.length < k then none else some (combos k xs)

/-- The Python function (`python/polars_ds/exprs/expr_iter.py:85-150`).  `drop_nulls` keeps the values that are
there; `unique().drop_nulls().sort()` sorts the distinct ones. -/
def combinations [LinearOrder α] (source : List (Option α)) (k : Nat) (unique : Bool) : Option (List (List α)) :=
  let s := if unique then (source.dedup.reduceOption).insertionSort (· ≤ ·) else source.reduceOption
  plCombinations s k

/-- `get_product` (`src/num_ext/iterations.rs:45-60`). -/
def getProduct (a b : List α) : List (List α) := a.flatMap fun x => b.map fun y => [x, y]

/-- The Python function `product` (`python/polars_ds/exprs/expr_iter.py:13-82`) for two columns of the same type. -/
def product (a b : List (Option α)) : List (List α) := getProduct a.reduceOption b.reduceOption

end Verif.Combos
