import Verif.Model.StrMisc
import Mathlib.Algebra.Order.Field.Basic

/-!
# Edit distances and the expressions on them (`src/str_ext/`, `python/polars_ds/exprs/string.py`)

The distances come from the external crate `rapidfuzz`, which computes them bit-parallel; here they are the
recurrences it documents.  A string is the list of its characters (`s.chars()`).
-/

namespace Verif.EditDist
open Verif.StrMisc

variable {α : Type} [DecidableEq α]

/-- `rapidfuzz::distance::levenshtein::distance` (external), called at `src/str_ext/levenshtein.rs:15-18`. -/
def lev : List α → List α → Nat
  | [], ys => ys.length
  | x :: xs, [] => (x :: xs).length
  | x :: xs, y :: ys =>
    if x = y then lev xs ys
    else 1 + min (lev xs ys) (min (lev xs (y :: ys)) (lev (x :: xs) ys))
termination_by xs ys => xs.length + ys.length

/-- `rapidfuzz::distance::osa::distance` (external), called at `src/str_ext/osa.rs:8-11`. -/
def osa : List α → List α → Nat
  | [], ys => ys.length
  | x :: xs, [] => (x :: xs).length
  | [x], y :: ys => min ((if x = y then 0 else 1) + osa [] ys) (1 + min (osa [] (y :: ys)) (osa [x] ys))
  | x :: x' :: xs, [y] =>
    min ((if x = y then 0 else 1) + osa (x' :: xs) []) (1 + min (osa (x' :: xs) [y]) (osa (x :: x' :: xs) []))
  | x :: x' :: xs, y :: y' :: ys =>
    let m := min ((if x = y then 0 else 1) + osa (x' :: xs) (y' :: ys))
      (1 + min (osa (x' :: xs) (y :: y' :: ys)) (osa (x :: x' :: xs) (y' :: ys)))
    if x = y' ∧ x' = y then min m (1 + osa xs ys) else m
termination_by xs ys => xs.length + ys.length

/-- Length of the longest common subsequence: `rapidfuzz::distance::lcs_seq::similarity` (external). -/
def lcsLen : List α → List α → Nat
  | [], _ => 0
  | _ :: _, [] => 0
  | x :: xs, y :: ys =>
    if x = y then lcsLen xs ys + 1 else max (lcsLen xs (y :: ys)) (lcsLen (x :: xs) ys)
termination_by xs ys => xs.length + ys.length

/-- `rapidfuzz::distance::lcs_seq::distance` (external), called at `src/str_ext/lcs_seq.rs:8-11`. -/
def lcsDist (xs ys : List α) : Nat := max xs.length ys.length - lcsLen xs ys

/-- `rapidfuzz::distance::hamming::distance` (external), called at `src/str_ext/hamming.rs:92-101`; `none` is
the error for strings of different lengths. -/
def hamming : List α → List α → Option Nat
  | [], [] => some 0
  | x :: xs, y :: ys => (hamming xs ys).map fun d => if x = y then d else d + 1
  | _, _ => none

/-- The same with `Args::default().pad(true)` (external), called at `src/str_ext/hamming.rs:113-166`. -/
def hammingPadded : List α → List α → Nat
  | [], ys => ys.length
  | x :: xs, [] => (x :: xs).length
  | x :: xs, y :: ys => (if x = y then 0 else 1) + hammingPadded xs ys

/-- `distance_with_args(.., score_cutoff(bound))` of `rapidfuzz` (external): the distance unless it is above. -/
def cutoff (d bound : Nat) : Option Nat := if d ≤ bound then some d else none

/-- `normalized_similarity` of `rapidfuzz` (external): one minus the distance over its largest value, one if that
is zero. -/
def normSim {K : Type} [Field K] (d maxd : Nat) : K := if maxd = 0 then 1 else 1 - (d : K) / (maxd : K)

/-- `rapidfuzz::fuzz::ratio` (external), called at `src/str_ext/fuzz.rs:52-57`: the normalized similarity of the
distance that inserts and deletes only. -/
def ratio {K : Type} [Field K] (xs ys : List α) : K :=
  normSim (xs.length + ys.length - 2 * lcsLen xs ys) (xs.length + ys.length)

/-- `as u32` on a distance. -/
def asU32 (d : Nat) : Nat := d % 2 ^ 32

abbrev StrCol := List (Option (List Char))

/-- `str_leven(return_sim=False)` (`python/polars_ds/exprs/string.py:537-569`, `src/str_ext/levenshtein.rs:45-62`).
In the scalar branch the comparator is built from the scalar. -/
def strLeven (workers : Option (Nat × List Nat)) (c other : StrCol) : Res Nat :=
  pairwise (fun r s => some (asU32 (lev r s))) (fun x y => some (asU32 (lev x y))) workers c other

/-- `str_leven(return_sim=True)` (`python/polars_ds/exprs/string.py:559-563`, `src/str_ext/levenshtein.rs:129-148`). -/
def strLevenSim (K : Type) [Field K] (workers : Option (Nat × List Nat)) (c other : StrCol) : Res K :=
  pairwise (fun r s => some (normSim (lev r s) (max r.length s.length)))
    (fun x y => some (normSim (lev x y) (max x.length y.length))) workers c other

/-- `str_osa(return_sim=False)` (`python/polars_ds/exprs/string.py:607-639`, `src/str_ext/osa.rs:18-36`). -/
def strOsa (workers : Option (Nat × List Nat)) (c other : StrCol) : Res Nat :=
  pairwise (fun r s => some (asU32 (osa r s))) (fun x y => some (asU32 (osa x y))) workers c other

/-- `str_osa(return_sim=True)` (`python/polars_ds/exprs/string.py:629-633`, `src/str_ext/osa.rs:38-56`). -/
def strOsaSim (K : Type) [Field K] (workers : Option (Nat × List Nat)) (c other : StrCol) : Res K :=
  pairwise (fun r s => some (normSim (osa r s) (max r.length s.length)))
    (fun x y => some (normSim (osa x y) (max x.length y.length))) workers c other

/-- `str_lcs_seq(return_sim=False)` (`python/polars_ds/exprs/string.py:571-605`, `src/str_ext/lcs_seq.rs:18-36`). -/
def strLcsSeq (workers : Option (Nat × List Nat)) (c other : StrCol) : Res Nat :=
  pairwise (fun r s => some (asU32 (lcsDist r s))) (fun x y => some (asU32 (lcsDist x y))) workers c other

/-- `str_fuzz` (`python/polars_ds/exprs/string.py:641-660`, `src/str_ext/fuzz.rs:15-63`). -/
def strFuzz (K : Type) [Field K] (workers : Option (Nat × List Nat)) (c other : StrCol) : Res K :=
  pairwise (fun r s => some (ratio r s)) (fun x y => some (ratio x y)) workers c other

/-- `str_hamming(pad=False)` (`python/polars_ds/exprs/string.py:115-145`, `src/str_ext/hamming.rs:24-110`). -/
def strHamming (workers : Option (Nat × List Nat)) (c other : StrCol) : Res Nat :=
  pairwise (fun r s => (hamming r s).map asU32) (fun x y => (hamming x y).map asU32) workers c other

/-- `str_hamming(pad=True)` (`python/polars_ds/exprs/string.py:115-145`, `src/str_ext/hamming.rs:113-166`). -/
def strHammingPadded (workers : Option (Nat × List Nat)) (c other : StrCol) : Res Nat :=
  pairwise (fun r s => some (asU32 (hammingPadded r s))) (fun x y => some (asU32 (hammingPadded x y))) workers c other

/-- `pl_levenshtein_filter` (`src/str_ext/levenshtein.rs:65-126`). -/
def levenFilter (workers : Option (Nat × List Nat)) (bound : Nat) (c other : StrCol) : Res Bool :=
  pairwise (fun r s => some (cutoff (lev r s) bound).isSome) (fun x y => some (cutoff (lev x y) bound).isSome)
    workers c other

/-- `pl_hamming_filter` (`src/str_ext/hamming.rs:169-237`) with `hamming_within_bound` (`:12-21`). -/
def hammingFilter (workers : Option (Nat × List Nat)) (bound : Nat) (c other : StrCol) : Res Bool :=
  pairwise (fun r s => some ((hamming r s).bind fun d => cutoff d bound).isSome)
    (fun x y => some ((hamming x y).bind fun d => cutoff d bound).isSome) workers c other

/-- `pl.lit(bound, pl.UInt32)`: `none` if the number does not fit, which ends in an exception. -/
def litU32 (b : Int) : Option Nat := if 0 ≤ b ∧ b < 2 ^ 32 then some b.toNat else none

/-- `filter_by_levenshtein` (`python/polars_ds/exprs/string.py:43-75`). -/
def filterByLeven (workers : Option (Nat × List Nat)) (bound : Int) (c other : StrCol) : Option (Res Bool) :=
  (litU32 |bound|).map fun b => levenFilter workers b c other

/-- `filter_by_hamming` (`python/polars_ds/exprs/string.py:78-112`). -/
def filterByHamming (workers : Option (Nat × List Nat)) (bound : Int) (c other : StrCol) : Option (Res Bool) :=
  (litU32 bound).map fun b => hammingFilter workers b c other

end Verif.EditDist
