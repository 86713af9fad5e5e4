import Verif.Model.Parallel
import Mathlib.Data.List.SplitOn

/-!
# Nearest string, string distance dispatch and string cleaning (`src/str_ext/`)
-/

namespace Verif.StrMisc

section nearest
variable {σ : Type}

/-- `batched.distance_with_args(w, score_cutoff(c))` of `rapidfuzz` (external): `some d` if the distance is defined
and at most the cut-off.  For the Hamming distance a different length is an error, which the loop skips. -/
def distWithCutoff (dist : σ → Option Nat) (w : σ) (cutoff : Nat) : Option Nat :=
  match dist w with
  | some d => if d ≤ cutoff then some d else none
  | none => none

/-- `d < best`; `none` is `usize::MAX`. -/
def belowBest (best : Option Nat) (d : Nat) : Bool :=
  match best with
  | none => true
  | some b => decide (d < b)

/-- The loop of `levenshtein_nearest` and `hamming_nearest` (`src/str_ext/nearest_str.rs:19-32, 41-56`);
`best = none` is `usize::MAX` (no distance reaches it). -/
def nearestLoop (dist : σ → Option Nat) : List σ → Nat → Option Nat → Option σ → Option σ
  | [], _, _, found => found
  | w :: ws, cutoff, best, found =>
    match distWithCutoff dist w cutoff with
    | none => nearestLoop dist ws cutoff best found
    | some d =>
      if d = 0 then some w
      else if belowBest best d then nearestLoop dist ws d (some d) (some w)
      else nearestLoop dist ws cutoff best found

/-- `pl_nearest_str` (`src/str_ext/nearest_str.rs:59-72`) on a column given as pairs of a validity bit and the
stored string; `values_iter` visits the stored string of every slot, null or not. -/
def nearestStr (dist : σ → Option Nat) (col : List (Bool × σ)) (cutoff : Nat) : Option σ :=
  nearestLoop dist (col.map Prod.snd) cutoff none none

end nearest

section dispatch
variable {σ β : Type}

/-- Result of a string expression. -/
inductive Res (β : Type)
  | ok (col : List (Option β))
  | shapeMismatch
  | panic
  deriving DecidableEq

/-- `binary_elementwise_values` and the zipped loops of `pl_hamming` (`src/str_ext/hamming.rs:90-104`) on a row:
null if an operand is null. -/
def binRow (f : σ → σ → Option β) (p : Option σ × Option σ) : Option β :=
  match p.1, p.2 with
  | some x, some y => f x y
  | _, _ => none

/-- The common shape of the pairwise string expressions (`src/str_ext/hamming.rs:23-110`,
`levenshtein.rs:45-62`, `generic_str_distancer.rs:45-132`, `str_jaccard.rs:22-70` and the others).  `batched r s` is
the function of the scalar branch, built from the scalar `r`; `binary` is the one of the column branch.  The function
may return null itself (`pl_hamming` for unequal lengths).  `workers` is `none` for the sequential branch and
otherwise the number of threads with the order in which the tasks finish. -/
def pairwise (batched binary : σ → σ → Option β) (workers : Option (Nat × List Nat)) (ca1 ca2 : List (Option σ)) :
    Res β :=
  match ca2 with
  | [o] =>
    match o with
    | none => .panic
    | some r =>
      let row := fun (s : Option σ) => s.bind (batched r)
      match workers with
      | none => .ok (ca1.map row)
      | some (n, order) =>
        match parMap row ca1 n order with
        | some col => .ok col
        | none => .panic
  | _ =>
    if ca1.length = ca2.length then
      match workers with
      | none => .ok ((ca1.zip ca2).map (binRow binary))
      | some (n, order) =>
        match parMap (binRow binary) (ca1.zip ca2) n order with
        | some col => .ok col
        | none => .panic
    else .shapeMismatch

end dispatch

section cleaning

/-- `str::split_whitespace` of the Rust standard library: split at white space, drop empty pieces. -/
def splitWhitespace (ws : Char → Bool) (s : List Char) : List (List Char) :=
  (s.splitOnP ws).filter fun w => !w.isEmpty

/-- `normalize_whitespace` (`src/str_ext/str_cleaning.rs:80-85`). -/
def normalizeWhitespace (ws : Char → Bool) (s : List Char) : List Char := [' '].intercalate (splitWhitespace ws s)

/-- `map_words` (`src/str_ext/str_cleaning.rs:65-78`). -/
def mapWords (ws : Char → Bool) (mapping : List Char → Option (List Char)) (s : List Char) : List Char :=
  [' '].intercalate ((splitWhitespace ws s).map fun w => (mapping w).getD w)

/-- `remove_non_ascii` (`src/str_ext/str_cleaning.rs:26-32`). -/
def removeNonAscii (s : List Char) : List Char := s.filter fun c => decide (c.toNat < 128)

end cleaning

end Verif.StrMisc
