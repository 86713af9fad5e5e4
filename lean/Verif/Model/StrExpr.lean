import Verif.Model.EditDist
import Verif.Model.Snowball

/-!
# Vocabulary similarity, tokens, numbers in text, white space (`python/polars_ds/exprs/string.py`)

Regular expressions are external; each is a function here that follows its leftmost, greedy matching.
-/

namespace Verif.StrExpr
open Verif.StrMisc Verif.EditDist

section vocab
variable {K : Type} [Field K] [LinearOrder K]

/-- What `similar_to_vocab` ends with. -/
inductive Vocab
  | col (c : List (Option Bool))
  | typeError
  | valueError
  deriving DecidableEq

/-- The similarity columns of `similar_to_vocab` (`python/polars_ds/exprs/string.py:692-701`), one per word, by row:
the expressions get `pl.lit(w)`, so they take the scalar branch.  `dlv` is the Damerau-Levenshtein distance of
`rapidfuzz` (external).  `str_jw` has no parameter `return_sim` (`:447-452`), so the call raises. -/
def vocabSims (dlv : List Char → List Char → Nat) (metric : String) (vocab : List (List Char)) (s : List Char) :
    Except Vocab (List K) :=
  if metric = "lv" then .ok (vocab.map fun w => normSim (lev w s) (max w.length s.length))
  else if metric = "dlv" then .ok (vocab.map fun w => normSim (dlv w s) (max w.length s.length))
  else if metric = "osa" then .ok (vocab.map fun w => normSim (osa w s) (max w.length s.length))
  else if metric = "jw" then (if vocab = [] then .ok [] else .error .typeError)
  else .error .valueError

/-- `similar_to_vocab` (`python/polars_ds/exprs/string.py:663-710`) for a vocabulary with at least one word.  For a
missing entry all similarities are null: the horizontal `all` and `any` are null, the horizontal sum ignores nulls and
is zero. -/
def similarToVocab (dlv : List Char → List Char → Nat) (metric strategy : String) (vocab : List (List Char))
    (threshold : K) (c : StrCol) : Vocab :=
  match vocabSims (K := K) dlv metric vocab [] with
  | .error e => e
  | .ok _ =>
    let sims := fun s => (vocabSims (K := K) dlv metric vocab s).toOption.getD []
    if strategy = "all" then .col (c.map fun o => o.map fun s => (sims s).all fun v => decide (threshold ≤ v))
    else if strategy = "any" then .col (c.map fun o => o.map fun s => (sims s).any fun v => decide (threshold ≤ v))
    else if strategy = "avg" then
      .col (c.map fun o => some (decide (threshold ≤ (o.elim 0 fun s => (sims s).sum) / (vocab.length : K))))
    else .valueError

end vocab

/-- `str_tokenize(stem=True)` (`python/polars_ds/exprs/string.py:256-274`) on the tokens `str.extract_all` found in each
row: `str_snowball(element, True).drop_nulls()` in each list. -/
def tokenizeStem (rows : List (Option (List String))) : List (Option (List (Except Snowball.Fault (List Nat)))) :=
  rows.map fun o => o.map fun ts => (Snowball.snowballCol (ts.map some) true).filterMap id

section numbers

/-- One match of `\d*\.?\d+` at the start of `s`, with the rest (`python/polars_ds/exprs/string.py:782`).  `\d*` takes
all digits; a point is taken if a digit follows it; otherwise the digits alone are the match. -/
def matchNumber (dig : Char → Bool) (s : List Char) : Option (List Char × List Char) :=
  let d := s.takeWhile dig
  let r := s.dropWhile dig
  if r.head? = some '.' ∧ r.tail.takeWhile dig ≠ [] then
    some (d ++ '.' :: r.tail.takeWhile dig, r.tail.dropWhile dig)
  else if d ≠ [] then some (d, r)
  else none

/-- `str.extract_all`: matches from left to right.  The first argument bounds the number of steps. -/
def extractFuel (dig : Char → Bool) : Nat → List Char → List (List Char)
  | 0, _ => []
  | _, [] => []
  | n + 1, c :: s =>
    match matchNumber dig (c :: s) with
    | some (m, rest) => m :: extractFuel dig n rest
    | none => extractFuel dig n s

def extractAll (dig : Char → Bool) (s : List Char) : List (List Char) := extractFuel dig s.length s

/-- A cell of `extract_numbers` with `dtype=pl.String`. -/
inductive Cell
  | list (l : List (List Char))
  | str (s : List Char)
  deriving DecidableEq

/-- `extract_numbers(dtype=pl.String)` (`python/polars_ds/exprs/string.py:713-802`) on a present entry. -/
def extractNumbers (dig : Char → Bool) (ignoreComma : Bool) (joinBy : List Char) (s : List Char) : Cell :=
  let s := if ignoreComma then s.filter (· ≠ ',') else s
  let l := extractAll dig s
  if joinBy ≠ [] then .str (joinBy.intercalate l) else .list l

/-- The value of a decimal literal without sign: `cast` of a match to a number (external). -/
def numValue (s : List Char) : ℚ :=
  let i := s.takeWhile (· ≠ '.')
  let f := (s.dropWhile (· ≠ '.')).tail
  ((i ++ f).foldl (fun (a : Nat) c => a * 10 + (c.toNat - '0'.toNat)) 0 : Nat) / (10 : ℚ) ^ f.length

/-- `extract_numbers` with a numeric `dtype` (`python/polars_ds/exprs/string.py:784-796`), the values before rounding to
that type. -/
def extractValues (ignoreComma : Bool) (s : List Char) : List ℚ :=
  let s := if ignoreComma then s.filter (· ≠ ',') else s
  (extractAll Char.isDigit s).map numValue

end numbers

section cleaning

/-- `str.replace_all(" +", " ")`: `normalize_whitespace(only_spaces=True)`
(`python/polars_ds/exprs/string.py:1003-1004`). -/
def collapseSpaces : List Char → List Char
  | [] => []
  | c :: s => if c = ' ' ∧ s.head? = some ' ' then collapseSpaces s else c :: collapseSpaces s

/-- `replace_non_ascii` (`python/polars_ds/exprs/string.py:804-842`); without a `$` in `value`, which `replace_all`
would read as a group. -/
def replaceNonAscii (value : List Char) (s : List Char) : List Char :=
  if value = [] then removeNonAscii s else s.flatMap fun c => if c.toNat < 128 then [c] else value

/-- `remove_diacritics` (`src/str_ext/str_cleaning.rs:35-40`); `nfd` is the canonical decomposition of a string
(external crate `unicode_normalization`). -/
def removeDiacritics (nfd : List Char → List Char) (s : List Char) : List Char :=
  (nfd s).filter fun c => decide (c.toNat < 128)

end cleaning

end Verif.StrExpr
