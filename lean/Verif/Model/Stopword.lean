import Mathlib.Order.Defs.LinearOrder

/-!
# Stopwords (`src/str_ext/is_stopword.rs`, `src/str_ext/consts.rs`)

Rust compares strings by bytes, Lean by code points; for UTF-8 the two orders agree.
-/

namespace Verif.Stopword

/-- `EN_STOPWORDS` (`src/str_ext/consts.rs:1-180`). -/
def enStopwords : List String := [
  "a", "about", "above", "after", "again", "against", "ain", "all", "am", "an", "and", "any", "are", "aren",
  "aren't", "as", "at", "be", "because", "been", "before", "being", "below", "between", "both", "but", "by",
  "can", "couldn", "couldn't", "d", "did", "didn", "didn't", "do", "does", "doesn", "doesn't", "doing",
  "don", "don't", "down", "during", "each", "few", "for", "from", "further", "had", "hadn", "hadn't", "has",
  "hasn", "hasn't", "have", "haven", "haven't", "having", "he", "her", "here", "hers", "herself", "him",
  "himself", "his", "how", "i", "if", "in", "into", "is", "isn", "isn't", "it", "it's", "its", "itself",
  "just", "ll", "m", "ma", "me", "mightn", "mightn't", "more", "most", "mustn", "mustn't", "my", "myself",
  "needn", "needn't", "no", "nor", "not", "now", "o", "of", "off", "on", "once", "only", "or", "other",
  "our", "ours", "ourselves", "out", "over", "own", "re", "s", "same", "shan", "shan't", "she", "she's",
  "should", "should've", "shouldn", "shouldn't", "so", "some", "such", "t", "than", "that", "that'll", "the",
  "their", "theirs", "them", "themselves", "then", "there", "these", "they", "this", "those", "through",
  "to", "too", "under", "until", "up", "ve", "very", "was", "wasn", "wasn't", "we", "were", "weren",
  "weren't", "what", "when", "where", "which", "while", "who", "whom", "why", "will", "with", "won't",
  "wouldn", "wouldn't", "y", "you", "you'd", "you'll", "you're", "you've", "your", "yours", "yourself",
  "yourselves"]

/-- The loop of `slice::binary_search_by` of the Rust standard library (not in this repository): `cmp i` compares
entry `i` with the key.  `fuel` bounds the number of steps. -/
def searchLoop (cmp : Nat → Ordering) : Nat → Nat → Nat → Nat
  | 0, _, base => base
  | fuel + 1, size, base =>
    if 1 < size then
      let half := size / 2
      let mid := base + half
      searchLoop cmp fuel (size - half) (if cmp mid = .gt then base else mid)
    else base

/-- `slice::binary_search(&x).is_ok()`. -/
def binarySearchOk {α : Type} (cmp : α → α → Ordering) (xs : List α) (x : α) : Bool :=
  let at_ := fun i => match xs[i]? with | some y => cmp y x | none => .lt
  if xs.length = 0 then false
  else decide (at_ (searchLoop at_ xs.length xs.length 0) = .eq)

/-- `pl_is_stopword` on one value (`src/str_ext/is_stopword.rs:8-14`). -/
def isStopword (s : String) : Bool := binarySearchOk compare enStopwords s

/-- `pl_is_stopword` on a column: nulls stay null. -/
def isStopwordCol (col : List (Option String)) : List (Option Bool) := col.map fun o => o.map isStopword

/-- `snowball` (`src/str_ext/snowball_stem.rs:7-15`) for an arbitrary number parser and stemmer. -/
def snowball (isNumber : String → Bool) (stem : String → String) (s : String) (noStopwords : Bool) : String :=
  if isNumber s || (noStopwords && isStopword s) then "" else stem s

end Verif.Stopword
