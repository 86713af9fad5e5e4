/-!
# The English (Porter2) stemming algorithm

A description of the algorithm on words as lists of characters, after the text of
<https://snowballstem.org/algorithms/english/stemmer.html> (Snowball 2.2). It shares nothing with the
model of the Rust code: no bytes, no cursors, no tables of results.
-/

namespace Verif.Porter2

abbrev Word := List Char

/-- The vowels are `a e i o u y`. -/
def isVowel (c : Char) : Bool := c ∈ ['a', 'e', 'i', 'o', 'u', 'y']

/-- The entry of the table with the longest suffix that ends the word, and the part of the word before it:
the split points are tried from the left. -/
def longestSuffix {α : Type} (tbl : List (Word × α)) : Word → Word → Option (Word × α)
  | pre, [] => (tbl.lookup []).map fun a => (pre, a)
  | pre, c :: rest =>
    match tbl.lookup (c :: rest) with
    | some a => some (pre, a)
    | none => longestSuffix tbl (pre ++ [c]) rest

/-- The region after the first non-vowel following a vowel; empty if there is none. -/
def region (w : Word) : Word := ((w.dropWhile fun c => !isVowel c).dropWhile isVowel).tail

/-- Words beginning with one of these have a fixed R1. -/
def fixedR1 : List Word := ["gener".toList, "commun".toList, "arsen".toList]

/-- R1. -/
def r1 (w : Word) : Word :=
  match fixedR1.find? (·.isPrefixOf w) with
  | some p => w.drop p.length
  | none => region w

/-- Where R1 begins. -/
def p1 (w : Word) : Nat := w.length - (r1 w).length

/-- Where R2 begins: R2 is the region of R1. -/
def p2 (w : Word) : Nat := w.length - (region (r1 w)).length

/-- The word ends in a short syllable: a non-vowel other than `w`, `x`, `Y`, after a vowel, after a non-vowel;
or the word is a vowel and a non-vowel. -/
def endsShort (w : Word) : Bool :=
  match w.reverse with
  | [c, v] => !isVowel c && isVowel v
  | c :: v :: d :: _ => (!isVowel c && c ∉ ['w', 'x', 'Y']) && isVowel v && !isVowel d
  | _ => false

/-- Remove an initial apostrophe. -/
def dropApostrophe (w : Word) : Word := if w.head? = some '\'' then w.tail else w

/-- Turn a `y` after a vowel into `Y`; `prev` tells whether the previous letter was a vowel. -/
def markAfter : Bool → Word → Word
  | _, [] => []
  | prev, c :: w => if c = 'y' ∧ prev then 'Y' :: markAfter false w else c :: markAfter (isVowel c) w

/-- Turn an initial `y`, or a `y` after a vowel, into `Y`. -/
def markY (w : Word) : Word := markAfter true w

/-- Step 0: remove the longest of `'`, `'s`, `'s'`. -/
def step0 (w : Word) : Word :=
  match longestSuffix (["'", "'s", "'s'"].map fun s => (s.toList, ())) [] w with
  | some (u, _) => u
  | none => w

/-- What step 1a does with the suffix it finds. -/
inductive Rule1a
  | toSs
  | toI
  | del
  | keep
  deriving DecidableEq

/-- Step 1a. -/
def step1a (w : Word) : Word :=
  match longestSuffix [("sses".toList, Rule1a.toSs), ("ied".toList, .toI), ("ies".toList, .toI),
      ("s".toList, .del), ("us".toList, .keep), ("ss".toList, .keep)] [] w with
  | none => w
  | some (u, .toSs) => u ++ ['s', 's']
  | some (u, .toI) => if 2 ≤ u.length then u ++ ['i'] else u ++ ['i', 'e']
  | some (u, .del) => if u.dropLast.any isVowel then u else w
  | some (_, .keep) => w

/-- The word ends in a double letter. -/
def endsDouble (w : Word) : Bool :=
  ["bb", "dd", "ff", "gg", "mm", "nn", "pp", "rr", "tt"].any fun s => s.toList.isSuffixOf w

/-- After the deletion in step 1b; `p` is where R1 begins. -/
def fix1b (p : Nat) (u : Word) : Word :=
  if ["at", "bl", "iz"].any fun s => s.toList.isSuffixOf u then u ++ ['e']
  else if endsDouble u then u.dropLast
  else if u.length = p ∧ endsShort u then u ++ ['e']
  else u

/-- Step 1b: the suffixes marked `true` go to `ee` if they lie in R1. -/
def step1b (p : Nat) (w : Word) : Word :=
  match longestSuffix [("eed".toList, true), ("eedly".toList, true), ("ed".toList, false),
      ("edly".toList, false), ("ing".toList, false), ("ingly".toList, false)] [] w with
  | none => w
  | some (u, true) => if p ≤ u.length then u ++ ['e', 'e'] else w
  | some (u, false) => if u.any isVowel then fix1b p u else w

/-- Step 1c: `y` or `Y` to `i` after a non-vowel that is not the first letter. -/
def step1c (w : Word) : Word :=
  match w.reverse with
  | c :: d :: x :: r => if (c = 'y' ∨ c = 'Y') ∧ !isVowel d then (d :: x :: r).reverse ++ ['i'] else w
  | _ => w

/-- A rule of steps 2 to 4: the replacement, whether the suffix must lie in R2, and the letters that may come
before the suffix (`none`: any). -/
structure Rule where
  repl : Word
  r2 : Bool := false
  before : Option Word := none
  deriving DecidableEq

/-- Steps 2 to 4: find the longest suffix; if it lies in the region beginning at `p` and the conditions of its
rule hold, replace it. `q` is where R2 begins. -/
def applyStep (tbl : List (Word × Rule)) (p q : Nat) (w : Word) : Word :=
  match longestSuffix tbl [] w with
  | none => w
  | some (u, r) =>
    if p ≤ u.length ∧ (r.r2 → q ≤ u.length) ∧ (r.before.all fun s => u.getLast?.any (· ∈ s)) then u ++ r.repl else w

/-- A rule without conditions. -/
def to (s t : String) : Word × Rule := (s.toList, { repl := t.toList })

/-- Step 2. -/
def table2 : List (Word × Rule) := [
  to "tional" "tion", to "enci" "ence", to "anci" "ance", to "abli" "able", to "entli" "ent",
  to "izer" "ize", to "ization" "ize", to "ational" "ate", to "ation" "ate", to "ator" "ate",
  to "alism" "al", to "aliti" "al", to "alli" "al", to "fulness" "ful", to "fulli" "ful",
  to "ousli" "ous", to "ousness" "ous", to "iveness" "ive", to "iviti" "ive", to "biliti" "ble",
  to "bli" "ble", ("ogi".toList, { repl := "og".toList, before := some "l".toList }), to "lessli" "less",
  ("li".toList, { repl := [], before := some "cdeghkmnrt".toList })]

/-- Step 3. -/
def table3 : List (Word × Rule) := [
  to "tional" "tion", to "ational" "ate", to "alize" "al", to "icate" "ic", to "iciti" "ic", to "ical" "ic",
  to "ful" "", to "ness" "", ("ative".toList, { repl := [], r2 := true })]

/-- Step 4. -/
def table4 : List (Word × Rule) := [
  to "al" "", to "ance" "", to "ence" "", to "er" "", to "ic" "", to "able" "", to "ible" "", to "ant" "",
  to "ement" "", to "ment" "", to "ent" "", to "ism" "", to "ate" "", to "iti" "", to "ous" "", to "ive" "",
  to "ize" "", ("ion".toList, { repl := [], before := some "st".toList })]

/-- Step 5: delete a final `e` in R2, or in R1 and not after a short syllable; delete a final `l` in R2 after `l`. -/
def step5 (p q : Nat) (w : Word) : Word :=
  if w.getLast? = some 'e' then
    if q ≤ w.dropLast.length ∨ (p ≤ w.dropLast.length ∧ !endsShort w.dropLast) then w.dropLast else w
  else if w.getLast? = some 'l' then
    if q ≤ w.dropLast.length ∧ w.dropLast.getLast? = some 'l' then w.dropLast else w
  else w

/-- Words with a stem of their own. -/
def exceptions1 : List (Word × Word) := [
  ("skis".toList, "ski".toList), ("skies".toList, "sky".toList), ("dying".toList, "die".toList),
  ("lying".toList, "lie".toList), ("tying".toList, "tie".toList), ("idly".toList, "idl".toList),
  ("gently".toList, "gentl".toList), ("ugly".toList, "ugli".toList), ("early".toList, "earli".toList),
  ("only".toList, "onli".toList), ("singly".toList, "singl".toList), ("sky".toList, "sky".toList),
  ("news".toList, "news".toList), ("howe".toList, "howe".toList), ("atlas".toList, "atlas".toList),
  ("cosmos".toList, "cosmos".toList), ("bias".toList, "bias".toList), ("andes".toList, "andes".toList)]

/-- Words left alone after step 1a. -/
def exceptions2 : List Word :=
  ["inning", "outing", "canning", "herring", "earring", "proceed", "exceed", "succeed"].map (·.toList)

/-- Steps 1b to 5. -/
def steps (p q : Nat) (w : Word) : Word :=
  step5 p q (applyStep table4 q q (applyStep table3 p q (applyStep table2 p q (step1c (step1b p w)))))

/-- The stem of a marked word. -/
def stemMarked (m : Word) : Word :=
  let w := step1a (step0 m)
  if w ∈ exceptions2 then w else steps (p1 m) (p2 m) w

/-- Turn `Y` back into `y`. -/
def unmark (w : Word) : Word := w.map fun c => if c = 'Y' then 'y' else c

/-- The Porter2 stem. If the marking changed nothing, nothing is unmarked; for words without a capital `Y` this
makes no difference. -/
def porter2 (w : Word) : Word :=
  match exceptions1.lookup w with
  | some s => s
  | none =>
    if w.length < 3 then w
    else
      let v := dropApostrophe w
      if markY v = v then stemMarked v else unmark (stemMarked (markY v))

end Verif.Porter2
