import Verif.Model.Stopword

/-!
# The English Snowball stemmer
(`src/str_ext/snowball/snowball_env.rs`, `src/str_ext/snowball/algorithms/english_stemmer.rs`,
`src/str_ext/snowball/among.rs`, `src/str_ext/snowball_stem.rs`)

Strings are lists of UTF-8 bytes and all positions are byte offsets, as in the Rust code. Every place
where Rust would panic (a slice that is not at a character boundary, an index out of range) is the
error `Fault.panic`; every `loop`/`while` runs on fuel and reports `Fault.diverge` if the fuel runs out.
Simplifications: the `i32` positions are unbounded integers (strings shorter than 2 GiB), and the
`bool` result of `slice_from`/`slice_del`, which is always `true`, is left out.
-/

namespace Verif.Snowball

/-- What can go wrong in the Rust code: a panic, or a loop that does not end. -/
inductive Fault
  | panic
  | diverge
  deriving DecidableEq, Repr

/-- The UTF-8 bytes of one character (Rust `char::encode_utf8`). -/
def encodeChar (c : Char) : List Nat := (String.utf8EncodeChar c).map UInt8.toNat

/-- The bytes of a `str`. -/
def bytes (w : List Char) : List Nat := w.flatMap encodeChar

/-- The bytes of a string literal. -/
def str (s : String) : List Nat := bytes s.toList

/-- `SnowballEnv` (`src/str_ext/snowball/snowball_env.rs:4-12`); `lb` is `limit_backward`. -/
structure Env where
  cur : List Nat
  cursor : Int
  limit : Int
  lb : Int
  bra : Int
  ket : Int
  deriving DecidableEq, Repr

/-- `Among` (`src/str_ext/snowball/among.rs:3-8`): key, index of the longest entry that is a proper
substring (or −1), result. The optional method is `None` in every table of the English stemmer and is
left out. -/
structure Among where
  key : List Nat
  sub : Int
  res : Int
  deriving DecidableEq, Repr

/-- `SnowballEnv::create` (`snowball_env.rs:15-25`). -/
def Env.create (value : List Nat) : Env := ⟨value, 0, value.length, 0, 0, value.length⟩

/-- Rust `str::is_char_boundary(i as usize)`: a negative `i` is a huge `usize`. -/
def boundary (t : List Nat) (i : Int) : Bool :=
  if i < 0 then false
  else i.toNat == 0 || i.toNat == t.length || (t[i.toNat]?).any fun b => decide (b < 128) || decide (192 ≤ b)

/-- Rust `&s[i..]` / the right half of `s.split_at(i)`: panics off a character boundary. -/
def tailAt (t : List Nat) (i : Int) : Except Fault (List Nat) :=
  if boundary t i then .ok (t.drop i.toNat) else .error .panic

/-- Rust: the left half of `s.split_at(i)`. -/
def headAt (t : List Nat) (i : Int) : Except Fault (List Nat) :=
  if boundary t i then .ok (t.take i.toNat) else .error .panic

/-- Rust `s.as_bytes()[i]` with `i` an `i32` cast to `usize`. -/
def byteAt (t : List Nat) (i : Int) : Except Fault Nat :=
  if i < 0 then .error .panic else
  (t[i.toNat]?).elim (.error .panic) .ok

/-- `SnowballEnv::replace_s` (`snowball_env.rs:39-61`). -/
def Env.replaceS (e : Env) (bra ket : Int) (s : List Nat) : Except Fault (Int × Env) := do
  let adjustment := (s.length : Int) - (ket - bra)
  let lhs ← headAt e.cur bra
  let rhs ← tailAt e.cur ket
  .ok (adjustment,
    { e with
      cur := lhs ++ s ++ rhs
      limit := e.limit + adjustment
      cursor := if ket ≤ e.cursor then e.cursor + adjustment else if bra < e.cursor then bra else e.cursor })

/-- `while !current.is_char_boundary(i) { i += 1 }`. -/
def advance (t : List Nat) : Nat → Int → Except Fault Int
  | 0, _ => .error .diverge
  | fuel + 1, i => if boundary t i then .ok i else advance t fuel (i + 1)

/-- `while !current.is_char_boundary(i) { i -= 1 }`. -/
def retreat (t : List Nat) : Nat → Int → Except Fault Int
  | 0, _ => .error .diverge
  | fuel + 1, i => if boundary t i then .ok i else retreat t fuel (i - 1)

/-- `SnowballEnv::eq_s` (`snowball_env.rs:64-77`). -/
def Env.eqS (e : Env) (s : List Nat) : Except Fault (Bool × Env) :=
  if e.limit ≤ e.cursor then .ok (false, e) else do
    let rest ← tailAt e.cur e.cursor
    if s.isPrefixOf rest then do
      let c ← advance e.cur (e.cur.length + 1) (e.cursor + s.length)
      .ok (true, { e with cursor := c })
    else .ok (false, e)

/-- `SnowballEnv::eq_s_b` (`snowball_env.rs:81-95`). -/
def Env.eqSB (e : Env) (s : List Nat) : Except Fault (Bool × Env) :=
  if e.cursor - e.lb < s.length then .ok (false, e)
  else if !boundary e.cur (e.cursor - s.length) then .ok (false, e)
  else do
    let rest ← tailAt e.cur (e.cursor - s.length)
    if s.isPrefixOf rest then .ok (true, { e with cursor := e.cursor - s.length }) else .ok (false, e)

/-- `SnowballEnv::slice_from` (`snowball_env.rs:98-102`). -/
def Env.sliceFrom (e : Env) (s : List Nat) : Except Fault Env := do
  let r ← e.replaceS e.bra e.ket s
  .ok r.2

/-- `SnowballEnv::slice_del` (`snowball_env.rs:256-258`). -/
def Env.sliceDel (e : Env) : Except Fault Env := e.sliceFrom (str "")

/-- `SnowballEnv::next_char` (`snowball_env.rs:105-110`). -/
def Env.nextChar (e : Env) : Except Fault Env := do
  let c ← advance e.cur (e.cur.length + 1) (e.cursor + 1)
  .ok { e with cursor := c }

/-- `SnowballEnv::previous_char` (`snowball_env.rs:113-118`). -/
def Env.previousChar (e : Env) : Except Fault Env := do
  let c ← retreat e.cur (e.cur.length + 1) (e.cursor - 1)
  .ok { e with cursor := c }

/-- The inner `while` of `hop` (`snowball_env.rs:128-130`). -/
def hopInner (t : List Nat) (limit : Int) : Nat → Int → Int
  | 0, res => res
  | fuel + 1, res => if res < limit && !boundary t res then hopInner t limit fuel (res + 1) else res

/-- The outer `while` of `hop` (`snowball_env.rs:122-131`); `none` is `return false`. -/
def hopLoop (t : List Nat) (limit : Int) : Nat → Int → Option Int
  | 0, res => some res
  | delta + 1, res =>
    if limit ≤ res then none
    else hopLoop t limit delta (hopInner t limit (limit - (res + 1)).toNat (res + 1))

/-- `SnowballEnv::hop` (`snowball_env.rs:120-134`). -/
def Env.hop (e : Env) (delta : Nat) : Bool × Env :=
  (hopLoop e.cur e.limit delta e.cursor).elim (false, e) fun res => (true, { e with cursor := res })

/-- The inner `while` of `hop_back` (`snowball_env.rs:148-150`). -/
def hopBackInner (t : List Nat) (lb : Int) : Nat → Int → Int
  | 0, res => res
  | fuel + 1, res => if lb < res && !boundary t res then hopBackInner t lb fuel (res - 1) else res

/-- The outer `while` of `hop_back` (`snowball_env.rs:142-151`). -/
def hopBackLoop (t : List Nat) (lb : Int) : Nat → Int → Option Int
  | 0, res => some res
  | delta + 1, res =>
    if res ≤ lb then none
    else hopBackLoop t lb delta (hopBackInner t lb (res - 1 - lb).toNat (res - 1))

/-- `SnowballEnv::hop_back` (`snowball_env.rs:140-154`). -/
def Env.hopBack (e : Env) (delta : Nat) : Bool × Env :=
  (hopBackLoop e.cur e.lb delta e.cursor).elim (false, e) fun res => (true, { e with cursor := res })

/-- Rust `str::chars().next()` on valid UTF-8, as a code point (`core::str::validations::next_code_point`,
with the bit operations written as arithmetic). -/
def firstChar : List Nat → Option Nat
  | [] => none
  | x :: r =>
    if x < 128 then some x
    else
      let y := (r[0]?).getD 0 % 64
      if x < 224 then some (x % 32 * 64 + y)
      else
        let z := (r[1]?).getD 0 % 64
        if x < 240 then some (x % 16 * 4096 + (y * 64 + z))
        else some (x % 8 * 262144 + (y * 4096 + (z * 64 + (r[2]?).getD 0 % 64)))

/-- The membership test shared by the four grouping functions (`snowball_env.rs:181-187`): outside
`min..=max` the character is not in the grouping, inside it the bit of the bit field decides. -/
def groupTest (chars : List Nat) (min max ch : Nat) : Except Fault Bool :=
  if max < ch || ch < min then .ok false
  else (chars[(ch - min) / 8]?).elim (.error .panic) fun b => .ok (b / 2 ^ ((ch - min) % 8) % 2 == 1)

/-- `SnowballEnv::in_grouping` (`snowball_env.rs:175-192`). -/
def Env.inGrouping (e : Env) (chars : List Nat) (min max : Nat) : Except Fault (Bool × Env) :=
  if e.limit ≤ e.cursor then .ok (false, e) else do
    let rest ← tailAt e.cur e.cursor
    (firstChar rest).elim (.ok (false, e)) fun ch => do
      let b ← groupTest chars min max ch
      if b then do
        let e ← e.nextChar
        .ok (true, e)
      else .ok (false, e)

/-- `SnowballEnv::in_grouping_b` (`snowball_env.rs:194-213`). -/
def Env.inGroupingB (e : Env) (chars : List Nat) (min max : Nat) : Except Fault (Bool × Env) :=
  if e.cursor ≤ e.lb then .ok (false, e) else do
    let e ← e.previousChar
    let rest ← tailAt e.cur e.cursor
    (firstChar rest).elim (.ok (false, e)) fun ch => do
      let e ← e.nextChar
      let b ← groupTest chars min max ch
      if b then do
        let e ← e.previousChar
        .ok (true, e)
      else .ok (false, e)

/-- `SnowballEnv::out_grouping` (`snowball_env.rs:215-232`). -/
def Env.outGrouping (e : Env) (chars : List Nat) (min max : Nat) : Except Fault (Bool × Env) :=
  if e.limit ≤ e.cursor then .ok (false, e) else do
    let rest ← tailAt e.cur e.cursor
    (firstChar rest).elim (.ok (false, e)) fun ch => do
      let b ← groupTest chars min max ch
      if b then .ok (false, e)
      else do
        let e ← e.nextChar
        .ok (true, e)

/-- `SnowballEnv::out_grouping_b` (`snowball_env.rs:234-253`). -/
def Env.outGroupingB (e : Env) (chars : List Nat) (min max : Nat) : Except Fault (Bool × Env) :=
  if e.cursor ≤ e.lb then .ok (false, e) else do
    let e ← e.previousChar
    let rest ← tailAt e.cur e.cursor
    (firstChar rest).elim (.ok (false, e)) fun ch => do
      let e ← e.nextChar
      let b ← groupTest chars min max ch
      if b then .ok (false, e)
      else do
        let e ← e.previousChar
        .ok (true, e)

/-- `SnowballEnv::insert` (`snowball_env.rs:260-268`). -/
def Env.insert (e : Env) (bra ket : Int) (s : List Nat) : Except Fault Env := do
  let (adjustment, e) ← e.replaceS bra ket s
  .ok { e with
    bra := if bra ≤ e.bra then e.bra + adjustment else e.bra
    ket := if bra ≤ e.ket then e.ket + adjustment else e.ket }

/-- The comparison loop of `find_among` (`snowball_env.rs:295-306`): `n` is the number of key bytes left;
`lvar` and `common` start equal and move together. Returns `(diff, common)`. -/
def cmpFwd (t : List Nat) (c l : Int) (key : List Nat) : Nat → Nat → Except Fault (Int × Nat)
  | 0, common => .ok (0, common)
  | n + 1, common =>
    if c + common = l then .ok (-1, common) else do
      let x ← byteAt t (c + common)
      let y ← byteAt key common
      if (x : Int) - y = 0 then cmpFwd t c l key n (common + 1) else .ok ((x : Int) - y, common)

/-- The comparison loop of `find_among_b` (`snowball_env.rs:372-384`): `lvar` counts down from
`key.len() - common - 1`; `n = lvar + 1` is the number of key bytes left. -/
def cmpBwd (t : List Nat) (c lb : Int) (key : List Nat) : Nat → Nat → Except Fault (Int × Nat)
  | 0, common => .ok (0, common)
  | n + 1, common =>
    if c - common = lb then .ok (-1, common) else do
      let x ← byteAt t (c - common - 1)
      let y ← byteAt key n
      if (x : Int) - y = 0 then cmpBwd t c lb key n (common + 1) else .ok ((x : Int) - y, common)

/-- State of the binary search: `i`, `j`, `common_i`, `common_j`, `first_key_inspected`. -/
structure Search where
  i : Nat
  j : Nat
  ci : Nat
  cj : Nat
  first : Bool
  deriving DecidableEq, Repr

/-- The binary search loop of `find_among`/`find_among_b` (`snowball_env.rs:288-328`, `:361-403`), with the
comparison of the key against the text as a parameter. `amongs[k]` out of range, and the `usize` underflow
of `w.0.len() - common` (`:372`; in the forward version the range `common..len` would just be empty), are
panics here. -/
def searchLoop (cmp : List Nat → Nat → Nat → Except Fault (Int × Nat)) (tbl : List Among) :
    Nat → Search → Except Fault (Nat × Nat)
  | 0, _ => .error .diverge
  | fuel + 1, s =>
    let k := s.i + (s.j - s.i) / 2
    let common := Nat.min s.ci s.cj
    (tbl[k]?).elim (.error .panic) fun w =>
      if w.key.length < common then .error .panic else do
        let r ← cmp w.key (w.key.length - common) common
        let s : Search := if r.1 < 0 then { s with j := k, cj := r.2 } else { s with i := k, ci := r.2 }
        if s.j - s.i ≤ 1 then
          if 0 < s.i || s.j == s.i || s.first then .ok (s.i, s.ci)
          else searchLoop cmp tbl fuel { s with first := true }
        else searchLoop cmp tbl fuel s

/-- The second loop of `find_among`/`find_among_b` (`snowball_env.rs:330-346`, `:404-421`): follow the
substring links until an entry is entirely matched. `some w` is `return w.2` with the cursor moved by
`w.0.len()`, `none` is `return 0` with the cursor where it was. -/
def chainLoop (tbl : List Among) (ci : Nat) : Nat → Int → Except Fault (Option Among)
  | 0, _ => .error .diverge
  | fuel + 1, i =>
    if i < 0 then .error .panic else
    (tbl[i.toNat]?).elim (.error .panic) fun w =>
      if w.key.length ≤ ci then .ok (some w)
      else if w.sub < 0 then .ok none
      else chainLoop tbl ci fuel w.sub

/-- `SnowballEnv::find_among` (`snowball_env.rs:278-347`). -/
def Env.findAmong (e : Env) (tbl : List Among) : Except Fault (Int × Env) := do
  let r ← searchLoop (cmpFwd e.cur e.cursor e.limit) tbl (tbl.length + 2) ⟨0, tbl.length, 0, 0, false⟩
  let w ← chainLoop tbl r.2 (tbl.length + 1) r.1
  .ok (w.elim (0, e) fun w => (w.res, { e with cursor := e.cursor + w.key.length }))

/-- `SnowballEnv::find_among_b` (`snowball_env.rs:349-422`). -/
def Env.findAmongB (e : Env) (tbl : List Among) : Except Fault (Int × Env) := do
  let r ← searchLoop (cmpBwd e.cur e.cursor e.lb) tbl (tbl.length + 2) ⟨0, tbl.length, 0, 0, false⟩
  let w ← chainLoop tbl r.2 (tbl.length + 1) r.1
  .ok (w.elim (0, e) fun w => (w.res, { e with cursor := e.cursor - w.key.length }))

/-- A table from its literal rows `(key, substring index, result)`. -/
def amongs (rows : List (String × Int × Int)) : List Among := rows.map fun p => ⟨str p.1, p.2.1, p.2.2⟩

/-- Rows of `A_0` (`english_stemmer.rs:11-15`). -/
def rows0 : List (String × Int × Int) := [
  ("arsen", -1, -1), ("commun", -1, -1), ("gener", -1, -1)]

/-- `A_0` (`english_stemmer.rs:11-15`). -/
def a0 : List Among := amongs rows0

/-- Rows of `A_1` (`english_stemmer.rs:17-21`). -/
def rows1 : List (String × Int × Int) := [
  ("'", -1, 1), ("'s'", 0, 1), ("'s", -1, 1)]

/-- `A_1` (`english_stemmer.rs:17-21`). -/
def a1 : List Among := amongs rows1

/-- Rows of `A_2` (`english_stemmer.rs:23-30`). -/
def rows2 : List (String × Int × Int) := [
  ("ied", -1, 2), ("s", -1, 3), ("ies", 1, 2), ("sses", 1, 1), ("ss", 1, -1), ("us", 1, -1)]

/-- `A_2` (`english_stemmer.rs:23-30`). -/
def a2 : List Among := amongs rows2

/-- Rows of `A_3` (`english_stemmer.rs:32-46`). -/
def rows3 : List (String × Int × Int) := [
  ("", -1, 3), ("bb", 0, 2), ("dd", 0, 2), ("ff", 0, 2), ("gg", 0, 2), ("bl", 0, 1), ("mm", 0, 2),
  ("nn", 0, 2), ("pp", 0, 2), ("rr", 0, 2), ("at", 0, 1), ("tt", 0, 2), ("iz", 0, 1)]

/-- `A_3` (`english_stemmer.rs:32-46`). -/
def a3 : List Among := amongs rows3

/-- Rows of `A_4` (`english_stemmer.rs:48-55`). -/
def rows4 : List (String × Int × Int) := [
  ("ed", -1, 2), ("eed", 0, 1), ("ing", -1, 2), ("edly", -1, 2), ("eedly", 3, 1), ("ingly", -1, 2)]

/-- `A_4` (`english_stemmer.rs:48-55`). -/
def a4 : List Among := amongs rows4

/-- Rows of `A_5` (`english_stemmer.rs:57-82`). -/
def rows5 : List (String × Int × Int) := [
  ("anci", -1, 3), ("enci", -1, 2), ("ogi", -1, 13), ("li", -1, 15), ("bli", 3, 12), ("abli", 4, 4),
  ("alli", 3, 8), ("fulli", 3, 9), ("lessli", 3, 14), ("ousli", 3, 10), ("entli", 3, 5), ("aliti", -1, 8),
  ("biliti", -1, 12), ("iviti", -1, 11), ("tional", -1, 1), ("ational", 14, 7), ("alism", -1, 8),
  ("ation", -1, 7), ("ization", 17, 6), ("izer", -1, 6), ("ator", -1, 7), ("iveness", -1, 11),
  ("fulness", -1, 9), ("ousness", -1, 10)]

/-- `A_5` (`english_stemmer.rs:57-82`). -/
def a5 : List Among := amongs rows5

/-- Rows of `A_6` (`english_stemmer.rs:84-94`). -/
def rows6 : List (String × Int × Int) := [
  ("icate", -1, 4), ("ative", -1, 6), ("alize", -1, 3), ("iciti", -1, 4), ("ical", -1, 4),
  ("tional", -1, 1), ("ational", 5, 2), ("ful", -1, 5), ("ness", -1, 5)]

/-- `A_6` (`english_stemmer.rs:84-94`). -/
def a6 : List Among := amongs rows6

/-- Rows of `A_7` (`english_stemmer.rs:96-115`). -/
def rows7 : List (String × Int × Int) := [
  ("ic", -1, 1), ("ance", -1, 1), ("ence", -1, 1), ("able", -1, 1), ("ible", -1, 1), ("ate", -1, 1),
  ("ive", -1, 1), ("ize", -1, 1), ("iti", -1, 1), ("al", -1, 1), ("ism", -1, 1), ("ion", -1, 2),
  ("er", -1, 1), ("ous", -1, 1), ("ant", -1, 1), ("ent", -1, 1), ("ment", 15, 1), ("ement", 16, 1)]

/-- `A_7` (`english_stemmer.rs:96-115`). -/
def a7 : List Among := amongs rows7

/-- Rows of `A_8` (`english_stemmer.rs:117-117`). -/
def rows8 : List (String × Int × Int) := [
  ("e", -1, 1), ("l", -1, 2)]

/-- `A_8` (`english_stemmer.rs:117-117`). -/
def a8 : List Among := amongs rows8

/-- Rows of `A_9` (`english_stemmer.rs:119-128`). -/
def rows9 : List (String × Int × Int) := [
  ("succeed", -1, -1), ("proceed", -1, -1), ("exceed", -1, -1), ("canning", -1, -1), ("inning", -1, -1),
  ("earring", -1, -1), ("herring", -1, -1), ("outing", -1, -1)]

/-- `A_9` (`english_stemmer.rs:119-128`). -/
def a9 : List Among := amongs rows9

/-- Rows of `A_10` (`english_stemmer.rs:130-149`). -/
def rows10 : List (String × Int × Int) := [
  ("andes", -1, -1), ("atlas", -1, -1), ("bias", -1, -1), ("cosmos", -1, -1), ("dying", -1, 3),
  ("early", -1, 9), ("gently", -1, 7), ("howe", -1, -1), ("idly", -1, 6), ("lying", -1, 4),
  ("news", -1, -1), ("only", -1, 10), ("singly", -1, 11), ("skies", -1, 2), ("skis", -1, 1),
  ("sky", -1, -1), ("tying", -1, 5), ("ugly", -1, 8)]

/-- `A_10` (`english_stemmer.rs:130-149`). -/
def a10 : List Among := amongs rows10

/-- `G_v` (`english_stemmer.rs:151`). -/
def gV : List Nat := [17, 65, 16, 1]

/-- `G_v_WXY` (`english_stemmer.rs:153`). -/
def gVWXY : List Nat := [1, 17, 65, 208, 1]

/-- `G_valid_LI` (`english_stemmer.rs:155`). -/
def gValidLI : List Nat := [55, 141, 2]

/-- `Context` (`english_stemmer.rs:157-162`). -/
structure Context where
  yFound : Bool
  p2 : Int
  p1 : Int
  deriving DecidableEq, Repr

/-- One attempt in the loop `'golab5` of `r_prelude` (`english_stemmer.rs:199-212`): a vowel followed by `y` at
the cursor; `bra`/`ket` around the `y`, the cursor where it was. -/
def preludeTry (e : Env) : Except Fault (Bool × Env) := do
  let v5 := e.cursor
  let (b, e) ← e.inGrouping gV 97 121
  if b then do
    let (b, e) ← ({ e with bra := e.cursor } : Env).eqS (str "y")
    if b then .ok (true, { e with ket := e.cursor, cursor := v5 }) else .ok (false, { e with cursor := v5 })
  else .ok (false, { e with cursor := v5 })

/-- The loop `'golab5` of `r_prelude` (`english_stemmer.rs:198-217`): from the cursor on, look for a vowel
followed by `y`. `true` is `break 'golab5`, `false` is `break 'lab4`. -/
def preludeScan : Nat → Env → Except Fault (Bool × Env)
  | 0, _ => .error .diverge
  | fuel + 1, e => do
    let (b, e) ← preludeTry e
    if b then .ok (true, e)
    else if e.limit ≤ e.cursor then .ok (false, e)
    else do
      let e ← e.nextChar
      preludeScan fuel e

/-- The loop `'replab3` of `r_prelude` (`english_stemmer.rs:195-226`). -/
def preludeRep : Nat → Env → Bool → Except Fault (Env × Bool)
  | 0, _, _ => .error .diverge
  | fuel + 1, e, y => do
    let v4 := e.cursor
    let (b, e) ← preludeScan (e.cur.length + 1) e
    if b then do
      let e ← e.sliceFrom (str "Y")
      preludeRep fuel e true
    else .ok ({ e with cursor := v4 }, y)

/-- The initial apostrophe in `r_prelude` (`english_stemmer.rs:166-178`). -/
def preludeApos (e : Env) : Except Fault Env := do
  let v1 := e.cursor
  let (b, e) ← ({ e with bra := e.cursor } : Env).eqS (str "'")
  if b then do
    let e ← ({ e with ket := e.cursor } : Env).sliceDel
    .ok { e with cursor := v1 }
  else .ok { e with cursor := v1 }

/-- The initial `y` in `r_prelude` (`english_stemmer.rs:179-192`). -/
def preludeInitial (e : Env) : Except Fault (Env × Bool) := do
  let v2 := e.cursor
  let (b, e) ← ({ e with bra := e.cursor } : Env).eqS (str "y")
  if b then do
    let e ← ({ e with ket := e.cursor } : Env).sliceFrom (str "Y")
    .ok ({ e with cursor := v2 }, true)
  else .ok ({ e with cursor := v2 }, false)

/-- `r_prelude` (`english_stemmer.rs:164-231`). Returns the environment and `b_Y_found`. -/
def rPrelude (e : Env) : Except Fault (Env × Bool) := do
  let e ← preludeApos e
  let (e, y) ← preludeInitial e
  let v3 := e.cursor
  let (e, y) ← preludeRep (e.cur.length + 1) e y
  .ok ({ e with cursor := v3 }, y)

/-- The loops `'golab3`, `'golab5`, `'golab7`, `'golab9` of `r_mark_regions`
(`english_stemmer.rs:247-257`, `:258-268`, `:272-282`, `:283-293`): try the grouping test, and move on by one
character while it fails. `false` is `break 'lab0`. -/
def goPast (test : Env → Except Fault (Bool × Env)) : Nat → Env → Except Fault (Bool × Env)
  | 0, _ => .error .diverge
  | fuel + 1, e => do
    let (b, e) ← test e
    if b then .ok (true, e)
    else if e.limit ≤ e.cursor then .ok (false, e)
    else do
      let e ← e.nextChar
      goPast test fuel e

/-- The backward loops `'golab3` of `r_Step_1a` and `'golab0` of `r_Step_1b`
(`english_stemmer.rs:395-405`, `:434-444`); `false` is `return false`. -/
def goPastB (test : Env → Except Fault (Bool × Env)) : Nat → Env → Except Fault (Bool × Env)
  | 0, _ => .error .diverge
  | fuel + 1, e => do
    let (b, e) ← test e
    if b then .ok (true, e)
    else if e.cursor ≤ e.lb then .ok (false, e)
    else do
      let e ← e.previousChar
      goPastB test fuel e

/-- One "vowel, then non-vowel" move (`english_stemmer.rs:247-268` and again `:272-293`). -/
def goVC (e : Env) : Except Fault (Bool × Env) := do
  let (b, e) ← goPast (·.inGrouping gV 97 121) (e.cur.length + 1) e
  if b then goPast (·.outGrouping gV 97 121) (e.cur.length + 1) e else .ok (false, e)

/-- Where R1 begins: after a fixed prefix or after the first "vowel, non-vowel"
(`english_stemmer.rs:238-272`). -/
def regionStart (e : Env) : Except Fault (Bool × Env) := do
  let v2 := e.cursor
  let (a, e) ← e.findAmong a0
  if a = 0 then goVC { e with cursor := v2 } else .ok (true, e)

/-- `r_mark_regions` (`english_stemmer.rs:233-303`). -/
def rMarkRegions (e : Env) (y : Bool) : Except Fault (Env × Context) := do
  let v1 := e.cursor
  let ctx : Context := ⟨y, e.limit, e.limit⟩
  let (b, e) ← regionStart e
  if b then do
    let ctx := { ctx with p1 := e.cursor }
    let (b, e) ← goVC e
    if b then .ok ({ e with cursor := v1 }, { ctx with p2 := e.cursor })
    else .ok ({ e with cursor := v1 }, ctx)
  else .ok ({ e with cursor := v1 }, ctx)

/-- First alternative of `r_shortv` (`english_stemmer.rs:308-319`). -/
def rShortv1 (e : Env) : Except Fault (Bool × Env) := do
  let (b, e) ← e.outGroupingB gVWXY 89 121
  if !b then .ok (false, e) else do
    let (b, e) ← e.inGroupingB gV 97 121
    if !b then .ok (false, e) else e.outGroupingB gV 97 121

/-- `r_shortv` (`english_stemmer.rs:305-333`). -/
def rShortv (e : Env) : Except Fault (Bool × Env) := do
  let v1 := e.limit - e.cursor
  let (b, e) ← rShortv1 e
  if b then .ok (true, e) else do
    let (b, e) ← ({ e with cursor := e.limit - v1 } : Env).outGroupingB gV 97 121
    if !b then .ok (false, e) else do
      let (b, e) ← e.inGroupingB gV 97 121
      if !b then .ok (false, e)
      else if e.lb < e.cursor then .ok (false, e)
      else .ok (true, e)

/-- `r_R1` (`english_stemmer.rs:335-340`). -/
def rR1 (e : Env) (ctx : Context) : Bool := ctx.p1 ≤ e.cursor

/-- `r_R2` (`english_stemmer.rs:342-347`). -/
def rR2 (e : Env) (ctx : Context) : Bool := ctx.p2 ≤ e.cursor

/-- The branches on `among_var` of `r_Step_1a` (`english_stemmer.rs:368-412`). -/
def rStep1aTail (a : Int) (e : Env) : Except Fault (Bool × Env) :=
  if a = 1 then do
    let e ← e.sliceFrom (str "ss")
    .ok (true, e)
  else if a = 2 then do
    let v2 := e.limit - e.cursor
    let (b, e) := e.hopBack 2
    if b then do
      let e ← e.sliceFrom (str "i")
      .ok (true, e)
    else do
      let e ← ({ e with cursor := e.limit - v2 } : Env).sliceFrom (str "ie")
      .ok (true, e)
  else if a = 3 then
    if e.cursor ≤ e.lb then .ok (false, e) else do
      let e ← e.previousChar
      let (b, e) ← goPastB (·.inGroupingB gV 97 121) (e.cur.length + 1) e
      if !b then .ok (false, e) else do
        let e ← e.sliceDel
        .ok (true, e)
  else .ok (true, e)

/-- The apostrophe suffixes at the head of `r_Step_1a` (`english_stemmer.rs:351-363`). -/
def rStep0 (e : Env) : Except Fault Env := do
  let v1 := e.limit - e.cursor
  let (a, e) ← ({ e with ket := e.cursor } : Env).findAmongB a1
  if a = 0 then .ok { e with cursor := e.limit - v1 } else ({ e with bra := e.cursor } : Env).sliceDel

/-- `r_Step_1a` (`english_stemmer.rs:349-414`). -/
def rStep1a (e : Env) : Except Fault (Bool × Env) := do
  let e ← rStep0 e
  let (a, e) ← ({ e with ket := e.cursor } : Env).findAmongB a2
  if a = 0 then .ok (false, e) else rStep1aTail a { e with bra := e.cursor }

/-- Insert `e` at the cursor and leave the cursor where it was
(`english_stemmer.rs:456-459` and `:480-483`). -/
def insertE (e : Env) : Except Fault Env := do
  let c := e.cursor
  let e ← e.insert e.cursor e.cursor (str "e")
  .ok { e with cursor := c }

/-- The branches on `among_var` of that clean-up (`english_stemmer.rs:455-484`). -/
def rStep1bFix (a : Int) (e : Env) (ctx : Context) : Except Fault (Bool × Env) :=
  if a = 1 then do
    let e ← insertE e
    .ok (true, e)
  else if a = 2 then
    let e := { e with ket := e.cursor }
    if e.cursor ≤ e.lb then .ok (false, e) else do
      let e ← e.previousChar
      let e ← ({ e with bra := e.cursor } : Env).sliceDel
      .ok (true, e)
  else if a = 3 then
    if e.cursor ≠ ctx.p1 then .ok (false, e) else do
      let v4 := e.limit - e.cursor
      let (b, e) ← rShortv e
      if !b then .ok (false, e) else do
        let e ← insertE { e with cursor := e.limit - v4 }
        .ok (true, e)
  else .ok (true, e)

/-- The clean-up after deleting `ed`/`ing`/… in `r_Step_1b` (`english_stemmer.rs:449-484`). -/
def rStep1bTail (e : Env) (ctx : Context) : Except Fault (Bool × Env) := do
  let v3 := e.limit - e.cursor
  let (a, e) ← e.findAmongB a3
  if a = 0 then .ok (false, e) else rStep1bFix a { e with cursor := e.limit - v3 } ctx

/-- `r_Step_1b` (`english_stemmer.rs:416-486`). -/
def rStep1b (e : Env) (ctx : Context) : Except Fault (Bool × Env) := do
  let (a, e) ← ({ e with ket := e.cursor } : Env).findAmongB a4
  if a = 0 then .ok (false, e) else
    let e := { e with bra := e.cursor }
    if a = 1 then
      if !rR1 e ctx then .ok (false, e) else do
        let e ← e.sliceFrom (str "ee")
        .ok (true, e)
    else if a = 2 then do
      let v1 := e.limit - e.cursor
      let (b, e) ← goPastB (·.inGroupingB gV 97 121) (e.cur.length + 1) e
      if !b then .ok (false, e) else do
        let e ← ({ e with cursor := e.limit - v1 } : Env).sliceDel
        rStep1bTail e ctx
    else .ok (true, e)

/-- The test for a final `y` or `Y` in `r_Step_1c` (`english_stemmer.rs:490-502`). -/
def finalY (e : Env) : Except Fault (Bool × Env) := do
  let v1 := e.limit - e.cursor
  let (b, e) ← e.eqSB (str "y")
  if b then .ok (true, e) else ({ e with cursor := e.limit - v1 } : Env).eqSB (str "Y")

/-- `r_Step_1c` (`english_stemmer.rs:488-518`). -/
def rStep1c (e : Env) : Except Fault (Bool × Env) := do
  let (b, e) ← finalY { e with ket := e.cursor }
  if !b then .ok (false, e) else do
    let e := { e with bra := e.cursor }
    let (b, e) ← e.outGroupingB gV 97 121
    if !b then .ok (false, e)
    else if e.lb < e.cursor then do
      let e ← e.sliceFrom (str "i")
      .ok (true, e)
    else .ok (false, e)

/-- `slice_from` and `return true`. -/
def sliceRet (e : Env) (s : String) : Except Fault (Bool × Env) := do
  let e ← e.sliceFrom (str s)
  .ok (true, e)

/-- The branches on `among_var` of `r_Step_2` (`english_stemmer.rs:531-597`). -/
def rStep2Tail (a : Int) (e : Env) : Except Fault (Bool × Env) :=
  if a = 1 then sliceRet e "tion"
  else if a = 2 then sliceRet e "ence"
  else if a = 3 then sliceRet e "ance"
  else if a = 4 then sliceRet e "able"
  else if a = 5 then sliceRet e "ent"
  else if a = 6 then sliceRet e "ize"
  else if a = 7 then sliceRet e "ate"
  else if a = 8 then sliceRet e "al"
  else if a = 9 then sliceRet e "ful"
  else if a = 10 then sliceRet e "ous"
  else if a = 11 then sliceRet e "ive"
  else if a = 12 then sliceRet e "ble"
  else if a = 13 then do
    let (b, e) ← e.eqSB (str "l")
    if !b then .ok (false, e) else sliceRet e "og"
  else if a = 14 then sliceRet e "less"
  else if a = 15 then do
    let (b, e) ← e.inGroupingB gValidLI 99 116
    if !b then .ok (false, e) else sliceRet e ""
  else .ok (true, e)

/-- `r_Step_2` (`english_stemmer.rs:520-599`). -/
def rStep2 (e : Env) (ctx : Context) : Except Fault (Bool × Env) := do
  let (a, e) ← ({ e with ket := e.cursor } : Env).findAmongB a5
  if a = 0 then .ok (false, e) else
    let e := { e with bra := e.cursor }
    if !rR1 e ctx then .ok (false, e) else rStep2Tail a e

/-- The branches on `among_var` of `r_Step_3` (`english_stemmer.rs:612-639`). -/
def rStep3Tail (a : Int) (e : Env) (ctx : Context) : Except Fault (Bool × Env) :=
  if a = 1 then sliceRet e "tion"
  else if a = 2 then sliceRet e "ate"
  else if a = 3 then sliceRet e "al"
  else if a = 4 then sliceRet e "ic"
  else if a = 5 then sliceRet e ""
  else if a = 6 then if !rR2 e ctx then .ok (false, e) else sliceRet e ""
  else .ok (true, e)

/-- `r_Step_3` (`english_stemmer.rs:601-641`). -/
def rStep3 (e : Env) (ctx : Context) : Except Fault (Bool × Env) := do
  let (a, e) ← ({ e with ket := e.cursor } : Env).findAmongB a6
  if a = 0 then .ok (false, e) else
    let e := { e with bra := e.cursor }
    if !rR1 e ctx then .ok (false, e) else rStep3Tail a e ctx

/-- The branches on `among_var` of `r_Step_4` (`english_stemmer.rs:654-676`). -/
def rStep4Tail (a : Int) (e : Env) : Except Fault (Bool × Env) :=
  if a = 1 then sliceRet e ""
  else if a = 2 then do
    let v1 := e.limit - e.cursor
    let (b, e) ← e.eqSB (str "s")
    let (b, e) ← if b then .ok (true, e) else ({ e with cursor := e.limit - v1 } : Env).eqSB (str "t")
    if !b then .ok (false, e) else sliceRet e ""
  else .ok (true, e)

/-- `r_Step_4` (`english_stemmer.rs:643-678`). -/
def rStep4 (e : Env) (ctx : Context) : Except Fault (Bool × Env) := do
  let (a, e) ← ({ e with ket := e.cursor } : Env).findAmongB a7
  if a = 0 then .ok (false, e) else
    let e := { e with bra := e.cursor }
    if !rR2 e ctx then .ok (false, e) else rStep4Tail a e

/-- The branches on `among_var` of `r_Step_5` (`english_stemmer.rs:688-724`). -/
def rStep5Tail (a : Int) (e : Env) (ctx : Context) : Except Fault (Bool × Env) :=
  if a = 1 then
    if rR2 e ctx then sliceRet e ""
    else if !rR1 e ctx then .ok (false, e)
    else do
      let v2 := e.limit - e.cursor
      let (b, e) ← rShortv e
      if b then .ok (false, e) else sliceRet { e with cursor := e.limit - v2 } ""
  else if a = 2 then
    if !rR2 e ctx then .ok (false, e) else do
      let (b, e) ← e.eqSB (str "l")
      if !b then .ok (false, e) else sliceRet e ""
  else .ok (true, e)

/-- `r_Step_5` (`english_stemmer.rs:680-726`). -/
def rStep5 (e : Env) (ctx : Context) : Except Fault (Bool × Env) := do
  let (a, e) ← ({ e with ket := e.cursor } : Env).findAmongB a8
  if a = 0 then .ok (false, e) else rStep5Tail a { e with bra := e.cursor } ctx

/-- `r_exception2` (`english_stemmer.rs:728-738`). -/
def rException2 (e : Env) : Except Fault (Bool × Env) := do
  let (a, e) ← ({ e with ket := e.cursor } : Env).findAmongB a9
  if a = 0 then .ok (false, e) else
    let e := { e with bra := e.cursor }
    if e.lb < e.cursor then .ok (false, e) else .ok (true, e)

/-- The branches on `among_var` of `r_exception1` (`english_stemmer.rs:751-796`). -/
def rException1Tail (a : Int) (e : Env) : Except Fault (Bool × Env) :=
  if a = 1 then sliceRet e "ski"
  else if a = 2 then sliceRet e "sky"
  else if a = 3 then sliceRet e "die"
  else if a = 4 then sliceRet e "lie"
  else if a = 5 then sliceRet e "tie"
  else if a = 6 then sliceRet e "idl"
  else if a = 7 then sliceRet e "gentl"
  else if a = 8 then sliceRet e "ugli"
  else if a = 9 then sliceRet e "earli"
  else if a = 10 then sliceRet e "onli"
  else if a = 11 then sliceRet e "singl"
  else .ok (true, e)

/-- `r_exception1` (`english_stemmer.rs:740-797`). -/
def rException1 (e : Env) : Except Fault (Bool × Env) := do
  let (a, e) ← ({ e with bra := e.cursor } : Env).findAmong a10
  if a = 0 then .ok (false, e) else
    let e := { e with ket := e.cursor }
    if e.cursor < e.limit then .ok (false, e) else rException1Tail a e

/-- One attempt in the loop `'golab2` of `r_postlude` (`english_stemmer.rs:807-817`). -/
def postludeTry (e : Env) : Except Fault (Bool × Env) := do
  let v2 := e.cursor
  let (b, e) ← ({ e with bra := e.cursor } : Env).eqS (str "Y")
  if b then .ok (true, { e with ket := e.cursor, cursor := v2 }) else .ok (false, { e with cursor := v2 })

/-- The loop `'golab2` of `r_postlude` (`english_stemmer.rs:806-822`): look for `Y`. -/
def postludeScan : Nat → Env → Except Fault (Bool × Env)
  | 0, _ => .error .diverge
  | fuel + 1, e => do
    let (b, e) ← postludeTry e
    if b then .ok (true, e)
    else if e.limit ≤ e.cursor then .ok (false, e)
    else do
      let e ← e.nextChar
      postludeScan fuel e

/-- The loop `'replab0` of `r_postlude` (`english_stemmer.rs:803-830`). -/
def postludeRep : Nat → Env → Except Fault Env
  | 0, _ => .error .diverge
  | fuel + 1, e => do
    let v1 := e.cursor
    let (b, e) ← postludeScan (e.cur.length + 1) e
    if b then do
      let e ← e.sliceFrom (str "y")
      postludeRep fuel e
    else .ok { e with cursor := v1 }

/-- `r_postlude` (`english_stemmer.rs:799-832`). -/
def rPostlude (e : Env) (ctx : Context) : Except Fault Env :=
  if !ctx.yFound then .ok e else postludeRep (e.cur.length + 1) e

/-- Put the cursor back to `limit - v` (after each step of `stem`, `english_stemmer.rs:865-894`). -/
def Env.rewind (e : Env) (v : Int) : Env := { e with cursor := e.limit - v }

/-- Steps 1b to 5 (`english_stemmer.rs:877-895`). -/
def rSteps (e : Env) (ctx : Context) : Except Fault Env := do
  let v := e.limit - e.cursor
  let (_, e) ← rStep1b e ctx
  let e := e.rewind v
  let v := e.limit - e.cursor
  let (_, e) ← rStep1c e
  let e := e.rewind v
  let v := e.limit - e.cursor
  let (_, e) ← rStep2 e ctx
  let e := e.rewind v
  let v := e.limit - e.cursor
  let (_, e) ← rStep3 e ctx
  let e := e.rewind v
  let v := e.limit - e.cursor
  let (_, e) ← rStep4 e ctx
  let e := e.rewind v
  let v := e.limit - e.cursor
  let (_, e) ← rStep5 e ctx
  .ok (e.rewind v)

/-- The backward part of `stem` and the postlude (`english_stemmer.rs:863-900`). -/
def stemBack (e : Env) (ctx : Context) : Except Fault Env := do
  let e := { e with lb := e.cursor, cursor := e.limit }
  let v5 := e.limit - e.cursor
  let (_, e) ← rStep1a e
  let e := e.rewind v5
  let v6 := e.limit - e.cursor
  let (b, e) ← rException2 e
  let e ← if b then .ok e else rSteps (e.rewind v6) ctx
  let e := { e with cursor := e.lb }
  let v13 := e.cursor
  let e ← rPostlude e ctx
  .ok { e with cursor := v13 }

/-- `stem` (`english_stemmer.rs:834-904`). -/
def stemEnv (e : Env) : Except Fault Env := do
  let v1 := e.cursor
  let (b, e) ← rException1 e
  if b then .ok e else
    let e := { e with cursor := v1 }
    let v2 := e.cursor
    let (b, e) := e.hop 3
    if !b then .ok { e with cursor := v2 } else do
      let (e, y) ← rPrelude { e with cursor := v1 }
      let (e, ctx) ← rMarkRegions e y
      stemBack e ctx

/-- `SnowballEnv::create` then `stem` then `get_current` (`snowball_stem.rs:11-13`). -/
def stem (s : List Nat) : Except Fault (List Nat) := do
  let e ← stemEnv (Env.create s)
  .ok e.cur

/-- The digits of a decimal literal with at most one point: `Digit+ | Digit+ '.' Digit* | Digit* '.' Digit+`. -/
def isDecimal (s : List Char) : Bool :=
  let a := s.takeWhile Char.isDigit
  let r := s.dropWhile Char.isDigit
  (r.isEmpty && !a.isEmpty) ||
    (r.head? == some '.' && r.tail.all Char.isDigit && !(a.isEmpty && r.tail.isEmpty))

/-- Drop one optional sign. -/
def dropSign (s : List Char) : List Char :=
  if s.head? == some '+' || s.head? == some '-' then s.tail else s

/-- Rust `s.parse::<f64>().is_ok()` (grammar in the documentation of `impl FromStr for f64`): an optional sign
and then `inf`, `infinity`, `nan` in any case, or a decimal number with an optional exponent. -/
def parsesF64 (s : List Char) : Bool :=
  let s := dropSign s
  let l := s.map Char.toLower
  l == "inf".toList || l == "infinity".toList || l == "nan".toList ||
    (let m := s.takeWhile fun c => c != 'e' && c != 'E'
     let x := s.dropWhile fun c => c != 'e' && c != 'E'
     isDecimal m && (x.isEmpty || (let d := dropSign x.tail
                                  !d.isEmpty && d.all Char.isDigit)))

/-- `snowball` (`snowball_stem.rs:7-15`). -/
def snowball (s : String) (noStopwords : Bool) : Except Fault (List Nat) :=
  if parsesF64 s.toList || (noStopwords && Stopword.isStopword s) then .ok [] else stem (str s)

/-- `pl_snowball_stem` (`snowball_stem.rs:17-24`) on a column: nulls stay null. -/
def snowballCol (col : List (Option String)) (noStopwords : Bool) : List (Option (Except Fault (List Nat))) :=
  col.map fun o => o.map fun s => snowball s noStopwords

end Verif.Snowball
