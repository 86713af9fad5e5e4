import Verif.Model.TsFeat
import Verif.Model.MultiMetrics
import Verif.Model.Random
import Verif.Model.PermEntropy

/-!
# The compatibility layer (`python/polars_ds/compat/_compat.py`)

`compat.f(a, b, k=c)` turns arrays into literal columns, builds the expression `f(...)` and evaluates it on a frame without columns.
polars is not in `/repo`: an expression is a tree whose leaves are columns, literals and `pl.len()`; what an operator computes is an
arbitrary function `sem` of the named columns it gets, the same in every frame.
-/

namespace Verif.Compat
open Verif.Pl
open Verif.Confusion (Val)

/-- A named column. -/
structure Ser (V : Type) where
  name : String
  vals : List V
deriving DecidableEq, Repr

/-- The expression a library function builds, for instance at `python/polars_ds/exprs/metrics.py:147-150`.  `slot` is the place of an
argument that is itself an expression: positional (a number) or by keyword.  The library does not look into such arguments
(`python/polars_ds/_utils.py:42-59`). -/
inductive Tmpl (V O : Type) : Type
  | slot (k : ℕ ⊕ String) : Tmpl V O
  | col (name : String) : Tmpl V O
  | lit (s : Ser V) : Tmpl V O
  | len : Tmpl V O
  | app (o : O) (n : ℕ) (args : Fin n → Tmpl V O) : Tmpl V O

/-- A frame: its number of rows and its columns. -/
structure Frame (V : Type) where
  height : ℕ
  cols : List (Ser V)

/-- `pl.DataFrame()`, on which `pl.select` works (`python/polars_ds/compat/_compat.py:57`). -/
def noFrame (V : Type) : Frame V := ⟨0, []⟩

/-- A column of the frame, or `ColumnNotFoundError`. -/
def Frame.get {V : Type} (F : Frame V) (n : String) : Except String (Ser V) :=
  match F.cols.find? fun s => s.name = n with
  | some s => .ok s
  | none => .error "ColumnNotFoundError"

/-- An argument of the call (`python/polars_ds/compat/_compat.py:41`): an array, a polars column, an object with `__array__` (a pandas column),
an expression that is the column `name` of the frame, or anything else. -/
inductive Arg (V P : Type)
  | ndarray (vals : List V)
  | series (s : Ser V)
  | hasArray (vals : List V)
  | colExpr (name : String)
  | plain (p : P)

/-- An argument as the library function sees it. -/
inductive Seen (V P : Type)
  | litExpr (s : Ser V)
  | colExpr (name : String)
  | plain (p : P)

/-- `_try_into_series` (`python/polars_ds/compat/_compat.py:21-33`). -/
def tryIntoSeries {V P : Type} (x : Arg V P) (name : String) : Seen V P :=
  match x with
  | .ndarray v => .litExpr ⟨name, v⟩
  | .series s => .litExpr s
  | .hasArray v => .litExpr ⟨name, v⟩
  | .colExpr n => .colExpr n
  | .plain p => .plain p

/-- What a library function can use to choose its expression: of an expression only that it is one. -/
def Seen.shape {V P : Type} : Seen V P → Option P
  | .litExpr _ => none
  | .colExpr _ => none
  | .plain p => some p

/-- A library function: the shapes of its arguments give the expression or an exception. -/
abbrev Func (V O P : Type) := List (Option P) → List (String × Option P) → Except String (Tmpl V O)

variable {V O P : Type}

/-- Evaluation on a frame.  `slot k` is looked up among the arguments; `ofNat` is the number of rows as a value. -/
def eval (ofNat : ℕ → V) (sem : O → List (Ser V) → Except String (Ser V)) (F : Frame V) (slots : ℕ ⊕ String → Option (Seen V P)) :
    Tmpl V O → Except String (Ser V)
  | .slot k =>
    match slots k with
    | some (.litExpr s) => .ok s
    | some (.colExpr n) => F.get n
    | _ => .error "ValueError"
  | .col n => F.get n
  | .lit s => .ok s
  | .len => .ok ⟨"len", [ofNat F.height]⟩
  | .app o n args => do
    let l ← (List.ofFn fun i : Fin n => eval ofNat sem F slots (args i)).mapM id
    sem o l

/-- The lookup of arguments. -/
def slotsOf (args : List (Seen V P)) (kwargs : List (String × Seen V P)) : ℕ ⊕ String → Option (Seen V P)
  | .inl i => args[i]?
  | .inr k => (kwargs.find? fun p => p.1 = k).map (·.2)

/-- `F.select(f(*args, **kwargs))` with one output column. -/
def select (ofNat : ℕ → V) (sem : O → List (Ser V) → Except String (Ser V)) (F : Frame V) (f : Func V O P) (args : List (Seen V P))
    (kwargs : List (String × Seen V P)) : Except String (Ser V) := do
  let t ← f (args.map Seen.shape) (kwargs.map fun p => (p.1, p.2.shape))
  eval ofNat sem F (slotsOf args kwargs) t

/-- `CANNOT_CALL` (`python/polars_ds/compat/_compat.py:7-14`). -/
def cannotCall : List String := ["frame", "str_to_expr", "pl", "annotations", "__version__", "warn_len_compare"]

/-- `name.replace("query_", "")` (`python/polars_ds/compat/_compat.py:60`) on the characters of a name. -/
def remove (pat : List Char) : List Char → List Char
  | [] => []
  | c :: cs => if pat.isPrefixOf (c :: cs) then remove pat (cs.drop (pat.length - 1)) else c :: remove pat cs
termination_by l => l.length
decreasing_by
  · simp only [List.length_drop, List.length_cons]; omega
  · simp

/-- The name of the result (`python/polars_ds/compat/_compat.py:60`). -/
def outName (name : String) : String := String.ofList (remove "query_".toList name.toList)

/-- `compat.name(*args, **kwargs)` (`python/polars_ds/compat/_compat.py:35-63`).  `lib` are the attributes of `polars_ds`.
Simplification: an attribute that is not a function building an expression is not modelled. -/
def call (ofNat : ℕ → V) (sem : O → List (Ser V) → Except String (Ser V)) (lib : String → Option (Func V O P)) (name : String)
    (args : List (Arg V P)) (kwargs : List (String × Arg V P)) : Except String (Ser V) :=
  if name ∈ cannotCall then .error "ValueError"
  else
    match lib name with
    | none => .error "AttributeError"
    | some f =>
      if args.length ≤ 0 then .error "ValueError"
      else
        (select ofNat sem (noFrame V) f (args.mapIdx fun i x => tryIntoSeries x (Nat.repr i))
          (kwargs.map fun p => (p.1, tryIntoSeries p.2 p.1))).map fun s => { s with name := outName name }

/-! ## Functions that ask for the number of rows of the frame -/

/-- `to_frame` (`src/utils/mod.rs:48-50`), as called for `lin_reg` (`src/num_ext/linear_regression.rs:148`): `DataFrame::new` returns an
error for two columns of one name or of different lengths. -/
def toFrame (l : List (Ser V)) : Except String (Frame V) :=
  if (l.map Ser.name).Nodup then
    if l.all fun s => s.vals.length = (l.head?.map fun t => t.vals.length).getD 0 then
      .ok ⟨(l.head?.map fun t => t.vals.length).getD 0, l⟩
    else .error "ShapeMismatch"
  else .error "Duplicate"

variable {K : Type} [Field K] [LinearOrder K]

/-- `query_auto_corr` with `normalize=True` (`python/polars_ds/exprs/ts_features.py:408-414`) on a frame of `n` rows; `pl.len()` is `n`, whatever
the column. -/
def autoCorrAt (n : ℕ) (c : Col K) (l ddof : ℕ) : Option (Val K) :=
  (TsFeat.varD ddof c).map fun v =>
    Val.fdiv (.num (dot (TsFeat.centered c) (TsFeat.lead l (TsFeat.centered c))))
      (if n < l then .nan else .num (((n - l : ℕ) : K) * v))

/-- `query_multi_roc_auc(strategy="weighted")` (`python/polars_ds/exprs/metrics.py:549-555`) on a frame of `n` rows, when every class
has an AUC: the sum of the weighted values over `pl.len()`. -/
def weightedAucAt (n : ℕ) (s : K) : Val K := Val.fdiv (.num s) (.num (n : K))

/-- The columns of `query_transfer_entropy` (`python/polars_ds/exprs/ts_features.py:727-730`) on a frame of `n` rows; `pl.len() - lag` is a 32
bit unsigned difference. -/
def transferColsAt {K : Type} (n : ℕ) (x s : Col K) (lag : ℕ) : Col K × Col K × Col K :=
  let m := (n + 2 ^ 32 - lag) % 2 ^ 32
  ((x.drop lag).take m, s.take m, x.take m)

/-- `pl.when(mask).then(None).otherwise(col)` of polars, called at `python/polars_ds/exprs/stats.py:536`: a column of one row is repeated; other
lengths must agree. -/
def whenNull {α : Type} (mask : List Bool) (col : List (Option α)) : Except String (List (Option α)) :=
  if mask.length = col.length then .ok (List.zipWith (fun b v => if b then none else v) mask col)
  else
    match mask, col with
    | [b], _ => .ok (col.map fun v => if b then none else v)
    | _, [v] => .ok (mask.map fun b => if b then none else v)
    | _, _ => .error "ShapeError"

/-- `random_null` (`python/polars_ds/exprs/stats.py:517-536`) on a frame of `n` rows: the random column has `n` rows. -/
def randomNullAt {σ α : Type} (n : ℕ) (r : Random.Rng K σ) (col : List (Option α)) (pct : K) (seed : Option ℕ) :
    Except String (List (Option α)) :=
  if pct ≤ 0 ∨ 1 ≤ pct then .error "ValueError"
  else
    match Random.random r (.float 0) (.float 1) seed (.expr (.u32 (some n))) with
    | .error _ => .error "random"
    | .ok u => whenNull (u.map fun x => decide (x < pct)) col

end Verif.Compat
