import Mathlib.Data.List.Basic
import Mathlib.Data.List.Nodup

/-!
# Blueprints and pipelines (`python/polars_ds/modeling/pipeline.py`, `_structures.py`)

polars itself is not in this repository; `Frame`, `withColumns`, `select` and `filter` state the semantics that
are relied on (trusted base): expressions of one call see the same input frame, a missing column or a repeated
output name is an error (`none`), `with_columns` replaces a column in place or appends it, `select` keeps only its
outputs, `filter` keeps the rows whose condition is true (not null).  Lazy and eager frames are not told apart.
`V` is the type of values, `D` the type of column types; a null cell is `none`.
-/

namespace Verif.Pipeline

/-- A data frame: column names with their types, in order, and rows.  A row maps a name to its cell; names outside
the schema are null. -/
structure Frame (V D : Type) where
  schema : List (String × D)
  rows : List (String → Option V)

variable {V D : Type}

/-- The column names in order. -/
def Frame.names (f : Frame V D) : List String := f.schema.map Prod.fst

/-- A column as a list of cells. -/
def Frame.col (f : Frame V D) (c : String) : List (Option V) := f.rows.map fun r => r c

/-- An expression with its output name, the columns it reads, its output type and its values on a list of
rows. -/
structure Ex (V D : Type) where
  name : String
  needs : List String
  dtype : List (String × D) → D
  eval : List (String → Option V) → List (Option V)

/-- An expression computed row by row. -/
def Ex.row (name : String) (needs : List String) (dtype : List (String × D) → D)
    (g : (String → Option V) → Option V) : Ex V D :=
  { name, needs, dtype, eval := fun rows => rows.map g }

/-- `pl.col(c).alias(v)`. -/
def Ex.colAs [Inhabited D] (c v : String) : Ex V D :=
  Ex.row v [c] (fun s => (s.lookup c).getD default) fun r => r c

/-- The cell of output `n` in row `i`, if one of the expressions writes it. -/
def cell (es : List (Ex V D)) (rows : List (String → Option V)) (i : ℕ) (n : String) : Option (Option V) :=
  (es.find? fun e => e.name == n).map fun e => ((e.eval rows)[i]?).join

/-- The conditions under which polars runs a list of expressions on a frame: the columns exist, the output names
differ, every result is as long as the frame (broadcasting of scalars is not modelled). -/
def runs (es : List (Ex V D)) (f : Frame V D) : Bool :=
  (es.all fun e => e.needs.all fun c => decide (c ∈ f.names)) && decide (es.map (·.name)).Nodup &&
    es.all fun e => (e.eval f.rows).length == f.rows.length

/-- `DataFrame.with_columns`. -/
def withColumns (es : List (Ex V D)) (f : Frame V D) : Option (Frame V D) :=
  if runs es f then
    some { schema := (f.schema.map fun c => (c.1, ((es.find? fun e => e.name == c.1).map fun e => e.dtype f.schema).getD c.2)) ++
             (es.filter fun e => decide (e.name ∉ f.names)).map fun e => (e.name, e.dtype f.schema)
           rows := f.rows.mapIdx fun i r => fun n => (cell es f.rows i n).getD (r n) }
  else none

/-- `DataFrame.select`. -/
def select (es : List (Ex V D)) (f : Frame V D) : Option (Frame V D) :=
  if runs es f then
    some { schema := es.map fun e => (e.name, e.dtype f.schema)
           rows := f.rows.mapIdx fun i _ => fun n => (cell es f.rows i n).getD none }
  else none

/-- Selection of columns by name. -/
def selectNames [Inhabited D] (cs : List String) (f : Frame V D) : Option (Frame V D) :=
  select (cs.map fun c => Ex.colAs c c) f

/-- `pl.all().exclude(cols)`: the columns of the frame that are not excluded. -/
def exclude [Inhabited D] (cs : List String) (schema : List (String × D)) : List (Ex V D) :=
  ((schema.map Prod.fst).filter fun c => decide (c ∉ cs)).map fun c => Ex.colAs c c

/-- `PipelineStep` (`_structures.py:40-58`) by context.  The expressions of a step may contain selectors, hence
depend on the schema; a SQL statement is an arbitrary function of the frame. -/
inductive Step (V D : Type) where
  | select (es : List (String × D) → List (Ex V D))
  | withColumns (es : List (String × D) → List (Ex V D))
  | sql (run : Frame V D → Option (Frame V D))
  | filter (needs : List String) (p : List (String → Option V) → List Bool)

/-- `PipelineStep.apply_df` (`_structures.py:94-102`). -/
def Step.apply : Step V D → Frame V D → Option (Frame V D)
  | .select es, f => Pipeline.select (es f.schema) f
  | .withColumns es, f => Pipeline.withColumns (es f.schema) f
  | .sql run, f => run f
  | .filter needs p, f =>
    if needs.all fun c => decide (c ∈ f.names) then
      some { schema := f.schema, rows := ((f.rows.zip (p f.rows)).filter fun rp => rp.2).map Prod.fst }
    else none

/-- The columns of a step: any expression understood as columns; `none` if a named column is missing. -/
abbrev Sel (D : Type) := List (String × D) → Option (List String)

/-- A list of names as a selector. -/
def Sel.names (cs : List String) : Sel D := fun s =>
  if cs.all fun c => decide (c ∈ s.map Prod.fst) then some cs else none

/-- A selector by type, like `cs.numeric()`. -/
def Sel.byType (p : D → Bool) : Sel D := fun s => some ((s.filter fun c => p c.2).map Prod.fst)

/-- `FitStep` (`_structures.py:12-16`).  `func` learns expressions from a frame and column names. -/
structure FitStep (V D : Type) where
  func : Frame V D → List String → Option (List (Ex V D))
  cols : Option (Sel D)
  exclude : List String

/-- `FitStep.fit` (`_structures.py:21-30`). -/
def FitStep.fit (s : FitStep V D) (f : Frame V D) : Option (List (Ex V D)) :=
  match s.cols with
  | none => s.func f []
  | some sel => (sel f.schema).bind fun cs => s.func f (cs.filter fun c => decide (c ∉ s.exclude))

/-- A step of a blueprint. -/
inductive BStep (V D : Type) where
  | fit (s : FitStep V D)
  | step (s : Step V D)

/-- `Pipeline` (`pipeline.py:63-78`), for the type `S` of steps. -/
structure Pipe (S : Type) where
  name : String
  target : Option String
  featIn : List String
  featOut : List String
  transforms : List S
  ensureIn : Bool := false
  ensureOut : Bool := true
  lowercase : Bool := false
  uppercase : Bool := false

/-- `Blueprint` (`pipeline.py:270-330`) after `__init__`: `df` has already been renamed. -/
structure Blueprint (V D : Type) where
  df : Frame V D
  name : String
  target : Option String
  featIn : List String
  steps : List (BStep V D)
  exclude : List String
  lowercase : Bool
  uppercase : Bool

/-- How names are changed: Python's lower and upper case conversion. -/
structure Cases where
  lower : String → String
  upper : String → String

/-- `df.select(pl.all().name.to_lowercase())` and the like (`pipeline.py:105-111`, `:314-318`): every column under
its new name; two columns with the same new name are an error. -/
def renameAll [Inhabited D] (g : String → String) (f : Frame V D) : Option (Frame V D) :=
  select (f.names.map fun c => Ex.colAs c (g c)) f

/-- The renaming chosen by the two flags (`pipeline.py:105-111`, `:314-318`). -/
def caseStep [Inhabited D] (cs : Cases) (lower upper : Bool) (f : Frame V D) : Option (Frame V D) :=
  if lower then renameAll cs.lower f else if upper then renameAll cs.upper f else some f

/-- `Blueprint.__init__` (`pipeline.py:278-330`). -/
def Blueprint.init [Inhabited D] (cs : Cases) (df : Frame V D) (name : String) (target : Option String)
    (excl : Option (List String)) (lower upper : Bool) : Option (Blueprint V D) :=
  (caseStep cs lower upper df).map fun f =>
    { df := f, name := name, target := target, featIn := f.names, steps := []
      exclude := match excl with
        | none => target.toList
        | some l => (target.toList ++ l).dedup
      lowercase := lower, uppercase := upper }

/-- The loop of `Blueprint.materialize` (`pipeline.py:928-938`): the fitted steps so far and the current frame. -/
def materializeLoop : List (BStep V D) → List (Step V D) → Frame V D → Option (List (Step V D) × Frame V D)
  | [], ts, f => some (ts, f)
  | .fit s :: rest, ts, f =>
    (s.fit f).bind fun exprs =>
      (withColumns exprs f).bind fun f' => materializeLoop rest (ts ++ [.withColumns fun _ => exprs]) f'
  | .step s :: rest, ts, f => (s.apply f).bind fun f' => materializeLoop rest (ts ++ [s]) f'

/-- `Blueprint.materialize` (`pipeline.py:919-948`). -/
def Blueprint.materialize (b : Blueprint V D) : Option (Pipe (Step V D)) :=
  (materializeLoop b.steps [] b.df).map fun r =>
    { name := b.name, target := b.target, featIn := b.featIn, featOut := r.2.names, transforms := r.1
      lowercase := b.lowercase, uppercase := b.uppercase }

/-- The loop of `Pipeline._generate_lazy_plan` (`pipeline.py:113-115`). -/
def applyAll : List (Step V D) → Frame V D → Option (Frame V D)
  | [], f => some f
  | s :: rest, f => (s.apply f).bind fun f' => applyAll rest f'

/-- The check of the incoming columns (`pipeline.py:239-246`). -/
def Pipe.checkIn (p : Pipe (Step V D)) (f : Frame V D) : Bool :=
  !p.ensureIn || ((f.names.all fun c => decide (c ∈ p.featIn)) && p.featIn.all fun c => decide (c ∈ f.names))

/-- `Pipeline.transform` with `separate=False` (`pipeline.py:218-267`).  `none` is an error. -/
def Pipe.transform [Inhabited D] (cs : Cases) (p : Pipe (Step V D)) (f : Frame V D) : Option (Frame V D) :=
  if p.checkIn f then
    ((caseStep cs p.lowercase p.uppercase f).bind fun g => applyAll p.transforms g).bind fun g =>
      if p.ensureOut then selectNames p.featOut g else some g
  else none

/-- `Pipeline.transform` with `separate=True` (`pipeline.py:253-265`): features and target. -/
def Pipe.transformSep [Inhabited D] (cs : Cases) (p : Pipe (Step V D)) (f : Frame V D) :
    Option (Frame V D × Frame V D) :=
  (p.transform cs f).bind fun g => p.target.bind fun t =>
    (select (exclude [t] g.schema) g).bind fun x => (selectNames [t] g).map fun y => (x, y)

/-! ## Building steps -/

/-- Append a step. -/
def Blueprint.add (b : Blueprint V D) (s : BStep V D) : Blueprint V D := { b with steps := b.steps ++ [s] }

/-- Append a fitted transform on columns `cols` with the blueprint's exclusions, as `impute`, `scale`, `center`,
`robust_scale`, `winsorize` and the encoders do (`pipeline.py:404`, `:496`, ...). -/
def Blueprint.addFit (b : Blueprint V D) (func : Frame V D → List String → Option (List (Ex V D))) (cols : Sel D) :
    Blueprint V D := b.add (.fit { func, cols := some cols, exclude := b.exclude })

/-- `Blueprint.drop` (`pipeline.py:624-634`).  `pl.all().exclude(cols)` leaves out the columns that `cols` selects;
unknown names are ignored. -/
def Blueprint.drop [Inhabited D] (b : Blueprint V D) (cols : List (String × D) → List String) : Blueprint V D :=
  b.add (.step (.select fun s => Pipeline.exclude (cols s) s))

/-- `Blueprint.rename` (`pipeline.py:636-651`). -/
def Blueprint.rename [Inhabited D] (b : Blueprint V D) (m : List (String × String)) : Blueprint V D :=
  (b.add (.step (.withColumns fun _ => m.map fun kv => Ex.colAs kv.1 kv.2))).drop fun _ => m.map Prod.fst

/-- `Blueprint.one_hot_encode` (`pipeline.py:653-687`) with `func` the fitted transform: the columns are dropped
afterwards by the same selection, which is not restricted by the exclusions. -/
def Blueprint.oneHotEncode [Inhabited D] (b : Blueprint V D)
    (func : Frame V D → List String → Option (List (Ex V D))) (cols : Sel D) (dropCols : Bool) : Blueprint V D :=
  if dropCols then (b.addFit func cols).drop fun s => (cols s).getD [] else b.addFit func cols

/-- The steps over all columns of a type: `cast_bools`, `nan_to_null`, `int_to_float` (`pipeline.py:384-389`,
`:432-453`); `g` is the conversion, `d` the new type. -/
def Blueprint.convert (b : Blueprint V D) (p : D → Bool) (d : D) (g : V → Option V) : Blueprint V D :=
  b.add (.step (.withColumns fun s => (s.filter fun c => p c.2).map fun c =>
    Ex.row c.1 [c.1] (fun _ => d) fun r => (r c.1).bind g))

/-! ## Serialisation -/

/-- `PLContext` (`_structures.py:33-37`). -/
inductive Ctx where
  | select
  | withColumns
  | sql
  | filter
deriving DecidableEq, Repr

/-- An element of an action: an expression, or anything else Python may hold (here: a string). -/
inductive Item (E : Type) where
  | expr (e : E)
  | text (s : String)
deriving DecidableEq

/-- What is passed to `PipelineStep`: one element, or a list.  A string is also iterable, over its characters. -/
inductive Action (E : Type) where
  | one (i : Item E)
  | list (l : List (Item E))

/-- `PipelineStep` as a value: context and `exprs` (`_structures.py:40-56`). -/
structure PStep (E : Type) where
  ctx : Ctx
  exprs : List (Item E)
deriving DecidableEq

/-- Whether an element is a polars expression. -/
def Item.isExpr {E : Type} : Item E → Bool
  | .expr _ => true
  | .text _ => false

/-- `PipelineStep.__init__` (`_structures.py:41-56`); `none` is the `ValueError`. -/
def PStep.init {E : Type} (a : Action E) (ctx : Ctx) : Option (PStep E) :=
  match a with
  | .one (.expr e) => some ⟨ctx, [.expr e]⟩
  | .one (.text s) =>
    if ctx = .sql then some ⟨ctx, [.text s]⟩
    else if s.toList.any fun _ => true then none
    else some ⟨ctx, []⟩
  | .list l => if l.any fun i => !i.isExpr then none else some ⟨ctx, l⟩

/-- `Expr.meta.serialize` and `Expr.deserialize` are polars functions; the contract is that they are inverse. -/
structure Codec (E J : Type) where
  enc : E → J
  dec : J → Option E
  roundTrip : ∀ e, dec (enc e) = some e

/-- The `action` entry of a serialised step. -/
inductive JAction (J : Type) where
  | list (l : List J)
  | one (j : J)
  | text (s : String)

/-- The dictionary of one step. -/
structure JStep (J : Type) where
  ctx : Ctx
  action : JAction J

/-- `e.meta.serialize`; anything but an expression has no `meta`. -/
def encItem {E J : Type} (c : Codec E J) : Item E → Option J
  | .expr e => some (c.enc e)
  | .text _ => none

/-- `PipelineStep.to_json` (`_structures.py:76-92`). -/
def PStep.toJson {E J : Type} (c : Codec E J) (s : PStep E) : Option (JStep J) :=
  match s.ctx, s.exprs with
  | .select, l => (l.mapM (encItem c)).map fun js => ⟨.select, .list js⟩
  | .withColumns, l => (l.mapM (encItem c)).map fun js => ⟨.withColumns, .list js⟩
  | .sql, .text t :: _ => some ⟨.sql, .text t⟩
  | .sql, _ => none
  | .filter, i :: _ => (encItem c i).map fun j => ⟨.filter, .one j⟩
  | .filter, [] => none

/-- `PipelineStep.from_json` (`_structures.py:58-71`). -/
def PStep.fromJson {E J : Type} (c : Codec E J) (s : JStep J) : Option (PStep E) :=
  match s.ctx, s.action with
  | .select, .list js => (js.mapM c.dec).bind fun es => PStep.init (.list (es.map .expr)) .select
  | .withColumns, .list js => (js.mapM c.dec).bind fun es => PStep.init (.list (es.map .expr)) .withColumns
  | .sql, .text t => PStep.init (.one (.text t)) .sql
  | .filter, .one j => (c.dec j).bind fun e => PStep.init (.list [.expr e]) .filter
  | _, _ => none

/-- The dictionary of `Pipeline.to_dict` (`pipeline.py:117-131`); a missing key is `none`. -/
structure PipeDict (J : Type) where
  name : String
  target : Option String
  featIn : List String
  featOut : List String
  transforms : List (JStep J)
  ensureIn : Bool
  ensureOut : Bool
  lowercase : Option Bool
  uppercase : Option Bool

/-- `Pipeline.to_dict` (`pipeline.py:117-131`). -/
def Pipe.toDict {E J : Type} (c : Codec E J) (p : Pipe (PStep E)) : Option (PipeDict J) :=
  (p.transforms.mapM (PStep.toJson c)).map fun ts =>
    { name := p.name, target := p.target, featIn := p.featIn, featOut := p.featOut
      transforms := ts, ensureIn := p.ensureIn, ensureOut := p.ensureOut
      lowercase := some p.lowercase, uppercase := some p.uppercase }

/-- `Pipeline.from_dict` (`pipeline.py:154-184`); `get("lowercase", False)`. -/
def Pipe.fromDict {E J : Type} (c : Codec E J) (d : PipeDict J) : Option (Pipe (PStep E)) :=
  (d.transforms.mapM (PStep.fromJson c)).map fun ts =>
    { name := d.name, target := d.target, featIn := d.featIn, featOut := d.featOut, transforms := ts
      ensureIn := d.ensureIn, ensureOut := d.ensureOut
      lowercase := d.lowercase.getD false, uppercase := d.uppercase.getD false }

/-- `Blueprint.select(cols)` (`pipeline.py:529-539`): the step it appends. -/
def bpSelect {E : Type} (cols : Action E) : Option (PStep E) := PStep.init cols .select

/-- `Blueprint.append_expr(*exprs)` (`pipeline.py:848-864`): the arguments become a list; an argument that is itself
a list is an element that is not an expression. -/
def appendExpr {E : Type} (args : List (Action E)) (isSelect : Bool) : Option (PStep E) :=
  PStep.init (.list (args.map fun a => match a with
    | .one i => i
    | .list _ => .text "[...]")) (if isSelect then .select else .withColumns)

end Verif.Pipeline
