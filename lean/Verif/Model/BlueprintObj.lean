import Verif.Model.Pipeline

/-!
# Blueprint objects and histories of calls (`python/polars_ds/modeling/pipeline.py`)

Every method of `Blueprint` appends to `self._steps` and returns `self`, so variables may share one object.  A history is a list
of statements over named variables; a statement that raises binds nothing and the program goes on.
-/

namespace Verif.Pipeline

variable {V D : Type}

/-- One method call on a blueprint with its arguments.  Arguments that the code rejects when the method is called are `none`: a
string `pl.sql_expr` cannot parse, an action `PipelineStep.__init__` refuses (`_structures.py:40-56`), columns that
`pl.all().exclude(..)` refuses (polars takes names and data types, not expressions). -/
inductive Call (V D : Type) where
  /-- `filter(by)` (`pipeline.py:354-366`). -/
  | filter (by' : Option (List String × (List (String → Option V) → List Bool)))
  /-- `sql_transform(sql)` (`pipeline.py:368-382`). -/
  | sqlTransform (run : Frame V D → Option (Frame V D))
  /-- `cast_bools`, `nan_to_null`, `int_to_float` (`pipeline.py:384-389, 432-453`). -/
  | convert (p : D → Bool) (d : D) (g : V → Option V)
  /-- `impute`, `scale`, `robust_scale`, `center`, `winsorize` (`pipeline.py:391-405, 486-527, 589-622`). -/
  | fit (func : Frame V D → List String → Option (List (Ex V D))) (cols : Sel D)
  /-- `conditional_impute` (`pipeline.py:407-430`). -/
  | condImpute (func : Frame V D → List String → Option (List (Ex V D)))
  /-- `linear_impute`, `target_encode`, `woe_encode`, `iv_encode` (`pipeline.py:455-484, 716-846`). -/
  | fitTarget (func : String → Frame V D → List String → Option (List (Ex V D))) (cols : Sel D) (target : Option String)
  /-- `select(cols)` (`pipeline.py:529-539`). -/
  | select (es : Option (List (String × D) → List (Ex V D)))
  /-- `polynomial_features` (`pipeline.py:562-587`). -/
  | polynomial (es : Option (List (Ex V D)))
  /-- `drop(cols)` (`pipeline.py:624-634`). -/
  | drop (cols : Option (List (String × D) → List String))
  /-- `rename(rename_dict)` (`pipeline.py:636-651`). -/
  | rename (m : List (String × String))
  /-- `one_hot_encode` (`pipeline.py:653-687`); `excl` is what `pl.all().exclude(cols)` makes of `cols`. -/
  | oneHot (func : Frame V D → List String → Option (List (Ex V D))) (cols : Sel D)
      (excl : Option (List (String × D) → List String)) (dropCols : Bool)
  /-- `rank_hot_encode` (`pipeline.py:689-714`); `es` is `none` if the ranking is too short or the column is not a name
  (`transforms.py:380-391`). -/
  | rankHot (es : Option (List (Ex V D))) (col : String) (dropCols : Bool)
  /-- `append_expr(*exprs, is_select)` (`pipeline.py:848-864`). -/
  | appendExpr (es : Option (List (String × D) → List (Ex V D))) (isSelect : Bool)
  /-- `append_fit_func(func, cols, **kwargs)` (`pipeline.py:867-905`); `wants`: the signature has a parameter `target`. -/
  | appendFit (func : Option String → Frame V D → List String → Option (List (Ex V D))) (wants : Bool) (given : Option String)
      (cols : Sel D)

/-- `_get_target` (`pipeline.py:344-352`); `none` is the `ValueError`. -/
def Blueprint.getTarget (b : Blueprint V D) (given : Option String) : Option String :=
  match given with
  | none => b.target
  | some t => some t

/-- Append a step that was built, or raise before appending. -/
def Blueprint.tryAdd (b : Blueprint V D) (s : Option (BStep V D)) : Bool × Blueprint V D :=
  s.elim (false, b) fun s => (true, b.add s)

/-- `drop` as a call (`pipeline.py:624-634`): the argument of `append` is evaluated first. -/
def Blueprint.tryDrop [Inhabited D] (b : Blueprint V D) (cols : Option (List (String × D) → List String)) :
    Bool × Blueprint V D :=
  b.tryAdd (cols.map fun cols => .step (.select fun s => Pipeline.exclude (cols s) s))

/-- The effect of a method call on the object (lines as at `Call`): whether it returned, and the object afterwards. -/
def Blueprint.run [Inhabited D] (b : Blueprint V D) : Call V D → Bool × Blueprint V D
  | .filter c => b.tryAdd (c.map fun c => .step (.filter c.1 c.2))
  | .sqlTransform r => (true, b.add (.step (.sql r)))
  | .convert p d g => (true, b.convert p d g)
  | .fit func cols => (true, b.addFit func cols)
  | .condImpute func => (true, b.add (.fit { func, cols := none, exclude := b.exclude }))
  | .fitTarget func cols t => b.tryAdd ((b.getTarget t).map fun t => .fit { func := func t, cols := some cols, exclude := b.exclude })
  | .select es => b.tryAdd (es.map fun es => .step (.select es))
  | .polynomial es => b.tryAdd (es.map fun es => .step (.withColumns fun _ => es))
  | .drop cols => b.tryDrop cols
  | .rename m => (true, b.rename m)
  | .oneHot func cols excl dropCols =>
    if dropCols then (b.addFit func cols).tryDrop excl else (true, b.addFit func cols)
  | .rankHot es col dropCols =>
    es.elim (false, b) fun es =>
      if dropCols then (true, (b.add (.step (.withColumns fun _ => es))).drop fun _ => [col])
      else (true, b.add (.step (.withColumns fun _ => es)))
  | .appendExpr es sel => b.tryAdd (es.map fun es => .step (if sel then .select es else .withColumns es))
  | .appendFit func wants given cols =>
    if wants then
      b.tryAdd ((b.getTarget given).map fun t => .fit { func := func (some t), cols := some cols, exclude := b.exclude })
    else (true, b.add (.fit { func := func given, cols := some cols, exclude := b.exclude }))

/-- `Pipeline.ensure_features_io` (`pipeline.py:200-216`): sets both flags of the object and returns it. -/
def Pipe.ensureIo {S : Type} (p : Pipe S) (i o : Bool) : Pipe S := { p with ensureIn := i, ensureOut := o }

/-- What a Python program holds: the objects, and variables referring to them. -/
structure World (V D : Type) where
  bps : List (Blueprint V D)
  pipes : List (Pipe (Step V D))
  bvar : String → Option Nat
  pvar : String → Option Nat

/-- Assignment to a variable. -/
def bind (env : String → Option Nat) (x : String) (v : Option Nat) : String → Option Nat := fun y => if y = x then v else env y

/-- A statement of a program. -/
inductive Stmt (V D : Type) where
  /-- `x = Blueprint(df, name, target, exclude, lowercase, uppercase)`. -/
  | new (x : String) (df : Frame V D) (name : String) (target : Option String) (excl : Option (List String)) (lower upper : Bool)
  /-- `y = x.method(..)`. -/
  | call (y x : String) (c : Call V D)
  /-- `y = x`. -/
  | assign (y x : String)
  /-- `p = x.materialize()` or `x.fit()` (`pipeline.py:919-954`). -/
  | materialize (p x : String)
  /-- `q = p.ensure_features_io(i, o)`. -/
  | ensure (q p : String) (i o : Bool)

/-- One statement; an error leaves the variables as they are. -/
def World.step [Inhabited D] (cs : Cases) (w : World V D) : Stmt V D → World V D
  | .new x df name target excl lower upper =>
    match Blueprint.init cs df name target excl lower upper with
    | none => w
    | some b => { w with bps := w.bps ++ [b], bvar := bind w.bvar x (some w.bps.length) }
  | .call y x c =>
    match w.bvar x with
    | none => w
    | some o =>
      match w.bps[o]? with
      | none => w
      | some b =>
        { w with bps := w.bps.set o (b.run c).2, bvar := if (b.run c).1 then bind w.bvar y (some o) else w.bvar }
  | .assign y x =>
    match w.bvar x with
    | none => w
    | some o => { w with bvar := bind w.bvar y (some o) }
  | .materialize p x =>
    match ((w.bvar x).bind fun o => w.bps[o]?).bind Blueprint.materialize with
    | none => w
    | some q => { w with pipes := w.pipes ++ [q], pvar := bind w.pvar p (some w.pipes.length) }
  | .ensure q p i o =>
    match w.pvar p with
    | none => w
    | some k => { w with pipes := w.pipes.modify k fun x => x.ensureIo i o, pvar := bind w.pvar q (some k) }

/-- A program. -/
def World.exec [Inhabited D] (cs : Cases) (w : World V D) (prog : List (Stmt V D)) : World V D := prog.foldl (World.step cs) w

/-! ## Steps from dictionaries -/

/-- The dictionary given to `append_step_from_dict`, by what `StepRepr.from_dict` looks at (`pipeline.py:33-60`): `none` is a
missing name or a value of the wrong type. -/
structure StepDict (A : Type) where
  name : Option String
  args : Option A

/-- What an attribute of a blueprint is: a method appending steps, given what it makes of arguments (`none`: they do not fit its
parameters); a method returning a pipeline (`materialize`, `fit`) or frame (`transform`); a value that is not `None`, as `name`,
`exclude` or a given `target`. -/
inductive Attr (A V D : Type) where
  | step (bind : A → Option (Call V D))
  | other
  | value

/-- How `append_step_from_dict` ends. -/
inductive DictOut where
  | returnsSelf
  | returnsOther
  | valueError
  | otherError
deriving DecidableEq, Repr

/-- `append_step_from_dict` (`pipeline.py:907-917`), given the attributes of the object. -/
def Blueprint.fromDict [Inhabited D] {A : Type} (attrs : String → Option (Attr A V D)) (b : Blueprint V D) (d : StepDict A) :
    DictOut × Blueprint V D :=
  match d.name, d.args with
  | some n, some a =>
    match attrs n with
    | none => (.valueError, b)
    | some at' =>
      if n.startsWith "_" then (.valueError, b)
      else
        match at' with
        | .value => (.otherError, b)
        | .other => (.returnsOther, b)
        | .step f =>
          match f a with
          | none => (.otherError, b)
          | some c => (if (b.run c).1 then .returnsSelf else .otherError, (b.run c).2)
  | _, _ => (.valueError, b)

end Verif.Pipeline
