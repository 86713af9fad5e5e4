import Verif.Model.NullPolicy

/-!
# Column names in the regression expressions

`series_to_mat_for_lstsq` (`src/num_ext/linear_regression.rs:137-228`) puts its inputs into a frame and works on it by name.  A frame
is a list of names with rows; the first column is the target.  The solver works on the matrix that comes out.
-/

namespace Verif.LrNames
open Verif Verif.NullPolicy
variable {K : Type} [Field K]

/-- A polars expression as far as its output name goes (polars, used at `python/polars_ds/exprs/expr_linear.py:30-38`). -/
inductive PlExpr
  | col (name : String)
  | lit
  | unary (e : PlExpr)
  | binary (l r : PlExpr)
  | alias (e : PlExpr) (name : String)
  deriving DecidableEq

/-- The output name of an expression in polars: that of its left-most leaf; a literal is called `literal`. -/
def PlExpr.outName : PlExpr → String
  | .col n => n
  | .lit => "literal"
  | .unary e => e.outName
  | .binary l _ => l.outName
  | .alias _ n => n

/-- An argument of `lin_reg`: text, a polars column, an expression, an array. -/
inductive Arg
  | str (s : String)
  | series (name : String)
  | expr (e : PlExpr)
  | array
  deriving DecidableEq

/-- The name of the column `lr_formula` makes (`python/polars_ds/exprs/expr_linear.py:30-38`): a column made from an array has the
empty name. -/
def Arg.name : Arg → String
  | .str s => s
  | .series n => n
  | .expr e => e.outName
  | .array => ""

/-- What the expression returns instead of a matrix. -/
inductive Err
  | duplicate
  | other (e : NullPolicy.Err)
  deriving DecidableEq, Repr

/-- A frame: names and rows. -/
structure Frame (K : Type) where
  names : List String
  rows : List (List (Option K))

/-- `to_frame` (`src/utils/mod.rs:48-50`): `DataFrame::new` refuses two columns of one name. -/
def toFrame (names : List String) (rows : List (List (Option K))) : Except Err (Frame K) :=
  if names.Nodup then .ok ⟨names, rows⟩ else .error .duplicate

/-- `df.lazy().with_column(lit(1f64))` (`src/num_ext/linear_regression.rs:154-156`): the new column is called `literal` and replaces
a column of that name. -/
def withOne (f : Frame K) : Frame K :=
  if "literal" ∈ f.names then { f with rows := f.rows.map fun r => r.set (f.names.idxOf "literal") (some 1) }
  else ⟨f.names ++ ["literal"], f.rows.map (· ++ [some 1])⟩

/-- `col("*").exclude([y_name]).cast(Float64).fill_null(lit(x))` (`src/num_ext/linear_regression.rs:180-187, 201-208`).  Simplification: a
name of the form `^…$` is a pattern for polars; this is not modelled. -/
def fillExcept (y : String) (x : K) (f : Frame K) : Frame K :=
  { f with rows := f.rows.map fun r => List.zipWith (fun n v => if n = y then v else some (v.getD x)) f.names r }

/-- A row without nulls. -/
def full (r : List (Option K)) : Bool := r.all Option.isSome

/-- The target of a row. -/
def target (r : List (Option K)) : Option K := r.headD none

/-- `df.filter(&mask)` (`src/num_ext/linear_regression.rs:176, 191`). -/
def filterMask (mask : List Bool) (f : Frame K) : Frame K :=
  { f with rows := (f.rows.zip mask).filterMap fun p => if p.2 then some p.1 else none }

/-- `series_to_mat_for_lstsq` (`src/num_ext/linear_regression.rs:137-228`) on columns with names; the rows of the matrix with the target
first, and the mask. -/
def seriesToMat (b : Bool) (p : Policy K) (names : List String) (rows : List (List (Option K))) :
    Except Err (List (List (Option K)) × List Bool) :=
  let nFeatures := names.length - 1
  let yHasNull := rows.any fun r => (target r).isNone
  let hasNull := rows.any fun r => !full r
  match toFrame names rows with
  | .error e => .error e
  | .ok df =>
    if df.rows.isEmpty then .error (.other .empty)
    else
      let df := if b then withOne df else df
      let yName := names.headD ""
      let initMask := rows.map fun r => (target r).isSome
      let res : Except Err (Frame K × List Bool) :=
        if hasNull then
          match p with
          | .ignore => .ok (df, [false])
          | .skipWindow => .ok (df, [false])
          | .raise => .error (.other .nulls)
          | .skip =>
            let mask := rows.map full
            .ok (filterMask mask df, mask)
          | .fill x =>
            let df := fillExcept yName x df
            if yHasNull then .ok (filterMask initMask df, initMask) else .ok (df, [true])
          | .fillWindow x =>
            let df := fillExcept yName x df
            if yHasNull then .ok (df, [false]) else .ok (df, [true])
        else .ok (df, [true])
      match res with
      | .error e => .error e
      | .ok (df, mask) => if df.rows.length < nFeatures then .error (.other .notEnough) else .ok (df.rows, mask)

/-- `lin_reg(*x, target=y, weights=w)` (`python/polars_ds/exprs/expr_linear.py:207-239`) up to the solver; the weights do not enter the frame
(`src/num_ext/linear_regression.rs:297`). -/
def linReg {α : Type} (solve : List (List (Option K)) → List Bool → α) (b : Bool) (p : Policy K) (y : Arg) (x : List Arg)
    (rows : List (List (Option K))) : Except Err α :=
  (seriesToMat b p ((y :: x).map Arg.name) rows).map fun r => solve r.1 r.2

/-- `lin_reg(*x, target=[...])` (`python/polars_ds/exprs/expr_linear.py:182-190`): the names of the columns. -/
def multiNames (targets : ℕ) (x : List Arg) : List String :=
  (List.range targets).map (fun i => "target_" ++ Nat.repr i) ++ x.map Arg.name

end Verif.LrNames
