import Verif.Model.LRObject

/-!
# `LR` and `ElasticNet` on frames and matrices with missing values (`python/polars_ds/linear_models.py`)

Floats are field elements, NaN and two infinities; a null is `none`.  A frame is a list of rows, a row gives the cell
of every column by name.  The solver is a parameter.
-/

namespace Verif.LrFrame
open Verif.LRObject (Obj)

variable {K : Type} [Field K] [LinearOrder K]

/-- A float. -/
inductive V (K : Type)
  | num (x : K)
  | nan
  | inf (neg : Bool)
  deriving DecidableEq, Repr

/-- `ValueError` of the null policies, errors of polars, errors and panics of the compiled object. -/
inductive Err
  | nulls
  | policy
  | column
  | noNames
  | notEnough
  | notFit
  | panic
  deriving DecidableEq, Repr

/-- The feature cells and the target cell of a row. -/
abbrev DRow (K : Type) := List (Option (V K)) × Option (V K)

/-- `pl.col(features).fill_null(x)` followed by `drop_nulls(subset=target)`. -/
def fillDf (x : K) (rows : List (DRow K)) : List (DRow K) :=
  (rows.map fun r => (r.1.map fun c => some (c.getD (.num x)), r.2)).filter fun r => r.2.isSome

/-- `_handle_nulls_in_df` (`python/polars_ds/linear_models.py:33-60`) on the selected columns; `parse` is Python's
`float` on strings. -/
def handleDf (parse : String → Option (V K)) (policy : String) (rows : List (DRow K)) : Except Err (List (DRow K)) :=
  if policy = "ignore" then .ok rows
  else if policy = "raise" then
    if 0 < (rows.map fun r => r.1.countP (·.isNone) + (if r.2.isNone then 1 else 0)).sum then .error .nulls else .ok rows
  else if policy = "skip" then .ok (rows.filter fun r => !(r.1.any (·.isNone) || r.2.isNone))
  else if policy = "zero" then .ok (fillDf 0 rows)
  else if policy = "one" then .ok (fillDf 1 rows)
  else match parse policy with
    | some (.num x) => .ok (fillDf x rows)
    | _ => .error .policy

/-- A row of the two matrices. -/
abbrev NRow (K : Type) := List (V K) × V K

/-- `np.isnan` -/
def isNan : V K → Bool
  | .nan => true
  | _ => false

/-- `np.nan_to_num(X, nan=x)`: infinities become the largest and smallest finite floats (`big`, `-big`), too. -/
def nanToNum (big x : K) : V K → V K
  | .nan => .num x
  | .inf false => .num big
  | .inf true => .num (-big)
  | v => v

/-- The branches that fill (`python/polars_ds/linear_models.py:77-82, 86-88`). -/
def fillNp (big x : K) (rows : List (NRow K)) : List (NRow K) :=
  (rows.map fun r => (r.1.map (nanToNum big x), r.2)).filter fun r => !isNan r.2

/-- `_handle_nans_in_np` (`python/polars_ds/linear_models.py:63-92`). -/
def handleNp (big : K) (parse : String → Option (V K)) (policy : String) (rows : List (NRow K)) :
    Except Err (List (NRow K)) :=
  if policy = "ignore" then .ok rows
  else if policy = "raise" then
    if (rows.any fun r => r.1.any isNan) || (rows.any fun r => isNan r.2) then .error .nulls else .ok rows
  else if policy = "skip" then .ok (rows.filter fun r => !(r.1.any isNan || isNan r.2))
  else if policy = "zero" then .ok (fillNp big 0 rows)
  else if policy = "one" then .ok (fillNp big 1 rows)
  else match parse policy with
    | some (.num x) => .ok (fillNp big x rows)
    | _ => .error .policy

/-- `to_numpy()`: a null becomes NaN. -/
def toNumpy (r : DRow K) : NRow K := (r.1.map fun c => c.getD .nan, r.2.getD .nan)

/-! ## The objects -/

/-- `LR` / `ElasticNet`: the compiled object and `feature_names_in_`. -/
structure Model (K : Type) where
  obj : Obj K
  names : List String

/-- The argument `features`: a list of the caller, or the list `feature_names_in_` of the object itself. -/
inductive Feats
  | list (l : List String)
  | own

/-- The names a list argument has when it is read. -/
def Feats.read (m : Model K) : Feats → List String
  | .list l => l
  | .own => m.names

/-- The names after `self.feature_names_in_.clear()`: the object's own list is empty then
(`python/polars_ds/linear_models.py:179-180, 262-263, 398-399, 465-466`). -/
def Feats.afterClear : Feats → List String
  | .list l => l
  | .own => []

/-- `set_input_features` (`python/polars_ds/linear_models.py:170-181, 389-400`). -/
def setInputFeatures (f : Feats) (m : Model K) : Model K := { m with names := f.afterClear }

/-- A frame: its column names, and the rows as functions from names to cells. -/
structure Frame (C : Type) where
  cols : List String
  rows : List (String → Option C)

/-- The solver on matrix rows with the bias flag. -/
abbrev Solve (K : Type) := List (NRow K) → Bool → List K

/-- `self._lr.fit(X, y)` (`src/linalg/mod.rs:134-142`; `wide` for `ElasticNet`, `src/linalg/lr_solvers.rs:170-178`) on a
matrix with `ncols` columns. -/
def rawFit (solve : Solve K) (wide : Bool) (ncols : Nat) (rows : List (NRow K)) (m : Model K) : Except Err (Model K) :=
  if (!wide && decide (rows.length < ncols)) || rows.isEmpty then .error .notEnough
  else .ok { m with obj := { m.obj with coefs := some (solve rows m.obj.hasBias) } }

/-- `fit` on a matrix (`python/polars_ds/linear_models.py:192-209, 414-431`).  The object after the call and the error,
if any. -/
def fit (big : K) (parse : String → Option (V K)) (solve : Solve K) (wide : Bool) (ncols : Nat) (rows : List (NRow K))
    (policy : String) (m : Model K) : Model K × Option Err :=
  match (handleNp big parse policy rows).bind fun rows => rawFit solve wide ncols rows m with
  | .error e => (m, some e)
  | .ok m' => (m', none)

/-- `.select(*features, target)`: an unknown or repeated name is an error. -/
def selectOk {C : Type} (df : Frame C) (names : List String) : Bool :=
  names.all (fun c => decide (c ∈ df.cols)) && decide names.Nodup

/-- The rows that `fit_df` works on. -/
def rowsOf (df : Frame (V K)) (features : List String) (target : String) : List (DRow K) :=
  df.rows.map fun r => (features.map r, r target)

/-- `fit_df` (`python/polars_ds/linear_models.py:211-264, 433-467`).  The report asked for by `show_report` is that of
`query_lstsq_report(*features, target=target)`: no bias, null policy "raise" (`report`, also `False` for a ridge model
and for `ElasticNet`).  The names are replaced before the fit.  The object after the call and the error, if any. -/
def fitDf (parse : String → Option (V K)) (solve : Solve K) (wide : Bool) (report : Bool) (df : Frame (V K)) (f : Feats)
    (target : String) (policy : String) (m : Model K) : Model K × Option Err :=
  let features := f.read m
  if !selectOk df (features ++ [target]) then (m, some .column)
  else if report && (handleDf parse "raise" (rowsOf df features target)).toOption.isNone then (m, some .nulls)
  else match handleDf parse policy (rowsOf df features target) with
    | .error e => (m, some e)
    | .ok rows =>
      let m' := { m with names := f.afterClear }
      match rawFit solve wide features.length (rows.map toNumpy) m' with
      | .error e => (m', some e)
      | .ok m'' => (m'', none)

/-- `pl.sum_horizontal(beta * pl.col(c) for c, beta in zip(names, coeffs))` for one row: nulls are skipped. -/
def sumRow (names : List String) (coeffs : List K) (r : String → Option K) : K :=
  ((List.zipWith (fun c b => (r c).map fun v => b * v) names coeffs).filterMap id).sum

/-- Errors of the compiled object. -/
def ofLR : LRObject.Err → Err
  | .panic => .panic
  | _ => .notFit

/-- `predict_df` (`python/polars_ds/linear_models.py:277-303, 480-506`): the column that is added.  Simplified: cells
are field elements or null. -/
def predictDf (df : Frame K) (m : Model K) : Except Err (List K) :=
  if m.names = [] then .error .noNames
  else match LRObject.coeffsAsVec m.obj with
    | .error e => .error (ofLR e)
    | .ok cs => match LRObject.bias m.obj with
      | .error e => .error (ofLR e)
      | .ok b =>
        if ((m.names.zip cs).all fun p => decide (p.1 ∈ df.cols)) then
          .ok (df.rows.map fun r => if b ≠ 0 then sumRow m.names cs r + b else sumRow m.names cs r)
        else .error .column

end Verif.LrFrame
