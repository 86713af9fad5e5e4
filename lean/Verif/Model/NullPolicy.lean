import Verif.Model.Online

/-!
# Null policies of the regression expressions
(`src/utils/mod.rs:211-240`, `src/num_ext/linear_regression.rs:135-285, 496-574`)

A missing entry is `none`; in the matrix handed to the solver a null becomes NaN, also written `none`.  The solver
is an arbitrary function from the matrix to the coefficients, so the results hold for every solver and
regularisation.
-/

namespace Verif.NullPolicy
open Verif.Online
variable {K : Type} [Field K] {d : Nat}

/-- `NullPolicy` (`src/utils/mod.rs:211-219`). -/
inductive Policy (K : Type)
  | raise
  | skip
  | skipWindow
  | ignore
  | fill (x : K)
  | fillWindow (x : K)

/-- `NullPolicy::try_from` (`src/utils/mod.rs:221-240`); `parse` stands for `str::parse::<f64>`. -/
def tryFrom (parse : String → Option K) (value : String) : Option (Policy K) :=
  let test := value.toLower
  if test = "raise" then some .raise
  else if test = "skip" then some .skip
  else if test = "zero" then some (.fill 0)
  else if test = "one" then some (.fill 1)
  else if test = "ignore" then some .ignore
  else if test = "skip_window" then some .skipWindow
  else (parse test).map .fill

/-- The errors the expressions return, and panics. -/
inductive Err
  | empty
  | nulls
  | notEnough
  | weights
  | unsupported
  | targetNulls
  | panic
  deriving DecidableEq, Repr

/-- The constant column added for the bias (`src/num_ext/linear_regression.rs:154-156`). -/
def addBias (b : Bool) (r : XRow d K) : XRow (d + b.toNat) K :=
  match b with
  | true => (Fin.snoc r.1 (some 1), r.2)
  | false => r

/-- `fill_null(lit(x))` on all columns but the target (`src/num_ext/linear_regression.rs:180-187`). -/
def fillRow (x : K) (r : XRow d K) : XRow d K := (fun i => some ((r.1 i).getD x), r.2)

/-- `series_to_mat_for_lstsq` (`src/num_ext/linear_regression.rs:135-228`).  The rows are those of the frame with
the target at position 0; adding the constant column commutes with filtering and filling. -/
def seriesToMat (b : Bool) (p : Policy K) (rows : List (XRow d K)) :
    Except Err (List (XRow (d + b.toNat) K) × List Bool) :=
  let yHasNull := rows.any fun r => r.2.isNone
  let hasNull := rows.any hasNan
  if rows.isEmpty then .error .empty
  else
    let res : Except Err (List (XRow d K) × List Bool) :=
      if hasNull then
        match p with
        | .ignore => .ok (rows, [false])
        | .skipWindow => .ok (rows, [false])
        | .raise => .error .nulls
        | .skip => .ok (rows.filter (fun r => !hasNan r), rows.map fun r => !hasNan r)
        | .fill x =>
          if yHasNull then
            .ok ((rows.map (fillRow x)).filter (fun r => r.2.isSome), rows.map fun r => r.2.isSome)
          else .ok (rows.map (fillRow x), [true])
        | .fillWindow x =>
          if yHasNull then .ok (rows.map (fillRow x), [false]) else .ok (rows.map (fillRow x), [true])
      else .ok (rows, [true])
    match res with
    | .error e => .error e
    | .ok (df, mask) => if df.length < d then .error .notEnough else .ok (df.map (addBias b), mask)

/-- A row of `x * coeffs`; NaN if anything in it is. -/
def dotO (x c : Fin d → Option K) : Option K :=
  if (List.finRange d).all (fun i => (x i).isSome && (c i).isSome) then
    some (∑ i, (x i).getD 0 * (c i).getD 0) else none

/-- Prediction and residual of one row (`src/num_ext/linear_regression.rs:535-536`). -/
def predResid (c : Fin d → Option K) (r : XRow d K) : Option K × Option K :=
  (dotO r.1 c, match r.2, dotO r.1 c with
    | some y, some p => some (y - p)
    | _, _ => none)

/-- The builder loop (`src/num_ext/linear_regression.rs:545-562`); reading past the end panics. -/
def emitMask : List Bool → List (Option K × Option K) → Except Err (List (Option K × Option K))
  | [], _ => .ok []
  | true :: ms, v :: vs => match emitMask ms vs with
    | .ok o => .ok (v :: o)
    | .error e => .error e
  | true :: _, [] => .error .panic
  | false :: ms, vs => match emitMask ms vs with
    | .ok o => .ok ((none, none) :: o)
    | .error e => .error e

/-- `pl_lstsq_pred` (`src/num_ext/linear_regression.rs:496-574`) without weights. -/
def lstsqPred (solve : {n : Nat} → List (XRow n K) → Fin n → Option K) (b : Bool) (p : Policy K)
    (rows : List (XRow d K)) : Except Err (List (Option K × Option K)) :=
  match seriesToMat b p rows with
  | .error e => .error e
  | .ok (mat, mask) =>
    let vals := mat.map (predResid (solve mat))
    if mask.any (fun m => !m) then emitMask mask vals else .ok vals

/-- `pl_lstsq_pred` with weights (`src/num_ext/linear_regression.rs:509-519`); a null weight makes `cont_slice`
return `None`, and its `unwrap` panics. -/
def lstsqPredW (solve : {n : Nat} → List K → List (XRow n K) → Fin n → Option K) (b : Bool) (p : Policy K)
    (weights : List (Option K)) (rows : List (XRow d K)) : Except Err (List (Option K × Option K)) :=
  match seriesToMat b p rows with
  | .error e => .error e
  | .ok (mat, mask) =>
    if weights.any Option.isNone then .error .panic
    else if weights.length ≠ mat.length then .error .weights
    else
      let vals := mat.map (predResid (solve (weights.map fun w => w.getD 0) mat))
      if mask.any (fun m => !m) then emitMask mask vals else .ok vals

/-- A row with several targets. -/
abbrev MRow (d k : Nat) (K : Type) := (Fin d → Option K) × (Fin k → Option K)

/-- `series_to_mat_for_multi_lstsq` (`src/num_ext/linear_regression.rs:230-285`); the bias column is left out. -/
def multiToMat {k : Nat} (p : Policy K) (rows : List (MRow d k K)) : Except Err (List (MRow d k K)) :=
  let yHasNull := rows.any fun r => (List.finRange k).any fun i => (r.2 i).isNone
  let hasNull := rows.any (fun r => (List.finRange d).any fun i => (r.1 i).isNone) || yHasNull
  let res : Except Err (List (MRow d k K)) :=
    if hasNull then
      match p with
      | .raise => .error .nulls
      | .fill x => if yHasNull then .error .targetNulls else .ok (rows.map fun r => (fun i => some ((r.1 i).getD x), r.2))
      | _ => .error .unsupported
    else .ok rows
  match res with
  | .error e => .error e
  | .ok df => if df.isEmpty then .error .empty else .ok df

end Verif.NullPolicy
