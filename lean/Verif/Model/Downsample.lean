import Verif.Model.SplitDbl

/-!
# `downsample` with null conditions, `volume_neutral` with controls (`python/polars_ds/sample_and_split/sample_and_split.py`)

`Verif.Model.Split` has conditions without nulls and no controls.  A condition is a column of `Option Bool`; the shuffled
number of a row within its group is an arbitrary function `rank`.
-/

namespace Verif.Downsample

/-- The second entry of a condition (`sample_and_split.py:20`). -/
inductive Amount
  | float (v : ℝ)
  | int (v : ℤ)
  | other

/-- A positional argument of `downsample` (`sample_and_split.py:104-108`): a pair, or a list as in the documentation
(`sample_and_split.py:138-141, 155-158`). -/
inductive Cond
  | pair (c : ℕ → Option Bool) (rank : ℕ → ℕ) (a : Amount)
  | list (l : List Cond)

open Classical in
/-- The checks of `_sampler_expr` (`sample_and_split.py:21-36`). -/
noncomputable def amountOk : Amount → Bool
  | .float v => decide (¬ (1 ≤ v ∨ v ≤ 0))
  | .int v => decide (¬ v ≤ 0)
  | .other => false

/-- The right side of the comparison in `_sampler_expr` (`sample_and_split.py:24-26, 30-32`) in a group of `m` rows.
Simplification: a number of rows from `2 ^ 32` on, for which polars cannot make the literal, is not treated apart. -/
noncomputable def limit (a : Amount) (m : ℕ) : ℕ :=
  match a with
  | .float v => SplitDbl.truncRows m v
  | .int v => v.toNat
  | .other => 0

/-- The number of rows out of `n` where the condition has the value `v`. -/
def groupSize (n : ℕ) (c : ℕ → Option Bool) (v : Option Bool) : ℕ := (List.range n).countP fun i => decide (c i = v)

/-- `_sampler_expr(r, seed).over(c) | (~c)` in row `i` (`sample_and_split.py:160`); `over` puts the nulls in a group of their
own; "or" and "not" are those of three-valued logic. -/
noncomputable def flag (n : ℕ) (c : ℕ → Option Bool) (rank : ℕ → ℕ) (a : Amount) (i : ℕ) : Option Bool :=
  if rank i < limit a (groupSize n c (c i)) then some true
  else (c i).map fun b => !b

/-- The generator in `downsample` takes a list of two conditions apart into "condition" and "amount", and fails on
other lengths (`sample_and_split.py:160`). -/
noncomputable def argOk : Cond → Bool
  | .pair _ _ a => amountOk a
  | .list _ => false

/-- `downsample` (`sample_and_split.py:104-161`) on `n` rows: the rows kept; `filter` keeps a row when all flags are true. -/
noncomputable def downsample (n : ℕ) (conds : List Cond) : Except String (List ℕ) :=
  if conds.all argOk then
    .ok ((List.range n).filter fun i => conds.all fun q =>
      match q with
      | .pair c rank a => flag n c rank a i == some true
      | .list _ => false)
  else .error "ValueError"

/-- The argument `control` of `volume_neutral` (`sample_and_split.py:59`); a column is its value in each row, a name is a
string. -/
inductive Control (V : Type)
  | none
  | expr (c : ℕ → V)
  | list (l : List ((ℕ → V) ⊕ String))
  | name (s : String)

/-- `ctrl` (`sample_and_split.py:86-91`). -/
def ctrl {V : Type} : Control V → List (ℕ → V)
  | .expr c => [c]
  | .list l => l.filterMap fun x => match x with | .inl c => some c | .inr _ => Option.none
  | _ => []

/-- The smallest number of rows of a value of `by` among the rows `is`, capped (`sample_and_split.py:81-84`). -/
def target {γ : Type} [DecidableEq γ] (by_ : ℕ → γ) (targetVolume : Option ℕ) (is : List ℕ) : Option ℕ :=
  Split.volumeTarget (is.map by_) targetVolume

/-- `volume_neutral` (`sample_and_split.py:56-101`) on `n` rows; `rank` are the shuffled numbers over `final_ref`. -/
def volumeNeutral {V γ : Type} [DecidableEq V] [DecidableEq γ] (n : ℕ) (by_ : ℕ → γ) (control : Control V)
    (targetVolume : Option ℕ) (rank : ℕ → ℕ) : List ℕ :=
  let cs := ctrl control
  (List.range n).filter fun i =>
    let grp := if cs.length > 0 then (List.range n).filter fun j => decide (cs.map (· j) = cs.map (· i)) else List.range n
    match target by_ targetVolume grp with
    | none => false
    | some t => decide (rank i < t)

end Verif.Downsample
