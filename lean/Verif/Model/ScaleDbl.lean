import Verif.Model.Doubles
import Verif.Model.PlExpr
import Verif.Model.Confusion

/-!
# Centring and scaling in double arithmetic (`python/polars_ds/modeling/transforms.py`)

The columns are Float64 columns of finite numbers and nulls.  `rd` rounds to the nearest double; overflow is not modelled.
-/

namespace Verif.ScaleDbl
open Verif Verif.Doubles Verif.Pl
open Verif.Confusion (Val)

/-- The possible results of `sum()` of a Float64 column (polars, called by `mean()` at
`python/polars_ds/modeling/transforms.py:169`): the numbers are added in any order and bracketing. -/
inductive IsSum : List ℝ → ℝ → Prop
  | nil : IsSum [] 0
  | leaf (x : ℝ) : IsSum [x] x
  | add {l₁ l₂ : List ℝ} {v₁ v₂ : ℝ} : IsSum l₁ v₁ → IsSum l₂ v₂ → IsSum (l₁ ++ l₂) (rd (v₁ + v₂))
  | perm {l₁ l₂ : List ℝ} {v : ℝ} : l₁.Perm l₂ → IsSum l₁ v → IsSum l₂ v

/-- The possible results of `mean()` (`python/polars_ds/modeling/transforms.py:169, 194`) of the known values. -/
def IsMean (l : List ℝ) (m : ℝ) : Prop := ∃ s, IsSum l s ∧ m = rd (s / l.length)

/-- Division of doubles. -/
noncomputable def fdiv (a b : ℝ) : Val ℝ :=
  if b = 0 then (if a = 0 then .nan else .inf (decide (0 < a))) else .num (rd (a / b))

/-- The possible results of `center` (`python/polars_ds/modeling/transforms.py:158-170`) fitted on `train` and applied to
`c`; the mean of a column without values is null. -/
def IsCenter (train c out : Col ℝ) : Prop :=
  if vals train = [] then out = c.map fun _ => none
  else ∃ m, IsMean (vals train) m ∧ out = map1 (fun x => rd (x - m)) c

/-- `scale(method="standard")` (`python/polars_ds/modeling/transforms.py:190-201`) with the learned mean and standard
deviation. -/
noncomputable def standard (m s : ℝ) (c : Col ℝ) : Col (Val ℝ) := map1 (fun x => fdiv (rd (x - m)) s) c

/-- `(c - a) / (b - a)` with the learned numbers: `scale(method="min_max")` (`python/polars_ds/modeling/transforms.py:214`) and
`robust_scale` (`:265`). -/
noncomputable def between (a b : ℝ) (c : Col ℝ) : Col (Val ℝ) := map1 (fun x => fdiv (rd (x - a)) (rd (b - a))) c

/-- `scale(method="min_max")` (`python/polars_ds/modeling/transforms.py:202-214`); `none` is the exception without a value. -/
noncomputable def minMax (train c : Col ℝ) : Option (Col (Val ℝ)) :=
  (vals train).min?.bind fun a => (vals train).max?.map fun b => between a b c

/-- `scale(method="abs_max")` (`python/polars_ds/modeling/transforms.py:215-222`). -/
noncomputable def absMax (train c : Col ℝ) : Col (Val ℝ) :=
  match (vals train).min?, (vals train).max? with
  | some a, some b => map1 (fun x => fdiv x (max |a| |b|)) c
  | _, _ => c.map fun _ => none

end Verif.ScaleDbl
