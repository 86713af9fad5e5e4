import Mathlib.Analysis.SpecialFunctions.Log.Basic

/-!
# Conditional entropy (`src/num_ext/cond_entropy.rs`) and its use in `DIA.infer_dependency`

A null is a value like any other here (`group_by` keeps null keys), so `α` and `β` may be option types.
-/

namespace Verif.CondEntropy

variable {α β : Type} [DecidableEq α] [DecidableEq β]

/-- `group_by([x, y]).agg(len())` (`cond_entropy.rs:9-10`): one entry per distinct pair with its number of
rows.  The order of the groups is not specified; `groups` is any enumeration of the distinct pairs. -/
def counted (rows groups : List (α × β)) : List ((α × β) × ℕ) := groups.map fun g => (g, rows.count g)

/-- `col("cnt").sum()` (`cond_entropy.rs:13-15`). -/
def total (cs : List ((α × β) × ℕ)) : ℕ := (cs.map Prod.snd).sum

/-- `col("cnt").sum().over([col("y")])` (`cond_entropy.rs:12`) at a group with second key `b`. -/
def overY (cs : List ((α × β) × ℕ)) (b : β) : ℕ := ((cs.filter fun c => decide (c.1.2 = b)).map Prod.snd).sum

/-- `pl_conditional_entropy` (`cond_entropy.rs:5-27`): `-Σ ln(p(x,y) / p(y)) p(x,y)`. -/
noncomputable def condEntropy (rows groups : List (α × β)) : ℝ :=
  let cs := counted rows groups
  (-1 : ℝ) * (cs.map fun c =>
    Real.log (((c.2 : ℝ) / total cs) / ((overY cs c.1.2 : ℝ) / total cs)) * ((c.2 : ℝ) / total cs)).sum

/-- The pairs tested by `DIA.infer_dependency` (`python/polars_ds/eda/diagnosis.py:725-765`): columns with
more than one distinct value, sorted by their number of distinct values (`nUnique`), then every pair
`(column, by)` with `column` before `by`. -/
def combos {γ : Type} : List γ → List (γ × γ)
  | [] => []
  | a :: t => t.map (fun b => (a, b)) ++ combos t

end Verif.CondEntropy
