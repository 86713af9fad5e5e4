import Mathlib.Algebra.Field.Defs
import Mathlib.Algebra.BigOperators.Group.List.Defs

/-!
# One-way F test (`src/stats/fstats.rs`)

Rows are pairs of a group and a value, `none` being null.  Exact arithmetic.
-/

namespace Verif.FTest
variable {κ K : Type} [DecidableEq κ] [Field K] [DecidableEq K]

/-- The rows of a group, `group_by([col("0")])` (`src/stats/fstats.rs:54-58`).  A null key is a group of its own. -/
def group (rows : List (Option κ × Option K)) (k : Option κ) : List (Option K) :=
  (rows.filter fun p => decide (p.1 = k)).map Prod.snd

/-- `len()` of a group. -/
def cnt (rows : List (Option κ × Option K)) (k : Option κ) : Nat := (group rows k).length

/-- `col(name).sum()`: nulls are skipped. -/
def gsum (rows : List (Option κ × Option K)) (k : Option κ) : K := ((group rows k).filterMap id).sum

/-- The population variance of a list. -/
def popVar (xs : List K) : K :=
  (xs.map fun x => (x - xs.sum / (xs.length : K)) ^ 2).sum / (xs.length : K)

/-- `col(name).var(0)`: nulls are skipped; null if there is no value. -/
def gvar (rows : List (Option κ × Option K)) (k : Option κ) : Option K :=
  let xs := (group rows k).filterMap id
  if xs.length = 0 then none else some (popVar xs)

/-- The number of rows (`n_samples`, `src/stats/fstats.rs:29`). -/
def nSamples (rows : List (Option κ × Option K)) (ks : List (Option κ)) : Nat := (ks.map (cnt rows)).sum

/-- The numerator `p1.dot(cnt)` (`src/stats/fstats.rs:41-48`). -/
def between (rows : List (Option κ × Option K)) (ks : List (Option κ)) : K :=
  (ks.map fun k => (gsum rows k / (cnt rows k : K) - (ks.map (gsum rows)).sum / (nSamples rows ks : K)) ^ 2 *
    (cnt rows k : K)).sum

/-- The denominator `col(n_var).dot(cnt)`; null products are skipped (`src/stats/fstats.rs:46`). -/
def within (rows : List (Option κ × Option K)) (ks : List (Option κ)) : K :=
  (ks.filterMap fun k => (gvar rows k).map fun v => v * (cnt rows k : K)).sum

/-- Outcome of a call. -/
inductive Res (K : Type)
  | error
  | notFinite
  | value (f : K)
  deriving DecidableEq

/-- `pl_f_test` for one value column (`src/stats/fstats.rs:14-92`), the statistic.  `ks` lists the groups in an
unspecified order; `n_classes` counts the groups with a key. A division by 0 gives `notFinite`. -/
def fTest (rows : List (Option κ × Option K)) (ks : List (Option κ)) : Res K :=
  let n := nSamples rows ks
  let c := ks.countP fun k => k.isSome
  if c ≤ 1 ∨ n ≤ 1 then .error
  else if within rows ks = 0 then .notFinite
  else .value (between rows ks / within rows ks *
    ((((n - c) + (c - n) : Nat) : K) / (((c - 1) + (1 - c) : Nat) : K)))

end Verif.FTest
