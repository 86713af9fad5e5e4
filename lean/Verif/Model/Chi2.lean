import Mathlib.Algebra.Field.Defs
import Mathlib.Data.List.Dedup

/-!
# Chi-squared test statistic (`src/stats/chi2.rs`)

A frame with two columns is a list of pairs; `none` entries are nulls.  Exact arithmetic; a result `none` is NaN.
-/

namespace Verif.Chi2
variable {α β K : Type} [DecidableEq α] [DecidableEq β] [Field K] [DecidableEq K]

/-- The observed count after the left join (`src/stats/chi2.rs:30-48`): the number of rows of the group, 0 if the pair is
not a group or if a key is null (null keys do not match in a join). -/
def observed (rows : List (Option α × Option β)) (a : Option α) (b : Option β) : Nat :=
  if a.isNone || b.isNone then 0 else rows.count (a, b)

/-- `col("ob").sum().over(["s1"])`. -/
def rowSum (rows : List (Option α × Option β)) (u2 : List (Option β)) (a : Option α) : Nat :=
  (u2.map fun b => observed rows a b).sum

/-- `col("ob").sum().over(["s2"])`. -/
def colSum (rows : List (Option α × Option β)) (u1 : List (Option α)) (b : Option β) : Nat :=
  (u1.map fun a => observed rows a b).sum

/-- `col("ob").sum()`. -/
def total (rows : List (Option α × Option β)) (u1 : List (Option α)) (u2 : List (Option β)) : Nat :=
  (u1.map fun a => (u2.map fun b => observed rows a b).sum).sum

/-- The column `ex` (`src/stats/chi2.rs:50-56`); `none` = NaN. -/
def expected (rows : List (Option α × Option β)) (u1 : List (Option α)) (u2 : List (Option β)) (a : Option α)
    (b : Option β) : Option K :=
  if total rows u1 u2 = 0 then none
  else some (((colSum rows u1 b * rowSum rows u2 a : Nat) : K) / ((total rows u1 u2 : Nat) : K))

/-- `(ob - ex)^2 / ex` (`src/stats/chi2.rs:79-81`); `0 / 0` is NaN.  The numerator is 0 whenever `ex` is 0. -/
def term (rows : List (Option α × Option β)) (u1 : List (Option α)) (u2 : List (Option β)) (a : Option α)
    (b : Option β) : Option K :=
  match expected (K := K) rows u1 u2 a b with
  | none => none
  | some e => if e = 0 then none else some (((observed rows a b : Nat) - e) ^ 2 / e)

/-- `pl_chi2` (`src/stats/chi2.rs:17-91`), the statistic.  `u1` and `u2` are the distinct entries of the columns
(`unique`), in an unspecified order. -/
def chi2 (rows : List (Option α × Option β)) (u1 : List (Option α)) (u2 : List (Option β)) : Option K :=
  ((u1.flatMap fun a => u2.map fun b => term rows u1 u2 a b).mapM id).map List.sum

/-- `usize::abs_diff(1)` of both numbers of levels (`src/stats/chi2.rs:88`). -/
def dof (u1 : List (Option α)) (u2 : List (Option β)) : Nat :=
  ((u1.length - 1) + (1 - u1.length)) * ((u2.length - 1) + (1 - u2.length))

end Verif.Chi2
