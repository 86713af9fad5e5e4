import Verif.Model.PsiDbl

/-!
# Chi-squared statistic in double arithmetic (`src/stats/chi2.rs`)

`Verif.Model.Chi2` is exact and counts the rows.  Here the table of counts is given, by the counts `ob a b` of the levels `u1` and `u2`, and
every operation on doubles is rounded.  NaN is `none`.
-/

namespace Verif.ChiDbl
open Verif.Doubles

variable {α β : Type}

/-- `col("ob").sum().over(["s1"])` (`src/stats/chi2.rs:51`). -/
def rowSum (ob : α → β → ℕ) (u2 : List β) (a : α) : ℕ := (u2.map fun b => ob a b).sum

/-- `col("ob").sum().over(["s2"])` (`src/stats/chi2.rs:50`). -/
def colSum (ob : α → β → ℕ) (u1 : List α) (b : β) : ℕ := (u1.map fun a => ob a b).sum

/-- `col("ob").sum()` (`src/stats/chi2.rs:53`). -/
def all (ob : α → β → ℕ) (u1 : List α) (u2 : List β) : ℕ := (u1.map fun a => rowSum ob u2 a).sum

/-- The column `ex` (`src/stats/chi2.rs:50-54`): the product of the sums is taken in 64 bit integers, which does not wrap for sums of
32 bit counts, and then converted. -/
noncomputable def expected (r c n : ℕ) : ℝ := rd (rd ((c * r : ℕ) : ℝ) / rd n)

open Classical in
/-- `(ob - ex)^2 / ex` (`src/stats/chi2.rs:77`); `ex` is 0 only with a count of 0, and `0 / 0` is NaN. -/
noncomputable def cell (o r c n : ℕ) : Option ℝ :=
  let e := expected r c n
  if e = 0 then none else some (rd (rd (rd (rd o - e) * rd (rd o - e)) / e))

/-- The statistic of `pl_chi2` (`src/stats/chi2.rs:72-86`).  Simplification: the sum goes from the first row to the last; polars adds blocks. -/
noncomputable def chi2 (ob : α → β → ℕ) (u1 : List α) (u2 : List β) : Option ℝ :=
  ((u1.flatMap fun a => u2.map fun b => cell (ob a b) (rowSum ob u2 a) (colSum ob u1 b) (all ob u1 u2)).mapM id).map PsiDbl.total

end Verif.ChiDbl
