import Verif.Model.CondEntropy
import Verif.Model.PsiDbl

/-!
# Conditional entropy in double arithmetic (`src/num_ext/cond_entropy.rs`)

The counts are those of `Verif.Model.CondEntropy`; here every operation on doubles is rounded.  The logarithm of the platform is not in
`/repo`: it is a parameter `ln`.
-/

namespace Verif.CondEntDbl
open Verif.Doubles Verif.CondEntropy

variable {α β : Type} [DecidableEq α] [DecidableEq β]

/-- One term of the `dot` (`src/num_ext/cond_entropy.rs:18-21`): `ln(p(x,y) / p(y)) * p(x,y)` from the count of the pair, of its `y` and of
all rows (`src/num_ext/cond_entropy.rs:12-16`).  The division of the logarithm by `ln(e)`, which is 1 in doubles, is left out. -/
noncomputable def term (ln : ℝ → ℝ) (c cy n : ℕ) : ℝ := rd (ln (rd (quot c n / quot cy n)) * quot c n)

/-- `pl_conditional_entropy` (`src/num_ext/cond_entropy.rs:5-27`).  Simplification: the products are rounded and added from the first group
to the last; polars adds blocks. -/
noncomputable def condEntropy (ln : ℝ → ℝ) (rows groups : List (α × β)) : ℝ :=
  let cs := counted rows groups
  rd (-1 * PsiDbl.total (cs.map fun c => term ln c.2 (overY cs c.1.2) (CondEntropy.total cs)))

end Verif.CondEntDbl
