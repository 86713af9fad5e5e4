import Verif.Model.Normal
import Verif.Model.MannWhitney
import Verif.Model.TTest
import Verif.Model.Xi

/-!
# p-values from the normal tail (`src/stats/mann_whitney_u.rs`, `src/stats/xi_corr.rs`)

Real arithmetic with exact square roots.
-/

namespace Verif.NormalP
open Verif.TTest (Alt)

/-- The choice of the statistic and the factor (`src/stats/mann_whitney_u.rs:48-53`). -/
noncomputable def mwuPick (alt : Alt) (s : MWU.Stats ℝ) : ℝ × ℝ :=
  match alt with
  | .twoSided => (max s.u1 s.u2, 2)
  | .less => (s.u2, 1)
  | .greater => (s.u1, 1)

/-- The p-value of `pl_mann_whitney_u` (`src/stats/mann_whitney_u.rs:42-59`).  With fewer than two values in both
samples together the variance is `0 / 0`, which is NaN there and 0 here; `clamp` is `min` with 1, then `max` with 0. -/
noncomputable def mwuP (alt : Alt) (s : MWU.Stats ℝ) : ℝ :=
  if √s.var = 0 then 0
  else max 0 (min 1 ((mwuPick alt s).2 * Normal.sf (mwuPick alt s).1 (s.mean + 0.5) √s.var))

/-- The p-value of `pl_xi_corr_w_p` (`src/stats/xi_corr.rs:33-43`) for `n` rows and the coefficient `corr`; `none` is
NaN. -/
noncomputable def xiP (n : ℕ) (corr : Option ℚ) : Option ℝ :=
  if n < 30 then none
  else corr.map fun (c : ℚ) => Normal.sf (√(n : ℝ) * |(c : ℝ)| / √0.4) 0 1 * 2

end Verif.NormalP
