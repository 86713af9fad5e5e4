import Verif.Model.Doubles

/-!
# Target encoding in double arithmetic (`src/num_ext/target_encode.rs`)

`Verif.Model.Woe` is exact.  Here every operation is rounded.  The exponential function of the platform is not in `/repo`: its result
is an arbitrary number that is not negative, or infinite.
-/

namespace Verif.TargetDbl
open Verif.Doubles

/-- The result of `exp`: a number, or infinity (`src/num_ext/target_encode.rs:39-41`). -/
inductive Ext
  | num (e : ℝ)
  | inf

/-- The exponent `-(cnt - min_samples_leaf) / smoothing` (`src/num_ext/target_encode.rs:39-40`) when `smoothing` is not 0. -/
noncomputable def exponent (cnt : ℕ) (leaf smoothing : ℝ) : ℝ := rd (-rd (cnt - leaf) / smoothing)

/-- `alpha` (`src/num_ext/target_encode.rs:37-42`): `1 / inf` is 0. -/
noncomputable def alpha : Ext → ℝ
  | .num e => rd (1 / rd (1 + e))
  | .inf => 0

open Classical in
/-- `alpha` with the division by a `smoothing` of (positive) 0 (`src/num_ext/target_encode.rs:37-42`): the exponent is NaN (`none`),
infinite or minus infinite, and `exp` of these NaN, infinite and 0. -/
noncomputable def weight (exp : ℝ → Ext) (leaf smoothing : ℝ) (cnt : ℕ) : Option ℝ :=
  if smoothing = 0 then
    if rd (cnt - leaf) = 0 then none else if rd (cnt - leaf) < 0 then some (alpha .inf) else some (alpha (.num 0))
  else some (alpha (exp (exponent cnt leaf smoothing)))

/-- `to` (`src/num_ext/target_encode.rs:46`). -/
noncomputable def mix (a p m : ℝ) : ℝ := rd (rd (a * p) + rd (rd (1 - a) * m))

/-- The encoded value of a category (`src/num_ext/target_encode.rs:19-49`) with `n` rows, `k` of them with target 1, among `total` rows with a
target, `ones` of them with target 1.  `exp` is the exponential function, `none` is NaN.  Simplification: the target is a column of zeros and
ones, so the sums are exact. -/
noncomputable def encode (exp : ℝ → Ext) (leaf smoothing : ℝ) (k n ones total : ℕ) : Option ℝ :=
  (weight exp leaf smoothing n).map fun a => mix a (quot k n) (quot ones total)

end Verif.TargetDbl
