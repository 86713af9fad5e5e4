import Verif.Model.FTest
import Verif.Model.TTest

/-!
# p-value of the one-way F test (`src/stats/fstats.rs`)
-/

namespace Verif.FTest
open Verif.TTest
variable {κ : Type} [DecidableEq κ]

/-- `pl_f_test` for one value column (`src/stats/fstats.rs:14-92`): statistic and p-value. An error of
`fisher_snedecor_sf` becomes NaN (`none`, line 84). A statistic that is not finite is kept apart as in `fTest`. -/
noncomputable def fTestP (E : BetaEnv) (rows : List (Option κ × Option ℝ)) (ks : List (Option κ)) : Res (ℝ × Option ℝ) :=
  let n := nSamples rows ks
  let c := ks.countP fun k => k.isSome
  match fTest rows ks with
  | .error => .error
  | .notFinite => .notFinite
  | .value f => .value (f, fisherSf E f (((c - 1) + (1 - c) : Nat) : ℝ) (((n - c) + (c - n) : Nat) : ℝ))

end Verif.FTest
