import Verif.Model.Doubles
import Verif.Model.Confusion

/-!
# The binary confusion matrix and the Matthews correlation in double arithmetic (`src/num_ext/tp_fp.rs`)
-/

namespace Verif.ConfDbl
open Verif Verif.Doubles Verif.Confusion

/-- An `f64` operation of `pl_binary_confusion_matrix` (`src/num_ext/tp_fp.rs:332-367`): the exact result rounded to a double.
Simplification: no overflow; the values are quotients of counts below `2 ^ 32`, so none is above `2 ^ 128`. -/
noncomputable def rnd : Val ℝ → Val ℝ
  | .num v => .num (rd v)
  | v => v

/-- The columns of `pl_binary_confusion_matrix` (`src/num_ext/tp_fp.rs:327-367`) with every operation rounded to a double.
Simplification: `/` on `u32` columns is taken as the division of doubles (see `Confusion.DivSem` for the other reading). -/
noncomputable def metrics (c : Counts) : Metrics ℝ :=
  let ratio (a b : ℕ) : Val ℝ := rnd (Val.fdiv (.num (rd a)) (.num (rd b)))
  let sub (a b : Val ℝ) := rnd (Val.fsub a b)
  let add (a b : Val ℝ) := rnd (Val.fadd a b)
  let mul (a b : Val ℝ) := rnd (Val.fmul a b)
  let div (a b : Val ℝ) := rnd (Val.fdiv a b)
  let sqrt (a : Val ℝ) := rnd (Val.fsqrt Real.sqrt a)
  let p := c.tp + c.fn
  let n := c.fp + c.tn
  let tpr := ratio c.tp p
  let fpr := ratio c.fp n
  let precision := ratio c.tp (c.tp + c.fp)
  let fomr := ratio c.fn (c.fn + c.tn)
  let prevalence := ratio p (p + n)
  let threat := ratio c.tp (c.tp + c.fn + c.fp)
  let fnr := sub (.num 1) tpr
  let tnr := sub (.num 1) fpr
  let npv := sub (.num 1) fomr
  let fdr := sub (.num 1) precision
  let plr := div tpr fpr
  let nlr := div fnr tnr
  { tpr, fpr, precision, falseOmission := fomr, prevalence, threat, fnr, tnr, npv, fdr, plr, nlr
    informedness := sub (add tpr tnr) (.num 1)
    markedness := sub precision fomr
    prevalenceThreshold := div (sub (sqrt (mul tpr fpr)) fpr) (sub tpr fpr)
    balancedAccuracy := div (add tpr tnr) (.num 2)
    f1 := div (mul (mul (.num 2) precision) tpr) (add precision tpr)
    folkesMallows := sqrt (mul precision tpr)
    mcc := sub (sqrt (mul (mul (mul tpr tnr) precision) npv)) (sqrt (mul (mul (mul fnr fpr) fomr) fdr))
    acc := ratio (c.tp + c.tn) (p + n)
    dor := div plr nlr }

/-- `pl_mcc` (`src/num_ext/tp_fp.rs:196-213`): the sums and products of counts are `u32` (the products wrap), the rest is `f64`. -/
noncomputable def plMcc (c : Counts) : Val ℝ :=
  let n1 := rd ((c.tp + c.fn : ℕ) : ℝ)
  let m1 := rd ((c.tp + c.fp : ℕ) : ℝ)
  let n0 := rd ((c.fp + c.tn : ℕ) : ℝ)
  let m0 := rd ((c.fn + c.tn : ℕ) : ℝ)
  rnd (Val.fdiv (.num (rd (rd ((c.tp * c.tn % 2 ^ 32 : ℕ) : ℝ) - rd ((c.fn * c.fp % 2 ^ 32 : ℕ) : ℝ))))
    (.num (rd (Real.sqrt (rd (rd (rd (n1 * m1) * n0) * m0))))))

end Verif.ConfDbl
