import Mathlib.Analysis.SpecialFunctions.Gamma.Beta
import Verif.Lemmas.LnGammaConst

/-!
# C140: accuracy of the logarithm of the gamma function
-/

namespace Verif.LnGamma
open Real (log Gamma exp)

/-- **C140.** `ln_gamma` is the logarithm of Euler's gamma function for every positive argument, with an error of at most
1e-16. -/
theorem ln_gamma_accuracy (x : ℝ) (hx : 0 < x) : |lnGamma x - log (Gamma x)| ≤ 1 / 10 ^ 16 := by
  have hi := errInf_bound
  unfold lnGamma
  split_ifs with h
  · have hb := err_bound (x := 1 - x) (by linarith)
    have hs : series (fun k => k - x) = S (1 - x) := by
      unfold S
      congr 1
      funext k
      ring
    have hL : L (1 - x) = log (S (1 - x)) + ln2SqrtEOverPi + (1 / 2 - x) * log ((1 / 2 - x + gammaR) / exp 1) := by
      unfold L
      have a : 1 - x - 1 / 2 = 1 / 2 - x := by ring
      rw [a]
    have hp := lnPi_error
    have hsin : 0 < Real.sin (Real.pi * x) := by
      apply Real.sin_pos_of_pos_of_lt_pi
      · exact mul_pos Real.pi_pos hx
      · nlinarith [Real.pi_pos]
    have g0 := Real.Gamma_pos_of_pos hx
    have g1 := Real.Gamma_pos_of_pos (show 0 < 1 - x by linarith)
    have hg := Real.Gamma_mul_Gamma_one_sub x
    have hlog : log (Gamma x) + log (Gamma (1 - x)) = log Real.pi - log (Real.sin (Real.pi * x)) := by
      rw [← Real.log_mul g0.ne' g1.ne', hg, Real.log_div Real.pi_pos.ne' hsin.ne']
    have e : (lnPi : ℝ) - log (Real.sin (Real.pi * x)) - log (series fun k => k - x) - ln2SqrtEOverPi -
        (1 / 2 - x) * log ((1 / 2 - x + gammaR) / exp 1) - log (Gamma x) = (lnPi - log Real.pi) - err (1 - x) := by
      unfold err
      rw [hL, hs]
      linear_combination -hlog
    rw [e]
    refine (abs_sub _ _).trans ?_
    have : (0 : ℝ) ≤ 1 / 10 ^ 18 := by norm_num
    norm_num at hb hi hp ⊢
    linarith
  · have hb := err_bound (x := x) (by linarith)
    have e : log (series fun k => x + k - 1) + ln2SqrtEOverPi + (x - 1 / 2) * log ((x - 1 / 2 + gammaR) / exp 1) -
        log (Gamma x) = err x := rfl
    rw [e]
    norm_num at hb hi ⊢
    linarith

example : |lnGamma (1 / 2) - log √Real.pi| ≤ 1 / 10 ^ 16 ∧ |lnGamma (1 / 4) - log (Gamma (1 / 4))| ≤ 1 / 10 ^ 16 := by
  have h := ln_gamma_accuracy (1 / 2) (by norm_num)
  rw [Real.Gamma_one_half_eq] at h
  exact ⟨h, ln_gamma_accuracy (1 / 4) (by norm_num)⟩

/-- **C140.** Its exponential has a relative error of at most 2e-16, and at the integers it is the factorial. -/
theorem exp_ln_gamma (x : ℝ) (hx : 0 < x) : |exp (lnGamma x) - Gamma x| ≤ 2 / 10 ^ 16 * Gamma x := by
  have h := ln_gamma_accuracy x hx
  have g := Real.Gamma_pos_of_pos hx
  have e : exp (lnGamma x) - Gamma x = Gamma x * (exp (lnGamma x - log (Gamma x)) - 1) := by
    rw [Real.exp_sub, Real.exp_log g]
    field_simp
  have hb := Real.abs_exp_sub_one_le (x := lnGamma x - log (Gamma x)) (h.trans (by norm_num))
  rw [e, abs_mul, abs_of_pos g, mul_comm]
  apply mul_le_mul_of_nonneg_right _ g.le
  linarith

theorem ln_gamma_factorial (n : ℕ) : |lnGamma (n + 1) - log n.factorial| ≤ 1 / 10 ^ 16 := by
  have h := ln_gamma_accuracy (n + 1) (by positivity)
  rwa [Real.Gamma_nat_eq_factorial] at h

example : |lnGamma (20 + 1) - log 2432902008176640000| ≤ 1 / 10 ^ 16 := by
  have h := ln_gamma_factorial 20
  norm_num [Nat.factorial] at h ⊢
  exact h

end Verif.LnGamma
