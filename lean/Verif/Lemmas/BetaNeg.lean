import Verif.Lemmas.BetaTail
import Mathlib.Analysis.SpecialFunctions.Gamma.Basic
import Mathlib.Data.Nat.Choose.Central

/-! # The continued fraction evaluated in the rationals, and a case in which the rounds do not suffice -/

namespace Verif.BetaFrac

open Verif.TTest

def clampQ (fpmin v : ℚ) : ℚ := if |v| < fpmin then fpmin else v

def loopQ (eps fpmin a b x : ℚ) : Nat → Nat → ℚ → ℚ → ℚ → ℚ
  | 0, _, _, _, h => h
  | fuel + 1, m, c, d, h =>
    let aa := m * (b - m) * x / ((a - 1 + m * 2) * (a + m * 2))
    let d := 1 / clampQ fpmin (1 + aa * d)
    let c := clampQ fpmin (1 + aa / c)
    let h := h * d * c
    let aa := -(a + m) * (a + b + m) * x / ((a + m * 2) * (a + 1 + m * 2))
    let d := 1 / clampQ fpmin (1 + aa * d)
    let c := clampQ fpmin (1 + aa / c)
    let del := d * c
    let h := h * del
    if |del - 1| ≤ eps then h else loopQ eps fpmin a b x fuel (m + 1) c d h

theorem clampQ_cast (fpmin v : ℚ) : ((clampQ fpmin v : ℚ) : ℝ) = clampTiny fpmin v := by
  unfold clampQ clampTiny
  have : (|(v : ℝ)| < fpmin) ↔ |v| < fpmin := by
    rw [← Rat.cast_abs, Rat.cast_lt]
  by_cases h : |v| < fpmin
  · rw [if_pos h, if_pos (this.2 h)]
  · rw [if_neg h, if_neg (fun h' => h (this.1 h'))]

theorem loopQ_cast (eps fpmin a b x : ℚ) (n m : ℕ) (c d h : ℚ) :
    ((loopQ eps fpmin a b x n m c d h : ℚ) : ℝ) = betaLoop eps fpmin a b x n m c d h := by
  induction n generalizing m c d h with
  | zero => rfl
  | succ n ih =>
    simp only [loopQ, betaLoop]
    rw [apply_ite (fun q : ℚ => (q : ℝ)), ih]
    simp only [Rat.cast_mul, clampQ_cast, Rat.cast_div, Rat.cast_one, Rat.cast_add, Rat.cast_sub, Rat.cast_neg,
      Rat.cast_natCast, Rat.cast_ofNat]
    have key : ∀ (u v : ℚ), (|u - v| ≤ eps) ↔ |(u : ℝ) - v| ≤ eps := by
      intro u v
      rw [← Rat.cast_sub, ← Rat.cast_abs, Rat.cast_le]
    simp only [key]
    simp only [Rat.cast_mul, clampQ_cast, Rat.cast_div, Rat.cast_one, Rat.cast_add, Rat.cast_sub, Rat.cast_neg,
      Rat.cast_natCast, Rat.cast_ofNat]

/-- `a = b = 5 * 10^7`, `x = 1/2`. -/
theorem loop_big : 38000 ≤ loopQ (11102230246251565 / 10 ^ 31) (1 / 2 ^ 1022 / (11102230246251565 / 10 ^ 31))
    50000000 50000000 (1 / 2) 140 1 1 50000001 50000001 := by decide +kernel

theorem centralBinom_lower (n : ℕ) (hn : 1 ≤ n) : ((4 : ℝ) ^ n) ^ 2 ≤ 4 * n * (n.centralBinom : ℝ) ^ 2 := by
  induction n, hn using Nat.le_induction with
  | base => norm_num [Nat.centralBinom]
  | succ n hn ih =>
    have hn' : (1 : ℝ) ≤ n := by exact_mod_cast hn
    have h1 : ((n : ℝ) + 1) * ((n + 1).centralBinom : ℝ) = 2 * (2 * n + 1) * n.centralBinom := by
      exact_mod_cast Nat.succ_mul_centralBinom_succ n
    push_cast
    refine le_of_mul_le_mul_right ?_ (by positivity : 0 < (n : ℝ) * (n + 1))
    have e : 4 * ((n : ℝ) + 1) * ((n + 1).centralBinom : ℝ) ^ 2 * (n * (n + 1)) =
        4 * n * (((n : ℝ) + 1) * ((n + 1).centralBinom : ℝ)) ^ 2 := by ring
    rw [e, h1, pow_succ]
    have h2 : (4 : ℝ) * n * (2 * (2 * n + 1) * n.centralBinom) ^ 2 =
        4 * (2 * n + 1) ^ 2 * (4 * n * (n.centralBinom : ℝ) ^ 2) := by ring
    rw [h2]
    calc ((4 : ℝ) ^ n * 4) ^ 2 * (n * (n + 1)) = 16 * (n * (n + 1)) * ((4 : ℝ) ^ n) ^ 2 := by ring
      _ ≤ 4 * (2 * n + 1) ^ 2 * ((4 : ℝ) ^ n) ^ 2 := by
        apply mul_le_mul_of_nonneg_right _ (by positivity)
        nlinarith
      _ ≤ _ := mul_le_mul_of_nonneg_left ih (by positivity)

/-- The factor in front of the fraction for `a = b = n`, `x = 1/2`. -/
theorem front_half (n : ℕ) (hn : 1 ≤ n) : √n / 4 ≤ ((1 / 2 : ℝ)) ^ (n : ℝ) * (1 - 1 / 2) ^ (n : ℝ) / B n n := by
  have hn' : (1 : ℝ) ≤ n := by exact_mod_cast hn
  have hn0 : (0 : ℝ) < n := by linarith
  have g1 : Real.Gamma n * n = (n.factorial : ℝ) := by
    rw [mul_comm, ← Real.Gamma_add_one hn0.ne', Real.Gamma_nat_eq_factorial]
  have g2 : Real.Gamma (n + n) * (2 * n) = ((2 * n).factorial : ℝ) := by
    rw [← Real.Gamma_nat_eq_factorial, mul_comm]
    push_cast
    rw [Real.Gamma_add_one (by positivity), two_mul]
  have hc : ((2 * n).factorial : ℝ) = n.centralBinom * n.factorial * n.factorial := by
    have := Nat.choose_mul_factorial_mul_factorial (show n ≤ 2 * n by omega)
    rw [show 2 * n - n = n by omega] at this
    unfold Nat.centralBinom
    exact_mod_cast this.symm
  have hg : 0 < Real.Gamma n := Real.Gamma_pos_of_pos hn0
  have hg2 : 0 < Real.Gamma (n + n) := Real.Gamma_pos_of_pos (by positivity)
  have hB : 1 / B n n = n / 2 * n.centralBinom := by
    unfold B
    rw [one_div_div, div_eq_iff (by positivity)]
    rw [hc, ← g1] at g2
    have : Real.Gamma (n + n) * (2 * n) = n / 2 * n.centralBinom * (Real.Gamma n * Real.Gamma n) * (2 * n) := by
      rw [g2]; ring
    exact mul_right_cancel₀ (by positivity) this
  have hp : ((1 / 2 : ℝ)) ^ (n : ℝ) * (1 - 1 / 2) ^ (n : ℝ) = 1 / 4 ^ n := by
    rw [Real.rpow_natCast, show (1 : ℝ) - 1 / 2 = 1 / 2 by norm_num, Real.rpow_natCast, ← mul_pow, ← one_div_pow]
    norm_num
  rw [hp, div_eq_mul_one_div _ (B _ _), hB]
  have hb := centralBinom_lower n hn
  have hs : 0 < √(n : ℝ) := Real.sqrt_pos.2 hn0
  have hsq : √(n : ℝ) ^ 2 = n := Real.sq_sqrt hn0.le
  have h1 : (4 : ℝ) ^ n ≤ 2 * √n * n.centralBinom := by
    refine le_of_sq_le_sq ?_ (by positivity)
    calc _ ≤ _ := hb
      _ = _ := by rw [mul_pow, mul_pow, hsq]; ring
  rw [one_div_mul_eq_div, le_div_iff₀ (by positivity)]
  have e : (n : ℝ) / 2 * n.centralBinom = √n / 4 * (2 * √n * n.centralBinom) := by
    have : √(n : ℝ) / 4 * (2 * √n * n.centralBinom) = √(n : ℝ) ^ 2 / 2 * n.centralBinom := by ring
    rw [this, hsq]
  rw [e]
  exact mul_le_mul_of_nonneg_left h1 (by positivity)

theorem fisher_negative (E : BetaEnv) (hl : ∀ a, 0 < a → |E.lnGamma a - Real.log (Real.Gamma a)| ≤ 1 / 10 ^ 16)
    (he : E.eps = 0.0000000000000011102230246251565) (hf : E.minPos = 1 / 2 ^ 1022) :
    ∃ p, fisherSf E 1 (10 ^ 8) (10 ^ 8) = some p ∧ p < -(1 / 3) := by
  have hcl : 1 / clampTiny (E.minPos / E.eps) (1 - ((50000000 : ℝ) + 50000000) * (1 - 1 / 2) / (50000000 + 1)) = 50000001 := by
    unfold clampTiny
    have h1 : (1 : ℝ) - (50000000 + 50000000) * (1 - 1 / 2) / (50000000 + 1) = 1 / 50000001 := by norm_num
    rw [h1, if_neg]
    · norm_num
    · rw [not_lt, abs_of_pos (by norm_num), he, hf]
      have h1 : (1 : ℝ) / 2 ^ 1022 ≤ 1 / 2 ^ 200 :=
        div_le_div_of_nonneg_left zero_le_one (by positivity) (pow_le_pow_right₀ one_le_two (by norm_num))
      rw [div_le_iff₀ (by norm_num)]
      refine h1.trans ?_
      norm_num
  have key := (Rat.cast_le (K := ℝ)).2 loop_big
  rw [loopQ_cast] at key
  have e1 : (((11102230246251565 / 10 ^ 31 : ℚ)) : ℝ) = E.eps := by rw [he]; norm_num
  have e2 : (((1 / 2 ^ 1022 / (11102230246251565 / 10 ^ 31) : ℚ)) : ℝ) = E.minPos / E.eps := by
    rw [Rat.cast_div, e1, hf]
    push_cast
    rfl
  rw [e1, e2] at key
  push_cast at key
  obtain ⟨κ, k1, hfront⟩ := front E.lnGamma hl (a := 50000000) (b := 50000000) (x := 1 / 2) (by norm_num) (by norm_num)
    (by norm_num) (by norm_num)
  have hfh := front_half 50000000 (by norm_num)
  push_cast at hfh
  have k2 : 9999 / 10000 ≤ κ := by linarith [(abs_le.1 k1).1]
  have hfk : 9999 / 10000 * (√(50000000 : ℝ) / 4) ≤
      κ * ((1 / 2 : ℝ) ^ (50000000 : ℝ) * (1 - 1 / 2) ^ (50000000 : ℝ) / B 50000000 50000000) :=
    mul_le_mul k2 hfh (by positivity) (by linarith)
  rw [← hfront] at hfk
  have hs : √(50000000 : ℝ) ≤ 7072 := by
    rw [Real.sqrt_le_left (by norm_num)]
    norm_num
  have hs0 : 0 < √(50000000 : ℝ) := Real.sqrt_pos.2 (by norm_num)
  have hss : √(50000000 : ℝ) * √50000000 = 50000000 := Real.mul_self_sqrt (by norm_num)
  have h1 : fisherSf E 1 (10 ^ 8) (10 ^ 8) = checkedBetaReg E 50000000 50000000 (1 / 2) := by
    unfold fisherSf
    rw [if_neg (by norm_num)]
    norm_num
  rw [h1]
  unfold checkedBetaReg
  rw [if_neg (by norm_num), if_neg (by norm_num), if_neg (by norm_num)]
  have hc : (1 / 2 : ℝ) ≥ (50000000 + 1) / (50000000 + 50000000 + 2) := by norm_num
  simp only [hc, if_true, Option.some.injEq, exists_eq_left']
  rw [if_neg (by norm_num), hcl]
  have e3 : (1 : ℝ) - 1 / 2 = 1 / 2 := by norm_num
  clear hfront hfh
  rw [e3] at hfk ⊢
  generalize betaLoop _ _ _ _ _ _ _ _ _ _ = y at *
  generalize Real.exp _ = z at *
  generalize √(50000000 : ℝ) = r at *
  have h2 : 9999 / 10000 * (r / 4) * 38000 ≤ z * y := mul_le_mul hfk key (by norm_num) (by linarith)
  have h3 : (7071 : ℝ) ≤ r := by nlinarith
  rw [lt_neg, neg_sub]
  rw [show (1 : ℝ) / 3 = 4 / 3 - 1 by norm_num]
  apply sub_lt_sub_right
  rw [lt_div_iff₀ (by norm_num)]
  nlinarith

end Verif.BetaFrac
