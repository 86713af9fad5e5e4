import Verif.Lemmas.BetaQuantile
import Mathlib.Analysis.Complex.ExponentialBounds
import Mathlib.Analysis.SpecialFunctions.Trigonometric.DerivHyp

/-!
# The start of the search for the quantile 0.975 of Student's distribution
-/

namespace Verif.StudentPpf

open Verif.TTest Verif.BetaTail.Spec Verif.BetaFrac Real

variable {a : ℝ}

theorem B_lower (ha : 0 < a) : √(π / a) ≤ B a (1 / 2) := by
  have h := Real.Gamma_mul_add_mul_le_rpow_Gamma_mul_rpow_Gamma (s := a) (t := a + 1) (a := 1 / 2) (b := 1 / 2) ha
    (by linarith) (by norm_num) (by norm_num) (by norm_num)
  rw [show 1 / 2 * a + 1 / 2 * (a + 1) = a + 1 / 2 by ring, Real.Gamma_add_one ha.ne'] at h
  have g := Real.Gamma_pos_of_pos ha
  have g2 := Real.Gamma_pos_of_pos (show 0 < a + 1 / 2 by linarith)
  rw [← Real.sqrt_eq_rpow, ← Real.sqrt_eq_rpow, ← Real.sqrt_mul g.le,
    show Gamma a * (a * Gamma a) = Gamma a ^ 2 * a by ring, Real.sqrt_mul (by positivity), Real.sqrt_sq g.le] at h
  unfold B
  rw [Real.Gamma_one_half_eq, Real.sqrt_div pi_pos.le, le_div_iff₀ g2, div_mul_eq_mul_div,
    div_le_iff₀ (Real.sqrt_pos.2 ha)]
  calc √π * Gamma (a + 1 / 2) ≤ √π * (Gamma a * √a) := by gcongr
    _ = _ := by ring

theorem B_upper (ha : 1 / 2 < a) : B a (1 / 2) ≤ √(π / (a - 1 / 2)) := by
  have hs : 0 < a - 1 / 2 := by linarith
  have h := Real.Gamma_mul_add_mul_le_rpow_Gamma_mul_rpow_Gamma (s := a - 1 / 2) (t := a - 1 / 2 + 1) (a := 1 / 2)
    (b := 1 / 2) hs (by linarith) (by norm_num) (by norm_num) (by norm_num)
  rw [show 1 / 2 * (a - 1 / 2) + 1 / 2 * (a - 1 / 2 + 1) = a by ring, Real.Gamma_add_one hs.ne'] at h
  have g := Real.Gamma_pos_of_pos hs
  have g2 := Real.Gamma_pos_of_pos (show 0 < a + 1 / 2 by linarith)
  have e : Gamma (a + 1 / 2) = (a - 1 / 2) * Gamma (a - 1 / 2) := by
    rw [← Real.Gamma_add_one hs.ne']; congr 1; ring
  rw [← Real.sqrt_eq_rpow, ← Real.sqrt_eq_rpow, ← Real.sqrt_mul g.le,
    show Gamma (a - 1 / 2) * ((a - 1 / 2) * Gamma (a - 1 / 2)) = Gamma (a - 1 / 2) ^ 2 * (a - 1 / 2) by ring,
    Real.sqrt_mul (by positivity), Real.sqrt_sq g.le] at h
  unfold B
  rw [Real.Gamma_one_half_eq, Real.sqrt_div pi_pos.le, div_le_iff₀ g2, e, div_mul_eq_mul_div,
    le_div_iff₀ (Real.sqrt_pos.2 hs)]
  have hsq := Real.mul_self_sqrt hs.le
  calc Gamma a * √π * √(a - 1 / 2) ≤ (Gamma (a - 1 / 2) * √(a - 1 / 2)) * √π * √(a - 1 / 2) := by gcongr
    _ = √π * ((√(a - 1 / 2) * √(a - 1 / 2)) * Gamma (a - 1 / 2)) := by ring
    _ = _ := by rw [hsq]

theorem log_400 : 5.9878 ≤ log 400 ∧ log 400 ≤ 5.9927 := by
  have e1 := exp_one_gt_d9
  have e2 := exp_one_lt_d9
  have h6 : exp 6 = exp 1 ^ 6 := by rw [← Real.exp_nat_mul]; norm_num
  constructor
  · rw [le_log_iff_exp_le (by norm_num), show (5.9878 : ℝ) = 6 - 0.0122 by norm_num, exp_sub, div_le_iff₀ (exp_pos _)]
    have h1 : (1.0122 : ℝ) ≤ exp 0.0122 := by linarith [add_one_le_exp (0.0122 : ℝ)]
    calc exp 6 = exp 1 ^ 6 := h6
      _ ≤ 2.7182818286 ^ 6 := by gcongr
      _ ≤ 400 * 1.0122 := by norm_num
      _ ≤ _ := by gcongr
  · rw [log_le_iff_le_exp (by norm_num), show (5.9927 : ℝ) = 6 + -0.0073 by norm_num, exp_add]
    have h1 : (0.9927 : ℝ) ≤ exp (-0.0073) := by linarith [add_one_le_exp (-0.0073 : ℝ)]
    calc (400 : ℝ) ≤ 2.7182818283 ^ 6 * 0.9927 := by norm_num
      _ ≤ exp 1 ^ 6 * exp (-0.0073) := by gcongr
      _ = _ := by rw [h6]

theorem hastings_bounds : 1.6434 ≤ hastings (1 / 20) ∧ hastings (1 / 20) ≤ 1.645 := by
  unfold hastings
  have e : -log (1 / 20 * (1 / 20)) = log 400 := by
    rw [← log_inv]; norm_num
  rw [e]
  obtain ⟨h1, h2⟩ := log_400
  have p1 : 2.4469 ≤ √(log 400) := by
    apply Real.le_sqrt_of_sq_le
    linarith [show (2.4469 : ℝ) ^ 2 ≤ 5.9878 by norm_num]
  have p2 : √(log 400) ≤ 2.4481 := by
    rw [Real.sqrt_le_left (by norm_num)]
    linarith [show (5.9927 : ℝ) ≤ 2.4481 ^ 2 by norm_num]
  generalize √(log 400) = p at *
  dsimp only
  have hD : 0 < 1 + (0.99229 + 0.04481 * p) * p := by nlinarith
  have q1 : (2.30753 + 0.27061 * p) / (1 + (0.99229 + 0.04481 * p) * p) ≤ 0.8035 := by
    rw [div_le_iff₀ hD]; nlinarith
  have q2 : 0.8031 ≤ (2.30753 + 0.27061 * p) / (1 + (0.99229 + 0.04481 * p) * p) := by
    rw [le_div_iff₀ hD]; nlinarith
  constructor <;> linarith

/-- The start before it is clamped, for the second parameter one half and the value `1/20`. -/
theorem guess_eq : ∃ c, 3.74 ≤ c ∧ c ≤ 3.75 ∧ ∀ lnB a, guess lnB a (1 / 2) (1 / 20) =
    if (4 * a - 1) / c ≤ 1 then exp ((log (1 / 20 * a) + lnB) / a) else 1 - 2 * c / (4 * a - 1 + c) := by
  obtain ⟨q1, q2⟩ := hastings_bounds
  have s1 : 0.4714 ≤ √(2 / 9) := Real.le_sqrt_of_sq_le (by norm_num)
  have s2 : √(2 / 9) ≤ 0.47141 := (Real.sqrt_le_left (by norm_num)).2 (by norm_num)
  have s0 : (1 : ℝ) / (9 * (1 / 2)) = 2 / 9 := by norm_num
  have u1 : 1.5524 ≤ 1 - 2 / 9 + hastings (1 / 20) * √(2 / 9) := by nlinarith
  have u2 : 1 - 2 / 9 + hastings (1 / 20) * √(2 / 9) ≤ 1.5533 := by nlinarith
  have c1 : 3.74 ≤ (1 - 2 / 9 + hastings (1 / 20) * √(2 / 9)) ^ 3 :=
    le_trans (by norm_num) (pow_le_pow_left₀ (by norm_num) u1 3)
  have c2 : (1 - 2 / 9 + hastings (1 / 20) * √(2 / 9)) ^ 3 ≤ 3.75 :=
    le_trans (pow_le_pow_left₀ (by linarith) u2 3) (by norm_num)
  refine ⟨_, c1, c2, fun lnB a => ?_⟩
  unfold guess
  simp only [s0]
  rw [if_neg (by norm_num), show (2 : ℝ) * (1 / 2) = 1 by norm_num, one_mul]
  generalize (1 - 2 / 9 + hastings (1 / 20) * √(2 / 9)) ^ 3 = c at *
  rw [if_neg (by linarith), show 2 * (2 * a + 1 / 2 - 1) = 4 * a - 1 by ring]
  split_ifs with h
  · rfl
  · rw [not_le, lt_div_iff₀ (by linarith), one_mul] at h
    have hc : c ≠ 0 := by linarith
    have h2 : 4 * a - 1 + c ≠ 0 := by linarith
    rw [div_add_one hc, div_div_eq_mul_div]

theorem acu_eq (ha : 1 ≤ a) : ∃ ε, acu a (1 / 20) = ε ^ 2 ∧ 3 / 10 ^ 10 ≤ ε ∧ ε ≤ 1 / 10 ^ 7 := by
  have ha0 : 0 < a := by linarith
  have h1 : (1 : ℝ) / (1 / 20) ^ (0.2 : ℝ) = 20 ^ (0.2 : ℝ) := by
    rw [one_div (20 : ℝ), Real.inv_rpow (by norm_num), one_div, inv_inv]
  have h2 : 1 ≤ (20 : ℝ) ^ (0.2 : ℝ) := Real.one_le_rpow (by norm_num) (by norm_num)
  have h3 : (20 : ℝ) ^ (0.2 : ℝ) < 2 := by
    have h4 : (20 : ℝ) ^ (0.2 : ℝ) < 32 ^ (0.2 : ℝ) := Real.rpow_lt_rpow (by norm_num) (by norm_num) (by norm_num)
    have h5 : (32 : ℝ) ^ (0.2 : ℝ) = 2 := by
      rw [show (32 : ℝ) = 2 ^ (5 : ℝ) by norm_num, ← Real.rpow_mul (by norm_num)]
      norm_num
    linarith
  have h4 : 0 ≤ 5 / a / a := by positivity
  have h5 : 5 / a / a ≤ 5 := by
    rw [div_div, div_le_iff₀ (by positivity)]
    nlinarith
  unfold acu
  rw [h1]
  generalize (20 : ℝ) ^ (0.2 : ℝ) = y at *
  set k := ⌊5 / a / a + y + 13⌋₊ with hk
  have k1 : 14 ≤ k := Nat.le_floor (by push_cast; linarith)
  have k2 : k < 20 := (Nat.floor_lt (by linarith)).2 (by push_cast; linarith)
  dsimp only
  rw [if_pos (by omega)]
  refine ⟨√(1 / 10 ^ k), (Real.sq_sqrt (by positivity)).symm, Real.le_sqrt_of_sq_le ?_, ?_⟩
  · have : (1 : ℝ) / 10 ^ 19 ≤ 1 / 10 ^ k :=
      div_le_div_of_nonneg_left zero_le_one (by positivity) (pow_le_pow_right₀ (by norm_num) (by omega))
    exact le_trans (by norm_num) this
  · rw [Real.sqrt_le_left (by norm_num)]
    have : (1 : ℝ) / 10 ^ k ≤ 1 / 10 ^ 14 :=
      div_le_div_of_nonneg_left zero_le_one (by positivity) (pow_le_pow_right₀ (by norm_num) k1)
    exact this.trans (by norm_num)

theorem w_eq {p : ℝ} (hp1 : p < 1) : w a p = p ^ (a - 1) / √(1 - p) := by
  unfold w
  rw [half_pow (by linarith)]
  ring

theorem mul_w {p : ℝ} (hp : 0 < p) (hp1 : p < 1) : p * w a p = p ^ a / √(1 - p) := by
  rw [w_eq hp1, ← mul_div_assoc, mul_comm p, ← rpow_add_one hp.ne', sub_add_cancel]

end Verif.StudentPpf
