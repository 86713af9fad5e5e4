import Verif.Model.StudentPpf
import Verif.Lemmas.StudentSearch

/-!
# The quantile of Student's distribution: theorems
-/

namespace Verif.StudentPpf

open Verif.TTest Verif.BetaTail.Spec Verif.BetaFrac Real

/-! ### Searches that never end -/

theorem search_not_num {acu p prev : ℝ} {q : Confusion.Val ℝ} (h : ∀ v, q ≠ .num v) (fuel : ℕ) (g : ℝ) :
    search acu p prev q fuel g = none := by
  induction fuel generalizing g with
  | zero => rfl
  | succ n ih =>
    unfold search
    cases q with
    | num v => exact absurd rfl (h v)
    | inf _ => exact ih _
    | nan => exact ih _

theorem overflow {a lnB u v : ℝ} (ha : 7250000 ≤ a) (hl : log (√(π / a)) - 1 ≤ lnB) (hu : 0 < u) (hu1 : u ≤ 0.9999)
    (hv : 0.0001 ≤ v) : 2 ^ 1024 ≤ Real.exp (lnB + (1 - a) * log u + 1 / 2 * log v) := by
  have h1 : log u ≤ -0.0001 := by linarith [Real.log_le_sub_one_of_pos hu]
  have h2 : -10 ≤ log v := by
    have h3 : log 0.0001 ≤ log v := Real.log_le_log (by norm_num) hv
    have h4 : -10 ≤ log (0.0001 : ℝ) := by
      rw [Real.le_log_iff_exp_le (by norm_num), Real.exp_neg, inv_le_comm₀ (Real.exp_pos _) (by norm_num)]
      have h5 := Real.exp_one_gt_d9
      rw [show (10 : ℝ) = (10 : ℕ) * 1 by norm_num, Real.exp_nat_mul]
      calc ((0.0001 : ℝ))⁻¹ ≤ 2.7182818283 ^ 10 := by norm_num
        _ ≤ _ := by gcongr
    linarith
  have h3 : log (√(π / a)) = 1 / 2 * log (π / a) := by rw [Real.log_sqrt (by positivity)]; ring
  have h4 : 0 ≤ log π := Real.log_nonneg (by linarith [Real.pi_gt_three])
  have h5 : log a ≤ 16 + (a / 7250000 - 1) := by
    have h6 := Real.log_le_sub_one_of_pos (show 0 < a / 7250000 by positivity)
    rw [Real.log_div (by positivity) (by norm_num)] at h6
    have h7 : log 7250000 ≤ 16 := by
      rw [Real.log_le_iff_le_exp (by norm_num)]
      have h5 := Real.exp_one_gt_d9
      rw [show (16 : ℝ) = (16 : ℕ) * 1 by norm_num, Real.exp_nat_mul]
      calc (7250000 : ℝ) ≤ 2.7182818283 ^ 16 := by norm_num
        _ ≤ _ := by gcongr
    linarith
  rw [Real.log_div pi_pos.ne' (by positivity)] at h3
  have h8 : (1 - a) * log u ≥ (a - 1) * 0.0001 := by nlinarith
  have h9 : (710 : ℝ) ≤ lnB + (1 - a) * log u + 1 / 2 * log v := by
    nlinarith
  have h10 : (2 : ℝ) ^ 1024 ≤ Real.exp 710 := by
    rw [← Real.log_le_iff_le_exp (by positivity), Real.log_pow]
    have := Real.log_two_lt_d9
    push_cast
    linarith
  exact h10.trans (Real.exp_le_exp.2 h9)

theorem clamp_mem (p : ℝ) : 0.0001 ≤ clampP p ∧ clampP p ≤ 0.9999 := by
  unfold clampP
  constructor
  · exact le_max_left _ _
  · exact max_le (by norm_num) (min_le_left _ _)

theorem newton_hangs {E : BetaEnv} {lnB a b x acu p : ℝ} (ha : 0 < a) (hb : 0 < b) (hp : 0 ≤ p) (hp1 : p ≤ 1)
    (h : 2 ^ 1024 ≤ Real.exp (lnB + (1 - a) * log p + (1 - b) * log (1 - p))) (fuel : ℕ) (qprev sq prev : ℝ) :
    newton E lnB a b x acu fuel p qprev sq prev = none := by
  cases fuel with
  | zero => rfl
  | succ n =>
    have hq : ∀ d v, quotient d (lnB + (1 - a) * log p + (1 - b) * log (1 - p)) ≠ .num v := by
      intro d v
      unfold quotient
      rw [if_neg (not_lt.2 h)]
      split_ifs <;> simp
    have hs : ∃ i, checkedBetaReg E a b p = some i := by
      unfold checkedBetaReg
      rw [if_neg (by linarith), if_neg (by linarith), if_neg (by simp [hp, hp1])]
      dsimp only
      split_ifs <;> exact ⟨_, rfl⟩
    obtain ⟨i, hi⟩ := hs
    unfold newton
    simp only [hi, search_not_num (hq _)]

/-- **C141.** With 14.5 million degrees of freedom or more, `student_t_ppf` never returns, whatever the probability
strictly between 0 and 1 other than one half: no number of rounds is enough. -/
theorem ppf_never_returns (E : BetaEnv) (hE : Standard E) (x df : ℝ) (hx0 : 0 < x) (hx1 : x < 1) (hx : x ≠ 1 / 2)
    (hdf : 14500000 ≤ df) (fuel : ℕ) : studentPpf E fuel x df = none := by
  have ha : 0 < 1 / 2 * df := by linarith
  have hl : log (√(π / (1 / 2 * df))) - 1 ≤ lnBeta E (1 / 2 * df) (1 / 2) := by
    have h1 := abs_le.1 (lnBeta_near hE ha (show (0 : ℝ) < 1 / 2 by norm_num))
    have h2 := Real.log_le_log (by positivity) (B_lower ha)
    linarith
  have hl' : log (√(π / (1 / 2 * df))) - 1 ≤ lnBeta E (1 / 2 * df) (1 / 2) := hl
  have key : ∀ y, y ≠ 0 → y ≠ 1 → invBetaReg E fuel (1 / 2 * df) (1 / 2) y = none := by
    intro y h0 h1
    unfold invBetaReg
    simp only [if_neg h0, if_neg h1]
    split_ifs with h2
    · obtain ⟨c1, c2⟩ := clamp_mem (guess (lnBeta E (1 / 2 * df) (1 / 2)) (1 / 2) (1 / 2 * df) (1 - y))
      rw [newton_hangs (by norm_num) ha (by linarith) (by linarith)]
      have := overflow (u := 1 - clampP (guess (lnBeta E (1 / 2 * df) (1 / 2)) (1 / 2) (1 / 2 * df) (1 - y)))
        (v := clampP (guess (lnBeta E (1 / 2 * df) (1 / 2)) (1 / 2) (1 / 2 * df) (1 - y)))
        (show 7250000 ≤ 1 / 2 * df by linarith) hl (by linarith) (by linarith) c1
      refine this.trans (le_of_eq ?_)
      congr 1
      ring
    · obtain ⟨c1, c2⟩ := clamp_mem (guess (lnBeta E (1 / 2 * df) (1 / 2)) (1 / 2 * df) (1 / 2) y)
      rw [newton_hangs ha (by norm_num) (by linarith) (by linarith)]
      have := overflow (u := clampP (guess (lnBeta E (1 / 2 * df) (1 / 2)) (1 / 2 * df) (1 / 2) y))
        (v := 1 - clampP (guess (lnBeta E (1 / 2 * df) (1 / 2)) (1 / 2 * df) (1 / 2) y))
        (show 7250000 ≤ 1 / 2 * df by linarith) hl (by linarith) c2 (by linarith)
      refine this.trans (le_of_eq ?_)
      congr 1
      ring
  unfold studentPpf
  rw [if_neg (by simp [hx0.le, hx1.le])]
  simp only
  rw [key]
  · split_ifs <;> linarith
  · split_ifs with h
    · intro h2; exact hx (by linarith)
    · intro h2; exact hx (by linarith)

example : ∀ fuel, studentPpf Verif.BetaTail.stdEnv fuel 0.975 20000000 = none :=
  ppf_never_returns _ Verif.BetaTail.stdEnv_standard 0.975 20000000 (by norm_num) (by norm_num) (by norm_num) (by norm_num)

/-- **C141.** Both regression reports never return with 14.5 million more rows than coefficients. -/
theorem reports_never_return {n d : ℕ} (S : LinReg.Solver ℝ) (E : BetaEnv) (hE : Standard E) (kind : LrReport.StdErr)
    (weights target : Pl.Col ℝ) (x : Matrix (Fin n) (Fin d) ℝ) (y : Fin n → ℝ) (hn : d + 14500000 ≤ n) (fuel : ℕ) :
    linRegReport S E fuel kind target x y = none ∧ wlsReport S E fuel weights target x y = none := by
  have h : (d : ℝ) + 14500000 ≤ n := by exact_mod_cast hn
  have h2 := ppf_never_returns E hE 0.975 (LrReport.dof n d) (by norm_num) (by norm_num) (by norm_num)
    (by unfold LrReport.dof; linarith) fuel
  unfold linRegReport wlsReport withQuantile
  rw [h2]
  exact ⟨rfl, rfl⟩

/-- The constant model on twenty million rows. -/
example (fuel : ℕ) (y : Fin 20000000 → ℝ) :
    linRegReport LrReport.invSolver Verif.BetaTail.stdEnv fuel .se (LrReport.full y) (LrReport.ones 20000000) y = none :=
  (reports_never_return _ _ Verif.BetaTail.stdEnv_standard .se [] _ _ y (by norm_num) fuel).1

/-! ### Values -/

/-- The call ends with the value `t`, given enough rounds. -/
def Returns (E : BetaEnv) (x df t : ℝ) : Prop := ∃ N, ∀ fuel, N < fuel → studentPpf E fuel x df = some (.ok t)

/-- **C141.** The quantiles 0.975 and 0.025 for 2 to 37000 degrees of freedom: the calls return a number `t` and `-t`,
and a statistic exceeds `t` with probability 0.025, up to `n² / 10^14` and the accuracy of the distribution function.
Missing for the full property: one degree of freedom, and between 37000 and 14.5 million. -/
theorem ppf_accuracy_partial (E : BetaEnv) (hE : Standard E) (n : ℕ) (hn : 2 ≤ n) (hn1 : n ≤ 37000) :
    ∃ t, 0 < t ∧ Returns E 0.975 n t ∧ Returns E 0.025 n (-t) ∧
      |tProb n t .greater - 0.025| ≤ 1 / 2 * (4 / 10 ^ 13 + (n : ℝ) ^ 2 / 10 ^ 14) := by
  obtain ⟨r, N, r1, r2, r3, r4⟩ := inverse_near hE n hn hn1
  have hn0 : (0 : ℝ) < n := by exact_mod_cast (by omega : 0 < n)
  have hq : 0 < (n : ℝ) * (1 - r) / r := div_pos (mul_pos hn0 (by linarith)) r2
  refine ⟨√(n * (1 - r) / r), Real.sqrt_pos.2 hq, ⟨N, fun fuel hf => ?_⟩, ⟨N, fun fuel hf => ?_⟩, ?_⟩
  · unfold studentPpf
    rw [if_neg (by norm_num)]
    simp only
    rw [if_pos (by norm_num), show (2 : ℝ) * (1 - 0.975) = 1 / 20 by norm_num, r4 fuel hf]
    simp only
    rw [if_neg r2.ne', if_pos (by norm_num)]
  · unfold studentPpf
    rw [if_neg (by norm_num)]
    simp only
    rw [if_neg (by norm_num), show (2 : ℝ) * 0.025 = 1 / 20 by norm_num, r4 fuel hf]
    simp only
    rw [if_neg r2.ne', if_neg (by norm_num)]
  · rw [BetaTail.prob_greater, t_tail hn0 (Real.sqrt_nonneg _), Real.mul_self_sqrt hq.le]
    have e : (n : ℝ) / (n + n * (1 - r) / r) = r := by
      field_simp
      ring
    rw [e, show (n : ℝ) / 2 = 1 / 2 * n by ring]
    have e2 : ∀ v : ℝ, 1 / 2 * v - 0.025 = 1 / 2 * (v - 1 / 20) := by intro v; ring
    rw [e2, abs_mul, abs_of_pos (by norm_num : (0 : ℝ) < 1 / 2)]
    exact mul_le_mul_of_nonneg_left r1 (by norm_num)

/-- Ten degrees of freedom: accurate to twelve digits. -/
example : ∃ t, 0 < t ∧ Returns BetaTail.stdEnv 0.975 10 t ∧ |tProb 10 t .greater - 0.025| ≤ 1 / 10 ^ 12 := by
  obtain ⟨t, h1, h2, _, h3⟩ := ppf_accuracy_partial BetaTail.stdEnv BetaTail.stdEnv_standard 10 (by norm_num) (by norm_num)
  exact ⟨t, h1, h2, h3.trans (by norm_num)⟩

/-- **C141.** The ends of the scale: probability 0 and 1 give minus and plus infinity, one half gives 0, for every number
of degrees of freedom. -/
theorem ppf_ends (E : BetaEnv) (fuel : ℕ) (df : ℝ) : studentPpf E fuel 0 df = some (.inf true) ∧
    studentPpf E fuel 1 df = some (.inf false) ∧ studentPpf E fuel (1 / 2) df = some (.ok 0) := by
  refine ⟨?_, ?_, ?_⟩
  · unfold studentPpf invBetaReg
    norm_num
  · unfold studentPpf invBetaReg
    norm_num
  · unfold studentPpf invBetaReg
    norm_num

/-- A probability outside of the unit interval panics. -/
theorem ppf_outside (E : BetaEnv) (fuel : ℕ) (x df : ℝ) (h : x < 0 ∨ 1 < x) : studentPpf E fuel x df = some .panic := by
  unfold studentPpf
  rw [if_pos]
  rintro ⟨h1, h2⟩
  rcases h with h | h <;> linarith

example : studentPpf BetaTail.stdEnv 3 1.5 4 = some .panic := ppf_outside _ 3 1.5 4 (Or.inr (by norm_num))

/-- **C141.** Above one half the inverse of the regularised beta function is the mirror image of the one with the parameters
exchanged: `I_x(a, b) = 1 - I_(1-x)(b, a)`. -/
theorem inverse_mirror (E : BetaEnv) (fuel : ℕ) (a b x : ℝ) (hx : 1 / 2 < x) :
    (∀ p, invBetaReg E fuel b a (1 - x) = some (.ok p) → invBetaReg E fuel a b x = some (.ok (1 - p))) ∧
      (invBetaReg E fuel b a (1 - x) = none → invBetaReg E fuel a b x = none) := by
  have hb : lnBeta E b a = lnBeta E a b := by unfold lnBeta; rw [add_comm b a]; ring
  unfold invBetaReg
  simp only [hb]
  rw [if_neg (show ¬ x = 0 by linarith), if_neg (show ¬ 1 - x = 1 by linarith), if_neg (show ¬ 1 / 2 < 1 - x by linarith), if_pos hx]
  by_cases h1 : x = 1
  · subst h1
    simp
  · rw [if_neg h1, if_neg (show ¬ 1 - x = 0 from fun h => h1 (by linarith))]
    constructor
    · intro p hp; rw [hp]
    · intro hp; rw [hp]

example (fuel : ℕ) : invBetaReg BetaTail.stdEnv fuel 3 (1 / 2) 1 = some (.ok (1 - 0)) :=
  (inverse_mirror BetaTail.stdEnv fuel 3 (1 / 2) 1 (by norm_num)).1 0 (by unfold invBetaReg; norm_num)

/-- **C141.** The squared step at which the search stops is between `10 ^ -30` and `10 ^ -14` for every parameter and every
probability. -/
theorem tolerance_bounds {a x : ℝ} (hx : 0 < x) (hx1 : x ≤ 1) : 1 / 10 ^ 30 ≤ acu a x ∧ acu a x ≤ 1 / 10 ^ 14 := by
  have h1 : 1 ≤ 1 / x ^ (0.2 : ℝ) := by
    rw [le_div_iff₀ (Real.rpow_pos_of_pos hx _), one_mul]
    exact Real.rpow_le_one hx.le hx1 (by norm_num)
  have h2 : 0 ≤ 5 / a / a := by rw [div_div]; exact div_nonneg (by norm_num) (mul_self_nonneg a)
  have hk : 14 ≤ ⌊5 / a / a + 1 / x ^ (0.2 : ℝ) + 13⌋₊ := Nat.le_floor (by push_cast; linarith)
  unfold acu
  simp only
  split_ifs with h
  · constructor
    · exact one_div_le_one_div_of_le (by positivity) (pow_le_pow_right₀ (by norm_num) h.le)
    · exact one_div_le_one_div_of_le (by positivity) (pow_le_pow_right₀ (by norm_num) hk)
  · constructor
    · exact le_refl _
    · norm_num

example : acu (1 / 2) (1 / 20) ≤ 1 / 10 ^ 14 := (tolerance_bounds (by norm_num) (by norm_num)).2

/-- **C141.** The confidence interval of `lin_reg_report` with 2 to 37000 more rows than coefficients: the coefficient
minus and plus `t` standard errors, where Student's variable exceeds `t` with probability 0.025 up to the stated error. -/
theorem report_interval_partial {m d : ℕ} (S : LinReg.Solver ℝ) (E : BetaEnv) (hE : Standard E) (kind : LrReport.StdErr)
    (target : Pl.Col ℝ) (x : Matrix (Fin m) (Fin d) ℝ) (y : Fin m → ℝ) (n : ℕ) (hm : m = d + n) (hn : 2 ≤ n)
    (hn1 : n ≤ 37000) :
    ∃ t R N, |tProb n t .greater - 0.025| ≤ 1 / 2 * (4 / 10 ^ 13 + (n : ℝ) ^ 2 / 10 ^ 14) ∧
      (∀ fuel, N < fuel → linRegReport S E fuel kind target x y = some (some R)) ∧
      ∀ i s, R.stdErr i = some s → R.lo i = some (R.beta i - t * s) ∧ R.hi i = some (R.beta i + t * s) := by
  obtain ⟨t, -, ⟨N, hN⟩, -, ht⟩ := ppf_accuracy_partial E hE n hn hn1
  have hd : LrReport.dof m d = n := by
    unfold LrReport.dof
    rw [hm]
    push_cast
    ring
  obtain ⟨R, hR⟩ : ∃ R, LrReport.linRegReport S E (fun _ => t) kind target x y = some R := by
    rw [← Option.isSome_iff_exists, Option.isSome_iff_ne_none, ne_eq, LrReport.report_panics_iff]
    omega
  refine ⟨t, R, N, ht, fun fuel hf => ?_, fun i s hs => ?_⟩
  · unfold linRegReport withQuantile
    rw [hd, hN fuel hf]
    simp only
    rw [hR]
  · exact (LrReport.report_inference S E _ kind target x y R hR i s hs).2

/-- The constant model on the targets 1, 2 and 6: two degrees of freedom. -/
example : ∃ t R N, |tProb ((2 : ℕ) : ℝ) t .greater - 0.025| ≤ 1 / 10 ^ 12 ∧
    (∀ fuel, N < fuel → linRegReport LrReport.invSolver BetaTail.stdEnv fuel .se (LrReport.full LrReport.exY)
      (LrReport.ones 3) LrReport.exY = some (some R)) ∧
    R.stdErr 0 = some √(14 / 2 / 3) ∧ R.hi 0 = some (R.beta 0 + t * √(14 / 2 / 3)) := by
  obtain ⟨t, R, N, h1, h2, h3⟩ := report_interval_partial LrReport.invSolver BetaTail.stdEnv BetaTail.stdEnv_standard .se
    (LrReport.full LrReport.exY) (LrReport.ones 3) LrReport.exY 2 rfl le_rfl (by norm_num)
  have h4 := h2 (N + 1) (by omega)
  unfold linRegReport withQuantile at h4
  split at h4
  · simp at h4
  · rename_i u _
    rw [Option.some.injEq] at h4
    have hs : R.stdErr 0 = some √(14 / 2 / 3) := by
      rw [(LrReport.report_constant_is_ttest LrReport.invSolver BetaTail.stdEnv _ LrReport.exY R h4 (by omega) 0 0).2.1,
        LrReport.exY_sst]
      norm_num
    exact ⟨t, R, N, h1.trans (by norm_num), h2, hs, (h3 0 _ hs).2⟩
  · simp at h4

/-- **C141.** The same for the weighted report: as many weights as rows, none of them null. -/
theorem weighted_interval_partial {m d : ℕ} (S : LinReg.Solver ℝ) (E : BetaEnv) (hE : Standard E)
    (weights target : Pl.Col ℝ) (x : Matrix (Fin m) (Fin d) ℝ) (y : Fin m → ℝ) (n : ℕ) (hm : m = d + n) (hn : 2 ≤ n)
    (hn1 : n ≤ 37000) (hw : weights.length = m) (hw1 : none ∉ weights) :
    ∃ t R N, |tProb n t .greater - 0.025| ≤ 1 / 2 * (4 / 10 ^ 13 + (n : ℝ) ^ 2 / 10 ^ 14) ∧
      (∀ fuel, N < fuel → wlsReport S E fuel weights target x y = some (some R)) ∧
      ∀ i s, R.stdErr i = some s → R.lo i = some (R.beta i - t * s) ∧ R.hi i = some (R.beta i + t * s) := by
  obtain ⟨t, -, ⟨N, hN⟩, -, ht⟩ := ppf_accuracy_partial E hE n hn hn1
  have hd : LrReport.dof m d = n := by
    unfold LrReport.dof
    rw [hm]
    push_cast
    ring
  have hn0 : (0 : ℝ) < n := by exact_mod_cast (by omega : 0 < n)
  have hc : ¬ (weights.contains none ∨ weights.length ≠ m) := by
    rintro (h | h)
    · exact hw1 (by simpa using h)
    · exact h hw
  obtain ⟨R, hR⟩ : ∃ R, LrReport.wlsReport S E (fun _ => t) weights target x y = some R := by
    unfold LrReport.wlsReport
    rw [if_neg hc]
    unfold LrReport.assemble LrReport.tAlpha
    rw [hd, if_neg (not_le.2 hn0)]
    exact ⟨_, rfl⟩
  refine ⟨t, R, N, ht, fun fuel hf => ?_, fun i s hs => ?_⟩
  · unfold wlsReport withQuantile
    rw [hd, hN fuel hf]
    simp only
    rw [hR]
  · unfold LrReport.wlsReport at hR
    rw [if_neg hc] at hR
    obtain ⟨-, hb, hse, -, -, hlo, hhi, -⟩ := LrReport.assemble_some hR
    rw [hse] at hs
    rw [hlo, hhi, hb]
    simp only [hs, Option.map_some, and_self]

/-- Three targets of which the last one weighs as much as four. -/
example : ∃ t R N, |tProb ((2 : ℕ) : ℝ) t .greater - 0.025| ≤ 1 / 10 ^ 12 ∧
    (∀ fuel, N < fuel → wlsReport LrReport.invSolver BetaTail.stdEnv fuel [some 1, some 1, some 4]
      (LrReport.full LrReport.exY) (LrReport.ones 3) LrReport.exY = some (some R)) ∧
    ∀ i s, R.stdErr i = some s → R.hi i = some (R.beta i + t * s) := by
  obtain ⟨t, R, N, h1, h2, h3⟩ := weighted_interval_partial LrReport.invSolver BetaTail.stdEnv BetaTail.stdEnv_standard
    [some 1, some 1, some 4] (LrReport.full LrReport.exY) (LrReport.ones 3) LrReport.exY 2 rfl le_rfl (by norm_num) rfl
    (by simp)
  exact ⟨t, R, N, h1.trans (by norm_num), h2, fun i s hs => (h3 i s hs).2⟩

end Verif.StudentPpf
