import Verif.Lemmas.BetaNeg
import Verif.Lemmas.StudentTail
import Verif.Model.FTestP
import Verif.Props.LnGamma
import Verif.Props.FTest
import Verif.Props.Report
import Verif.Props.TTest

/-!
# p-values of the t tests, the regression report and the F test: theorems

The p-values are compared with the integrals of the densities of Student's and Fisher's distributions.
Rounding is not modelled. The number of rounds of the continued fraction and the test that ends it are
those of the code.
-/

namespace Verif.BetaTail

open MeasureTheory Set Verif.TTest Verif.Pl Verif.BetaFrac

namespace Spec

/-- Density of Student's distribution with `ν` degrees of freedom. -/
noncomputable def tDensity (ν τ : ℝ) : ℝ :=
  Real.Gamma ((ν + 1) / 2) / (√(ν * Real.pi) * Real.Gamma (ν / 2)) * (1 + τ ^ 2 / ν) ^ (-((ν + 1) / 2))

/-- Probability of a statistic at least as extreme as `t` under the null hypothesis. -/
noncomputable def tProb (ν t : ℝ) : Alt → ℝ
  | .less => ∫ τ in Iic t, tDensity ν τ
  | .greater => ∫ τ in Ici t, tDensity ν τ
  | .twoSided => ∫ τ in {τ | |t| ≤ |τ|}, tDensity ν τ

/-- Density of Fisher's distribution with `d1` and `d2` degrees of freedom, for positive arguments. -/
noncomputable def fDensity (d1 d2 u : ℝ) : ℝ :=
  Real.Gamma ((d1 + d2) / 2) / (Real.Gamma (d1 / 2) * Real.Gamma (d2 / 2)) *
    ((d1 / d2) ^ (d1 / 2) * u ^ (d1 / 2 - 1) * (1 + d1 * u / d2) ^ (-((d1 + d2) / 2)))

/-- Probability of a statistic of at least `x` under the null hypothesis. -/
noncomputable def fProb (d1 d2 x : ℝ) : ℝ := ∫ u in Ioi x, fDensity d1 d2 u

/-- The constants of the code (`src/stats_utils/mod.rs:21`, `f64::MIN_POSITIVE`) and its `ln_gamma`. -/
structure Standard (E : BetaEnv) : Prop where
  eps : E.eps = 0.0000000000000011102230246251565
  minPos : E.minPos = 1 / 2 ^ 1022
  lnGamma : E.lnGamma = LnGamma.lnGamma

/-- The side of the null hypothesis on which the statistic lies. -/
def OnSide (t : ℝ) : Alt → Prop
  | .less => t < 0
  | .greater => 0 < t
  | .twoSided => True

end Spec

open Spec

theorem Spec.Standard.near {E : BetaEnv} (h : Standard E) (a : ℝ) (ha : 0 < a) :
    |E.lnGamma a - Real.log (Real.Gamma a)| ≤ 1 / 10 ^ 16 := by
  rw [h.lnGamma]
  exact LnGamma.ln_gamma_accuracy a ha

theorem Spec.Standard.eps_le {E : BetaEnv} (h : Standard E) : E.eps ≤ 112 / 10 ^ 17 := by rw [h.eps]; norm_num

theorem Spec.Standard.fpmin_le {E : BetaEnv} (h : Standard E) : E.minPos / E.eps ≤ 1 / 10 ^ 21 := by
  rw [h.eps, h.minPos]
  have h1 : (1 : ℝ) / 2 ^ 1022 ≤ 1 / 2 ^ 200 :=
    div_le_div_of_nonneg_left zero_le_one (by positivity) (pow_le_pow_right₀ one_le_two (by norm_num))
  rw [div_le_iff₀ (by norm_num)]
  refine h1.trans ?_
  norm_num

/-- The specification is a probability density. -/
theorem t_density (ν : ℝ) (h : 0 < ν) : (∀ τ, 0 < tDensity ν τ) ∧ ∫ τ, tDensity ν τ = 1 := by
  refine ⟨fun τ => ?_, t_total h⟩
  unfold tDensity
  have g1 := Real.Gamma_pos_of_pos (show 0 < ν / 2 by positivity)
  have g2 := Real.Gamma_pos_of_pos (show 0 < (ν + 1) / 2 by positivity)
  have := Real.pi_pos
  positivity

theorem prob_greater (ν t : ℝ) : tProb ν t .greater = ∫ τ in Ioi t, td ν τ := integral_Ici_eq_integral_Ioi

theorem prob_less (ν t : ℝ) : tProb ν t .less = ∫ τ in Ioi (-t), td ν τ := by
  have := t_refl ν (-t)
  rw [neg_neg] at this
  exact this

theorem prob_two {ν : ℝ} (h : 0 < ν) (t : ℝ) : tProb ν t .twoSided = 2 * ∫ τ in Ioi |t|, td ν τ := by
  rcases eq_or_ne t 0 with rfl | ht
  · have e : {τ : ℝ | |(0 : ℝ)| ≤ |τ|} = univ := by ext τ; simp
    show ∫ τ in {τ : ℝ | |(0 : ℝ)| ≤ |τ|}, td ν τ = _
    rw [e, setIntegral_univ, t_total h, abs_zero, t_half h]
    norm_num
  · have ht0 := abs_pos.2 ht
    have e : {τ : ℝ | |t| ≤ |τ|} = Iic (-|t|) ∪ Ici |t| := by
      ext τ
      rw [mem_ofPred_eq, le_abs]
      constructor
      · rintro (h | h)
        · exact Or.inr h
        · exact Or.inl (by simp only [mem_Iic]; linarith)
      · rintro (h | h)
        · exact Or.inr (by simp only [mem_Iic] at h; linarith)
        · exact Or.inl h
    show ∫ τ in {τ : ℝ | |t| ≤ |τ|}, td ν τ = _
    rw [e, setIntegral_union _ measurableSet_Ici (td_int h).integrableOn (td_int h).integrableOn, t_refl,
      integral_Ici_eq_integral_Ioi]
    · ring
    · rw [Set.disjoint_left]
      intro τ h1 h2
      simp only [mem_Iic, mem_Ici] at h1 h2
      linarith

theorem tail_bounds {ν : ℝ} (h : 0 < ν) {t : ℝ} (ht : 0 ≤ t) :
    0 ≤ ∫ τ in Ioi t, td ν τ ∧ ∫ τ in Ioi t, td ν τ ≤ 1 / 2 := by
  have hp : ∀ τ, 0 ≤ td ν τ := fun τ => ((t_density ν h).1 τ).le
  refine ⟨integral_nonneg hp, ?_⟩
  rw [← t_half h]
  exact setIntegral_mono_set (td_int h).integrableOn (Filter.Eventually.of_forall hp)
    (Filter.Eventually.of_forall (Ioi_subset_Ioi ht))

/-- **C136.** The p-value of a t test with `1 ≤ ν ≤ 10^20` degrees of freedom is the probability of a statistic at
least as extreme, up to `3 * 10^-13`; for a statistic beyond `√(3ν/(ν+2))` on the side of the alternative, the error
is at most `3 * 10^-13` times the p-value, however small that is. -/
theorem t_p_value (E : BetaEnv) (hE : Standard E) (ν t : ℝ) (hν : 1 ≤ ν) (hν1 : ν ≤ 10 ^ 20) (alt : Alt) :
    ∃ p, pOf E t ν alt = some p ∧ |p - tProb ν t alt| ≤ 3 / 10 ^ 13 ∧
      (3 * ν / (ν + 2) < t ^ 2 → OnSide t alt → |p - tProb ν t alt| ≤ 3 / 10 ^ 13 * tProb ν t alt) := by
  have h0 : 0 < ν := by linarith
  have acc := fun s => student_accuracy E hE.near hE.eps_le hE.fpmin_le hν hν1 s
  have hb := tail_bounds h0 (abs_nonneg t)
  cases alt with
  | less =>
    obtain ⟨p, h1, h2⟩ := acc (-t)
    rw [abs_neg, neg_sq] at h2
    refine ⟨p, h1, ?_, ?_⟩
    · rw [prob_less]
      refine h2.trans ?_
      split_ifs <;> linarith
    · intro h3 h4
      rw [prob_less]
      rw [if_pos h3, abs_of_neg (show t < 0 from h4)] at h2
      exact h2
  | greater =>
    obtain ⟨p, h1, h2⟩ := acc t
    refine ⟨p, h1, ?_, ?_⟩
    · rw [prob_greater]
      refine h2.trans ?_
      split_ifs <;> linarith
    · intro h3 h4
      rw [prob_greater]
      rw [if_pos h3, abs_of_pos (show 0 < t from h4)] at h2
      exact h2
  | twoSided =>
    obtain ⟨p, h1, h2⟩ := acc |t|
    rw [abs_abs, sq_abs] at h2
    refine ⟨2 * p, by simp [pOf, h1], ?_, ?_⟩
    · rw [prob_two h0, ← mul_sub, abs_mul, abs_two]
      split_ifs at h2 <;> linarith
    · intro h3 _
      rw [prob_two h0, ← mul_sub, abs_mul, abs_two]
      rw [if_pos h3] at h2
      linarith

/-- An environment with the constants of the code. -/
noncomputable def stdEnv : BetaEnv :=
  ⟨0.0000000000000011102230246251565, 1 / 2 ^ 1022, LnGamma.lnGamma⟩

theorem stdEnv_standard : Standard stdEnv := ⟨rfl, rfl, rfl⟩

example : ∃ p, pOf stdEnv 30 5 .greater = some p ∧ |p - tProb 5 30 .greater| ≤ 3 / 10 ^ 13 * tProb 5 30 .greater := by
  obtain ⟨p, h1, _, h3⟩ := t_p_value stdEnv stdEnv_standard 5 30 (by norm_num) (by norm_num) .greater
  exact ⟨p, h1, h3 (by norm_num) (by norm_num [OnSide])⟩

/-- **C136.** The p-value of `ttest_1samp`. -/
theorem one_sample_p_value (E : BetaEnv) (hE : Standard E) (x : Col ℝ) (pop : ℝ) (alt : Alt)
    (hx : 2 ≤ (vals x).length) (hx1 : (vals x).length ≤ 10 ^ 20) (hv : 0 < TTest.Spec.sampleVar (vals x)) :
    ∃ t p, ttestOneSample E x pop alt = .ok t (some p) ∧
      t = (TTest.Spec.mean (vals x) - pop) / √(TTest.Spec.sampleVar (vals x) / (vals x).length) ∧
      |p - tProb ((vals x).length - 1) t alt| ≤ 3 / 10 ^ 13 := by
  obtain ⟨p, h1, h2⟩ := one_sample_correct E x pop alt hx hv
  have hx' : (2 : ℝ) ≤ (vals x).length := by exact_mod_cast hx
  have hx1' : ((vals x).length : ℝ) ≤ 10 ^ 20 := by exact_mod_cast hx1
  obtain ⟨q, h3, h4, _⟩ := t_p_value E hE ((vals x).length - 1) _ (by linarith) (by linarith) alt
  rw [h2] at h3
  cases h3
  exact ⟨_, _, h1, rfl, h4⟩

example : 2 ≤ (vals ([some 0, none, some 2] : Col ℝ)).length ∧ (vals ([some 0, none, some 2] : Col ℝ)).length ≤ 10 ^ 20 ∧
    0 < TTest.Spec.sampleVar [0, 2] := by
  refine ⟨by simp [vals], by simp [vals], ?_⟩
  norm_num [TTest.Spec.sampleVar, TTest.Spec.mean]

/-- Welch's degrees of freedom lie between the smaller and the sum of those of the samples. -/
theorem welch_df {u v m n : ℝ} (hu : 0 ≤ u) (hv : 0 ≤ v) (huv : 0 < u + v) (hm : 1 ≤ m) (hn : 1 ≤ n) :
    1 ≤ (u + v) ^ 2 / (u ^ 2 / m + v ^ 2 / n) ∧ (u + v) ^ 2 / (u ^ 2 / m + v ^ 2 / n) ≤ m + n := by
  have hm0 : 0 < m := by linarith
  have hn0 : 0 < n := by linarith
  have hd : 0 < u ^ 2 / m + v ^ 2 / n := by
    rcases hu.lt_or_eq with h | h
    · positivity
    · rw [← h] at huv
      have : 0 < v := by linarith
      positivity
  constructor
  · rw [le_div_iff₀ hd, one_mul]
    have h1 : u ^ 2 / m ≤ u ^ 2 := div_le_self (sq_nonneg u) hm
    have h2 : v ^ 2 / n ≤ v ^ 2 := div_le_self (sq_nonneg v) hn
    nlinarith [mul_nonneg hu hv]
  · rw [div_le_iff₀ hd]
    have e : (m + n) * (u ^ 2 / m + v ^ 2 / n) = (u + v) ^ 2 + (n * u - m * v) ^ 2 / (m * n) := by
      field_simp
      ring
    rw [e]
    have : 0 ≤ (n * u - m * v) ^ 2 / (m * n) := by positivity
    linarith

/-- **C136.** The p-value of the default `ttest_ind` is the tail probability of Welch's statistic under Student's
distribution with the Welch-Satterthwaite degrees of freedom. -/
theorem welch_p_value (E : BetaEnv) (hE : Standard E) (x y : Col ℝ) (alt : Alt)
    (hx : 2 ≤ (vals x).length) (hy : 2 ≤ (vals y).length) (hxy : (vals x).length + (vals y).length ≤ 10 ^ 20)
    (hv : 0 < TTest.Spec.sampleVar (vals x) / (vals x).length + TTest.Spec.sampleVar (vals y) / (vals y).length) :
    ∃ p, ttestIndWelch E x y alt = .ok (TTest.Spec.welchStat (vals x) (vals y)) (some p) ∧
      |p - tProb (TTest.Spec.welchDf (vals x) (vals y)) (TTest.Spec.welchStat (vals x) (vals y)) alt| ≤ 3 / 10 ^ 13 := by
  obtain ⟨p, h1, h2⟩ := welch_correct E x y alt hx hy hv
  have hx' : (2 : ℝ) ≤ (vals x).length := by exact_mod_cast hx
  have hy' : (2 : ℝ) ≤ (vals y).length := by exact_mod_cast hy
  have hxy' : ((vals x).length : ℝ) + (vals y).length ≤ 10 ^ 20 := by exact_mod_cast hxy
  have hvx := div_nonneg (sampleVar_nonneg _ hx) (Nat.cast_nonneg (α := ℝ) (vals x).length)
  have hvy := div_nonneg (sampleVar_nonneg _ hy) (Nat.cast_nonneg (α := ℝ) (vals y).length)
  obtain ⟨d1, d2⟩ := welch_df (m := (vals x).length - 1) (n := (vals y).length - 1) hvx hvy hv (by linarith) (by linarith)
  obtain ⟨q, h3, h4, _⟩ := t_p_value E hE (TTest.Spec.welchDf (vals x) (vals y))
    (TTest.Spec.welchStat (vals x) (vals y)) d1 (d2.trans (by linarith)) alt
  rw [h2] at h3
  cases h3
  exact ⟨_, h1, h4⟩

example : 2 ≤ (vals ([some 0, none, some 2] : Col ℝ)).length ∧ 2 ≤ (vals ([some 1, some 5, none] : Col ℝ)).length ∧
    (vals ([some 0, none, some 2] : Col ℝ)).length + (vals ([some 1, some 5, none] : Col ℝ)).length ≤ 10 ^ 20 ∧
    0 < TTest.Spec.sampleVar [0, 2] / 2 + TTest.Spec.sampleVar [1, 5] / 2 := by
  refine ⟨by simp [vals], by simp [vals], by simp [vals], ?_⟩
  norm_num [TTest.Spec.sampleVar, TTest.Spec.mean]

/-- **C136.** The p-value of every coefficient in `lin_reg_report` is the two-sided tail probability of its `t` with
`n - d` degrees of freedom. -/
theorem report_p_value {n d : ℕ} (S : LinReg.Solver ℝ) (E : BetaEnv) (hE : Standard E) (ppf : ℝ → ℝ) (kind : LrReport.StdErr)
    (target : Col ℝ) (x : Matrix (Fin n) (Fin d) ℝ) (y : Fin n → ℝ) (R : LrReport.Report d)
    (hR : LrReport.linRegReport S E ppf kind target x y = some R) (hn : n ≤ 10 ^ 20) (i : Fin d) (s : ℝ)
    (hs : R.stdErr i = some s) (hs0 : s ≠ 0) :
    ∃ p, R.p i = some p ∧ |p - tProb ((n : ℝ) - d) (R.beta i / s) .twoSided| ≤ 3 / 10 ^ 13 := by
  have h1 := ((LrReport.report_inference S E ppf kind target x y R hR i s hs).1 hs0).2
  have h2 : ¬ n ≤ d := fun h => by
    rw [(LrReport.report_panics_iff S E ppf kind target x y).2 h] at hR
    simp at hR
  have h3 : (d : ℝ) + 1 ≤ n := by exact_mod_cast (by omega : d + 1 ≤ n)
  have h4 : (n : ℝ) ≤ 10 ^ 20 := by exact_mod_cast hn
  have h5 : (0 : ℝ) ≤ d := Nat.cast_nonneg d
  obtain ⟨q, h6, h7, _⟩ := t_p_value E hE ((n : ℝ) - d) (R.beta i / s) (by linarith) (by linarith) .twoSided
  exact ⟨q, by rw [h1, h6], h7⟩

/-- The constant model on the targets 1, 2 and 6: `t` is 3 over its standard error, on two degrees of freedom. -/
example (ppf : ℝ → ℝ) : ∃ R p, LrReport.linRegReport LrReport.invSolver stdEnv ppf .se (LrReport.full LrReport.exY)
    (LrReport.ones 3) LrReport.exY = some R ∧ R.p 0 = some p ∧
    |p - tProb (((3 : ℕ) : ℝ) - (1 : ℕ)) (R.beta 0 / √(14 / 2 / 3)) .twoSided| ≤ 3 / 10 ^ 13 := by
  obtain ⟨R, hR⟩ := LrReport.ex_some stdEnv ppf .se
  have hs : R.stdErr 0 = some √(14 / 2 / 3) := by
    rw [(LrReport.report_constant_is_ttest LrReport.invSolver stdEnv ppf LrReport.exY R hR (by omega) 0 0).2.1,
      LrReport.exY_sst]
    norm_num
  obtain ⟨p, h1, h2⟩ := report_p_value _ stdEnv stdEnv_standard ppf .se _ _ _ R hR (by norm_num) 0 _ hs
    (Real.sqrt_pos.2 (by norm_num)).ne'
  exact ⟨R, p, hR, h1, h2⟩

/-- **C136.** The p-values of the weighted report: the same, with the weighted coefficients and standard errors. -/
theorem wls_report_p_value {n d : ℕ} (S : LinReg.Solver ℝ) (E : BetaEnv) (hE : Standard E) (ppf : ℝ → ℝ) (w : Fin n → ℝ)
    (hw : ∀ r, 0 ≤ w r) (target : Col ℝ) (x : Matrix (Fin n) (Fin d) ℝ) (y : Fin n → ℝ) (R : LrReport.Report d)
    (hx : LrReport.Spec.Determined w x) (hR : LrReport.wlsReport S E ppf (LrReport.full w) target x y = some R)
    (hn : d < n) (hn1 : n ≤ 10 ^ 20) (i : Fin d) (s : ℝ) (hs : R.stdErr i = some s) (hs0 : s ≠ 0) :
    ∃ p, R.p i = some p ∧ |p - tProb ((n : ℝ) - d) (R.beta i / s) .twoSided| ≤ 3 / 10 ^ 13 := by
  obtain ⟨R', hR'⟩ : ∃ R', LrReport.linRegReport S E ppf .se target (LrReport.scaleX w x) (LrReport.scaleY w y) =
      some R' := by
    rw [← Option.isSome_iff_exists, Option.isSome_iff_ne_none, ne_eq, LrReport.report_panics_iff]
    omega
  obtain ⟨h1, h2, _, h4, _⟩ := LrReport.wls_is_scaled_ols S E ppf w hw target target x y R R' hx hR hR'
  rw [h2] at hs
  rw [h1, h4]
  exact report_p_value S E hE ppf .se target _ _ R' hR' hn1 i s hs hs0

/-- Weights and rows meeting the hypotheses. -/
example (ppf : ℝ → ℝ) : ∃ R, LrReport.wlsReport LrReport.invSolver stdEnv ppf (LrReport.full ![1, 1, 4])
    (LrReport.full LrReport.exY) (LrReport.ones 3) LrReport.exY = some R ∧
    LrReport.Spec.Determined ![1, 1, 4] (LrReport.ones 3) ∧ ∀ r : Fin 3, (0 : ℝ) ≤ (![1, 1, 4] : Fin 3 → ℝ) r := by
  have hw : ∀ r : Fin 3, (0 : ℝ) ≤ (![1, 1, 4] : Fin 3 → ℝ) r := by intro r; fin_cases r <;> simp
  have hR : ∃ R, LrReport.wlsReport LrReport.invSolver stdEnv ppf (LrReport.full ![1, 1, 4])
      (LrReport.full LrReport.exY) (LrReport.ones 3) LrReport.exY = some R := by
    rw [LrReport.wls_some]
    unfold LrReport.assemble LrReport.tAlpha LrReport.dof
    rw [if_neg (by norm_num)]
    exact ⟨_, rfl⟩
  exact ⟨_, hR.choose_spec, LrReport.ones_determined _ 0 (by simp), hw⟩

/-- **C136 (part).** `ttest_ind(equal_var=True)` on samples of equal length. Missing: samples of different length, where the
statistic is not the pooled one (C66). -/
theorem student_p_value_partial (E : BetaEnv) (hE : Standard E) (x y : Col ℝ) (alt : Alt)
    (hx : 2 ≤ (vals x).length) (hxy : (vals x).length = (vals y).length) (hx1 : (vals x).length ≤ 10 ^ 19)
    (hv : 0 < TTest.Spec.sampleVar (vals x) + TTest.Spec.sampleVar (vals y)) :
    ∃ p, ttestIndEqualVar E x y alt = .ok (TTest.Spec.pooledT (vals x) (vals y)) (some p) ∧
      |p - tProb ((vals x).length + (vals y).length - 2) (TTest.Spec.pooledT (vals x) (vals y)) alt| ≤ 3 / 10 ^ 13 := by
  have hx' : (2 : ℝ) ≤ (vals x).length := by exact_mod_cast hx
  have hx1' : ((vals x).length : ℝ) ≤ 10 ^ 19 := by exact_mod_cast hx1
  rw [student_equal_counts_partial E x y alt hx hxy hv, ← hxy]
  obtain ⟨q, h3, h4, _⟩ := t_p_value E hE ((vals x).length + (vals x).length - 2) (TTest.Spec.pooledT (vals x) (vals y))
    (by linarith) (by linarith) alt
  exact ⟨q, by rw [h3], h4⟩

example : 2 ≤ (vals ([some 0, none, some 2] : Col ℝ)).length ∧
    (vals ([some 0, none, some 2] : Col ℝ)).length = (vals ([some 1, some 5] : Col ℝ)).length ∧
    0 < TTest.Spec.sampleVar [0, 2] + TTest.Spec.sampleVar [1, 5] := by
  refine ⟨by simp [vals], by simp [vals], ?_⟩
  norm_num [TTest.Spec.sampleVar, TTest.Spec.mean]

/-! ## Fisher's distribution -/

theorem f_const {d1 d2 : ℝ} (x : ℝ) (h1 : 0 < d1) (h2 : 0 < d2) (hx : 0 ≤ x) :
    fProb d1 d2 x = J (d2 / 2) (d1 / 2) (d2 / (d1 * x + d2)) / B (d2 / 2) (d1 / 2) := by
  unfold fProb fDensity
  rw [integral_const_mul, F_tail h1 h2 hx]
  have g1 := Real.Gamma_pos_of_pos (show 0 < d1 / 2 by positivity)
  have g2 := Real.Gamma_pos_of_pos (show 0 < d2 / 2 by positivity)
  have g3 := Real.Gamma_pos_of_pos (show 0 < (d1 + d2) / 2 by positivity)
  unfold B
  rw [show d2 / 2 + d1 / 2 = (d1 + d2) / 2 by ring]
  field_simp

/-- The specification is a probability density. -/
theorem f_density (d1 d2 : ℝ) (h1 : 0 < d1) (h2 : 0 < d2) : (∀ u, 0 < u → 0 < fDensity d1 d2 u) ∧ fProb d1 d2 0 = 1 := by
  have g1 := Real.Gamma_pos_of_pos (show 0 < d1 / 2 by positivity)
  have g2 := Real.Gamma_pos_of_pos (show 0 < d2 / 2 by positivity)
  have g3 := Real.Gamma_pos_of_pos (show 0 < (d1 + d2) / 2 by positivity)
  refine ⟨fun u hu => ?_, ?_⟩
  · unfold fDensity
    positivity
  · rw [f_const 0 h1 h2 le_rfl, mul_zero, zero_add, div_self h2.ne', J_one (by positivity) (by positivity),
      div_self (B_pos (by positivity) (by positivity)).ne']

theorem f_bounds {d1 d2 x : ℝ} (h1 : 0 < d1) (h2 : 0 < d2) (hx : 0 ≤ x) : 0 ≤ fProb d1 d2 x ∧ fProb d1 d2 x ≤ 1 := by
  have ha : 0 < d2 / 2 := by positivity
  have hb : 0 < d1 / 2 := by positivity
  have hd : 0 < d1 * x + d2 := by positivity
  have hw1 : d2 / (d1 * x + d2) ≤ 1 := by rw [div_le_one hd]; nlinarith
  have hw0 : 0 ≤ d2 / (d1 * x + d2) := by positivity
  have hB := B_pos ha hb
  have nn : ∀ (a b w : ℝ), w ≤ 1 → 0 ≤ J a b w := by
    intro a b w hw
    refine setIntegral_nonneg measurableSet_Ioo fun u hu => ?_
    have : 0 < 1 - u := by linarith [hu.2]
    exact mul_nonneg (Real.rpow_nonneg hu.1.le _) (Real.rpow_nonneg this.le _)
  have hadd := J_add ha hb hw0 hw1
  have n1 := nn (d2 / 2) (d1 / 2) _ hw1
  have n2 := nn (d1 / 2) (d2 / 2) (1 - d2 / (d1 * x + d2)) (by linarith)
  rw [f_const x h1 h2 hx]
  refine ⟨div_nonneg n1 hB.le, ?_⟩
  rw [div_le_one hB]
  linarith

/-- **C137 (part).** The p-value function of the F test for at most 201 groups. The absolute error is at most
`3 * 10^-13`, and for a statistic beyond `d2 (d1 + 2) / (d1 (d2 + 2))` the error is that small relative to the p-value.
Missing: more groups, where the 140 rounds of the continued fraction may not be enough. -/
theorem f_p_value_partial (E : BetaEnv) (hE : Standard E) (x d1 d2 : ℝ) (hx : 0 ≤ x) (h1 : 1 ≤ d1) (h1' : d1 ≤ 200)
    (h2 : 1 ≤ d2) (h3 : d1 + d2 ≤ 10 ^ 20) :
    ∃ p, fisherSf E x d1 d2 = some p ∧ |p - fProb d1 d2 x| ≤ 3 / 10 ^ 13 ∧
      (d2 * (d1 + 2) / (d1 * (d2 + 2)) < x → |p - fProb d1 d2 x| ≤ 3 / 10 ^ 13 * fProb d1 d2 x) := by
  have hd : 0 < d1 * x + d2 := by nlinarith
  have e : 1 - d1 * x / (d1 * x + d2) = d2 / (d1 * x + d2) := by field_simp; ring
  have hw1 : d2 / (d1 * x + d2) ≤ 1 := by rw [div_le_one hd]; nlinarith
  have hw0 : 0 ≤ d2 / (d1 * x + d2) := by positivity
  obtain ⟨p, hp, hacc⟩ := checked_accuracy (a := d2 / 2) (b := d1 / 2) E hE.near hE.eps_le hE.fpmin_le (by linarith)
    (by linarith) (by linarith) (by norm_num at h3 ⊢; linarith) hw0 hw1
  have hfb := f_bounds (by linarith : 0 < d1) (by linarith : 0 < d2) hx
  rw [← f_const x (by linarith) (by linarith) hx] at hacc
  refine ⟨p, ?_, ?_, ?_⟩
  · unfold fisherSf
    rw [if_neg (not_lt.2 hx), e]
    exact hp
  · refine hacc.trans ?_
    split_ifs <;> linarith
  · intro h
    rwa [if_pos] at hacc
    rw [div_lt_iff₀ (by positivity)] at h
    rw [div_lt_div_iff₀ hd (by linarith)]
    nlinarith

example : ∃ p, fisherSf stdEnv 9 3 40 = some p ∧ |p - fProb 3 40 9| ≤ 3 / 10 ^ 13 * fProb 3 40 9 := by
  obtain ⟨p, h1, _, h3⟩ := f_p_value_partial stdEnv stdEnv_standard 9 3 40 (by norm_num) (by norm_num) (by norm_num)
    (by norm_num) (by norm_num)
  exact ⟨p, h1, h3 (by norm_num)⟩

section
open Verif.FTest Verif.FTest.Spec Verif.Chi2.Spec

/-- **C137 (part).** `f_test` on complete data with at most 201 groups returns the ratio of the mean squares and its tail
probability under Fisher's distribution with `k - 1` and `n - k` degrees of freedom. -/
theorem f_test_p_value_partial {κ : Type} [DecidableEq κ] (E : BetaEnv) (hE : Standard E) (rows : List (κ × ℝ)) (ks : List κ)
    (hk : Levels (rows.map Prod.fst) ks) (h2 : 2 ≤ ks.length) (h3 : ks.length ≤ 201) (hn : ks.length < rows.length)
    (hn1 : rows.length ≤ 10 ^ 20) (hw : ssw rows ks ≠ 0) :
    ∃ f p, fTestP E (lift rows) (ks.map some) = .value (f, some p) ∧
      f = (ssb rows ks / ((ks.length : ℝ) - 1)) / (ssw rows ks / ((rows.length : ℝ) - ks.length)) ∧
      |p - fProb ((ks.length : ℝ) - 1) ((rows.length : ℝ) - ks.length) f| ≤ 3 / 10 ^ 13 := by
  obtain ⟨b0, w0, _⟩ := ss_decomposition rows ks hk
  have hval := (f_test_textbook_partial rows ks hk).2.2 h2 (by omega) hw
  have hnS := nSamples_lift rows ks hk
  have hc : (ks.map some).countP (fun k => k.isSome) = ks.length := by
    rw [List.countP_map, List.countP_eq_length.2]
    intro k _
    rfl
  have r2 : (2 : ℝ) ≤ ks.length := by exact_mod_cast h2
  have r3 : (ks.length : ℝ) ≤ 201 := by exact_mod_cast h3
  have r4 : (ks.length : ℝ) + 1 ≤ rows.length := by exact_mod_cast hn
  have r5 : (rows.length : ℝ) ≤ 10 ^ 20 := by exact_mod_cast hn1
  obtain ⟨p, h4, h5, _⟩ := f_p_value_partial E hE
    ((ssb rows ks / ((ks.length : ℝ) - 1)) / (ssw rows ks / ((rows.length : ℝ) - ks.length)))
    ((ks.length : ℝ) - 1) ((rows.length : ℝ) - ks.length)
    (div_nonneg (div_nonneg b0 (by linarith)) (div_nonneg w0 (by linarith)))
    (by linarith) (by linarith) (by linarith) (by linarith)
  refine ⟨_, p, ?_, rfl, h5⟩
  unfold fTestP
  simp only [hval, hnS, hc]
  have e1 : ((rows.length - ks.length + (ks.length - rows.length) : Nat) : ℝ) = (rows.length : ℝ) - (ks.length : ℝ) := by
    rw [show rows.length - ks.length + (ks.length - rows.length) = rows.length - ks.length from by omega,
      Nat.cast_sub (by omega)]
  have e2 : ((ks.length - 1 + (1 - ks.length) : Nat) : ℝ) = (ks.length : ℝ) - 1 := by
    rw [show ks.length - 1 + (1 - ks.length) = ks.length - 1 from by omega, Nat.cast_sub (by omega), Nat.cast_one]
  rw [e1, e2, h4]

example : Levels ([(0, (1 : ℝ)), (0, 3), (1, 5), (1, 7)].map Prod.fst) [0, 1] ∧
    ssw [(0, (1 : ℝ)), (0, 3), (1, 5), (1, 7)] [0, 1] ≠ 0 := by
  refine ⟨⟨by decide, by intro x; simp⟩, ?_⟩
  norm_num [ssw, ss, FTest.Spec.mean, FTest.Spec.vals]

end

/-- A statistic of one with equal degrees of freedom is the median. -/
theorem f_median {d : ℝ} (h : 0 < d) : fProb d d 1 = 1 / 2 := by
  have hd : 0 < d / 2 := by positivity
  have e : d / (d * 1 + d) = 1 / 2 := by field_simp; norm_num
  have h1 := J_add hd hd (x := 1 / 2) (by norm_num) (by norm_num)
  rw [show (1 : ℝ) - 1 / 2 = 1 / 2 by norm_num] at h1
  rw [f_const 1 h h zero_le_one, e, div_eq_iff (B_pos hd hd).ne']
  linarith

/-- **C137, disagreement.** With `10^8` degrees of freedom on both sides and a statistic of one, where the tail probability is
one half, the 140 rounds are exhausted far from the limit and the p-value is below `-1/3`. -/
theorem f_p_value_negative (E : BetaEnv) (hE : Standard E) :
    (∃ p, fisherSf E 1 (10 ^ 8) (10 ^ 8) = some p ∧ p < -(1 / 3)) ∧ fProb (10 ^ 8) (10 ^ 8) 1 = 1 / 2 :=
  ⟨fisher_negative E hE.near hE.eps hE.minPos, f_median (by norm_num)⟩

example : ∃ p, fisherSf stdEnv 1 (10 ^ 8) (10 ^ 8) = some p ∧ p < 0 := by
  obtain ⟨p, h1, h2⟩ := (f_p_value_negative stdEnv stdEnv_standard).1
  exact ⟨p, h1, by linarith⟩

end Verif.BetaTail
