import Verif.Model.FromStats
import Verif.Props.BetaTail

/-!
# C143: a t test from the mean, variance and count of the second sample
-/

namespace Verif.TTest
open Verif.Pl Verif.BetaTail Verif.BetaTail.Spec

theorem ex_vals : vals ([some 0, some 2] : Col ℝ) = [0, 2] := rfl
theorem ex_mean : Spec.mean [0, 2] = 1 := by norm_num [Spec.mean]
theorem ex_var : Spec.sampleVar [0, 2] = 2 := by norm_num [Spec.sampleVar, Spec.mean]

/-- **C143.**  Given the mean, the sample variance and the number of values of another column, Welch's test from these
numbers is exactly Welch's test of the two columns. -/
theorem from_stats_welch (E : BetaEnv) (x y : Col ℝ) (alt : Alt) (hy : 2 ≤ (vals y).length) :
    ttestIndFromStats E x (Spec.mean (vals y)) (Spec.sampleVar (vals y)) (vals y).length alt false =
      ttestIndWelch E x y alt := by
  unfold ttestIndFromStats ttestIndWelch welchCount
  rw [mean_vals y hy, var1_vals y hy]
  simp only [if_neg (by omega : ¬ (vals y).length ≤ 1)]
  cases mean x <;> cases var1 x <;> rfl

/-- **C143.**  The same for the test with equal variances, whatever count is given. -/
theorem from_stats_student (E : BetaEnv) (x y : Col ℝ) (alt : Alt) (cnt : Nat) (hy : 2 ≤ (vals y).length) :
    ttestIndFromStats E x (Spec.mean (vals y)) (Spec.sampleVar (vals y)) cnt alt true =
      ttestIndEqualVar E x y alt := by
  unfold ttestIndFromStats ttestIndEqualVar
  rw [mean_vals y hy, var1_vals y hy]
  cases mean x <;> cases var1 x <;> rfl

example (E : BetaEnv) (alt : Alt) :
    ttestIndFromStats E [some 1, none, some 5] 1 2 2 alt false = ttestIndWelch E [some 1, none, some 5] [some 0, some 2] alt := by
  have h := from_stats_welch E [some 1, none, some 5] [some 0, some 2] alt (by simp [vals])
  rwa [ex_vals, ex_mean, ex_var] at h

/-- The number of degrees of freedom from the numbers given. -/
noncomputable def Spec.statsDf (l : List ℝ) (v2 : ℝ) (cnt : ℕ) : ℝ :=
  (Spec.sampleVar l / l.length + v2 / cnt) ^ 2 /
    ((Spec.sampleVar l / l.length) ^ 2 / (l.length - 1) + (v2 / cnt) ^ 2 / (cnt - 1))

/-- **C143.**  For any mean, any variance that is not negative and any count from two on, the statistic is the difference of
the means over `√(s₁²/n₁ + s₂²/n₂)` and the p-value is the tail probability of Student's distribution with the
Welch-Satterthwaite degrees of freedom, up to `3e-13`. -/
theorem from_stats_value (E : BetaEnv) (hE : Standard E) (x : Col ℝ) (m2 v2 : ℝ) (cnt : ℕ) (alt : Alt)
    (hx : 2 ≤ (vals x).length) (hc : 2 ≤ cnt) (hn : (vals x).length + cnt ≤ 10 ^ 20) (hv2 : 0 ≤ v2)
    (hv : 0 < Spec.sampleVar (vals x) + v2) :
    ∃ p, ttestIndFromStats E x m2 v2 cnt alt false =
        .ok ((Spec.mean (vals x) - m2) / √(Spec.sampleVar (vals x) / (vals x).length + v2 / cnt)) (some p) ∧
      |p - tProb (Spec.statsDf (vals x) v2 cnt)
        ((Spec.mean (vals x) - m2) / √(Spec.sampleVar (vals x) / (vals x).length + v2 / cnt)) alt| ≤ 3 / 10 ^ 13 := by
  have hx' : (2 : ℝ) ≤ (vals x).length := by exact_mod_cast hx
  have hc' : (2 : ℝ) ≤ cnt := by exact_mod_cast hc
  have hn' : ((vals x).length : ℝ) + cnt ≤ 10 ^ 20 := by exact_mod_cast hn
  have hs := sampleVar_nonneg (vals x) hx
  have hvx := div_nonneg hs (Nat.cast_nonneg (α := ℝ) (vals x).length)
  have hvy := div_nonneg hv2 (Nat.cast_nonneg (α := ℝ) cnt)
  have hpos : 0 < Spec.sampleVar (vals x) / (vals x).length + v2 / cnt := by
    rcases hs.lt_or_eq with h | h
    · have : 0 < Spec.sampleVar (vals x) / (vals x).length := div_pos h (by linarith)
      linarith
    · have : 0 < v2 / cnt := div_pos (by linarith) (by linarith)
      linarith
  obtain ⟨d1, d2⟩ := welch_df (m := (vals x).length - 1) (n := cnt - 1) hvx hvy hpos (by linarith) (by linarith)
  obtain ⟨p, h3, h4, _⟩ := t_p_value E hE (Spec.statsDf (vals x) v2 cnt)
    ((Spec.mean (vals x) - m2) / √(Spec.sampleVar (vals x) / (vals x).length + v2 / cnt)) d1 (d2.trans (by linarith)) alt
  refine ⟨p, ?_, h4⟩
  unfold ttestIndFromStats welchCount welchT
  rw [mean_vals x hx, var1_vals x hx]
  simp only [Bool.false_eq_true, if_false]
  rw [if_neg (by omega : ¬ cnt ≤ 1)]
  have hcount : count x = (vals x).length := rfl
  rw [hcount, if_neg (Real.sqrt_pos.2 hpos).ne']
  unfold Spec.statsDf at h3
  rw [h3]

example : ∃ p, ttestIndFromStats stdEnv [some 0, some 2] 3 0 10 .twoSided false = .ok (-2) (some p) := by
  obtain ⟨p, h, _⟩ := from_stats_value stdEnv stdEnv_standard [some 0, some 2] 3 0 10 .twoSided (by simp [vals]) (by norm_num)
    (by simp [vals]) (by norm_num) (by rw [ex_vals, ex_var]; norm_num)
  rw [ex_vals, ex_mean, ex_var] at h
  refine ⟨p, h.trans ?_⟩
  norm_num

/-- **C143 (errors).**  A count below two is an error for Welch's test, and a column with fewer than two values an error or a
panic. -/
theorem from_stats_refused (E : BetaEnv) (x : Col ℝ) (m2 v2 : ℝ) (cnt : ℕ) (alt : Alt) :
    (2 ≤ (vals x).length → cnt ≤ 1 → ttestIndFromStats E x m2 v2 cnt alt false = .err) ∧
    ((vals x).length < 2 → ttestIndFromStats E x m2 v2 cnt alt false = .panic) ∧
    ((vals x).length < 2 → ttestIndFromStats E x m2 v2 cnt alt true = .err) := by
  unfold ttestIndFromStats welchCount
  refine ⟨fun hx hc => ?_, fun hx => ?_, fun hx => ?_⟩
  · rw [mean_vals x hx, var1_vals x hx]
    simp only [Bool.false_eq_true, if_false]
    rw [if_pos hc]
  · have : var1 x = none := by unfold var1; rw [if_pos (by unfold count; exact hx)]
    rw [this]
    cases mean x <;> rfl
  · have : var1 x = none := by unfold var1; rw [if_pos (by unfold count; exact hx)]
    rw [this]
    cases mean x <;> rfl

example (E : BetaEnv) : ttestIndFromStats E [some 0, some 2] 3 0 1 .less false = .err :=
  (from_stats_refused E [some 0, some 2] 3 0 1 .less).1 (by simp [vals]) (by norm_num)

/-- **C143 (disagreement).**  With `equal_var=True` the count is ignored, so for a second sample of another size the
statistic is not Student's: two values 0 and 2 against mean 3, variance 0 and four values. -/
theorem from_stats_ignores_count (E : BetaEnv) (alt : Alt) :
    (∀ (x : Col ℝ) (m2 v2 : ℝ) (c c' : ℕ), ttestIndFromStats E x m2 v2 c alt true = ttestIndFromStats E x m2 v2 c' alt true) ∧
    Spec.mean [3, 3, 3, 3] = 3 ∧ Spec.sampleVar [3, 3, 3, 3] = 0 ∧
    (∃ p, ttestIndFromStats E [some 0, some 2] 3 0 4 alt true = .ok (-2) p) ∧ Spec.pooledT [0, 2] [3, 3, 3, 3] ≠ -2 := by
  refine ⟨fun _ _ _ _ _ => rfl, by norm_num [Spec.mean], by norm_num [Spec.sampleVar, Spec.mean], ?_,
    (student_unequal_wrong E alt).2.1⟩
  unfold ttestIndFromStats
  rw [mean_vals _ (by simp [vals]), var1_vals _ (by simp [vals])]
  rw [ex_vals, ex_mean, ex_var]
  unfold ttestInd
  have : √((2 + 0) / (count ([some 0, some 2] : Col ℝ) : ℝ)) = 1 := by
    rw [show (count ([some 0, some 2] : Col ℝ)) = 2 from rfl]
    norm_num
  simp only [this, if_true, one_ne_zero, if_false]
  exact ⟨_, by congr 1; norm_num⟩

end Verif.TTest
