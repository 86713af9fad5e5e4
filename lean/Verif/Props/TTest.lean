import Verif.Model.TTest
import Mathlib.Tactic.Linarith
import Mathlib.Tactic.FieldSimp
import Mathlib.Tactic.NormNum
import Mathlib.Tactic.Positivity

/-!
# t tests: statistic, p-value symmetries
-/

namespace Verif.TTest
open Verif.Pl

namespace Spec

/-- Arithmetic mean of a sample. -/
noncomputable def mean (l : List ℝ) : ℝ := l.sum / l.length

/-- Unbiased sample variance. -/
noncomputable def sampleVar (l : List ℝ) : ℝ := (l.map fun v => (v - mean l) ^ 2).sum / (l.length - 1)

/-- Student's two-sample statistic with the pooled variance. -/
noncomputable def pooledT (l1 l2 : List ℝ) : ℝ :=
  let n1 : ℝ := l1.length
  let n2 : ℝ := l2.length
  let sp2 := ((n1 - 1) * sampleVar l1 + (n2 - 1) * sampleVar l2) / (n1 + n2 - 2)
  (mean l1 - mean l2) / √(sp2 * (1 / n1 + 1 / n2))

/-- Welch's statistic. -/
noncomputable def welchStat (l1 l2 : List ℝ) : ℝ :=
  (mean l1 - mean l2) / √(sampleVar l1 / l1.length + sampleVar l2 / l2.length)

/-- Welch-Satterthwaite degrees of freedom. -/
noncomputable def welchDf (l1 l2 : List ℝ) : ℝ :=
  (sampleVar l1 / l1.length + sampleVar l2 / l2.length) ^ 2 /
    ((sampleVar l1 / l1.length) ^ 2 / (l1.length - 1) + (sampleVar l2 / l2.length) ^ 2 / (l2.length - 1))

/-- The other tail. -/
def flip : Alt → Alt
  | .twoSided => .twoSided
  | .less => .greater
  | .greater => .less

end Spec

/-! ## Reading the columns -/

theorem mean_vals (x : Col ℝ) (h : 2 ≤ (vals x).length) : Pl.mean x = some (Spec.mean (vals x)) := by
  have : count x ≠ 0 := by unfold count; omega
  simp only [Pl.mean, if_neg this]; rfl

theorem var1_vals (x : Col ℝ) (h : 2 ≤ (vals x).length) : var1 x = some (Spec.sampleVar (vals x)) := by
  have : ¬ count x < 2 := by unfold count; omega
  simp only [var1, if_neg this]; rfl

theorem sampleVar_nonneg (l : List ℝ) (h : 2 ≤ l.length) : 0 ≤ Spec.sampleVar l := by
  unfold Spec.sampleVar
  apply div_nonneg
  · exact List.sum_nonneg (by
      intro v hv
      obtain ⟨u, _, rfl⟩ := List.mem_map.1 hv
      exact sq_nonneg _)
  · have : (2 : ℝ) ≤ l.length := by exact_mod_cast h
    linarith

/-! ## The p-value function -/

/-- The regularised beta function is evaluated exactly at its right end. -/
theorem betaReg_one (E : BetaEnv) (a b : ℝ) (ha : 0 < a) (hb : 0 < b) : checkedBetaReg E a b 1 = some 1 := by
  unfold checkedBetaReg
  rw [if_neg (not_le.2 ha), if_neg (not_le.2 hb), if_neg (by simp)]
  have : (1 : ℝ) ≥ (a + 1) / (a + b + 2) := by
    rw [ge_iff_le, div_le_one (by linarith)]; linarith
  simp [this]

/-- With positive degrees of freedom the incomplete beta function gets legal arguments. -/
theorem betaReg_isSome (E : BetaEnv) (t df : ℝ) (h : 0 < df) :
    ∃ i, checkedBetaReg E (df / 2) (1 / 2) (df / (df + t * t)) = some i := by
  unfold checkedBetaReg
  have hd : 0 < df + t * t := by nlinarith [mul_self_nonneg t]
  rw [if_neg (not_le.2 (by linarith)), if_neg (by norm_num)]
  rw [if_neg (by
    rw [not_not]
    exact ⟨by positivity, (div_le_one hd).2 (by nlinarith [mul_self_nonneg t])⟩)]
  dsimp only
  split <;> exact ⟨_, rfl⟩

/-- **C66.** The two one-sided p-values add up to one, for every statistic and every positive number of
degrees of freedom, whatever the log-gamma approximation and the tolerance are. -/
theorem one_sided_sum (E : BetaEnv) (t df : ℝ) (h : 0 < df) :
    ∃ p q, pOf E t df .less = some p ∧ pOf E t df .greater = some q ∧ p + q = 1 := by
  obtain ⟨i, hi⟩ := betaReg_isSome E t df h
  have hn : -t * -t = t * t := by ring
  rcases lt_trichotomy t 0 with ht | ht | ht
  · refine ⟨1 / 2 * i, 1 - 1 / 2 * i, ?_, ?_, by ring⟩
    · simp only [pOf, studentSf, hn, hi]; rw [if_neg (by linarith)]
    · simp only [pOf, studentSf, hi]; rw [if_pos ht.le]
  · subst ht
    have h1 : checkedBetaReg E (df / 2) (1 / 2) (df / (df + 0 * 0)) = some 1 := by
      rw [mul_zero, add_zero, div_self h.ne']
      exact betaReg_one E _ _ (by linarith) (by norm_num)
    refine ⟨1 / 2, 1 / 2, ?_, ?_, by norm_num⟩
    · simp only [pOf, studentSf, neg_zero, h1]; norm_num
    · simp only [pOf, studentSf, h1]; norm_num
  · refine ⟨1 - 1 / 2 * i, 1 / 2 * i, ?_, ?_, by ring⟩
    · simp only [pOf, studentSf, hn, hi]; rw [if_pos (by linarith)]
    · simp only [pOf, studentSf, hi]; rw [if_neg (by linarith)]

example : (0 : ℝ) < 7 := by norm_num

/-- **C66.** The two-sided p-value is twice the one-sided p-value of the side the statistic lies on. -/
theorem two_sided_double (E : BetaEnv) (t df : ℝ) (h : 0 < df) :
    ∃ p, pOf E t df (if 0 ≤ t then .greater else .less) = some p ∧
      pOf E t df .twoSided = some (2 * p) := by
  obtain ⟨i, hi⟩ := betaReg_isSome E |t| df h
  by_cases ht : 0 ≤ t
  · rw [if_pos ht, abs_of_nonneg ht] at *
    simp only [pOf, studentSf, abs_of_nonneg ht, hi]
    exact ⟨_, rfl, rfl⟩
  · rw [if_neg ht]
    push Not at ht
    rw [abs_of_neg ht] at hi
    simp only [pOf, studentSf, abs_of_neg ht, hi]
    exact ⟨_, rfl, rfl⟩

example : (0 : ℝ) < 7 := by norm_num

/-- **C66.** Changing the sign of the statistic exchanges `less` and `greater` and keeps `two-sided`. -/
theorem pOf_neg (E : BetaEnv) (t df : ℝ) (alt : Alt) : pOf E (-t) df alt = pOf E t df (Spec.flip alt) := by
  cases alt <;> simp [pOf, Spec.flip]

/-- **C66.** Two ways to test two groups agree: the two-sided t test and the F test on the squared statistic
with `(1, df)` degrees of freedom give the same p-value. -/
theorem t_test_eq_f_test (E : BetaEnv) (t df : ℝ) (h : 0 < df) :
    fisherSf E (t ^ 2) 1 df = pOf E t df .twoSided := by
  have hd : 0 < df + t * t := by nlinarith [mul_self_nonneg t]
  have e : 1 - 1 * t ^ 2 / (1 * t ^ 2 + df) = df / (df + |t| * |t|) := by
    rw [abs_mul_abs_self]
    have : 1 * t ^ 2 + df = df + t * t := by ring
    rw [this]
    field_simp; ring
  have hnn : ¬ t ^ 2 < 0 := not_lt.2 (sq_nonneg t)
  unfold fisherSf
  rw [if_neg hnn, e]
  rcases eq_or_ne t 0 with rfl | ht
  · have h1 : checkedBetaReg E (df / 2) (1 / 2) (df / (df + |(0 : ℝ)| * |(0 : ℝ)|)) = some 1 := by
      rw [abs_zero, mul_zero, add_zero, div_self h.ne']
      exact betaReg_one E _ _ (by linarith) (by norm_num)
    simp only [pOf, studentSf, h1]
    norm_num
  · obtain ⟨i, hi⟩ := betaReg_isSome E |t| df h
    simp only [pOf, studentSf, hi]
    rw [if_neg (not_le.2 (abs_pos.2 ht))]
    simp

example : (0 : ℝ) < 7 := by norm_num

/-! ## Welch's test -/

/-- **C66.** The default `ttest_ind` computes Welch's statistic on the finite values of the two columns and
looks it up with the Welch-Satterthwaite degrees of freedom. -/
theorem welch_correct (E : BetaEnv) (x y : Col ℝ) (alt : Alt)
    (hx : 2 ≤ (vals x).length) (hy : 2 ≤ (vals y).length)
    (hv : 0 < Spec.sampleVar (vals x) / (vals x).length + Spec.sampleVar (vals y) / (vals y).length) :
    ∃ p, ttestIndWelch E x y alt = .ok (Spec.welchStat (vals x) (vals y)) (some p) ∧
      pOf E (Spec.welchStat (vals x) (vals y)) (Spec.welchDf (vals x) (vals y)) alt = some p := by
  have hx1 : (0 : ℝ) < (vals x).length - 1 := by
    have : (2 : ℝ) ≤ (vals x).length := by exact_mod_cast hx
    linarith
  have hy1 : (0 : ℝ) < (vals y).length - 1 := by
    have : (2 : ℝ) ≤ (vals y).length := by exact_mod_cast hy
    linarith
  have hvx := div_nonneg (sampleVar_nonneg _ hx) (Nat.cast_nonneg (α := ℝ) (vals x).length)
  have hvy := div_nonneg (sampleVar_nonneg _ hy) (Nat.cast_nonneg (α := ℝ) (vals y).length)
  have hdf : 0 < Spec.welchDf (vals x) (vals y) := by
    unfold Spec.welchDf
    apply div_pos (by positivity)
    rcases hvx.lt_or_eq with h | h
    · have := div_pos (pow_pos h 2) hx1
      have := div_nonneg (sq_nonneg (Spec.sampleVar (vals y) / (vals y).length)) hy1.le
      linarith
    · have h' : 0 < Spec.sampleVar (vals y) / (vals y).length := by rw [← h] at hv; simpa using hv
      have := div_pos (pow_pos h' 2) hy1
      have := div_nonneg (sq_nonneg (Spec.sampleVar (vals x) / (vals x).length)) hx1.le
      linarith
  have hp : ∃ p, pOf E (Spec.welchStat (vals x) (vals y)) (Spec.welchDf (vals x) (vals y)) alt = some p := by
    cases alt with
    | twoSided => obtain ⟨p, _, h⟩ := two_sided_double E (Spec.welchStat (vals x) (vals y)) _ hdf; exact ⟨_, h⟩
    | less => obtain ⟨p, _, h, _⟩ := one_sided_sum E (Spec.welchStat (vals x) (vals y)) _ hdf; exact ⟨_, h⟩
    | greater => obtain ⟨_, q, _, h, _⟩ := one_sided_sum E (Spec.welchStat (vals x) (vals y)) _ hdf; exact ⟨_, h⟩
  obtain ⟨p, hp⟩ := hp
  refine ⟨p, ?_, hp⟩
  have hne : √(Spec.sampleVar (vals x) / (vals x).length + Spec.sampleVar (vals y) / (vals y).length) ≠ 0 :=
    (Real.sqrt_pos.2 hv).ne'
  unfold Spec.welchStat Spec.welchDf at hp
  simp only [ttestIndWelch, mean_vals x hx, mean_vals y hy, var1_vals x hx, var1_vals y hy, welchT]
  rw [if_neg (by exact hne)]
  simp only [count]
  rw [hp]
  rfl

example : 2 ≤ (vals ([some 0, none, some 2] : Col ℝ)).length ∧ 2 ≤ (vals ([some 1, some 5, none] : Col ℝ)).length ∧
    0 < Spec.sampleVar [0, 2] / 2 + Spec.sampleVar [1, 5] / 2 := by
  refine ⟨by simp [vals], by simp [vals], ?_⟩
  norm_num [Spec.sampleVar, Spec.mean]

/-- **C66.** Exchanging the samples changes the sign of Welch's statistic, keeps the degrees of freedom and so
exchanges the one-sided p-values. -/
theorem welch_swap (E : BetaEnv) (x y : Col ℝ) (alt : Alt) (t p : ℝ)
    (h : ttestIndWelch E x y alt = .ok t (some p)) :
    ttestIndWelch E y x (Spec.flip alt) = .ok (-t) (some p) := by
  unfold ttestIndWelch at h ⊢
  cases hmx : Pl.mean x with
  | none => simp [hmx] at h
  | some m1 =>
  cases hmy : Pl.mean y with
  | none => simp [hmx, hmy] at h
  | some m2 =>
  cases hvx : var1 x with
  | none => simp [hmx, hmy, hvx] at h
  | some v1 =>
  cases hvy : var1 y with
  | none => simp [hmx, hmy, hvx, hvy] at h
  | some v2 =>
  simp only [hmx, hmy, hvx, hvy, welchT] at h ⊢
  rw [add_comm (v2 / _) (v1 / _), add_comm ((v2 / _) ^ 2 / _)]
  split at h
  · cases h
  · rename_i hne
    rw [if_neg hne]
    have et : (m2 - m1) / √(v1 / (count x : ℝ) + v2 / (count y : ℝ)) =
        -((m1 - m2) / √(v1 / (count x : ℝ) + v2 / (count y : ℝ))) := by ring
    rw [et, pOf_neg]
    have ef : Spec.flip (Spec.flip alt) = alt := by cases alt <;> rfl
    rw [ef]
    split at h
    · cases h
    · rename_i q hq
      rw [hq]
      simp only [Out.ok.injEq, Option.some.injEq] at h ⊢
      exact ⟨by rw [h.1], h.2⟩

example (E : BetaEnv) : ∃ t p, ttestIndWelch E [some 0, none, some 2] [some 1, some 5, none] .less =
    .ok t (some p) := by
  obtain ⟨p, h, _⟩ := welch_correct E [some 0, none, some 2] [some 1, some 5, none] .less (by simp [vals])
    (by simp [vals]) (by
      rw [show vals ([some 0, none, some 2] : Col ℝ) = [0, 2] from rfl,
        show vals ([some 1, some 5, none] : Col ℝ) = [1, 5] from rfl]
      norm_num [Spec.sampleVar, Spec.mean])
  exact ⟨_, p, h⟩

/-- **C66 (disagreement).** A group with fewer than two finite values makes the default `ttest_ind` panic
instead of returning an error or NaN. -/
theorem welch_small_panics (E : BetaEnv) (x y : Col ℝ) (alt : Alt) (hx : (vals x).length < 2) :
    ttestIndWelch E x y alt = .panic := by
  have : var1 x = none := by simp only [var1]; rw [if_pos (by exact hx)]
  unfold ttestIndWelch
  rw [this]
  cases Pl.mean x <;> cases Pl.mean y <;> rfl

example : (vals ([some 0, none] : Col ℝ)).length < 2 := by simp [vals]

/-! ## One sample -/

/-- **C66.** `ttest_1samp` computes `(mean - pop) / sqrt(var / n)` with `n - 1` degrees of freedom. -/
theorem one_sample_correct (E : BetaEnv) (x : Col ℝ) (pop : ℝ) (alt : Alt)
    (hx : 2 ≤ (vals x).length) (hv : 0 < Spec.sampleVar (vals x)) :
    ∃ p, ttestOneSample E x pop alt =
        .ok ((Spec.mean (vals x) - pop) / √(Spec.sampleVar (vals x) / (vals x).length)) (some p) ∧
      pOf E ((Spec.mean (vals x) - pop) / √(Spec.sampleVar (vals x) / (vals x).length))
        ((vals x).length - 1) alt = some p := by
  have hx2 : (2 : ℝ) ≤ (vals x).length := by exact_mod_cast hx
  have hdf : (0 : ℝ) < (vals x).length - 1 := by linarith
  have hne : √(Spec.sampleVar (vals x) / (vals x).length) ≠ 0 :=
    (Real.sqrt_pos.2 (div_pos hv (by linarith))).ne'
  set t := (Spec.mean (vals x) - pop) / √(Spec.sampleVar (vals x) / (vals x).length) with ht
  have hp : ∃ p, pOf E t ((vals x).length - 1) alt = some p := by
    cases alt with
    | twoSided => obtain ⟨p, _, h⟩ := two_sided_double E t _ hdf; exact ⟨_, h⟩
    | less => obtain ⟨p, _, h, _⟩ := one_sided_sum E t _ hdf; exact ⟨_, h⟩
    | greater => obtain ⟨_, q, _, h, _⟩ := one_sided_sum E t _ hdf; exact ⟨_, h⟩
  obtain ⟨p, hp⟩ := hp
  refine ⟨p, ?_, hp⟩
  simp only [ttestOneSample, mean_vals x hx, var1_vals x hx, ttest1samp]
  rw [if_neg (by exact hne)]
  simp only [count]
  rw [← ht, hp]

example : 2 ≤ (vals ([some 0, none, some 2] : Col ℝ)).length ∧ 0 < Spec.sampleVar [0, 2] := by
  refine ⟨by simp [vals], ?_⟩
  norm_num [Spec.sampleVar, Spec.mean]

/-! ## Student's test -/

/-- **C66 (part).** When both columns have the same number of non-null values, `ttest_ind(equal_var=True)`
is Student's pooled statistic with `2n - 2` degrees of freedom.  Missing: columns with different numbers of
values, where the count of the first column is used for both (`student_unequal_wrong`). -/
theorem student_equal_counts_partial (E : BetaEnv) (x y : Col ℝ) (alt : Alt)
    (hx : 2 ≤ (vals x).length) (hxy : (vals x).length = (vals y).length)
    (hv : 0 < Spec.sampleVar (vals x) + Spec.sampleVar (vals y)) :
    ttestIndEqualVar E x y alt = .ok (Spec.pooledT (vals x) (vals y))
      (pOf E (Spec.pooledT (vals x) (vals y)) ((vals x).length + (vals y).length - 2) alt) := by
  have hy : 2 ≤ (vals y).length := hxy ▸ hx
  have hx2 : (2 : ℝ) ≤ (vals x).length := by exact_mod_cast hx
  have et : Spec.pooledT (vals x) (vals y) = (Spec.mean (vals x) - Spec.mean (vals y)) /
      √((Spec.sampleVar (vals x) + Spec.sampleVar (vals y)) / (vals x).length) := by
    unfold Spec.pooledT
    rw [← hxy]
    generalize ((vals x).length : ℝ) = n at hx2
    generalize Spec.sampleVar (vals x) = a
    generalize Spec.sampleVar (vals y) = b
    have h1 : n - 1 ≠ 0 := by linarith
    have h3 : n ≠ 0 := by linarith
    have e : ((n - 1) * a + (n - 1) * b) / (n + n - 2) * (1 / n + 1 / n) = (a + b) / n := by
      have : n + n - 2 = 2 * (n - 1) := by ring
      rw [this]
      field_simp
      ring
    dsimp only
    rw [e]
  have hne : √((Spec.sampleVar (vals x) + Spec.sampleVar (vals y)) / (vals x).length) ≠ 0 :=
    (Real.sqrt_pos.2 (div_pos hv (by linarith))).ne'
  simp only [ttestIndEqualVar, mean_vals x hx, mean_vals y hy, var1_vals x hx, var1_vals y hy, ttestInd]
  rw [if_neg (by exact hne)]
  simp only [count]
  rw [← et, ← hxy]
  congr 2
  ring

example : 2 ≤ (vals ([some 0, none, some 2] : Col ℝ)).length ∧
    (vals ([some 0, none, some 2] : Col ℝ)).length = (vals ([none, some 1, some 5] : Col ℝ)).length ∧
    0 < Spec.sampleVar [0, 2] + Spec.sampleVar [1, 5] := by
  refine ⟨by simp [vals], by simp [vals], ?_⟩
  norm_num [Spec.sampleVar, Spec.mean]

/-- **C66 (disagreement).** With two values in one column and four in the other, `ttest_ind(equal_var=True)`
returns `-2` for the statistic one way round and a different magnitude when the columns are exchanged, so it
is neither Student's statistic nor antisymmetric. -/
theorem student_unequal_wrong (E : BetaEnv) (alt : Alt) :
    (∃ p, ttestIndEqualVar E [some 0, some 2, none, none] [some 3, some 3, some 3, some 3] alt = .ok (-2) p) ∧
    Spec.pooledT [0, 2] [3, 3, 3, 3] ≠ -2 ∧
    ∀ p, ttestIndEqualVar E [some 3, some 3, some 3, some 3] [some 0, some 2, none, none] alt ≠ .ok 2 p := by
  have hx : 2 ≤ (vals ([some 0, some 2, none, none] : Col ℝ)).length := by simp [vals]
  have hy : 2 ≤ (vals ([some 3, some 3, some 3, some 3] : Col ℝ)).length := by simp [vals]
  have vx : vals ([some 0, some 2, none, none] : Col ℝ) = [0, 2] := rfl
  have vy : vals ([some 3, some 3, some 3, some 3] : Col ℝ) = [3, 3, 3, 3] := rfl
  have m1 : Spec.mean [0, 2] = 1 := by norm_num [Spec.mean]
  have m2 : Spec.mean [3, 3, 3, 3] = 3 := by norm_num [Spec.mean]
  have v1 : Spec.sampleVar [0, 2] = 2 := by norm_num [Spec.sampleVar, m1]
  have v2 : Spec.sampleVar [3, 3, 3, 3] = 0 := by norm_num [Spec.sampleVar, m2]
  refine ⟨?_, ?_, ?_⟩
  · simp only [ttestIndEqualVar, mean_vals _ hx, mean_vals _ hy, var1_vals _ hx, var1_vals _ hy, ttestInd, count,
      vx, vy, m1, m2, v1, v2]
    norm_num
  · simp only [Spec.pooledT, m1, m2, v1, v2]
    norm_num
    intro h
    have hs : √(3 / 8 : ℝ) ≠ 0 := (Real.sqrt_pos.2 (by norm_num)).ne'
    have h2 : √(3 / 8 : ℝ) * √(3 / 8) = 3 / 8 := Real.mul_self_sqrt (by norm_num)
    rw [← Real.sqrt_div (by norm_num)] at h
    rw [div_eq_iff hs] at h
    nlinarith [h2]
  · intro p
    simp only [ttestIndEqualVar, mean_vals _ hx, mean_vals _ hy, var1_vals _ hx, var1_vals _ hy, ttestInd, count,
      vx, vy, m1, m2, v1, v2]
    have hs : √((0 + 2) / (([3, 3, 3, 3] : List ℝ).length : ℝ)) ≠ 0 :=
      (Real.sqrt_pos.2 (by norm_num)).ne'
    rw [if_neg hs]
    intro h
    simp only [Out.ok.injEq] at h
    have h1 := h.1
    rw [div_eq_iff hs] at h1
    norm_num at h1

/-- **C66 (disagreement).** The words "less" and "greater" select the one-sided tests.  A misspelt alternative is not
rejected: every other word selects the two-sided test. -/
theorem alternative_unknown (s : String) :
    (Alt.ofLower s = .less ↔ s = "less") ∧ (Alt.ofLower s = .greater ↔ s = "greater") ∧
    (Alt.ofLower s = .twoSided ↔ s ≠ "less" ∧ s ≠ "greater") := by
  unfold Alt.ofLower
  by_cases h1 : s = "less"
  · subst h1; decide
  by_cases h2 : s = "greater"
  · subst h2; decide
  rw [if_neg h1, if_neg h2]
  simp [h1, h2]

example : "lesser" ≠ "less" ∧ "lesser" ≠ "greater" := by decide

end Verif.TTest
