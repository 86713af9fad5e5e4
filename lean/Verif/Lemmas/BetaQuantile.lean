import Verif.Lemmas.NewtonStep
import Verif.Props.BetaTail
import Mathlib.Analysis.SpecialFunctions.Integrals.Basic

/-!
# The incomplete beta integral with second parameter one half

Bounds for the integral and its derivative, and the search of `inv_beta_reg` for the point where the regularised
integral is `1/20`.
-/

namespace Verif.StudentPpf

open Verif.TTest Verif.BetaTail.Spec Verif.BetaFrac Real MeasureTheory Set

variable {a u v p : ℝ}

/-- The integrand. -/
noncomputable def w (a p : ℝ) : ℝ := p ^ (a - 1) * (1 - p) ^ ((1 : ℝ) / 2 - 1)

theorem w_pos (hp : 0 < p) (hp1 : p < 1) : 0 < w a p :=
  mul_pos (rpow_pos_of_pos hp _) (rpow_pos_of_pos (by linarith) _)

theorem w_mono (ha : 1 ≤ a) (hu : 0 < u) (huv : u ≤ v) (hv : v < 1) : w a u ≤ w a v := by
  unfold w
  have h1 : u ^ (a - 1) ≤ v ^ (a - 1) := rpow_le_rpow hu.le huv (by linarith)
  have h2 : (1 - u) ^ ((1 : ℝ) / 2 - 1) ≤ (1 - v) ^ ((1 : ℝ) / 2 - 1) :=
    rpow_le_rpow_of_nonpos (by linarith) (by linarith) (by norm_num)
  exact mul_le_mul h1 h2 (rpow_nonneg (by linarith) _) (rpow_nonneg (by linarith) _)

theorem w_int (ha : 1 ≤ a) (hu : 0 ≤ u) (hv : v ≤ 1) : IntegrableOn (w a) (Ioc u v) :=
  ((integrableOn_Ioc_iff_integrableOn_Ioo).2 (J_int (b := 1 / 2) (by linarith : 0 < a) (by norm_num))).mono_set
    (Ioc_subset_Ioc hu hv)

theorem J_Ioc (a p : ℝ) : J a (1 / 2) p = ∫ t in Ioc 0 p, w a t := integral_Ioc_eq_integral_Ioo.symm

theorem J_sub (ha : 1 ≤ a) (hu : 0 ≤ u) (huv : u ≤ v) (hv : v ≤ 1) :
    J a (1 / 2) v - J a (1 / 2) u = ∫ t in Ioc u v, w a t := by
  rw [J_Ioc, J_Ioc, ← Ioc_union_Ioc_eq_Ioc hu huv, setIntegral_union (by simp) measurableSet_Ioc
    (w_int ha le_rfl (huv.trans hv)) (w_int ha hu hv)]
  ring

theorem J_slope (ha : 1 ≤ a) (hu : 0 < u) (huv : u ≤ v) (hv : v < 1) :
    w a u * (v - u) ≤ J a (1 / 2) v - J a (1 / 2) u ∧ J a (1 / 2) v - J a (1 / 2) u ≤ w a v * (v - u) := by
  rw [J_sub ha hu.le huv hv.le]
  have hc : ∀ c : ℝ, ∫ _ in Ioc u v, c = c * (v - u) := by
    intro c
    rw [setIntegral_const, measureReal_def, Real.volume_Ioc, ENNReal.toReal_ofReal (by linarith), smul_eq_mul, mul_comm]
  have hi : ∀ c : ℝ, IntegrableOn (fun _ : ℝ => c) (Ioc u v) := fun c => integrableOn_const (by simp)
  constructor
  · rw [← hc]
    exact setIntegral_mono_on (hi _) (w_int ha hu.le hv.le) measurableSet_Ioc
      fun t ht => w_mono ha hu ht.1.le (ht.2.trans_lt hv)
  · rw [← hc (w a v)]
    exact setIntegral_mono_on (w_int ha hu.le hv.le) (hi _) measurableSet_Ioc
      fun t ht => w_mono ha (hu.trans ht.1) ht.2 hv

theorem J_zero (a : ℝ) : J a (1 / 2) 0 = 0 := by simp [J]

theorem J_cont (ha : 1 ≤ a) : ContinuousOn (J a (1 / 2)) (Icc 0 1) := by
  have h : IntegrableOn (w a) (Icc 0 1) := (integrableOn_Icc_iff_integrableOn_Ioc (by simp)).2 (w_int ha le_rfl le_rfl)
  refine (intervalIntegral.continuousOn_primitive h).congr fun p _ => ?_
  exact J_Ioc a p

theorem int_pow (ha : 0 < a) (hp : 0 ≤ p) :
    ∫ t in Ioc 0 p, t ^ (a - 1) = p ^ a / a ∧ IntegrableOn (fun t : ℝ => t ^ (a - 1)) (Ioc 0 p) := by
  constructor
  · rw [← intervalIntegral.integral_of_le hp, integral_rpow (Or.inl (by linarith))]
    rw [sub_add_cancel, Real.zero_rpow ha.ne', sub_zero]
  · exact (intervalIntegrable_iff_integrableOn_Ioc_of_le hp).1 (intervalIntegral.intervalIntegrable_rpow' (by linarith))

/-- The integral is at most the last value of the second factor times the integral of the first. -/
theorem J_upper (ha : 1 ≤ a) (hp : 0 < p) (hp1 : p < 1) : J a (1 / 2) p ≤ p * w a p / a := by
  obtain ⟨h1, h2⟩ := int_pow (a := a) (by linarith) hp.le
  have e : p * w a p / a = ∫ t in Ioc 0 p, t ^ (a - 1) * (1 - p) ^ ((1 : ℝ) / 2 - 1) := by
    rw [integral_mul_const, h1]
    unfold w
    have : p ^ a = p ^ (a - 1) * p := by rw [← rpow_add_one hp.ne', sub_add_cancel]
    rw [this]
    ring
  rw [J_Ioc, e]
  refine setIntegral_mono_on (w_int ha le_rfl hp1.le) (h2.mul_const _) measurableSet_Ioc fun t ht => ?_
  unfold w
  exact mul_le_mul_of_nonneg_left (rpow_le_rpow_of_nonpos (by linarith) (by linarith [ht.2]) (by norm_num))
    (rpow_nonneg ht.1.le _)

theorem half_pow {r : ℝ} (hr : 0 < r) : r ^ ((1 : ℝ) / 2 - 1) = 1 / √r := by
  rw [show (1 : ℝ) / 2 - 1 = -(1 / 2) by norm_num, rpow_neg hr.le, ← sqrt_eq_rpow, one_div]

theorem tangent {r : ℝ} (hr : 0 < r) : 1 + (1 - r) / 2 ≤ r ^ ((1 : ℝ) / 2 - 1) := by
  rw [half_pow hr, le_div_iff₀ (sqrt_pos.2 hr)]
  have h := sq_sqrt hr.le
  have h1 := sqrt_pos.2 hr
  generalize √r = s at *
  rw [← h]
  nlinarith [mul_nonneg (sq_nonneg (s - 1)) (show 0 ≤ s + 2 by linarith)]

/-- The integral is at least the second factor at the mean point times the integral of the first. -/
theorem J_lower (ha : 1 ≤ a) (hp : 0 < p) (hp1 : p < 1) :
    p ^ a / a * (1 - a * p / (a + 1)) ^ ((1 : ℝ) / 2 - 1) ≤ J a (1 / 2) p := by
  have ha0 : 0 < a := by linarith
  obtain ⟨h1, h2⟩ := int_pow (a := a) ha0 hp.le
  obtain ⟨h3, h4⟩ := int_pow (a := a + 1) (by linarith) hp.le
  rw [add_sub_cancel_right] at h3 h4
  set μ := a * p / (a + 1) with hμ
  have hμ1 : μ < 1 := by
    rw [hμ, div_lt_one (by linarith)]
    nlinarith
  have hM : 0 < 1 - μ := by linarith
  set C := (1 - μ) ^ ((1 : ℝ) / 2 - 1) with hC
  have hCp : 0 < C := rpow_pos_of_pos hM _
  set k := C * (1 / (2 * (1 - μ))) with hk
  have e : p ^ a / a * C = ∫ t in Ioc 0 p, ((C - k * μ) * t ^ (a - 1) + k * t ^ a) := by
    rw [integral_add (h2.const_mul _) (h4.const_mul _), integral_const_mul, integral_const_mul, h1, h3]
    have : p ^ (a + 1) = p ^ a * p := rpow_add_one hp.ne' a
    rw [this]
    have e2 : p ^ a * p / (a + 1) = p ^ a / a * μ := by
      rw [hμ]
      field_simp
    rw [e2]
    ring
  rw [J_Ioc, e]
  refine setIntegral_mono_on ((h2.const_mul _).add (h4.const_mul _)) (w_int ha le_rfl hp1.le) measurableSet_Ioc
    fun t ht => ?_
  have ht0 := ht.1
  have ht1 : t < 1 := ht.2.trans_lt hp1
  have hr : 0 < (1 - t) / (1 - μ) := div_pos (by linarith) hM
  have key := tangent hr
  rw [div_rpow (by linarith) hM.le, ← hC, le_div_iff₀ hCp] at key
  have e3 : (C - k * μ) * t ^ (a - 1) + k * t ^ a = t ^ (a - 1) * (C + k * (t - μ)) := by
    have : t ^ a = t ^ (a - 1) * t := by rw [← rpow_add_one ht0.ne', sub_add_cancel]
    rw [this]
    ring
  have e4 : C + k * (t - μ) = (1 + (1 - (1 - t) / (1 - μ)) / 2) * C := by
    rw [hk]
    field_simp
    ring
  show _ ≤ w a t
  rw [e3, e4]
  unfold w
  exact mul_le_mul_of_nonneg_left key (rpow_nonneg ht0.le _)

/-- The growth of the integrand. -/
theorem w_growth (ha : 1 ≤ a) (hu : 0 < u) (huv : u ≤ v) (hv : v < 1) :
    w a v - w a u ≤ w a v * (((a - 1) / u + 1 / 2 / (1 - v)) * (v - u)) := by
  have hv0 : 0 < v := hu.trans_le huv
  have hwv := w_pos (a := a) hv0 hv
  have hwu := w_pos (a := a) hu (huv.trans_lt hv)
  have h1 : log (w a v / w a u) ≤ ((a - 1) / u + 1 / 2 / (1 - v)) * (v - u) := by
    have l1 : log (v / u) ≤ v / u - 1 := log_le_sub_one_of_pos (by positivity)
    have l2 : log ((1 - u) / (1 - v)) ≤ (1 - u) / (1 - v) - 1 :=
      log_le_sub_one_of_pos (div_pos (by linarith) (by linarith))
    have e1 : v / u - 1 = (v - u) / u := by field_simp
    have hv1 : 1 - v ≠ 0 := by linarith
    have e2 : (1 - u) / (1 - v) - 1 = (v - u) / (1 - v) := by field_simp; ring
    rw [e1, log_div hv0.ne' hu.ne'] at l1
    rw [e2, log_div (by linarith) hv1] at l2
    rw [log_div hwv.ne' hwu.ne']
    unfold w
    rw [log_mul (rpow_pos_of_pos hv0 _).ne' (rpow_pos_of_pos (by linarith) _).ne',
      log_mul (rpow_pos_of_pos hu _).ne' (rpow_pos_of_pos (by linarith) _).ne', log_rpow hv0, log_rpow hu,
      log_rpow (by linarith), log_rpow (by linarith)]
    have h3 : (a - 1) * (log v - log u) ≤ (a - 1) * ((v - u) / u) := mul_le_mul_of_nonneg_left l1 (by linarith)
    have e3 : ((a - 1) / u + 1 / 2 / (1 - v)) * (v - u) = (a - 1) * ((v - u) / u) + 1 / 2 * ((v - u) / (1 - v)) := by
      field_simp
    rw [e3]
    linarith
  have h2 : 1 - w a u / w a v ≤ log (w a v / w a u) := by
    have := log_le_sub_one_of_pos (div_pos hwu hwv)
    rw [log_div hwu.ne' hwv.ne'] at this
    rw [log_div hwv.ne' hwu.ne']
    linarith
  have e : w a v - w a u = w a v * (1 - w a u / w a v) := by field_simp
  rw [e]
  exact mul_le_mul_of_nonneg_left (h2.trans h1) hwv.le

/-- The computed Newton step. -/
noncomputable def stepOf (E : BetaEnv) (a p : ℝ) : ℝ :=
  ((checkedBetaReg E a (1 / 2) p).getD 0 - 1 / 20) *
    exp (lnBeta E a (1 / 2) + (1 - a) * log p + (1 - 1 / 2) * log (1 - p))

theorem lnBeta_near {E : BetaEnv} (hE : Standard E) {a b : ℝ} (ha : 0 < a) (hb : 0 < b) :
    |lnBeta E a b - log (B a b)| ≤ 3 / 10 ^ 16 := by
  have h1 := abs_le.1 (hE.near _ ha)
  have h2 := abs_le.1 (hE.near _ hb)
  have h3 := abs_le.1 (hE.near _ (add_pos ha hb))
  have ga := (Real.Gamma_pos_of_pos ha).ne'
  have gb := (Real.Gamma_pos_of_pos hb).ne'
  have gab := (Real.Gamma_pos_of_pos (add_pos ha hb)).ne'
  unfold B lnBeta
  rw [Real.log_div (mul_ne_zero ga gb) gab, Real.log_mul ga gb, abs_le]
  constructor <;> linarith

theorem exp_lnBeta {E : BetaEnv} (hE : Standard E) {a b : ℝ} (ha : 0 < a) (hb : 0 < b) :
    ∃ κ, |κ - 1| ≤ 6 / 10 ^ 16 ∧ exp (lnBeta E a b) = κ * B a b := by
  have h := lnBeta_near hE ha hb
  refine ⟨_, (Real.abs_exp_sub_one_le (h.trans (by norm_num))).trans (by linarith), ?_⟩
  rw [exp_sub, exp_log (B_pos ha hb)]
  field_simp [(B_pos ha hb).ne']

theorem J_range (ha : 1 ≤ a) (hp : 0 < p) (hp1 : p < 1) :
    0 ≤ J a (1 / 2) p / B a (1 / 2) ∧ J a (1 / 2) p / B a (1 / 2) ≤ 1 := by
  have hB := B_pos (show 0 < a by linarith) (show (0 : ℝ) < 1 / 2 by norm_num)
  have h1 := J_sub ha le_rfl hp.le hp1.le
  have h2 := J_sub ha hp.le hp1.le le_rfl
  have hn : ∀ s t : ℝ, 0 ≤ s → t ≤ 1 → 0 ≤ ∫ r in Ioc s t, w a r := fun s t h3 h4 =>
    setIntegral_nonneg measurableSet_Ioc fun r hr =>
      mul_nonneg (rpow_nonneg (by linarith [hr.1]) _) (rpow_nonneg (by linarith [hr.2]) _)
  have h3 := hn 0 p le_rfl hp1.le
  have h4 := hn p 1 hp.le le_rfl
  rw [← h1, J_zero] at h3
  rw [← h2, J_one (by linarith) (by norm_num)] at h4
  exact ⟨div_nonneg (by linarith) hB.le, (div_le_one hB).2 (by linarith)⟩

/-- The computed step against the exact one. -/
theorem step_near {E : BetaEnv} (hE : Standard E) (ha : 1 ≤ a) (ha1 : a ≤ 10 ^ 19) (hp : 0 < p) (hp1 : p < 1) :
    |w a p / B a (1 / 2) * stepOf E a p - (J a (1 / 2) p / B a (1 / 2) - 1 / 20)| ≤ 4 / 10 ^ 13 ∧
    (∃ i, checkedBetaReg E a (1 / 2) p = some i ∧ stepOf E a p =
      (i - 1 / 20) * exp (lnBeta E a (1 / 2) + (1 - a) * log p + (1 - 1 / 2) * log (1 - p))) ∧
    exp (lnBeta E a (1 / 2) + (1 - a) * log p + (1 - 1 / 2) * log (1 - p)) ≤ 2 / (w a p / B a (1 / 2)) := by
  have hB := B_pos (show 0 < a by linarith) (show (0 : ℝ) < 1 / 2 by norm_num)
  have hw := w_pos (a := a) hp hp1
  obtain ⟨κ, k1, k2⟩ := exp_lnBeta hE (show 0 < a by linarith) (show (0 : ℝ) < 1 / 2 by norm_num)
  have hq : 0 < 1 - p := by linarith
  have e : exp (lnBeta E a (1 / 2) + (1 - a) * log p + (1 - 1 / 2) * log (1 - p)) = κ / (w a p / B a (1 / 2)) := by
    rw [exp_add, exp_add, k2]
    unfold w
    rw [rpow_def_of_pos hp, rpow_def_of_pos hq, show (1 - a) * log p = -(log p * (a - 1)) by ring,
      show ((1 : ℝ) - 1 / 2) * log (1 - p) = -(log (1 - p) * (1 / 2 - 1)) by ring, exp_neg, exp_neg]
    have := exp_pos (log p * (a - 1))
    have := exp_pos (log (1 - p) * (1 / 2 - 1))
    field_simp
  obtain ⟨i, hi, hacc⟩ := checked_accuracy E hE.near hE.eps_le hE.fpmin_le (a := a) (b := 1 / 2) (by linarith) le_rfl
    (by norm_num) (by linarith) hp.le hp1.le
  have hr := J_range ha hp hp1
  have hacc' : |i - J a (1 / 2) p / B a (1 / 2)| ≤ 3 / 10 ^ 13 := by
    refine hacc.trans ?_
    split_ifs <;> linarith
  obtain ⟨kl, ku⟩ := abs_le.1 k1
  refine ⟨?_, ⟨i, hi, ?_⟩, ?_⟩
  · unfold stepOf
    rw [hi, e, Option.getD_some]
    have e2 : w a p / B a (1 / 2) * ((i - 1 / 20) * (κ / (w a p / B a (1 / 2)))) = κ * (i - 1 / 20) := by
      field_simp
    rw [e2]
    obtain ⟨c1, c2⟩ := abs_le.1 hacc'
    have h3 : |i - 1 / 20| ≤ 2 := by rw [abs_le]; constructor <;> linarith
    have h4 : |(κ - 1) * (i - 1 / 20)| ≤ 6 / 10 ^ 16 * 2 := by
      rw [abs_mul]
      exact mul_le_mul k1 h3 (abs_nonneg _) (by norm_num)
    have e3 : κ * (i - 1 / 20) - (J a (1 / 2) p / B a (1 / 2) - 1 / 20) =
      (κ - 1) * (i - 1 / 20) + (i - J a (1 / 2) p / B a (1 / 2)) := by ring
    rw [e3]
    refine (abs_add_le _ _).trans ?_
    linarith
  · unfold stepOf
    rw [hi, Option.getD_some]
  · rw [e]
    exact div_le_div_of_nonneg_right (by linarith) (by positivity)

set_option maxHeartbeats 1000000 in
/-- The search for the point where the regularised integral is `1/20`: conditions on the start `p0` and on an interval
`[lo, hi]` around it. -/
theorem beta_search {E : BetaEnv} (hE : Standard E) {p0 lo hi R i0 zl ε : ℝ} (ha : 1 ≤ a) (ha1 : a ≤ 10 ^ 19) (hlo : 0 < lo)
    (hz1 : zl < 1) (h1 : zl * w a zl ≤ 1 / 20 * a * B a (1 / 2)) (hz : lo + 2 / 10 ^ 7 ≤ zl)
    (h2 : lo + 1 / 10 ^ 7 ≤ p0) (hi0 : 0 < i0) (hi1 : i0 ≤ 1 / 20) (h3 : i0 ≤ J a (1 / 2) p0 / B a (1 / 2))
    (h4 : p0 + (1 / 20 / i0 - 1) * p0 / a + 2 / 10 ^ 7 ≤ hi) (hhi : hi + 1 / 10 ^ 9 < 1)
    (h5 : w a hi ≤ R * w a lo) (h6 : R * (R + 1) ≤ 37 * a)
    (h7 : R * (1 / 20 * a / lo) * ((a - 1) / lo + 1 / 2 / (1 - hi)) ≤ 4 * a ^ 2)
    (hε : 3 / 10 ^ 10 ≤ ε) (hε1 : ε ≤ 1 / 10 ^ 7) :
    ∃ r N, |J a (1 / 2) r / B a (1 / 2) - 1 / 20| ≤ 4 / 10 ^ 13 + 4 * a ^ 2 * ε ^ 2 ∧ 0 < r ∧ r < 1 ∧
      ∀ fuel, N < fuel → newton E (lnBeta E a (1 / 2)) a (1 / 2) (1 / 20) (ε ^ 2) fuel p0 0 1 1 = some (.ok r) := by
  have ha0 : 0 < a := by linarith
  have hB := B_pos ha0 (show (0 : ℝ) < 1 / 2 by norm_num)
  have hp0 : 0 < p0 := by linarith
  have hstep0 : 0 ≤ (1 / 20 / i0 - 1) * p0 / a := by
    have : 1 ≤ 1 / 20 / i0 := by rw [le_div_iff₀ hi0]; linarith
    have : 0 ≤ 1 / 20 / i0 - 1 := by linarith
    positivity
  have hp1 : p0 < 1 := by linarith
  have hhi1 : hi < 1 := by linarith
  have hlohi : lo ≤ hi := by linarith
  have hwlo := w_pos (a := a) hlo (by linarith)
  have hwhi := w_pos (a := a) (show 0 < hi by linarith) hhi1
  have hR : 1 ≤ R := by
    by_contra hc
    rw [not_le] at hc
    have := w_mono ha hlo hlohi hhi1
    nlinarith
  -- the root
  obtain ⟨z, hzm, hzr⟩ : ∃ z ∈ Icc (0 : ℝ) 1, J a (1 / 2) z = 1 / 20 * B a (1 / 2) := by
    refine intermediate_value_Icc zero_le_one (J_cont ha) ⟨?_, ?_⟩
    · rw [J_zero]; positivity
    · rw [J_one ha0 (by norm_num)]; linarith
  have hz0 : 0 < z := by
    refine lt_of_le_of_ne hzm.1 fun h => ?_
    rw [← h, J_zero] at hzr
    linarith
  have hzlt : z < 1 := by
    refine lt_of_le_of_ne hzm.2 fun h => ?_
    rw [h, J_one ha0 (by norm_num)] at hzr
    linarith
  have hJmono : ∀ u v, 0 < u → u ≤ v → v < 1 → J a (1 / 2) u ≤ J a (1 / 2) v := by
    intro u v hu huv hv
    have h := (J_slope ha hu huv hv).1
    have := mul_nonneg (w_pos (a := a) hu (huv.trans_lt hv)).le (sub_nonneg.2 huv)
    linarith
  have hJstrict : ∀ u v, 0 < u → u < v → v < 1 → J a (1 / 2) u < J a (1 / 2) v := by
    intro u v hu huv hv
    have h := (J_slope ha hu huv.le hv).1
    have := mul_pos (w_pos (a := a) hu (huv.trans hv)) (sub_pos.2 huv)
    linarith
  have hzl : zl ≤ z := by
    by_contra hc
    rw [not_le] at hc
    have h := hJstrict z zl hz0 hc hz1
    have h' := J_upper ha (show 0 < zl by linarith) hz1
    rw [le_div_iff₀ ha0] at h'
    nlinarith
  have hzw : 1 / 20 * a * B a (1 / 2) ≤ w a z := by
    have h := J_upper ha hz0 hzlt
    rw [hzr, le_div_iff₀ ha0] at h
    have : z * w a z ≤ 1 * w a z := mul_le_mul_of_nonneg_right hzlt.le (w_pos hz0 hzlt).le
    linarith
  -- the first step from the left
  have hw0 := w_pos (a := a) hp0 hp1
  have hnewt : (1 / 20 - J a (1 / 2) p0 / B a (1 / 2)) * B a (1 / 2) ≤ w a p0 * ((1 / 20 / i0 - 1) * p0 / a) := by
    set i := J a (1 / 2) p0 / B a (1 / 2) with hidef
    have hJ : J a (1 / 2) p0 = i * B a (1 / 2) := by rw [hidef]; field_simp
    have h := J_upper ha hp0 hp1
    rw [hJ, le_div_iff₀ ha0] at h
    have e : w a p0 * ((1 / 20 / i0 - 1) * p0 / a) = (1 / 20 / i0 - 1) * (p0 * w a p0) / a := by ring
    rw [e, le_div_iff₀ ha0]
    have hg : 0 ≤ 1 / 20 / i0 - 1 := by
      have : 1 ≤ 1 / 20 / i0 := by rw [le_div_iff₀ hi0]; linarith
      linarith
    have h8 := mul_le_mul_of_nonneg_left h hg
    refine le_trans ?_ h8
    have h9 : 1 / 20 - i ≤ (1 / 20 / i0 - 1) * i := by
      have : 1 / 20 ≤ 1 / 20 / i0 * i := by
        rw [div_mul_eq_mul_div, le_div_iff₀ hi0]
        nlinarith
      linarith
    have hBa : 0 ≤ B a (1 / 2) * a := by positivity
    have h10 := mul_le_mul_of_nonneg_right h9 hBa
    calc (1 / 20 - i) * B a (1 / 2) * a = (1 / 20 - i) * (B a (1 / 2) * a) := by ring
      _ ≤ _ := h10
      _ = _ := by ring
  have hzhi : z ≤ hi := by
    rcases le_total z p0 with h | h
    · linarith
    · have h8 := (J_slope ha hp0 h hzlt).1
      have e : (1 / 20 - J a (1 / 2) p0 / B a (1 / 2)) * B a (1 / 2) = 1 / 20 * B a (1 / 2) - J a (1 / 2) p0 := by
        field_simp
      rw [e, ← hzr] at hnewt
      have h9 := le_of_mul_le_mul_left (h8.trans hnewt) hw0
      linarith
  have S : Slopes (fun p => J a (1 / 2) p / B a (1 / 2)) (fun p => w a p / B a (1 / 2)) (stepOf E a) (1 / 20)
      (4 / 10 ^ 13) R (4 * a ^ 2) lo hi z := by
    refine ⟨hlo, hhi1, by positivity, ?_, ?_, ?_, ?_, ?_, ?_, ?_, by linarith, hzhi⟩
    · intro u v h8 h9 h10
      exact div_le_div_of_nonneg_right (w_mono ha (by linarith) h9 (by linarith)) hB.le
    · rw [← mul_div_assoc]
      exact div_le_div_of_nonneg_right h5 hB.le
    · intro u v h8 h9 h10
      rw [← sub_div, div_mul_eq_mul_div]
      exact div_le_div_of_nonneg_right (J_slope ha (by linarith) h9 (by linarith)).1 hB.le
    · intro u v h8 h9 h10
      rw [← sub_div, div_mul_eq_mul_div]
      exact div_le_div_of_nonneg_right (J_slope ha (by linarith) h9 (by linarith)).2 hB.le
    · intro u v h8 h9 h10
      have hv1 : v < 1 := by linarith
      have hg := w_growth ha (by linarith) h9 hv1
      have hwv : w a v ≤ R * w a lo := (w_mono ha (by linarith) h10 hhi1).trans h5
      have hlow : w a lo ≤ 1 / 20 * a / lo * B a (1 / 2) := by
        have h11 := w_mono ha hlo (show lo ≤ zl by linarith) hz1
        have h12 : lo * w a lo ≤ zl * w a zl :=
          mul_le_mul (by linarith) h11 hwlo.le (by linarith)
        rw [div_mul_eq_mul_div, le_div_iff₀ hlo]
        linarith
      have hD : (a - 1) / u + 1 / 2 / (1 - v) ≤ (a - 1) / lo + 1 / 2 / (1 - hi) := by
        have d1 : (a - 1) / u ≤ (a - 1) / lo := div_le_div_of_nonneg_left (by linarith) hlo h8
        have d2 : (1 : ℝ) / 2 / (1 - v) ≤ 1 / 2 / (1 - hi) :=
          div_le_div_of_nonneg_left (by norm_num) (by linarith) (by linarith)
        linarith
      have hD0 : 0 ≤ (a - 1) / lo + 1 / 2 / (1 - hi) := by
        have d1 : 0 ≤ (a - 1) / lo := div_nonneg (by linarith) hlo.le
        have d2 : 0 ≤ 1 / 2 / (1 - hi) := div_nonneg (by norm_num) (by linarith)
        linarith
      rw [← sub_div, div_le_iff₀ hB]
      have hvu : 0 ≤ v - u := by linarith
      calc w a v - w a u ≤ w a v * (((a - 1) / u + 1 / 2 / (1 - v)) * (v - u)) := hg
        _ ≤ w a v * (((a - 1) / lo + 1 / 2 / (1 - hi)) * (v - u)) :=
            mul_le_mul_of_nonneg_left (mul_le_mul_of_nonneg_right hD hvu) (w_pos (by linarith) hv1).le
        _ ≤ (R * (1 / 20 * a / lo * B a (1 / 2))) * (((a - 1) / lo + 1 / 2 / (1 - hi)) * (v - u)) :=
            mul_le_mul_of_nonneg_right (hwv.trans (mul_le_mul_of_nonneg_left hlow (by linarith))) (mul_nonneg hD0 hvu)
        _ = R * (1 / 20 * a / lo) * ((a - 1) / lo + 1 / 2 / (1 - hi)) * ((v - u) * B a (1 / 2)) := by ring
        _ ≤ 4 * a ^ 2 * ((v - u) * B a (1 / 2)) := mul_le_mul_of_nonneg_right h7 (mul_nonneg hvu hB.le)
        _ = _ := by ring
    · intro p h8 h9
      exact (step_near hE ha ha1 (by linarith) (by linarith)).1
    · show J a (1 / 2) z / B a (1 / 2) = 1 / 20
      rw [hzr]
      field_simp
  have hφlo : 1 / 20 * a / R ≤ w a lo / B a (1 / 2) := by
    have h8 := w_mono ha hz0 hzhi hhi1
    rw [div_le_div_iff₀ (by linarith) hB]
    nlinarith
  have C : Computes E (lnBeta E a (1 / 2)) a (1 / 2) (1 / 20) lo hi (stepOf E a) := by
    intro p h8 h9
    obtain ⟨_, ⟨i, i1, i2⟩, i3⟩ := step_near hE ha ha1 (show 0 < p by linarith) (show p < 1 by linarith)
    refine ⟨i, i1, ?_⟩
    unfold quotient
    rw [if_pos, ← i2]
    have hR2 : R ≤ 37 * a := by nlinarith
    have h10 : 1 / 20 * a / R ≤ w a p / B a (1 / 2) := hφlo.trans (S.φpos h8 h9).1
    have h11 : (1 : ℝ) / 740 ≤ 1 / 20 * a / R := by
      rw [div_le_div_iff₀ (by norm_num) (by linarith)]
      linarith
    have h12 : 2 / (w a p / B a (1 / 2)) ≤ 2 / (1 / 740) :=
      div_le_div_of_nonneg_left (by norm_num) (by norm_num) (h11.trans h10)
    have h13 : (2 : ℝ) ^ 200 ≤ 2 ^ 1024 := pow_le_pow_right₀ one_le_two (by norm_num)
    refine lt_of_le_of_lt (i3.trans h12) (lt_of_lt_of_le ?_ h13)
    norm_num
  set τ := 4 / 10 ^ 13 * R / (1 / 20 * a) with hτd
  have hτφ : 4 / 10 ^ 13 ≤ τ * (w a lo / B a (1 / 2)) := by
    have h8 : 0 ≤ τ := by rw [hτd]; positivity
    calc (4 : ℝ) / 10 ^ 13 = τ * (1 / 20 * a / R) := by rw [hτd]; field_simp
      _ ≤ _ := mul_le_mul_of_nonneg_left hφlo h8
  have hτε : (R + 1) * τ < ε := by
    have : (R + 1) * τ = 4 / 10 ^ 13 * (R * (R + 1)) / (1 / 20 * a) := by rw [hτd]; ring
    rw [this, div_lt_iff₀ (by positivity)]
    nlinarith
  have hτ0 : 0 ≤ τ := by rw [hτd]; positivity
  have hτs : τ < 2 / 10 ^ 10 := by
    have h8 : R * 2 ≤ 37 * a := by nlinarith
    rw [hτd, div_lt_iff₀ (by positivity)]
    nlinarith
  have hp2 : p0 - stepOf E a p0 ≤ hi - ε := by
    obtain ⟨c1, c2⟩ := abs_le.1 (step_near hE ha ha1 hp0 hp1).1
    have hφ0 : 0 < w a p0 / B a (1 / 2) := by positivity
    have h8 : 4 / 10 ^ 13 ≤ τ * (w a p0 / B a (1 / 2)) :=
      hτφ.trans (mul_le_mul_of_nonneg_left (S.φpos (by linarith) (by linarith)).1 hτ0)
    have h9 : 1 / 20 - J a (1 / 2) p0 / B a (1 / 2) ≤ w a p0 / B a (1 / 2) * ((1 / 20 / i0 - 1) * p0 / a) := by
      rw [div_mul_eq_mul_div, le_div_iff₀ hB]
      exact hnewt
    have h10 : w a p0 / B a (1 / 2) * (-stepOf E a p0) ≤
        w a p0 / B a (1 / 2) * ((1 / 20 / i0 - 1) * p0 / a + τ) := by
      rw [mul_neg, mul_add]
      linarith
    have h11 := le_of_mul_le_mul_left h10 hφ0
    linarith
  obtain ⟨r, N, r1, r2, r3, r4⟩ := newton_ends S (by positivity) C hτφ hτε (by linarith) (by linarith) (by linarith)
    (p := p0) (by linarith) (by linarith) hp2 (by linarith)
  exact ⟨r, N, r1, by linarith, by linarith, r4⟩

end Verif.StudentPpf
