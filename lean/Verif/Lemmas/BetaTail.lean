import Verif.Lemmas.BetaCf
import Mathlib.Probability.Distributions.Beta
import Mathlib.MeasureTheory.Function.JacobianOneDim
import Mathlib.MeasureTheory.Integral.IntegralEqImproper

/-! # The incomplete beta integral, the F tail and the Student tail -/

namespace Verif.BetaFrac

open MeasureTheory Set Verif.TTest

variable {a b x : ℝ}

/-- The incomplete beta integral. -/
noncomputable def J (a b x : ℝ) : ℝ := ∫ w in Ioo 0 x, w ^ (a - 1) * (1 - w) ^ (b - 1)

noncomputable def B (a b : ℝ) : ℝ := Real.Gamma a * Real.Gamma b / Real.Gamma (a + b)

theorem B_pos (ha : 0 < a) (hb : 0 < b) : 0 < B a b :=
  div_pos (mul_pos (Real.Gamma_pos_of_pos ha) (Real.Gamma_pos_of_pos hb)) (Real.Gamma_pos_of_pos (add_pos ha hb))

theorem B_comm (a b : ℝ) : B a b = B b a := by unfold B; rw [mul_comm, add_comm]

theorem J_one (ha : 0 < a) (hb : 0 < b) : J a b 1 = B a b := by
  have h := ProbabilityTheory.beta_eq_betaIntegralReal a b ha hb
  have h2 : B a b = ProbabilityTheory.beta a b := rfl
  rw [h2, h, J, Complex.betaIntegral, intervalIntegral.integral_of_le (by norm_num),
    ← integral_Ioc_eq_integral_Ioo, ← RCLike.re_to_complex, ← integral_re]
  · refine setIntegral_congr_fun measurableSet_Ioc fun x ⟨hx1, hx2⟩ => ?_
    norm_cast
    rw [← Complex.ofReal_cpow, ← Complex.ofReal_cpow, RCLike.re_to_complex,
      Complex.re_mul_ofReal, Complex.ofReal_re]
    all_goals linarith
  · have h3 := Complex.betaIntegral_convergent (u := a) (v := b) (by simpa) (by simpa)
    rwa [intervalIntegrable_iff_integrableOn_Ioc_of_le (by simp), IntegrableOn] at h3

theorem J_int (ha : 0 < a) (hb : 0 < b) :
    IntegrableOn (fun w : ℝ => w ^ (a - 1) * (1 - w) ^ (b - 1)) (Ioo 0 1) := by
  by_contra h
  have h1 := J_one ha hb
  have h2 : J a b 1 = 0 := integral_undef h
  linarith [B_pos ha hb]

/-- The part below and the part above. -/
theorem J_add (ha : 0 < a) (hb : 0 < b) (hx0 : 0 ≤ x) (hx1 : x ≤ 1) : J a b x + J b a (1 - x) = B a b := by
  rw [← J_one ha hb]
  have h2 : J b a (1 - x) = ∫ w in Ioo x 1, w ^ (a - 1) * (1 - w) ^ (b - 1) := by
    have him : (fun w : ℝ => 1 - w) '' Ioo x 1 = Ioo 0 (1 - x) := by simp
    unfold J
    rw [← him, integral_image_eq_integral_abs_deriv_smul (f' := fun _ => -1) measurableSet_Ioo]
    · apply setIntegral_congr_fun measurableSet_Ioo
      intro w _
      simp only [abs_neg, abs_one, one_smul, sub_sub_cancel]
      ring
    · intro w _
      exact ((hasDerivAt_id w).const_sub 1).hasDerivWithinAt
    · intro u _ v _ h
      simpa using h
  rw [h2]
  unfold J
  rw [← integral_Ioc_eq_integral_Ioo, ← integral_Ioc_eq_integral_Ioo, ← integral_Ioc_eq_integral_Ioo,
    ← setIntegral_union (by simp) measurableSet_Ioc, Ioc_union_Ioc_eq_Ioc hx0 hx1]
  · exact ((integrableOn_Ioc_iff_integrableOn_Ioo).2 (J_int ha hb)).mono_set (Ioc_subset_Ioc_right hx1)
  · exact ((integrableOn_Ioc_iff_integrableOn_Ioo).2 (J_int ha hb)).mono_set (Ioc_subset_Ioc_left hx0)

/-- The integral behind the fraction. -/
theorem J_eq (hx0 : 0 < x) (hx1 : x < 1) : J a b x = x ^ a * (1 - x) ^ b * P a b x 0 := by
  have hy : 0 < 1 - x := by linarith
  have him : (fun s : ℝ => x * (1 - s) / (1 - x * s)) '' Ioo 0 1 = Ioo 0 x := by
    ext u
    constructor
    · rintro ⟨s, hs, rfl⟩
      have h1 := one_sub_pos hx1 hs.1.le hs.2.le
      have h2 : 0 < 1 - s := by linarith [hs.2]
      refine ⟨by positivity, ?_⟩
      show x * (1 - s) / (1 - x * s) < x
      rw [div_lt_iff₀ h1]
      nlinarith [mul_pos hx0 hs.1, mul_pos (mul_pos hx0 hs.1) hy]
    · intro hu
      have h1 : 0 < 1 - u := by linarith [hu.2]
      refine ⟨(x - u) / (x * (1 - u)), ⟨div_pos (by linarith [hu.2]) (by positivity), ?_⟩, ?_⟩
      · rw [div_lt_one (by positivity)]
        nlinarith [hu.1]
      · show x * (1 - (x - u) / (x * (1 - u))) / (1 - x * ((x - u) / (x * (1 - u)))) = u
        have e1 : 1 - (x - u) / (x * (1 - u)) = u * (1 - x) / (x * (1 - u)) := by field_simp; ring
        have e2 : 1 - x * ((x - u) / (x * (1 - u))) = (1 - x) / (1 - u) := by field_simp; ring
        rw [e1, e2]
        field_simp
  unfold J P K
  rw [← him, integral_image_eq_integral_abs_deriv_smul (f' := fun s => -(x * (1 - x)) / (1 - x * s) ^ 2) measurableSet_Ioo]
  · rw [intervalIntegral.integral_of_le zero_le_one, integral_Ioc_eq_integral_Ioo, ← integral_const_mul]
    apply setIntegral_congr_fun measurableSet_Ioo
    intro s hs
    have h1 := one_sub_pos hx1 hs.1.le hs.2.le
    have h2 : 0 < 1 - s := by linarith [hs.2]
    have e1 : 1 - x * (1 - s) / (1 - x * s) = (1 - x) / (1 - x * s) := by field_simp; ring
    simp only [kb, pow_zero, one_mul, Nat.cast_zero, add_zero, smul_eq_mul]
    rw [e1, abs_div, abs_neg, abs_of_pos (by positivity : 0 < x * (1 - x)), abs_of_pos (by positivity : 0 < (1 - x * s) ^ 2),
      Real.div_rpow (by positivity) h1.le, Real.div_rpow hy.le h1.le, Real.mul_rpow hx0.le h2.le]
    have f1 : x ^ a = x ^ (a - 1) * x := by rw [← Real.rpow_add_one hx0.ne']; ring_nf
    have f2 : (1 - x) ^ b = (1 - x) ^ (b - 1) * (1 - x) := by rw [← Real.rpow_add_one hy.ne']; ring_nf
    have f3 : (1 - x * s) ^ (-(a + b)) = ((1 - x * s) ^ (a - 1))⁻¹ * ((1 - x * s) ^ (b - 1))⁻¹ * ((1 - x * s) ^ 2)⁻¹ := by
      rw [← Real.rpow_neg h1.le, ← Real.rpow_neg h1.le, ← Real.rpow_natCast, ← Real.rpow_neg h1.le,
        ← Real.rpow_add h1, ← Real.rpow_add h1]
      congr 1
      push_cast
      ring
    rw [f1, f2, f3]
    have g1 : (1 - x * s) ^ (a - 1) ≠ 0 := (Real.rpow_pos_of_pos h1 _).ne'
    have g2 : (1 - x * s) ^ (b - 1) ≠ 0 := (Real.rpow_pos_of_pos h1 _).ne'
    field_simp
  · intro s hs
    have h1 := one_sub_pos hx1 hs.1.le hs.2.le
    have d1 : HasDerivAt (fun s : ℝ => x * (1 - s)) (x * (-1)) s := ((hasDerivAt_id s).const_sub 1).const_mul x
    have d2 : HasDerivAt (fun s : ℝ => 1 - x * s) (-(x * 1)) s := ((hasDerivAt_id s).const_mul x).const_sub 1
    refine (HasDerivAt.congr_deriv (d1.div d2 h1.ne') ?_).hasDerivWithinAt
    congr 1
    ring
  · intro s hs t ht h
    have h1 := one_sub_pos hx1 hs.1.le hs.2.le
    have h2 := one_sub_pos hx1 ht.1.le ht.2.le
    have h' : x * (1 - s) / (1 - x * s) = x * (1 - t) / (1 - x * t) := h
    rw [div_eq_div_iff h1.ne' h2.ne'] at h'
    have : x * (1 - x) * (t - s) = 0 := by linarith
    rcases mul_eq_zero.1 this with h3 | h3
    · exact absurd h3 (by positivity)
    · linarith

/-- The factor in front of the fraction. -/
theorem front_exact (ha : 0 < a) (hb : 0 < b) (hx0 : 0 < x) (hx1 : x < 1) :
    Real.exp (Real.log (Real.Gamma (a + b)) - Real.log (Real.Gamma a) - Real.log (Real.Gamma b) + a * Real.log x +
      b * Real.log (1 - x)) = x ^ a * (1 - x) ^ b / B a b := by
  have hy : 0 < 1 - x := by linarith
  have ga := Real.Gamma_pos_of_pos ha
  have gb := Real.Gamma_pos_of_pos hb
  have gab := Real.Gamma_pos_of_pos (add_pos ha hb)
  rw [Real.exp_add, Real.exp_add, Real.exp_sub, Real.exp_sub,
    Real.exp_log ga, Real.exp_log gb, Real.exp_log gab, Real.rpow_def_of_pos hx0, Real.rpow_def_of_pos hy,
    mul_comm a, mul_comm b]
  unfold B
  field_simp

/-- The factor in front of the fraction, with the error of the log-gamma function. -/
theorem front (lnGamma : ℝ → ℝ) (hl : ∀ a, 0 < a → |lnGamma a - Real.log (Real.Gamma a)| ≤ 1 / 10 ^ 16) (ha : 0 < a)
    (hb : 0 < b) (hx0 : 0 < x) (hx1 : x < 1) :
    ∃ κ, |κ - 1| ≤ 6 / 10 ^ 16 ∧
      Real.exp (lnGamma (a + b) - lnGamma a - lnGamma b + a * Real.log x + b * Real.log (1 - x)) =
        κ * (x ^ a * (1 - x) ^ b / B a b) := by
  have h1 := abs_le.1 (hl _ ha)
  have h2 := abs_le.1 (hl _ hb)
  have h3 := abs_le.1 (hl _ (add_pos ha hb))
  have h4 : |lnGamma (a + b) - Real.log (Real.Gamma (a + b)) - (lnGamma a - Real.log (Real.Gamma a)) -
      (lnGamma b - Real.log (Real.Gamma b))| ≤ 3 / 10 ^ 16 := by
    rw [abs_le]
    constructor <;> linarith
  refine ⟨_, (Real.abs_exp_sub_one_le (h4.trans (by norm_num))).trans (by linarith), ?_⟩
  rw [← front_exact ha hb hx0 hx1, ← Real.exp_add]
  congr 1
  ring

theorem near_fraction {κ y Z : ℝ} (k : |κ - 1| ≤ 6 / 10 ^ 16) (hZ : 0 ≤ Z) (h : |Z - y| ≤ 2 / 10 ^ 13 * Z) :
    |Z - κ * y| ≤ 3 / 10 ^ 13 * Z := by
  have e : Z - κ * y = Z - y - (κ - 1) * y := by ring
  have hy : |y| ≤ 2 * Z := by
    obtain ⟨h1, h2⟩ := abs_le.1 h
    rw [abs_le]
    constructor <;> linarith
  have h1 : |(κ - 1) * y| ≤ 6 / 10 ^ 16 * (2 * Z) := by
    rw [abs_mul]
    exact mul_le_mul k hy (abs_nonneg _) (by norm_num)
  rw [e]
  refine (abs_sub _ _).trans ?_
  linarith

/-- `checked_beta_reg` against the regularised incomplete beta function: the relative error is small in the branch that
computes the value itself, and in the swapped branch the error is small relative to the complement. -/
theorem checked_accuracy (E : BetaEnv) (hl : ∀ a, 0 < a → |E.lnGamma a - Real.log (Real.Gamma a)| ≤ 1 / 10 ^ 16)
    (he : E.eps ≤ 112 / 10 ^ 17) (hf : E.minPos / E.eps ≤ 1 / 10 ^ 21) (ha : 1 / 2 ≤ a) (hb : 1 / 2 ≤ b) (hb1 : b ≤ 100)
    (hab : a + b ≤ 10 ^ 20) (hx0 : 0 ≤ x) (hx1 : x ≤ 1) :
    ∃ p, checkedBetaReg E a b x = some p ∧ |p - J a b x / B a b| ≤
      3 / 10 ^ 13 * (if x < (a + 1) / (a + b + 2) then J a b x / B a b else 1 - J a b x / B a b) := by
  have ha0 : 0 < a := by linarith
  have hb0 : 0 < b := by linarith
  have hA : 0 < a + b + 2 := by linarith
  have hB := B_pos ha0 hb0
  unfold checkedBetaReg
  rw [if_neg (by linarith), if_neg (by linarith), if_neg (by simp [hx0, hx1])]
  by_cases hc : x < (a + 1) / (a + b + 2)
  · simp only [ge_iff_le, not_le.2 hc, if_false, if_pos hc, Option.some.injEq, exists_eq_left']
    rcases hx0.eq_or_lt with h0 | h0
    · subst h0
      simp [J]
    · have hx1' : x < 1 := hc.trans ((div_lt_one hA).2 (by linarith))
      obtain ⟨κ, k1, hk⟩ := front E.lnGamma hl ha0 hb0 h0 hx1'
      rw [if_neg (by rintro (h | h) <;> linarith), hk, J_eq h0 hx1']
      have R : Reg a b x := ⟨ha0, hb0, h0, by rw [lt_div_iff₀ hA] at hc; exact hc.le⟩
      have key := cf_accuracy R hb hab (Or.inl hb1) he hf
      generalize betaLoop _ _ _ _ _ _ _ _ _ _ = y at *
      have hP : 0 ≤ a * P a b x 0 := mul_nonneg ha0.le (P_pos ha0 hx1' 0).le
      replace key := near_fraction k1 hP key
      have e : κ * (x ^ a * (1 - x) ^ b / B a b) * y / a - x ^ a * (1 - x) ^ b * P a b x 0 / B a b =
          x ^ a * (1 - x) ^ b / B a b / a * (κ * y - a * P a b x 0) := by field_simp
      have hy : 0 < 1 - x := by linarith
      have hpos : 0 < x ^ a * (1 - x) ^ b / B a b / a := by positivity
      rw [e, abs_mul, abs_of_pos hpos, abs_sub_comm]
      calc _ ≤ x ^ a * (1 - x) ^ b / B a b / a * (3 / 10 ^ 13 * (a * P a b x 0)) :=
            mul_le_mul_of_nonneg_left key hpos.le
        _ = _ := by field_simp
  · rw [not_lt] at hc
    simp only [ge_iff_le, hc, if_true, if_neg (not_lt.2 hc), Option.some.injEq, exists_eq_left']
    have hx0' : 0 < x := lt_of_lt_of_le (by positivity) hc
    have hadd := J_add ha0 hb0 hx0 hx1
    have hcm : 1 - J a b x / B a b = J b a (1 - x) / B b a := by
      rw [B_comm b a]
      field_simp
      linarith
    rcases hx1.eq_or_lt with h1 | h1
    · subst h1
      simp [J_one ha0 hb0, hB.ne']
    · have hR : Reg b a (1 - x) := by
        refine ⟨hb0, ha0, by linarith, ?_⟩
        rw [div_le_iff₀ hA] at hc
        nlinarith
      have key := cf_accuracy hR ha (by linarith) (Or.inr hb1) he hf
      obtain ⟨κ, k1, hk⟩ := front E.lnGamma hl ha0 hb0 hx0' h1
      rw [if_neg (by rintro (h | h) <;> linarith), hk]
      generalize betaLoop _ _ _ _ _ _ _ _ _ _ = y at *
      have hP : 0 ≤ b * P b a (1 - x) 0 := mul_nonneg hb0.le (P_pos hb0 (by linarith) 0).le
      replace key := near_fraction k1 hP key
      have hj := J_eq (a := b) (b := a) (x := 1 - x) (by linarith) (by linarith)
      rw [show (1 : ℝ) - (1 - x) = x by ring] at hj
      have e0 : ∀ z : ℝ, |1 - z - J a b x / B a b| = |1 - J a b x / B a b - z| := by
        intro z; congr 1; ring
      rw [e0, hcm, hj, B_comm a b]
      have hB' := B_pos hb0 ha0
      have e : (1 - x) ^ b * x ^ a * P b a (1 - x) 0 / B b a - κ * (x ^ a * (1 - x) ^ b / B b a) * y / b =
          x ^ a * (1 - x) ^ b / B b a / b * (b * P b a (1 - x) 0 - κ * y) := by field_simp
      have hy : 0 < 1 - x := by linarith
      have hpos : 0 < x ^ a * (1 - x) ^ b / B b a / b := by positivity
      rw [e, abs_mul, abs_of_pos hpos]
      calc _ ≤ x ^ a * (1 - x) ^ b / B b a / b * (3 / 10 ^ 13 * (b * P b a (1 - x) 0)) :=
            mul_le_mul_of_nonneg_left key hpos.le
        _ = _ := by field_simp

/-- The tail of the F distribution. -/
theorem F_tail {d1 d2 : ℝ} (h1 : 0 < d1) (h2 : 0 < d2) (hx : 0 ≤ x) :
    ∫ u in Ioi x, (d1 / d2) ^ (d1 / 2) * u ^ (d1 / 2 - 1) * (1 + d1 * u / d2) ^ (-((d1 + d2) / 2)) =
      J (d2 / 2) (d1 / 2) (d2 / (d1 * x + d2)) := by
  have hd : 0 < d1 * x + d2 := by positivity
  have him : (fun w : ℝ => d2 / d1 * (1 / w - 1)) '' Ioo 0 (d2 / (d1 * x + d2)) = Ioi x := by
    ext u
    constructor
    · rintro ⟨w, hw, rfl⟩
      have hw0 := hw.1
      have hw1 := hw.2
      rw [lt_div_iff₀ hd] at hw1
      show x < d2 / d1 * (1 / w - 1)
      have : d2 / d1 * (1 / w - 1) = (d2 - d2 * w) / (d1 * w) := by field_simp
      rw [this, lt_div_iff₀ (by positivity)]
      linarith
    · intro hu
      have hu' : x < u := hu
      have hu0 : 0 < d1 * u + d2 := by nlinarith
      refine ⟨d2 / (d1 * u + d2), ⟨by positivity, ?_⟩, ?_⟩
      · apply div_lt_div_of_pos_left h2 hd
        nlinarith
      · show d2 / d1 * (1 / (d2 / (d1 * u + d2)) - 1) = u
        field_simp
        ring
  rw [← him, integral_image_eq_integral_abs_deriv_smul (f' := fun w => d2 / d1 * (-(1 / w ^ 2))) measurableSet_Ioo]
  · unfold J
    apply setIntegral_congr_fun measurableSet_Ioo
    intro w hw
    have hw0 := hw.1
    have hw1 : w < 1 := hw.2.trans_le ((div_le_one hd).2 (by nlinarith))
    have hy : 0 < 1 - w := by linarith
    have e1 : d2 / d1 * (1 / w - 1) = d2 / d1 * ((1 - w) / w) := by field_simp
    have e2 : 1 + d1 * (d2 / d1 * (1 / w - 1)) / d2 = w⁻¹ := by field_simp; ring
    simp only [smul_eq_mul]
    rw [e2, e1, abs_mul, abs_neg, abs_of_pos (by positivity : 0 < d2 / d1), abs_of_pos (by positivity : 0 < 1 / w ^ 2),
      Real.mul_rpow (by positivity) (by positivity), Real.div_rpow hy.le hw0.le]
    have f1 : (d1 / d2) ^ (d1 / 2) * (d2 / d1) ^ (d1 / 2 - 1) * (d2 / d1) = 1 := by
      rw [mul_assoc, ← Real.rpow_add_one (by positivity), sub_add_cancel, ← Real.mul_rpow (by positivity) (by positivity)]
      rw [show d1 / d2 * (d2 / d1) = 1 by field_simp, Real.one_rpow]
    have f2 : w⁻¹ ^ (-((d1 + d2) / 2)) = w ^ (d2 / 2 - 1) * w ^ (d1 / 2 - 1) * w ^ 2 := by
      rw [Real.inv_rpow hw0.le, ← Real.rpow_neg hw0.le, neg_neg, ← Real.rpow_natCast, ← Real.rpow_add hw0,
        ← Real.rpow_add hw0]
      congr 1
      push_cast
      ring
    rw [f2]
    have g1 : w ^ (d1 / 2 - 1) ≠ 0 := (Real.rpow_pos_of_pos hw0 _).ne'
    calc _ = (d1 / d2) ^ (d1 / 2) * (d2 / d1) ^ (d1 / 2 - 1) * (d2 / d1) *
          (w ^ (d2 / 2 - 1) * (1 - w) ^ (d1 / 2 - 1)) := by field_simp
      _ = _ := by rw [f1, one_mul]
  · intro w hw
    have := ((hasDerivAt_inv hw.1.ne').sub_const 1).const_mul (d2 / d1)
    simp only [one_div]
    exact this.hasDerivWithinAt
  · intro u hu v hv h
    have h' : d2 / d1 * (1 / u - 1) = d2 / d1 * (1 / v - 1) := h
    have h3 := mul_left_cancel₀ (by positivity : d2 / d1 ≠ 0) h'
    have h4 : 1 / u = 1 / v := by linarith
    simpa using h4

end Verif.BetaFrac
