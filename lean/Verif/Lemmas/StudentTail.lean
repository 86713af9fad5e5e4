import Verif.Lemmas.BetaTail

/-! # The tail of the Student distribution as an incomplete beta function -/

namespace Verif.BetaFrac

open MeasureTheory Set Verif.TTest

variable {ν t : ℝ}

/-- Density of the Student distribution. -/
noncomputable def td (ν τ : ℝ) : ℝ :=
  Real.Gamma ((ν + 1) / 2) / (√(ν * Real.pi) * Real.Gamma (ν / 2)) * (1 + τ ^ 2 / ν) ^ (-((ν + 1) / 2))

theorem td_neg (ν τ : ℝ) : td ν (-τ) = td ν τ := by unfold td; rw [neg_sq]

theorem td_const (h : 0 < ν) :
    Real.Gamma ((ν + 1) / 2) / (√(ν * Real.pi) * Real.Gamma (ν / 2)) = 1 / (√ν * B (ν / 2) (1 / 2)) := by
  have g1 := Real.Gamma_pos_of_pos (show 0 < ν / 2 by positivity)
  have g2 := Real.Gamma_pos_of_pos (show 0 < (ν + 1) / 2 by positivity)
  have h1 : 0 < √ν := Real.sqrt_pos.2 h
  have h2 : 0 < √Real.pi := Real.sqrt_pos.2 Real.pi_pos
  unfold B
  rw [Real.sqrt_mul h.le, Real.Gamma_one_half_eq, show ν / 2 + 1 / 2 = (ν + 1) / 2 by ring]
  field_simp

theorem t_tail (h : 0 < ν) (ht : 0 ≤ t) :
    ∫ τ in Ioi t, td ν τ = 1 / 2 * (J (ν / 2) (1 / 2) (ν / (ν + t * t)) / B (ν / 2) (1 / 2)) := by
  have hB := B_pos (show 0 < ν / 2 by positivity) (show (0 : ℝ) < 1 / 2 by norm_num)
  have hs : 0 < √ν := Real.sqrt_pos.2 h
  have hF := F_tail (d1 := 1) (d2 := ν) one_pos h (sq_nonneg t)
  rw [show ν / (1 * t ^ 2 + ν) = ν / (ν + t * t) by ring] at hF
  rw [← hF]
  have him : (fun τ : ℝ => τ ^ 2) '' Ioi t = Ioi (t ^ 2) := by
    ext u
    constructor
    · rintro ⟨τ, hτ, rfl⟩
      exact pow_lt_pow_left₀ hτ ht two_ne_zero
    · intro hu
      have hu' : t ^ 2 < u := hu
      refine ⟨√u, Real.lt_sqrt_of_sq_lt hu', Real.sq_sqrt ((sq_nonneg t).trans hu'.le)⟩
  rw [← him, integral_image_eq_integral_abs_deriv_smul (f' := fun τ => 2 * τ) measurableSet_Ioi]
  · rw [mul_div_assoc', ← integral_const_mul, ← integral_div]
    apply setIntegral_congr_fun measurableSet_Ioi
    intro τ hτ
    have hτ0 : 0 < τ := lt_of_le_of_lt ht hτ
    simp only [smul_eq_mul]
    unfold td
    rw [td_const h, abs_of_pos (by positivity)]
    have e1 : (τ ^ 2) ^ ((1 : ℝ) / 2 - 1) = τ⁻¹ := by
      rw [← Real.rpow_natCast, ← Real.rpow_mul hτ0.le, ← Real.rpow_neg_one]
      norm_num
    have e2 : (1 / ν) ^ ((1 : ℝ) / 2) = 1 / √ν := by
      rw [← Real.sqrt_eq_rpow, Real.sqrt_div zero_le_one, Real.sqrt_one]
    rw [e1, e2, one_mul, add_comm 1 ν]
    field_simp
  · intro τ _
    have := hasDerivAt_pow 2 τ
    refine (HasDerivAt.congr_deriv this ?_).hasDerivWithinAt
    simp
  · intro u hu v hv huv
    have hu0 : 0 ≤ u := ht.trans (le_of_lt hu)
    have hv0 : 0 ≤ v := ht.trans (le_of_lt hv)
    exact (pow_left_inj₀ hu0 hv0 two_ne_zero).1 huv

theorem t_half (h : 0 < ν) : ∫ τ in Ioi (0 : ℝ), td ν τ = 1 / 2 := by
  have h1 : 0 < ν / 2 := by positivity
  have h2 : (0 : ℝ) < 1 / 2 := by norm_num
  rw [t_tail h le_rfl, mul_zero, add_zero, div_self h.ne', J_one h1 h2, div_self (B_pos h1 h2).ne', mul_one]

theorem t_refl (ν t : ℝ) : ∫ τ in Iic (-t), td ν τ = ∫ τ in Ioi t, td ν τ := by
  rw [← integral_comp_neg_Ioi]
  simp only [td_neg]

theorem td_int (h : 0 < ν) : Integrable (td ν) := by
  have h1 : IntegrableOn (td ν) (Ioi 0) := by
    by_contra hc
    have := t_half h
    rw [integral_undef hc] at this
    norm_num at this
  have h2 : IntegrableOn (td ν) (Iic 0) := by
    by_contra hc
    have := t_refl ν 0
    rw [neg_zero, t_half h, integral_undef hc] at this
    norm_num at this
  have := h2.union h1
  rwa [Iic_union_Ioi, integrableOn_univ] at this

theorem t_split (h : 0 < ν) (t : ℝ) : (∫ τ in Iic t, td ν τ) + ∫ τ in Ioi t, td ν τ = ∫ τ, td ν τ := by
  have := integral_add_compl (μ := volume) (f := td ν) (s := Iic t) measurableSet_Iic (td_int h)
  rwa [compl_Iic] at this

theorem t_total (h : 0 < ν) : ∫ τ, td ν τ = 1 := by
  have h1 := t_refl ν 0
  rw [neg_zero] at h1
  rw [← t_split h 0, h1, t_half h]
  norm_num

theorem t_tail_neg (h : 0 < ν) (t : ℝ) : ∫ τ in Ioi (-t), td ν τ = 1 - ∫ τ in Ioi t, td ν τ := by
  have := t_split h (-t)
  rw [t_total h, t_refl] at this
  linarith

theorem student_accuracy (E : BetaEnv) (hl : ∀ a, 0 < a → |E.lnGamma a - Real.log (Real.Gamma a)| ≤ 1 / 10 ^ 16)
    (he : E.eps ≤ 112 / 10 ^ 17) (hf : E.minPos / E.eps ≤ 1 / 10 ^ 21) (hν : 1 ≤ ν) (hν1 : ν ≤ 10 ^ 20) (t : ℝ) :
    ∃ p, studentSf E t ν = some p ∧ |p - ∫ τ in Ioi t, td ν τ| ≤
      3 / 10 ^ 13 * (if 3 * ν / (ν + 2) < t ^ 2 then ∫ τ in Ioi |t|, td ν τ else 1 / 2 - ∫ τ in Ioi |t|, td ν τ) := by
  have h0 : 0 < ν := by linarith
  have hd : 0 < ν + t * t := by nlinarith [mul_self_nonneg t]
  have hx0 : 0 ≤ ν / (ν + t * t) := by positivity
  have hx1 : ν / (ν + t * t) ≤ 1 := by rw [div_le_one hd]; nlinarith [mul_self_nonneg t]
  obtain ⟨i, hi, hacc⟩ := checked_accuracy (a := ν / 2) (b := 1 / 2) E hl he hf (by linarith) le_rfl (by norm_num)
    (by norm_num at hν1 ⊢; linarith) hx0 hx1
  have hiff : ν / (ν + t * t) < (ν / 2 + 1) / (ν / 2 + 1 / 2 + 2) ↔ 3 * ν / (ν + 2) < t ^ 2 := by
    rw [div_lt_div_iff₀ hd (by linarith), div_lt_iff₀ (by linarith)]
    constructor <;> intro h <;> nlinarith
  have htail := t_tail (t := |t|) h0 (abs_nonneg t)
  rw [abs_mul_abs_self] at htail
  simp only [hiff] at hacc
  refine ⟨if t ≤ 0 then 1 - 1 / 2 * i else 1 / 2 * i, ?_, ?_⟩
  · unfold studentSf
    simp only [hi]
  · have key : |1 / 2 * i - ∫ τ in Ioi |t|, td ν τ| ≤
      3 / 10 ^ 13 * (if 3 * ν / (ν + 2) < t ^ 2 then ∫ τ in Ioi |t|, td ν τ else 1 / 2 - ∫ τ in Ioi |t|, td ν τ) := by
      rw [htail]
      generalize J (ν / 2) (1 / 2) (ν / (ν + t * t)) / B (ν / 2) (1 / 2) = I at *
      rw [← mul_sub, abs_mul, abs_of_pos (by norm_num : (0 : ℝ) < 1 / 2)]
      split_ifs at hacc ⊢ <;> linarith
    by_cases h1 : t ≤ 0
    · rw [if_pos h1]
      have e : |t| = -t := abs_of_nonpos h1
      have h2 := t_tail_neg h0 (-t)
      rw [neg_neg] at h2
      rw [h2]
      rw [e] at key ⊢
      rw [show 1 - 1 / 2 * i - (1 - ∫ τ in Ioi (-t), td ν τ) = -(1 / 2 * i - ∫ τ in Ioi (-t), td ν τ) by ring, abs_neg]
      exact key
    · rw [if_neg h1]
      have e : |t| = t := abs_of_pos (not_le.1 h1)
      rw [e] at key ⊢
      exact key

end Verif.BetaFrac
