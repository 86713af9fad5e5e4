import Verif.Lemmas.ErfSmall

/-!
# Property C134: the normal upper tail (`sf_unchecked`)
-/

namespace Verif.Normal
open Set Filter Topology Real MeasureTheory ProbabilityTheory
open Verif.ListPoly Verif.GaussTail

namespace Spec

/-- The probability that a normal variable with mean `μ` and standard deviation `σ` exceeds `x`. -/
noncomputable def upper (μ σ x : ℝ) : ℝ := (gaussianReal μ (.mk (σ ^ 2) (sq_nonneg σ))).real (Ioi x)

/-- The probability that it does not. -/
noncomputable def lower (μ σ x : ℝ) : ℝ := (gaussianReal μ (.mk (σ ^ 2) (sq_nonneg σ))).real (Iic x)

end Spec

theorem lower_eq (μ σ x : ℝ) : Spec.lower μ σ x = 1 - Spec.upper μ σ x := by
  unfold Spec.lower Spec.upper
  rw [← compl_Iic, probReal_compl_eq_one_sub measurableSet_Iic]
  ring

theorem upper_eq (μ σ x : ℝ) (hσ : 0 < σ) : Spec.upper μ σ x = c * U ((x - μ) / (σ * √2)) / 2 := by
  unfold Spec.upper
  rw [gaussian_tail μ σ x hσ, c]
  ring

theorem erfc_small (z : ℝ) (h0 : 0 ≤ z) (h1 : z < 1 / 2) : erfc z = 1 - result z := by
  rw [erfc, erfImpl, if_neg (not_lt.2 h0), erfPos, if_neg (by rintro ⟨_, h⟩; linarith), if_pos (.inr rfl)]

theorem erfc_large (z : ℝ) (h1 : 1 / 2 ≤ z) : erfc z = result z := by
  rw [erfc, erfImpl, if_neg (by linarith), erfPos, if_pos ⟨rfl, h1⟩]

theorem result_zero : result 0 = 0 := by
  rw [result, if_pos (by norm_num), if_pos (by norm_num)]
  norm_num

theorem erfc_neg_pos (z : ℝ) (hz : 0 < z) : erfc (-z) = 2 - erfc z := by
  have hn : -z < 0 := by linarith
  rcases lt_trichotomy z (1 / 2) with h | h | h
  · rw [erfc_small z hz.le h, erfc, erfImpl, if_pos hn, if_neg (by decide), if_neg (by linarith), neg_neg, erfPos,
      if_neg (by rintro ⟨h, _⟩; cases h), if_neg (by rintro (h' | h'); linarith; cases h')]
    ring
  · rw [erfc_large z h.ge, erfc, erfImpl, if_pos hn, if_neg (by decide), if_neg (by linarith), neg_neg, erfPos,
      if_neg (by rintro ⟨h, _⟩; cases h), if_pos (.inl h.ge)]
    ring
  · rw [erfc_large z h.le, erfc, erfImpl, if_pos hn, if_neg (by decide), if_pos (by linarith), neg_neg, erfPos,
      if_pos ⟨rfl, h.le⟩]

theorem erfc_neg (z : ℝ) : erfc (-z) = 2 - erfc z := by
  rcases lt_trichotomy z 0 with h | h | h
  · have := erfc_neg_pos (-z) (by linarith)
    rw [neg_neg] at this
    linarith
  · subst h
    rw [neg_zero, erfc_small 0 le_rfl (by norm_num), result_zero]
    norm_num
  · exact erfc_neg_pos z h

/-- **C134.** Reflection about the mean is exact: the tails on both sides add up to one. -/
theorem sf_reflect (x μ σ : ℝ) : sf (2 * μ - x) μ σ = 1 - sf x μ σ := by
  unfold sf
  have : (2 * μ - x - μ) / (σ * √2) = -((x - μ) / (σ * √2)) := by ring
  rw [this, erfc_neg]
  ring

example : sf (2 * 3 - 5) 3 2 = 1 - sf 5 3 2 := sf_reflect 5 3 2

/-- **C134.** Half of the mass lies above the mean. -/
theorem sf_mean (μ σ : ℝ) : sf μ μ σ = 1 / 2 := by
  unfold sf
  rw [sub_self, zero_div, erfc_small 0 le_rfl (by norm_num), result_zero]
  norm_num

example : sf 7 7 2 = 1 / 2 := sf_mean 7 2

/-- `erf z >= 3 z / 4` on `[0, 1/2]`. -/
theorem erf_ge (z : ℝ) (h0 : 0 ≤ z) (h1 : z ≤ 1 / 2) : 0.75 * z ≤ 1 - c * U z := by
  have hd := (convex_Icc (0 : ℝ) (1 / 2)).mul_sub_le_image_sub_of_le_deriv (f := fun y => 1 - c * U y) (C := 0.75)
    (fun y _ => (hasDerivAt_erf y).continuousAt.continuousWithinAt)
    (fun y _ => (hasDerivAt_erf y).differentiableAt.differentiableWithinAt) (fun y hy => ?_) 0
    ⟨le_rfl, by norm_num⟩ z ⟨h0, h1⟩ h0
  · rw [erf_zero] at hd
    linarith
  · rw [interior_Icc] at hy
    rw [(hasDerivAt_erf y).deriv]
    have hl : 1 - y ^ 2 ≤ exp (-y ^ 2) := by linarith [Real.add_one_le_exp (-y ^ 2)]
    have hy2 : y ^ 2 ≤ 1 / 4 := by nlinarith [hy.1, hy.2]
    have hc := c_bounds.1
    norm_num at hc ⊢
    nlinarith

theorem cU_half : c * U (1 / 2) ≤ 0.625 := by
  have := erf_ge (1 / 2) (by norm_num) le_rfl
  norm_num at this ⊢
  linarith

theorem cU_pos (z : ℝ) : 0 < c * U z := mul_pos c_pos (U_pos z)

theorem cU_anti {y z : ℝ} (h : y ≤ z) : c * U z ≤ c * U y :=
  mul_le_mul_of_nonneg_left (U_antitone.antitone h) c_pos.le

theorem cU_zero : c * U 0 = 1 := by linarith [erf_zero]

/-- The relative error of `erfc`. -/
theorem erfc_near (z : ℝ) (h0 : 0 ≤ z) (h1 : z < 110) : |erfc z - c * U z| ≤ 1.04e-10 * (c * U z) := by
  rcases lt_or_ge z (1 / 2) with h | h
  · rw [erfc_small z h0 h]
    have := result_small z h0 h
    have e : 1 - result z - c * U z = -(result z - (1 - c * U z)) := by ring
    rw [e, abs_neg]
    refine this.trans ?_
    have h2 : c * U (1 / 2) ≤ c * U z := cU_anti h.le
    have h3 : 0.2 ≤ c * U (1 / 2) := by
      have := U_lower (1 / 2) (by norm_num)
      have he : (1 : ℝ) - (1 / 2) ^ 2 ≤ exp (-(1 / 2) ^ 2) := by linarith [Real.add_one_le_exp (-(1 / 2 : ℝ) ^ 2)]
      have hc := c_bounds.1
      norm_num at this he hc ⊢
      nlinarith
    norm_num at h2 h3 ⊢
    nlinarith
  · rw [erfc_large z h]
    exact result_large z h h1

theorem erfc_far (z : ℝ) (h : 110 ≤ z) : erfc z = 0 := by
  rw [erfc_large z (by linarith), result, if_neg (by linarith), if_neg (by linarith)]

/-- **C134.** Within `110 * sqrt 2` standard deviations of the mean (that is, before the result is cut off) the
returned value is the probability that a normal variable exceeds `x`, with an error of at most `1.04e-10` of the smaller
tail.  (So tiny p-values are right in their leading nine digits, whatever their size.) -/
theorem sf_accuracy (x μ σ : ℝ) (hσ : 0 < σ) (h : |x - μ| < 110 * √2 * σ) :
    |sf x μ σ - Spec.upper μ σ x| ≤ 1.04e-10 * min (Spec.upper μ σ x) (Spec.lower μ σ x) := by
  have h2 : (0 : ℝ) < √2 := by positivity
  have hs : 0 < σ * √2 := by positivity
  rw [lower_eq, upper_eq μ σ x hσ, sf]
  set z := (x - μ) / (σ * √2) with hz
  have hz110 : |z| < 110 := by
    rw [hz, abs_div, abs_of_pos hs, div_lt_iff₀ hs]
    linarith
  rw [abs_lt] at hz110
  rcases le_or_gt 0 z with h0 | h0
  · have hn := erfc_near z h0 hz110.2
    have h1 : c * U z ≤ 1 := by rw [← cU_zero]; exact cU_anti h0
    rw [min_eq_left (by linarith)]
    have e : 0.5 * erfc z - c * U z / 2 = (erfc z - c * U z) / 2 := by ring
    rw [e, abs_div, abs_two]
    linarith
  · have hn := erfc_near (-z) (by linarith) (by linarith)
    rw [erfc_neg] at hn
    have hU : c * U (-z) = 2 - c * U z := by
      rw [U_neg, mul_sub, c]
      have : √π ≠ 0 := by positivity
      field_simp
    rw [hU] at hn
    have h1 : 1 ≤ c * U z := by rw [← cU_zero]; exact cU_anti h0.le
    rw [min_eq_right (by linarith)]
    have e : 0.5 * erfc z - c * U z / 2 = -((2 - erfc z - (2 - c * U z)) / 2) := by ring
    rw [e, abs_neg, abs_div, abs_two]
    linarith

example : |sf 3 0 1 - Spec.upper 0 1 3| ≤ 1.04e-10 * min (Spec.upper 0 1 3) (Spec.lower 0 1 3) :=
  sf_accuracy 3 0 1 one_pos (by
    have : (1 : ℝ) ≤ √2 := Real.one_le_sqrt.2 (by norm_num)
    norm_num
    linarith)

/-- **C134.** Farther out the result is exactly zero or one. -/
theorem sf_far (x μ σ : ℝ) (hσ : 0 < σ) :
    (110 * √2 * σ ≤ x - μ → sf x μ σ = 0) ∧ (x - μ ≤ -(110 * √2 * σ) → sf x μ σ = 1) := by
  have hs : 0 < σ * √2 := by positivity
  have h1 : 110 * √2 * σ ≤ x - μ → sf x μ σ = 0 := by
    intro h
    rw [sf, erfc_far _ (by rw [le_div_iff₀ hs]; linarith), mul_zero]
  refine ⟨h1, fun h => ?_⟩
  have e : (x - μ) / (σ * √2) = -((μ - x) / (σ * √2)) := by ring
  rw [sf, e, erfc_neg, erfc_far _ (by rw [le_div_iff₀ hs]; linarith)]
  norm_num

example : sf (220 * √2) 0 2 = 0 ∧ sf (-(220 * √2)) 0 2 = 1 :=
  ⟨(sf_far _ 0 2 two_pos).1 (by linarith), (sf_far _ 0 2 two_pos).2 (by linarith)⟩

theorem U_upper (z : ℝ) (hz : 1 / 2 ≤ z) : U z ≤ exp (-z ^ 2) := by
  have := nonneg_of_deriv (f := fun z => exp (-z ^ 2) - U z) (f' := fun z => exp (-z ^ 2) * (1 - 2 * z)) (a := 1 / 2)
    ?_ ?_ ?_ z hz
  · linarith
  · intro y _
    have he : HasDerivAt (fun y : ℝ => exp (-y ^ 2)) (exp (-y ^ 2) * (-(2 * y))) y := by
      have := ((hasDerivAt_pow 2 y).neg).exp
      simpa using this
    refine (he.sub (hasDerivAt_U y)).congr_deriv ?_
    ring
  · intro y hy
    exact mul_nonpos_of_nonneg_of_nonpos (exp_pos _).le (by linarith)
  · simpa using exp_tendsto.sub U_tendsto

theorem cU_far (z : ℝ) (h : 110 ≤ z) : c * U z ≤ 1e-12 := by
  have h1 := U_upper 110 (by norm_num)
  have h2 : c * U z ≤ c * U 110 := cU_anti h
  have h3 : exp (-(110 : ℝ) ^ 2) ≤ 1e-13 := by
    have := Real.pow_div_factorial_le_exp (110 ^ 2 : ℝ) (by norm_num) 6
    rw [exp_neg, inv_le_comm₀ (exp_pos _) (by norm_num)]
    refine le_trans ?_ this
    norm_num [Nat.factorial]
  have hc := c_bounds.2
  have hp := U_pos 110
  norm_num at h1 h3 hc ⊢
  nlinarith [c_pos]

/-- **C134.** For every `x` the absolute error is below `5.21e-11`. -/
theorem sf_abs (x μ σ : ℝ) (hσ : 0 < σ) : |sf x μ σ - Spec.upper μ σ x| ≤ 5.21e-11 := by
  have hs : 0 < σ * √2 := by positivity
  have key : ∀ z : ℝ, 0 ≤ z → |0.5 * erfc z - c * U z / 2| ≤ 5.21e-11 := by
    intro z h0
    have e : 0.5 * erfc z - c * U z / 2 = (erfc z - c * U z) / 2 := by ring
    rw [e, abs_div, abs_two]
    rcases lt_or_ge z 110 with h | h
    · have hn := erfc_near z h0 h
      have h1 : c * U z ≤ 1 := by rw [← cU_zero]; exact cU_anti h0
      norm_num at hn ⊢
      linarith
    · rw [erfc_far z h, zero_sub, abs_neg, abs_of_pos (cU_pos z)]
      have := cU_far z h
      norm_num at this ⊢
      linarith
  rw [upper_eq μ σ x hσ, sf]
  rcases le_or_gt 0 ((x - μ) / (σ * √2)) with h0 | h0
  · exact key _ h0
  · have hn := key (-((x - μ) / (σ * √2))) (by linarith)
    generalize (x - μ) / (σ * √2) = z at *
    have hU : c * U (-z) = 2 - c * U z := by
      rw [U_neg, mul_sub, c]
      have : √π ≠ 0 := by positivity
      field_simp
    rw [erfc_neg, hU] at hn
    have e : 0.5 * erfc z - c * U z / 2 = -(0.5 * (2 - erfc z) - (2 - c * U z) / 2) := by ring
    rw [e, abs_neg]
    exact hn

example : |sf 100000 0 1 - Spec.upper 0 1 100000| ≤ 5.21e-11 := sf_abs 100000 0 1 one_pos

theorem erfc_range (z : ℝ) (h0 : 0 ≤ z) : 0 ≤ erfc z ∧ erfc z ≤ 1 := by
  rcases lt_or_ge z 110 with h | h
  · have hn := erfc_near z h0 h
    have hp := cU_pos z
    have hn' := abs_le.1 hn
    refine ⟨by norm_num at hn'; linarith [hn'.1], ?_⟩
    rcases lt_or_ge z (1 / 2) with h1 | h1
    · have hr := abs_le.1 (result_small z h0 h1)
      have hg := erf_ge z h0 h1.le
      rw [erfc_small z h0 h1]
      norm_num at hr hg ⊢
      linarith [hr.1]
    · have h2 : c * U z ≤ c * U (1 / 2) := cU_anti h1
      have h3 := cU_half
      norm_num at hn' h2 h3 ⊢
      linarith [hn'.2]
  · rw [erfc_far z h]
    norm_num

/-- **C134.** The result is a probability, at most one half above the mean and at least one half below it. -/
theorem sf_range (x μ σ : ℝ) (hσ : 0 < σ) :
    0 ≤ sf x μ σ ∧ sf x μ σ ≤ 1 ∧ (μ ≤ x → sf x μ σ ≤ 1 / 2) ∧ (x ≤ μ → 1 / 2 ≤ sf x μ σ) := by
  have hs : 0 < σ * √2 := by positivity
  have key : ∀ y, μ ≤ y → 0 ≤ sf y μ σ ∧ sf y μ σ ≤ 1 / 2 := by
    intro y hy
    have := erfc_range ((y - μ) / (σ * √2)) (div_nonneg (by linarith) hs.le)
    rw [sf]
    norm_num at this ⊢
    constructor <;> linarith [this.1, this.2]
  have low : ∀ y, y ≤ μ → 1 / 2 ≤ sf y μ σ ∧ sf y μ σ ≤ 1 := by
    intro y hy
    have h1 := key (2 * μ - y) (by linarith)
    rw [sf_reflect] at h1
    constructor <;> linarith [h1.1, h1.2]
  refine ⟨?_, ?_, fun h => (key x h).2, fun h => (low x h).1⟩
  · rcases le_total μ x with h | h
    · exact (key x h).1
    · linarith [(low x h).1]
  · rcases le_total μ x with h | h
    · linarith [(key x h).2]
    · exact (low x h).2

example : 1 / 2 ≤ sf (-4) 0 3 := (sf_range (-4) 0 3 (by norm_num)).2.2.2 (by norm_num)

/-- **C134.** The tail is positive before the cut-off: a p-value of zero means at least `110 * sqrt 2` standard
deviations. -/
theorem sf_pos (x μ σ : ℝ) (hσ : 0 < σ) : 0 < sf x μ σ ↔ x - μ < 110 * √2 * σ := by
  constructor
  · intro h
    by_contra hc
    rw [(sf_far x μ σ hσ).1 (not_lt.1 hc)] at h
    exact lt_irrefl _ h
  · intro h
    rcases lt_or_ge x μ with hx | hx
    · have := (sf_range x μ σ hσ).2.2.2 hx.le
      linarith
    · have hn := sf_accuracy x μ σ hσ (by rw [abs_of_nonneg (by linarith)]; exact h)
      have hp : 0 < Spec.upper μ σ x := by
        rw [upper_eq μ σ x hσ]
        have := cU_pos ((x - μ) / (σ * √2))
        linarith
      have hm := min_le_left (Spec.upper μ σ x) (Spec.lower μ σ x)
      have hn' := abs_le.1 hn
      norm_num at hn'
      linarith [hn'.1]

example : 0 < sf 100 0 1 :=
  (sf_pos 100 0 1 one_pos).2 (by have : (1 : ℝ) ≤ √2 := Real.one_le_sqrt.2 (by norm_num); linarith)

/-- **C134, partial.** The result falls as `x` grows, up to `2.1e-10` of its value.  (Missing from the full claim: exact
monotonicity, which fails, see `sf_not_antitone`.) -/
theorem sf_antitone_partial (x y μ σ : ℝ) (hσ : 0 < σ) (hμ : μ ≤ x) (h : x ≤ y) :
    sf y μ σ ≤ sf x μ σ * (1 + 2.1e-10) := by
  have hs : 0 < σ * √2 := by positivity
  rcases le_or_gt (110 * √2 * σ) (y - μ) with hf | hf
  · rw [(sf_far y μ σ hσ).1 hf]
    exact mul_nonneg (sf_range x μ σ hσ).1 (by norm_num)
  · have hx0 : 0 ≤ (x - μ) / (σ * √2) := div_nonneg (by linarith) hs.le
    have hxy : (x - μ) / (σ * √2) ≤ (y - μ) / (σ * √2) := div_le_div_of_nonneg_right (by linarith) hs.le
    have hy : (y - μ) / (σ * √2) < 110 := by rw [div_lt_iff₀ hs]; linarith
    have a := abs_le.1 (erfc_near _ hx0 (hxy.trans_lt hy))
    have b := abs_le.1 (erfc_near _ (hx0.trans hxy) hy)
    have hu := cU_anti hxy
    have hp := cU_pos ((x - μ) / (σ * √2))
    rw [sf, sf]
    norm_num at a b ⊢
    nlinarith [a.1, b.2]

example : sf 2 0 1 ≤ sf 1 0 1 * (1 + 2.1e-10) := sf_antitone_partial 1 2 0 1 one_pos (by norm_num) (by norm_num)

/-- **C134 is false** in two ways.  First, the result is not monotone: it jumps up where one branch takes over from
another, because the constants `b` are the branches' single-precision numbers cut after ten digits. -/
theorem sf_not_antitone : ∃ x y : ℝ, 0 < x ∧ x < y ∧ sf x 0 1 < sf y 0 1 := by
  have h2 : (0 : ℝ) < √2 := by positivity
  have hval : pieceD.value (9 / 4) < pieceE.value (9 / 4) := by
    have hD := val_rat pieceD pieceD.b (9 / 4)
    have hE := val_rat pieceE pieceE.b (9 / 4)
    push_cast at hD hE
    rw [value_eq, value_eq, hD, hE]
    refine mul_lt_mul_of_pos_left ?_ (by positivity)
    exact_mod_cast (by decide +kernel : rhoQ pieceD pieceD.b (9 / 4) < rhoQ pieceE pieceE.b (9 / 4))
  have hcont : ContinuousAt (fun z => pieceD.value z) (9 / 4) := by
    have hd : 0 < eval pieceD.den ((9 / 4 : ℝ) - pieceD.lo) := by
      refine den_pos (w := 1) one_pos (by decide +kernel) ?_ ?_ <;> norm_num [pieceD]
    have := (hasDerivAt_val pieceD pieceD.b (9 / 4) (by norm_num) hd.ne').continuousAt
    have e : (fun z => pieceD.value z) = val pieceD pieceD.b := funext fun z => value_eq pieceD z
    rw [e]
    exact this
  have hev : ∀ᶠ z in 𝓝 (9 / 4 : ℝ), pieceD.value z < pieceE.value (9 / 4) := hcont.eventually_lt_const hval
  obtain ⟨δ, hδ, hball⟩ := Metric.eventually_nhds_iff.1 hev
  set z : ℝ := 9 / 4 - min (δ / 2) (1 / 2) with hz
  have hm : 0 < min (δ / 2) (1 / 2) := lt_min (by linarith) (by norm_num)
  have hm1 : min (δ / 2) (1 / 2) ≤ 1 / 2 := min_le_right _ _
  have hm2 : min (δ / 2) (1 / 2) ≤ δ / 2 := min_le_left _ _
  have hlt := hball (y := z) (by rw [Real.dist_eq, hz, abs_lt]; constructor <;> linarith)
  have key : ∀ y : ℝ, sf (y * √2) 0 1 = 0.5 * erfc y := by
    intro y
    rw [sf]
    congr 2
    field_simp
    ring
  have hrz : erfc z = pieceD.value z := by
    rw [erfc_large z (by linarith), result, if_neg (by linarith), if_pos (by linarith), pieceAt,
      if_neg (by norm_num; linarith), if_neg (by norm_num; linarith), if_pos (by norm_num; linarith)]
  have hre : erfc (9 / 4) = pieceE.value (9 / 4) := by
    rw [erfc_large _ (by norm_num), result, if_neg (by norm_num), if_pos (by norm_num), pieceAt, if_neg (by norm_num),
      if_neg (by norm_num), if_neg (by norm_num), if_pos (by norm_num)]
  refine ⟨z * √2, 9 / 4 * √2, by have : 0 < z := by linarith
                                 positivity, ?_, ?_⟩
  · exact mul_lt_mul_of_pos_right (by linarith) h2
  · rw [key, key, hrz, hre]
    linarith

/-- **C134 is false**, second: the relative error really reaches `1.02e-10`, where the coefficients and double
precision allow about `1e-16`.  With the single-precision constants the branches are right up to `2e-13` (`nearB` to
`nearN`). -/
theorem sf_error_large : (1 + 1.02e-10) * Spec.upper 0 1 (√2 / 2) ≤ sf (√2 / 2) 0 1 := by
  have h2 : (0 : ℝ) < √2 := by positivity
  have ez : (√2 / 2 - 0) / (1 * √2) = 1 / 2 := by field_simp; ring
  rw [upper_eq 0 1 _ one_pos, sf, ez]
  have hn := nearB (1 / 2) le_rfl (by norm_num)
  rw [Near, abs_le] at hn
  have hB := val_rat pieceB pieceB.b (1 / 2)
  have hF := val_rat pieceB f32B (1 / 2)
  push_cast at hB hF
  have hre : erfc (1 / 2) = pieceB.value (1 / 2) := by
    rw [erfc_large _ le_rfl, result, if_neg (by norm_num), if_pos (by norm_num), pieceAt, if_pos (by norm_num)]
  have hq : (1 + 1.029e-10) * (rhoQ pieceB f32B (1 / 2) : ℝ) ≤ rhoQ pieceB pieceB.b (1 / 2) := by
    have : (1 + 1.029e-10) * rhoQ pieceB f32B (1 / 2) ≤ rhoQ pieceB pieceB.b (1 / 2) := by decide +kernel
    have : (((1 + 1.029e-10) * rhoQ pieceB f32B (1 / 2) : ℚ) : ℝ) ≤ rhoQ pieceB pieceB.b (1 / 2) := by
      exact_mod_cast this
    push_cast at this
    exact this
  have hv : (1 + 1.029e-10) * val pieceB f32B (1 / 2) ≤ val pieceB pieceB.b (1 / 2) := by
    rw [hB, hF]
    have hg : 0 ≤ exp (-(1 / 2 : ℝ) ^ 2) / (1 / 2) := by positivity
    calc _ = exp (-(1 / 2 : ℝ) ^ 2) / (1 / 2) * ((1 + 1.029e-10) * (rhoQ pieceB f32B (1 / 2) : ℝ)) := by ring
      _ ≤ _ := mul_le_mul_of_nonneg_left hq hg
  rw [hre, value_eq]
  have hp := U_pos (1 / 2)
  have hc := c_bounds.1
  norm_num at hn hv hc hp ⊢
  nlinarith [hn.1]

end Verif.Normal
