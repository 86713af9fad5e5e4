import Mathlib.Analysis.SpecialFunctions.Gaussian.GaussianIntegral
import Mathlib.MeasureTheory.Integral.IntegralEqImproper
import Mathlib.Analysis.Calculus.MeanValue
import Mathlib.Analysis.Calculus.Deriv.MeanValue
import Mathlib.Probability.Distributions.Gaussian.Real

/-!
# The integral of `exp (-t^2)` from a point on
-/

namespace Verif.GaussTail
open MeasureTheory Set Filter Topology Real

/-- `∫ exp (-t^2)` over `t > z`. -/
noncomputable def U (z : ℝ) : ℝ := ∫ t in Ioi z, exp (-t ^ 2)

theorem integrable : Integrable fun t : ℝ => exp (-t ^ 2) := by
  have := integrable_exp_neg_mul_sq (b := 1) one_pos
  simpa using this

theorem continuous_f : Continuous fun t : ℝ => exp (-t ^ 2) := by fun_prop

theorem U_eq (z : ℝ) : U z = U 0 - ∫ t in (0 : ℝ)..z, exp (-t ^ 2) := by
  have := intervalIntegral.integral_interval_add_Ioi (μ := volume) (f := fun t : ℝ => exp (-t ^ 2)) (a := 0) (b := z)
    integrable.integrableOn integrable.integrableOn
  unfold U
  linarith

theorem U_zero : U 0 = √π / 2 := by
  have := integral_gaussian_Ioi 1
  unfold U
  simpa using this

theorem hasDerivAt_U (z : ℝ) : HasDerivAt U (-exp (-z ^ 2)) z := by
  have h : U = fun z => U 0 - ∫ t in (0 : ℝ)..z, exp (-t ^ 2) := funext U_eq
  rw [h]
  exact (continuous_f.integral_hasStrictDerivAt 0 z).hasDerivAt.const_sub _

theorem continuous_U : Continuous U := continuous_iff_continuousAt.2 fun z => (hasDerivAt_U z).continuousAt

theorem U_tendsto : Tendsto U atTop (𝓝 0) := by
  have h : U = fun z => U 0 - ∫ t in (0 : ℝ)..z, exp (-t ^ 2) := funext U_eq
  rw [h]
  have := intervalIntegral_tendsto_integral_Ioi (μ := volume) (f := fun t : ℝ => exp (-t ^ 2)) 0
    integrable.integrableOn tendsto_id
  have h2 := this.const_sub (U 0)
  have h3 : U 0 - ∫ t in Ioi (0 : ℝ), exp (-t ^ 2) = 0 := sub_self _
  rw [h3] at h2
  exact h2

theorem U_antitone : StrictAnti U := by
  refine strictAnti_of_deriv_neg fun z => ?_
  rw [(hasDerivAt_U z).deriv]
  exact neg_neg_of_pos (exp_pos _)

theorem U_pos (z : ℝ) : 0 < U z := by
  have h1 : U (z + 1) < U z := U_antitone (by linarith)
  have h2 : 0 ≤ U (z + 1) := by
    refine setIntegral_nonneg measurableSet_Ioi fun t _ => (exp_pos _).le
  linarith

theorem U_neg (z : ℝ) : U (-z) = √π - U z := by
  have h : ∀ z, HasDerivAt (fun z => U (-z) + U z) 0 z := by
    intro z
    have h1 := (hasDerivAt_U (-z)).comp z (hasDerivAt_neg z)
    have h2 := h1.add (hasDerivAt_U z)
    refine h2.congr_deriv ?_
    simp
  have hc := is_const_of_deriv_eq_zero (f := fun z => U (-z) + U z) (fun z => (h z).differentiableAt)
    (fun z => (h z).deriv) z 0
  simp only [neg_zero, U_zero] at hc
  linarith

/-- A function with non-positive derivative that vanishes at infinity is non-negative. -/
theorem nonneg_of_deriv {f f' : ℝ → ℝ} {a : ℝ} (hf : ∀ z, a ≤ z → HasDerivAt f (f' z) z) (hn : ∀ z, a ≤ z → f' z ≤ 0)
    (ht : Tendsto f atTop (𝓝 0)) (z : ℝ) (hz : a ≤ z) : 0 ≤ f z := by
  have hanti : AntitoneOn f (Ici a) := by
    refine antitoneOn_of_deriv_nonpos (convex_Ici a) (fun z hz => (hf z hz).continuousAt.continuousWithinAt)
      (fun z hz => ?_) fun z hz => ?_
    · rw [interior_Ici] at hz
      exact (hf z (le_of_lt hz)).differentiableAt.differentiableWithinAt
    · rw [interior_Ici] at hz
      rw [(hf z (le_of_lt hz)).deriv]
      exact hn z (le_of_lt hz)
  refine le_of_tendsto ht ?_
  filter_upwards [eventually_ge_atTop z] with y hy
  exact hanti hz (hz.trans hy) hy

/-- A function with non-positive derivative on an interval that is non-negative at the right end. -/
theorem nonneg_of_deriv_Icc {f f' : ℝ → ℝ} {a b : ℝ} (hf : ∀ z ∈ Icc a b, HasDerivAt f (f' z) z)
    (hn : ∀ z ∈ Icc a b, f' z ≤ 0) (hb : 0 ≤ f b) (z : ℝ) (hz : z ∈ Icc a b) : 0 ≤ f z := by
  have hanti : AntitoneOn f (Icc a b) := by
    refine antitoneOn_of_deriv_nonpos (convex_Icc a b) (fun z hz => (hf z hz).continuousAt.continuousWithinAt)
      (fun z hz => ?_) fun z hz => ?_
    · exact (hf z (interior_subset hz)).differentiableAt.differentiableWithinAt
    · rw [(hf z (interior_subset hz)).deriv]
      exact hn z (interior_subset hz)
  exact hb.trans (hanti hz ⟨hz.1.trans hz.2, le_refl b⟩ hz.2)

theorem exp_tendsto : Tendsto (fun z : ℝ => exp (-z ^ 2)) atTop (𝓝 0) := by
  refine tendsto_exp_neg_atTop_nhds_zero.comp (tendsto_pow_atTop (by norm_num))

/-- A lower bound for the tail. -/
theorem U_lower (z : ℝ) (hz : 0 < z) : exp (-z ^ 2) * (z / (2 * z ^ 2 + 1)) ≤ U z := by
  have hpos : ∀ y : ℝ, 0 < 2 * y ^ 2 + 1 := fun y => by positivity
  have h := nonneg_of_deriv (f := fun z => U z - exp (-z ^ 2) * (z / (2 * z ^ 2 + 1)))
    (f' := fun z => -(2 * exp (-z ^ 2) / (2 * z ^ 2 + 1) ^ 2)) (a := 0) ?_ ?_ ?_ z hz.le
  · linarith
  · intro y _
    have he : HasDerivAt (fun y : ℝ => exp (-y ^ 2)) (exp (-y ^ 2) * (-(2 * y))) y := by
      have := ((hasDerivAt_pow 2 y).neg).exp
      simpa using this
    have hd : HasDerivAt (fun y : ℝ => 2 * y ^ 2 + 1) (2 * (2 * y)) y := by
      have := ((hasDerivAt_pow 2 y).const_mul 2).add_const 1
      simpa using this
    have hq : HasDerivAt (fun y : ℝ => y / (2 * y ^ 2 + 1)) _ y := (hasDerivAt_id y).div hd (hpos y).ne'
    refine ((hasDerivAt_U y).sub (he.mul hq)).congr_deriv ?_
    have := (hpos y).ne'
    simp only [id_eq]
    field_simp
    ring
  · intro y _
    have := hpos y
    rw [Left.neg_nonpos_iff]
    positivity
  · have h1 : Tendsto (fun z : ℝ => exp (-z ^ 2) * (z / (2 * z ^ 2 + 1))) atTop (𝓝 0) := by
      refine squeeze_zero' (g := fun z : ℝ => exp (-z ^ 2)) ?_ ?_ exp_tendsto
      · filter_upwards [eventually_ge_atTop (0 : ℝ)] with y hy
        have := hpos y
        positivity
      · filter_upwards [eventually_ge_atTop (0 : ℝ)] with y hy
        have : y / (2 * y ^ 2 + 1) ≤ 1 := by
          rw [div_le_one (hpos y)]
          nlinarith [sq_nonneg (y - 1 / 4)]
        calc exp (-y ^ 2) * (y / (2 * y ^ 2 + 1)) ≤ exp (-y ^ 2) * 1 := by
              exact mul_le_mul_of_nonneg_left this (exp_pos _).le
          _ = exp (-y ^ 2) := mul_one _
    simpa using U_tendsto.sub h1

/-- The tail of a normal distribution. -/
theorem gaussian_tail (μ σ x : ℝ) (hσ : 0 < σ) :
    (ProbabilityTheory.gaussianReal μ (.mk (σ ^ 2) (sq_nonneg σ))).real (Ioi x) = U ((x - μ) / (σ * √2)) / √π := by
  have h2 : (0 : ℝ) < √2 := by positivity
  have hv : NNReal.mk (1 / 2) (by norm_num) ≠ 0 := by
    intro h
    have := congrArg NNReal.toReal h
    norm_num at this
  -- the standard case
  have hstd : ∀ y, (ProbabilityTheory.gaussianReal 0 (.mk (1 / 2) (by norm_num))).real (Ioi y) = U y / √π := by
    intro y
    have hpdf : ∀ t : ℝ, ProbabilityTheory.gaussianPDFReal 0 (.mk (1 / 2) (by norm_num)) t = (√π)⁻¹ * exp (-t ^ 2) := by
      intro t
      rw [ProbabilityTheory.gaussianPDFReal_def]
      simp only [NNReal.coe_mk, sub_zero]
      congr 2
      · congr 1; ring
      · ring
    rw [measureReal_def, ProbabilityTheory.gaussianReal_apply_eq_integral 0 hv, ENNReal.toReal_ofReal]
    · simp only [hpdf]
      rw [integral_const_mul, U]
      field_simp
    · exact setIntegral_nonneg measurableSet_Ioi fun t _ => ProbabilityTheory.gaussianPDFReal_nonneg _ _ _
  rw [← hstd]
  have hmap : ProbabilityTheory.gaussianReal μ (.mk (σ ^ 2) (sq_nonneg σ)) =
      ((ProbabilityTheory.gaussianReal 0 (.mk (1 / 2) (by norm_num))).map (σ * √2 * ·)).map (· + μ) := by
    rw [ProbabilityTheory.gaussianReal_map_const_mul, ProbabilityTheory.gaussianReal_map_add_const]
    congr 1
    · ring
    · ext
      simp only [NNReal.coe_mk, NNReal.coe_mul]
      rw [mul_pow, Real.sq_sqrt (by norm_num)]
      ring
  rw [hmap, measureReal_def, Measure.map_apply (by fun_prop) measurableSet_Ioi,
    Measure.map_apply (by fun_prop) (measurableSet_Ioi.preimage (by fun_prop)), measureReal_def]
  congr 2
  ext y
  simp only [mem_preimage, mem_Ioi]
  rw [div_lt_iff₀ (by positivity)]
  constructor <;> intro h <;> linarith

end Verif.GaussTail
