import Mathlib.MeasureTheory.Integral.ExpDecay
import Mathlib.MeasureTheory.Integral.IntegralEqImproper
import Verif.Lemmas.Gamma

/-! # The continued fraction of the upper incomplete gamma function for every real shape -/

namespace Verif.Gamma

open MeasureTheory Set Filter Asymptotics Topology

/-- The integrand `e^{-x(t-1)} (t-1)^u t^v`. -/
noncomputable def ker (x : ℝ) (u : ℕ) (v t : ℝ) : ℝ := Real.exp (-(x * (t - 1))) * (t - 1) ^ u * t ^ v

/-- Its integral over `t > 1`. -/
noncomputable def I (x : ℝ) (u : ℕ) (v : ℝ) : ℝ := ∫ t in Ioi (1 : ℝ), ker x u v t

theorem ker_pos {x v t : ℝ} (u : ℕ) (ht : 1 < t) : 0 < ker x u v t := by
  unfold ker
  have h1 : 0 < t - 1 := by linarith
  have h2 : 0 < t := by linarith
  exact mul_pos (mul_pos (Real.exp_pos _) (pow_pos h1 u)) (Real.rpow_pos_of_pos h2 v)

theorem ker_cont (x : ℝ) (u : ℕ) (v : ℝ) : ContinuousOn (ker x u v) (Ici 1) := by
  unfold ker
  apply ContinuousOn.mul (by fun_prop)
  intro t ht
  have : t ≠ 0 := by have : (1 : ℝ) ≤ t := ht; linarith
  exact (Real.continuousAt_rpow_const t v (Or.inl this)).continuousWithinAt

theorem ker_bigO {x : ℝ} (hx : 0 < x) (u : ℕ) (v : ℝ) :
    (ker x u v) =O[atTop] fun t => Real.exp (-(x / 2) * t) := by
  have h1 : (fun t : ℝ => t ^ ((u : ℝ) + v)) =o[atTop] fun t => Real.exp (x / 2 * t) :=
    isLittleO_rpow_exp_pos_mul_atTop _ (by positivity)
  have h2 : (fun t : ℝ => Real.exp x * Real.exp (-(x * t)) * t ^ ((u : ℝ) + v)) =O[atTop]
      fun t => Real.exp x * Real.exp (-(x * t)) * Real.exp (x / 2 * t) :=
    (isBigO_refl _ _).mul h1.isBigO
  have h3 : (fun t : ℝ => Real.exp x * Real.exp (-(x * t)) * Real.exp (x / 2 * t)) =O[atTop]
      fun t => Real.exp (-(x / 2) * t) := by
    apply IsBigO.of_bound (Real.exp x)
    filter_upwards with t
    rw [Real.norm_eq_abs, Real.norm_eq_abs, abs_of_pos (by positivity), abs_of_pos (by positivity), mul_assoc,
      ← Real.exp_add]
    apply le_of_eq
    congr 2
    ring
  have h4 : (ker x u v) =O[atTop] fun t : ℝ => Real.exp x * Real.exp (-(x * t)) * t ^ ((u : ℝ) + v) := by
    apply IsBigO.of_bound 1
    filter_upwards [eventually_ge_atTop (1 : ℝ)] with t ht
    have h0 : 0 < t := by linarith
    have h5 : 0 ≤ t - 1 := by linarith
    have h6 : 0 < t ^ v := Real.rpow_pos_of_pos h0 v
    have hk : 0 ≤ ker x u v t := by unfold ker; positivity
    rw [Real.norm_eq_abs, Real.norm_eq_abs, abs_of_nonneg hk,
      abs_of_nonneg (by positivity), one_mul, Real.rpow_add h0, Real.rpow_natCast, ← Real.exp_add]
    unfold ker
    rw [show -(x * (t - 1)) = x + -(x * t) by ring, mul_assoc]
    apply mul_le_mul_of_nonneg_left _ (Real.exp_pos _).le
    apply mul_le_mul_of_nonneg_right _ h6.le
    exact pow_le_pow_left₀ h5 (by linarith) u
  exact h4.trans (h2.trans h3)

theorem ker_int {x : ℝ} (hx : 0 < x) (u : ℕ) (v : ℝ) : IntegrableOn (ker x u v) (Ioi 1) :=
  integrable_of_isBigO_exp_neg (by positivity : 0 < x / 2) (ker_cont x u v) (ker_bigO hx u v)

theorem ker_tendsto {x : ℝ} (hx : 0 < x) (u : ℕ) (v : ℝ) : Tendsto (ker x u v) atTop (𝓝 0) := by
  apply (ker_bigO hx u v).trans_tendsto
  have : Tendsto (fun t : ℝ => -(x / 2) * t) atTop atBot :=
    tendsto_id.const_mul_atTop_of_neg (by linarith)
  exact Real.tendsto_exp_atBot.comp this

theorem I_pos {x : ℝ} (hx : 0 < x) (u : ℕ) (v : ℝ) : 0 < I x u v := by
  unfold I
  rw [setIntegral_pos_iff_support_of_nonneg_ae]
  · have : Ioi (1 : ℝ) ⊆ Function.support (ker x u v) ∩ Ioi 1 := fun t ht => ⟨(ker_pos u ht).ne', ht⟩
    refine lt_of_lt_of_le ?_ (measure_mono this)
    simp
  · filter_upwards [ae_restrict_mem measurableSet_Ioi] with t ht
    exact (ker_pos u ht).le
  · exact ker_int hx u v

theorem I_split {x : ℝ} (hx : 0 < x) (u : ℕ) (v : ℝ) : I x u (v + 1) = I x u v + I x (u + 1) v := by
  unfold I
  rw [← integral_add (ker_int hx u v) (ker_int hx (u + 1) v)]
  apply setIntegral_congr_fun measurableSet_Ioi
  intro t ht
  have h0 : 0 < t := by have : (1 : ℝ) < t := ht; linarith
  simp only [ker, Real.rpow_add_one h0.ne', pow_succ]
  ring

theorem I_parts {x : ℝ} (hx : 0 < x) (v : ℝ) :
    x * I x 0 v = 1 + v * I x 0 (v - 1) ∧
    ∀ u : ℕ, x * I x (u + 1) v = (u + 1) * I x u v + v * I x (u + 1) (v - 1) := by
  have key : ∀ u : ℕ, -ker x u v 1 = -x * I x u v + u * I x (u - 1) v + v * I x u (v - 1) := by
    intro u
    have hd : ∀ t ∈ Ici (1 : ℝ), HasDerivAt (ker x u v)
        (-x * ker x u v t + u * ker x (u - 1) v t + v * ker x u (v - 1) t) t := by
      intro t ht
      have h0 : t ≠ 0 := by have : (1 : ℝ) ≤ t := ht; linarith
      have h1 : HasDerivAt (fun t : ℝ => Real.exp (-(x * (t - 1)))) (Real.exp (-(x * (t - 1))) * -(x * 1)) t :=
        ((((hasDerivAt_id t).sub_const 1).const_mul x).neg).exp
      have h2 : HasDerivAt (fun t : ℝ => (t - 1) ^ u) (u * (t - 1) ^ (u - 1) * 1) t :=
        ((hasDerivAt_id t).sub_const 1).pow u
      have h3 : HasDerivAt (fun t : ℝ => t ^ v) (v * t ^ (v - 1)) t := Real.hasDerivAt_rpow_const (Or.inl h0)
      have := (h1.mul h2).mul h3
      refine HasDerivAt.congr_deriv (f := ker x u v) this ?_
      simp only [ker, Pi.mul_apply]
      ring
    have hi : IntegrableOn (fun t => -x * ker x u v t + u * ker x (u - 1) v t + v * ker x u (v - 1) t) (Ioi 1) :=
      (((ker_int hx u v).const_mul (-x)).add ((ker_int hx (u - 1) v).const_mul (u : ℝ))).add
        ((ker_int hx u (v - 1)).const_mul v)
    have h := integral_Ioi_of_hasDerivAt_of_tendsto' hd hi (ker_tendsto hx u v)
    rw [zero_sub] at h
    rw [← h, integral_add, integral_add, integral_const_mul, integral_const_mul, integral_const_mul]
    · rfl
    · exact (ker_int hx u v).const_mul (-x)
    · exact (ker_int hx (u - 1) v).const_mul (u : ℝ)
    · exact ((ker_int hx u v).const_mul (-x)).add ((ker_int hx (u - 1) v).const_mul (u : ℝ))
    · exact (ker_int hx u (v - 1)).const_mul v
  constructor
  · have := key 0
    simp only [ker, sub_self, mul_zero, neg_zero, Real.exp_zero, pow_zero, Real.one_rpow, Nat.cast_zero, zero_mul,
      mul_one, add_zero] at this
    linarith
  · intro u
    have := key (u + 1)
    simp only [ker, sub_self, zero_pow (Nat.succ_ne_zero u), mul_zero, zero_mul, neg_zero, Nat.add_sub_cancel] at this
    push_cast at this
    linarith

/-- The upper incomplete gamma function is a multiple of `I`. -/
theorem upper_I {a x : ℝ} (hx : 0 < x) :
    (∫ t in Ioi x, Real.exp (-t) * t ^ (a - 1)) = Real.exp (-x) * x ^ a * I x 0 (a - 1) := by
  have h := integral_comp_mul_left_Ioi (fun t => Real.exp (-t) * t ^ (a - 1)) 1 hx
  rw [mul_one, smul_eq_mul] at h
  have h2 : (∫ t in Ioi (1 : ℝ), Real.exp (-(x * t)) * (x * t) ^ (a - 1)) =
      Real.exp (-x) * x ^ (a - 1) * I x 0 (a - 1) := by
    unfold I
    rw [← integral_const_mul]
    apply setIntegral_congr_fun measurableSet_Ioi
    intro t ht
    have h0 : 0 < t := by have : (1 : ℝ) < t := ht; linarith
    simp only [ker, pow_zero, mul_one]
    rw [Real.mul_rpow hx.le h0.le, show -(x * t) = -x + -(x * (t - 1)) by ring, Real.exp_add]
    ring
  rw [h2] at h
  have h3 : x ^ a = x ^ (a - 1) * x := by rw [← Real.rpow_add_one hx.ne']; congr 1; ring
  rw [h3]
  field_simp at h
  linarith

/-! ## Bounds for the ratio of neighboring integrals -/

/-- The mean of `t - 1` is at most `q`, where `x q^2 = k + 1`. -/
theorem I_mean {a x q : ℝ} (hx : 0 < x) (hax : a ≤ x) (hq : 0 < q) (k : ℕ) (hqk : x * q ^ 2 = k + 1) (v : ℝ)
    (hv : v = a - 2 - k) : I x (k + 1) v ≤ q * I x k v := by
  have h1 := (I_parts hx (v + 1)).2 k
  rw [I_split hx k v, I_split hx (k + 1) v, add_sub_cancel_right] at h1
  have h2 : 0 ≤ I x (k + 2) v - 2 * q * I x (k + 1) v + q ^ 2 * I x k v := by
    have e : I x (k + 2) v - 2 * q * I x (k + 1) v + q ^ 2 * I x k v =
        ∫ t in Ioi (1 : ℝ), (ker x (k + 2) v t - 2 * q * ker x (k + 1) v t + q ^ 2 * ker x k v t) := by
      rw [integral_add, integral_sub, integral_const_mul, integral_const_mul]
      · rfl
      · exact ker_int hx _ v
      · exact (ker_int hx _ v).const_mul _
      · exact (ker_int hx _ v).sub ((ker_int hx _ v).const_mul _)
      · exact (ker_int hx _ v).const_mul _
    rw [e]
    apply setIntegral_nonneg measurableSet_Ioi
    intro t ht
    have h := (ker_pos (x := x) (v := v) k ht).le
    have e2 : ker x (k + 2) v t - 2 * q * ker x (k + 1) v t + q ^ 2 * ker x k v t =
        ker x k v t * (t - 1 - q) ^ 2 := by
      simp only [ker, pow_succ]
      ring
    rw [e2]
    positivity
  have p1 := I_pos hx (k + 1) v
  have p0 := I_pos hx k v
  rw [hv] at h1 ⊢
  rw [hv] at h2 p1 p0
  -- x (I1 + I2) = (k+1) I0 + a I1
  have h3 : x * (I x (k + 1) (a - 2 - k) + I x (k + 2) (a - 2 - k)) =
      (k + 1) * I x k (a - 2 - k) + a * I x (k + 1) (a - 2 - k) := by
    rw [show k + 2 = k + 1 + 1 from rfl]
    linarith
  have h4 : x * q * (2 * I x (k + 1) (a - 2 - k)) ≤ x * q * (2 * q * I x k (a - 2 - k)) := by
    have e : x * (2 * q * I x (k + 1) (a - 2 - k) - q ^ 2 * I x k (a - 2 - k)) ≤
        x * I x (k + 2) (a - 2 - k) := mul_le_mul_of_nonneg_left (by linarith) hx.le
    have e3 : 0 ≤ (x - a) * I x (k + 1) (a - 2 - k) := mul_nonneg (by linarith) p1.le
    have e4 : x * q ^ 2 * I x k (a - 2 - k) = (k + 1) * I x k (a - 2 - k) := by rw [hqk]
    nlinarith
  have := le_of_mul_le_mul_left h4 (by positivity)
  linarith

/-- The mean of `(t - 1) / t` is at most `q / (1 + q)`. -/
theorem I_ratio {a x q : ℝ} (hx : 0 < x) (hax : a ≤ x) (hq : 0 < q) (k : ℕ) (hqk : x * q ^ 2 = k + 1) (v : ℝ)
    (hv : v = a - 2 - k) : (1 + q) * I x (k + 1) (v - 1) ≤ q * I x k v := by
  have h1 := I_mean hx hax hq k hqk v hv
  have h2 : I x (k + 1) (v - 1) * (1 + q) ^ 2 ≤ q ^ 2 * I x k v + I x (k + 1) v := by
    have e : I x (k + 1) (v - 1) * (1 + q) ^ 2 =
        ∫ t in Ioi (1 : ℝ), ker x (k + 1) (v - 1) t * (1 + q) ^ 2 := by rw [integral_mul_const]; rfl
    have e' : q ^ 2 * I x k v + I x (k + 1) v =
        ∫ t in Ioi (1 : ℝ), (q ^ 2 * ker x k v t + ker x (k + 1) v t) := by
      rw [integral_add ((ker_int hx k v).const_mul _) (ker_int hx (k + 1) v), integral_const_mul]
      rfl
    rw [e, e']
    apply setIntegral_mono_on ((ker_int hx (k + 1) (v - 1)).mul_const _)
      (((ker_int hx k v).const_mul _).add (ker_int hx (k + 1) v)) measurableSet_Ioi
    intro t ht
    have ht1 : (1 : ℝ) < t := ht
    have h0 : 0 < t := by linarith
    have hk := (ker_pos (x := x) (v := v - 1) k ht).le
    have e1 : ker x k v t = ker x k (v - 1) t * t := by
      simp only [ker]
      rw [mul_assoc _ (t ^ (v - 1)), ← Real.rpow_add_one h0.ne', sub_add_cancel]
    have e2 : ker x (k + 1) v t = ker x k (v - 1) t * t * (t - 1) := by
      rw [← e1]; simp only [ker, pow_succ]; ring
    have e3 : ker x (k + 1) (v - 1) t = ker x k (v - 1) t * (t - 1) := by
      simp only [ker, pow_succ]; ring
    simp only [Pi.add_apply]
    rw [e1, e2, e3]
    nlinarith [mul_nonneg hk (sq_nonneg (t - 1 - q))]
  have p0 := I_pos hx k v
  have h3 : (1 + q) * ((1 + q) * I x (k + 1) (v - 1)) ≤ (1 + q) * (q * I x k v) := by nlinarith
  exact le_of_mul_le_mul_left h3 (by linarith)

/-! ## The convergents -/

/-- Difference between a convergent and the true value, times the denominator. -/
noncomputable def gapR (a x : ℝ) (k : ℕ) : ℝ := num a x k - I x 0 (a - 1) * den a x k

theorem gapR_rec (a x : ℝ) (k : ℕ) :
    gapR a x (k + 2) = gapR a x (k + 1) * (x + 2 - a + 2 * (k + 1)) - gapR a x k * ((k + 2 - a) * (k + 1)) := by
  unfold gapR
  rw [num, den]
  ring

theorem gapR_eq {a x : ℝ} (hx : 0 < x) (k : ℕ) :
    gapR a x k = (-1) ^ (k + 1) * fall a k * I x k (a - 2 - k) := by
  induction k using Nat.twoStepInduction with
  | zero =>
    unfold gapR
    have := (I_parts hx (a - 1)).1
    rw [show a - 1 - 1 = a - 2 by ring] at this
    simp only [num, den, fall, Nat.cast_zero, sub_zero, zero_add, pow_one]
    linarith
  | one =>
    unfold gapR
    have h1 := (I_parts hx (a - 1)).1
    have h2 := (I_parts hx (a - 2)).1
    have h3 := I_split hx 0 (a - 3)
    rw [show a - 3 + 1 = a - 2 by ring] at h3
    rw [show a - 1 - 1 = a - 2 by ring] at h1
    rw [show a - 2 - 1 = a - 3 by ring] at h2
    simp only [num, den, fall, Nat.cast_one, Nat.cast_zero, sub_zero, Nat.reduceAdd]
    rw [show a - 2 - 1 = a - 3 by ring]
    linear_combination (-(x + 2 - a)) * h1 - (a - 1) * h2 + (a - 1) * (a - 2) * h3
  | more k ih0 ih1 =>
    rw [gapR_rec, ih0, ih1]
    have h1 := (I_parts hx (a - 3 - k)).2 k
    have h2 := I_split hx k (a - 3 - k)
    have h3 := I_split hx (k + 1) (a - 4 - k)
    rw [show a - 3 - (k : ℝ) + 1 = a - 2 - k by ring] at h2
    rw [show a - 4 - (k : ℝ) + 1 = a - 3 - k by ring, show k + 1 + 1 = k + 2 from rfl] at h3
    rw [show a - 3 - (k : ℝ) - 1 = a - 4 - k by ring] at h1
    have f2 : fall a (k + 2) = fall a k * (a - 2 - k) * (a - 2 - (k + 1)) := by
      rw [fall, fall]; push_cast; ring
    rw [f2, fall, h2]
    push_cast
    rw [show a - 2 - ((k : ℝ) + 1) = a - 3 - k by ring, show a - 2 - ((k : ℝ) + 2) = a - 4 - k by ring]
    linear_combination (-1) ^ k * (fall a k * (a - 2 - k)) * h1 -
      (-1) ^ k * (fall a k * (a - 2 - k)) * (a - 3 - k) * h3

/-- The denominators grow. -/
theorem den_grow {a x : ℝ} (hx : 0 < x) (hax : a < x) (k : ℕ) :
    0 < den a x k ∧ (x + k + 2 - a) * den a x k ≤ den a x (k + 1) := by
  induction k with
  | zero => exact ⟨hx, by simp [den]⟩
  | succ k ih =>
    obtain ⟨h1, h2⟩ := ih
    have hk0 : (0 : ℝ) ≤ k := Nat.cast_nonneg k
    have hp : 0 < den a x (k + 1) := lt_of_lt_of_le (mul_pos (by linarith) h1) h2
    refine ⟨hp, ?_⟩
    rw [den]
    push_cast
    by_cases hm : (k : ℝ) + 2 - a ≤ 0
    · have := mul_nonpos_of_nonneg_of_nonpos h1.le (mul_nonpos_of_nonpos_of_nonneg hm (by linarith : (0 : ℝ) ≤ k + 1))
      have h3 : 0 ≤ den a x (k + 1) * (k + 1) := mul_nonneg hp.le (by linarith)
      nlinarith
    · rw [not_le] at hm
      have h3 : den a x k * (k + 2 - a) ≤ den a x (k + 1) := by nlinarith
      have h4 : den a x k * (k + 2 - a) * (k + 1) ≤ den a x (k + 1) * (k + 1) :=
        mul_le_mul_of_nonneg_right h3 (by linarith)
      nlinarith

/-- Convergent. -/
noncomputable def conv (a x : ℝ) (k : ℕ) : ℝ := num a x k / den a x k

/-- Error of a convergent. -/
noncomputable def err (a x : ℝ) (k : ℕ) : ℝ := conv a x k - I x 0 (a - 1)

theorem err_eq {a x : ℝ} (hx : 0 < x) (hax : a < x) (k : ℕ) : err a x k = gapR a x k / den a x k := by
  have := (den_grow hx hax k).1
  unfold err conv gapR
  field_simp

/-- Before the shape is reached the errors alternate. -/
theorem err_alt {a x : ℝ} (hx : 0 < x) (hax : a < x) (k : ℕ) (hk : (k : ℝ) + 2 ≤ a) :
    |err a x (k + 1)| ≤ |conv a x k - conv a x (k + 1)| := by
  have d0 := (den_grow hx hax k).1
  have d1 := (den_grow hx hax (k + 1)).1
  have h : err a x k * err a x (k + 1) ≤ 0 := by
    rw [err_eq hx hax, err_eq hx hax, div_mul_div_comm]
    apply div_nonpos_of_nonpos_of_nonneg _ (by positivity)
    rw [gapR_eq hx, gapR_eq hx, fall]
    have e : (-1 : ℝ) ^ (k + 1) * fall a k * I x k (a - 2 - k) *
        ((-1) ^ (k + 1 + 1) * (fall a k * (a - 2 - k)) * I x (k + 1) (a - 2 - ((k + 1 : ℕ) : ℝ))) =
        -(((-1 : ℝ) ^ (k + 1) * (-1) ^ (k + 1)) * (fall a k ^ 2 * (a - 2 - k) * (I x k (a - 2 - k) *
          I x (k + 1) (a - 2 - ((k + 1 : ℕ) : ℝ))))) := by ring
    rw [e, ← mul_pow]
    have p0 := I_pos hx k (a - 2 - k)
    have p1 := I_pos hx (k + 1) (a - 2 - ((k + 1 : ℕ) : ℝ))
    have : 0 ≤ fall a k ^ 2 * (a - 2 - k) * (I x k (a - 2 - k) * I x (k + 1) (a - 2 - ((k + 1 : ℕ) : ℝ))) :=
      mul_nonneg (mul_nonneg (sq_nonneg _) (by linarith)) (by positivity)
    norm_num at this ⊢
    exact this
  have e : conv a x k - conv a x (k + 1) = err a x k - err a x (k + 1) := by unfold err; ring
  rw [e]
  generalize err a x k = u at h ⊢
  generalize err a x (k + 1) = v at h ⊢
  rw [abs_le_iff_mul_self_le]
  nlinarith [mul_self_nonneg u]

/-- After the shape is reached the errors keep their sign and decrease. -/
theorem err_mono {a x q : ℝ} (hx : 0 < x) (hax : a < x) (k : ℕ) (hk : a ≤ (k : ℝ) + 2) (hq : 0 < q)
    (hqk : x * q ^ 2 = k + 1) :
    0 ≤ err a x k * err a x (k + 1) ∧
    |err a x (k + 1)| ≤ (k + 2 - a) / (x + (k + 2 - a)) * (q / (1 + q)) * |err a x k| := by
  have d0 := (den_grow hx hax k).1
  obtain ⟨-, d01⟩ := den_grow hx hax k
  have d1 := (den_grow hx hax (k + 1)).1
  have d01' : (x + (k + 2 - a)) * den a x k ≤ den a x (k + 1) := by
    rw [show x + ((k : ℝ) + 2 - a) = x + k + 2 - a by ring]; exact d01
  have p0 := I_pos hx k (a - 2 - k)
  have p1 := I_pos hx (k + 1) (a - 2 - k - 1)
  have hI := I_ratio hx hax.le hq k hqk _ rfl
  have e1 : a - 2 - ((k + 1 : ℕ) : ℝ) = a - 2 - k - 1 := by push_cast; ring
  have g1 : gapR a x (k + 1) = (-1) ^ (k + 1) * fall a k * ((k + 2 - a) * I x (k + 1) (a - 2 - k - 1)) := by
    rw [gapR_eq hx, fall, e1]; ring
  have g0 := gapR_eq (a := a) hx k
  constructor
  · rw [err_eq hx hax, err_eq hx hax, div_mul_div_comm]
    apply div_nonneg _ (by positivity)
    rw [g0, g1]
    have e : (-1 : ℝ) ^ (k + 1) * fall a k * I x k (a - 2 - k) *
        ((-1) ^ (k + 1) * fall a k * ((k + 2 - a) * I x (k + 1) (a - 2 - k - 1))) =
        ((-1 : ℝ) ^ (k + 1) * fall a k) ^ 2 * (I x k (a - 2 - k) * ((k + 2 - a) * I x (k + 1) (a - 2 - k - 1))) := by
      ring
    rw [e]
    exact mul_nonneg (sq_nonneg _) (mul_nonneg p0.le (mul_nonneg (by linarith) p1.le))
  · have hm : 0 ≤ (k : ℝ) + 2 - a := by linarith
    have a1 : |gapR a x (k + 1)| = |(-1) ^ (k + 1) * fall a k| * ((k + 2 - a) * I x (k + 1) (a - 2 - k - 1)) := by
      rw [g1, abs_mul, abs_of_nonneg (mul_nonneg hm p1.le)]
    have a0 : |gapR a x k| = |(-1) ^ (k + 1) * fall a k| * I x k (a - 2 - k) := by
      rw [g0, abs_mul, abs_of_pos p0]
    rw [err_eq hx hax, err_eq hx hax, abs_div, abs_div, abs_of_pos d0, abs_of_pos d1, a0, a1]
    have hF := abs_nonneg ((-1 : ℝ) ^ (k + 1) * fall a k)
    generalize |(-1 : ℝ) ^ (k + 1) * fall a k| = F at hF ⊢
    generalize I x (k + 1) (a - 2 - k - 1) = I1 at p1 hI ⊢
    generalize I x k (a - 2 - k) = I0 at p0 hI ⊢
    generalize (k : ℝ) + 2 - a = m at hm d01' ⊢
    have hI1 : I1 ≤ q / (1 + q) * I0 := by
      rw [div_mul_eq_mul_div, le_div_iff₀ (by linarith)]
      linarith
    calc F * (m * I1) / den a x (k + 1) ≤ F * (m * (q / (1 + q) * I0)) / ((x + m) * den a x k) := by
          apply div_le_div₀ _ _ (by positivity) d01'
          · positivity
          · exact mul_le_mul_of_nonneg_left (mul_le_mul_of_nonneg_left hI1 hm) hF
      _ = _ := by field_simp

/-- How far the limit can be, given the last step. -/
theorem err_close {a x q : ℝ} (hx : 0 < x) (hax : a < x) (k : ℕ) (hq : 0 < q) (hqk : x * q ^ 2 = k + 1) :
    |err a x (k + 1)| ≤ max 1 q * |conv a x k - conv a x (k + 1)| := by
  rcases le_total ((k : ℝ) + 2) a with hk | hk
  · refine (err_alt hx hax k hk).trans ?_
    exact le_mul_of_one_le_left (abs_nonneg _) (le_max_left _ _)
  · obtain ⟨h1, h2⟩ := err_mono hx hax k hk hq hqk
    have e : conv a x k - conv a x (k + 1) = err a x k - err a x (k + 1) := by unfold err; ring
    rw [e]
    have h3 : |err a x (k + 1)| ≤ q / (1 + q) * |err a x k| := by
      refine h2.trans ?_
      apply mul_le_mul_of_nonneg_right _ (abs_nonneg _)
      have hm : (k + 2 - a) / (x + (k + 2 - a)) ≤ 1 := by
        rw [div_le_one (by linarith)]; linarith
      exact mul_le_of_le_one_left (by positivity) hm
    have h4 : |err a x k| - |err a x (k + 1)| ≤ |err a x k - err a x (k + 1)| := abs_sub_abs_le_abs_sub _ _
    have h5 : |err a x (k + 1)| ≤ q * |err a x k - err a x (k + 1)| := by
      rw [div_mul_eq_mul_div, le_div_iff₀ (by linarith)] at h3
      nlinarith
    exact h5.trans (mul_le_mul_of_nonneg_right (le_max_right _ _) (abs_nonneg _))

/-! ## How many steps are enough -/

theorem I_dec {x : ℝ} (hx : 0 < x) (v : ℝ) : I x 0 (v - 1) ≤ I x 0 v := by
  have h := I_split hx 0 (v - 1)
  rw [sub_add_cancel] at h
  have := I_pos hx 1 (v - 1)
  rw [h]
  linarith

/-- Up to the shape every convergent lies between the first two. -/
theorem conv_bracket {a x : ℝ} (hx : 0 < x) (hax : a < x) (ha : 2 ≤ a) (k : ℕ) (hk : (k : ℝ) ≤ a) :
    1 / x ≤ conv a x k ∧ conv a x k ≤ (x + 1) / (2 * x) := by
  have hd := fun k => (den_grow hx hax k).1
  have h2 : 0 < x + 2 - a := by linarith
  have key : ∀ k : ℕ, (k : ℝ) ≤ a → den a x k ≤ x * num a x k ∧ num a x k * ((x + 2 - a) * x) ≤ (x + 1) * den a x k := by
    intro k
    induction k using Nat.twoStepInduction with
    | zero =>
      intro _
      simp only [num, den]
      constructor <;> nlinarith
    | one =>
      intro _
      simp only [num, den]
      constructor <;> nlinarith
    | more k ih0 ih1 =>
      intro hk
      push_cast at hk
      have hk0 : (0 : ℝ) ≤ k := Nat.cast_nonneg k
      obtain ⟨u0, w0⟩ := ih0 (by linarith)
      obtain ⟨u1, w1⟩ := ih1 (by push_cast; linarith)
      have hz : 0 ≤ x + 2 - a + 2 * ((k : ℝ) + 1) := by linarith
      have hc : 0 ≤ -(((k : ℝ) + 2 - a) * (k + 1)) := by nlinarith
      rw [num, den]
      have A := mul_le_mul_of_nonneg_right u1 hz
      have B := mul_le_mul_of_nonneg_right u0 hc
      have C := mul_le_mul_of_nonneg_right w1 hz
      have D := mul_le_mul_of_nonneg_right w0 hc
      constructor <;> linarith
  obtain ⟨u, w⟩ := key k hk
  have dk := hd k
  unfold conv
  rw [div_le_div_iff₀ hx dk, div_le_div_iff₀ dk (by positivity)]
  constructor
  · linarith
  · have : 0 < num a x k := by
      by_contra hn
      nlinarith
    nlinarith

/-- The error where the shape is reached. -/
theorem err_start {a x : ℝ} (ha : 0 < a) (hax : a < x) (hx1 : 1 ≤ x) :
    |err a x (⌈a⌉₊ - 2)| ≤ I x 0 (a - 1) * ((x + 2) / 2) := by
  have hx : 0 < x := by linarith
  have p := I_pos hx 0 (a - 1)
  by_cases h2 : a ≤ 2
  · have hk : ⌈a⌉₊ - 2 = 0 := by
      have : ⌈a⌉₊ ≤ 2 := Nat.ceil_le.2 (by exact_mod_cast h2)
      omega
    rw [hk, err_eq hx hax, gapR_eq hx]
    simp only [fall, den, zero_add, pow_one, Nat.cast_zero, sub_zero]
    have h3 := I_dec hx (a - 1)
    rw [show a - 1 - 1 = a - 2 by ring] at h3
    have p2 := I_pos hx 0 (a - 2)
    rw [abs_div, abs_mul, abs_mul, abs_of_pos hx, abs_of_pos p2, abs_neg, abs_one, one_mul, div_le_iff₀ hx]
    have h4 : |a - 1| ≤ 1 := by rw [abs_le]; constructor <;> linarith
    have h5 : |a - 1| * I x 0 (a - 2) ≤ 1 * I x 0 (a - 1) := mul_le_mul h4 h3 p2.le (by norm_num)
    have h6 : 1 ≤ (x + 2) / 2 * x := by nlinarith
    have h7 := mul_le_mul_of_nonneg_left h6 p.le
    linarith
  · rw [not_le] at h2
    have hc := Nat.ceil_lt_add_one ha.le
    have hc2 : 2 < ⌈a⌉₊ := Nat.lt_ceil.2 (by exact_mod_cast h2)
    have hk : ((⌈a⌉₊ - 2 : ℕ) : ℝ) ≤ a := by
      rw [Nat.cast_sub hc2.le]; push_cast; linarith
    obtain ⟨b1, b2⟩ := conv_bracket hx hax h2.le _ hk
    have i1 : 1 / x ≤ I x 0 (a - 1) := by
      have := (I_parts hx (a - 1)).1
      have p2 := I_pos hx 0 (a - 1 - 1)
      rw [div_le_iff₀ hx]
      nlinarith
    have i2 : I x 0 (a - 1) ≤ (x + 1) / (2 * x) := by
      have e1 := err_eq hx hax 1
      rw [gapR_eq hx] at e1
      have d1 := (den_grow hx hax 1).1
      have p1 := I_pos hx 1 (a - 2 - ((1 : ℕ) : ℝ))
      have f1 : 0 ≤ fall a 1 := by simp only [fall]; push_cast; nlinarith
      have : 0 ≤ err a x 1 := by
        rw [e1]
        apply div_nonneg _ d1.le
        norm_num
        push_cast at p1
        positivity
      have b := (conv_bracket hx hax h2.le 1 (by push_cast; linarith)).2
      unfold err at this
      linarith
    have h6 : |err a x (⌈a⌉₊ - 2)| ≤ (x + 1) / (2 * x) := by
      unfold err
      have : 0 < 1 / x := by positivity
      rw [abs_le]
      constructor <;> linarith
    refine h6.trans ?_
    have h7 : (x + 1) / (2 * x) = 1 / x * ((x + 1) / 2) := by field_simp
    rw [h7]
    exact mul_le_mul i1 (by linarith) (by positivity) p.le

/-- `(M, W)` after `i` steps: `M` is the least whole number with `i + 1 ≤ M^2`, `W` the product of the factors
`M / (M + 1)`. -/
def prodW : ℕ → ℕ × ℚ
  | 0 => (1, 1)
  | i + 1 =>
    let s := prodW i
    (if s.1 ^ 2 < i + 2 then s.1 + 1 else s.1, s.2 * (s.1 / (s.1 + 1)))

theorem prodW_sq (i : ℕ) : i + 1 ≤ (prodW i).1 ^ 2 := by
  induction i with
  | zero => simp [prodW]
  | succ i ih =>
    simp only [prodW]
    split
    · have : ((prodW i).1 + 1) ^ 2 = (prodW i).1 ^ 2 + 2 * (prodW i).1 + 1 := by ring
      omega
    · omega

theorem prodW_pos (i : ℕ) : 0 < (prodW i).2 := by
  induction i with
  | zero => simp [prodW]
  | succ i ih =>
    have : 0 < (prodW i).1 := by
      have := prodW_sq i
      by_contra hc
      have : (prodW i).1 = 0 := by omega
      simp [this] at *
    simp only [prodW]
    positivity

theorem prodW_end : (prodW 361).2 * 3 / 363 ≤ 1 / (2 * 10 ^ 15) := by decide +kernel

theorem err_decay {a x : ℝ} (ha : 0 < a) (hax : a < x) (hx1 : 1 ≤ x) (i : ℕ) :
    |err a x (⌈a⌉₊ - 2 + i)| ≤
      I x 0 (a - 1) * ((if i = 0 then (x + 2) / 2 else 3 / ((i : ℝ) + 2)) * ((prodW i).2 : ℝ)) := by
  have hx : 0 < x := by linarith
  have p := I_pos hx 0 (a - 1)
  have hk1 : ((⌈a⌉₊ - 2 : ℕ) : ℝ) + 1 ≤ x := by
    by_cases h2 : a ≤ 2
    · have : ⌈a⌉₊ ≤ 2 := Nat.ceil_le.2 (by exact_mod_cast h2)
      rw [show ⌈a⌉₊ - 2 = 0 by omega]
      simpa using hx1
    · rw [not_le] at h2
      have hc := Nat.ceil_lt_add_one ha.le
      have hc2 : 2 < ⌈a⌉₊ := Nat.lt_ceil.2 (by exact_mod_cast h2)
      rw [Nat.cast_sub hc2.le]; push_cast; linarith
  have hk2 : a ≤ ((⌈a⌉₊ - 2 : ℕ) : ℝ) + 2 := by
    have h1 := Nat.le_ceil a
    have h2 : ⌈a⌉₊ ≤ ⌈a⌉₊ - 2 + 2 := by omega
    have h3 : (⌈a⌉₊ : ℝ) ≤ ((⌈a⌉₊ - 2 : ℕ) : ℝ) + 2 := by exact_mod_cast h2
    linarith
  have hk3 : ((⌈a⌉₊ - 2 : ℕ) : ℝ) - a ≤ 0 := by
    have hc := Nat.ceil_lt_add_one ha.le
    by_cases h2 : 2 ≤ ⌈a⌉₊
    · rw [Nat.cast_sub h2]; push_cast; linarith
    · rw [show ⌈a⌉₊ - 2 = 0 by omega]; simpa using ha.le
  induction i with
  | zero =>
    have := err_start ha hax hx1
    simpa [prodW] using this
  | succ i ih =>
    generalize ⌈a⌉₊ - 2 = k0 at *
    have hi0 : (0 : ℝ) ≤ i := Nat.cast_nonneg i
    have hq : 0 < Real.sqrt (((k0 + i : ℕ) + 1) / x) := Real.sqrt_pos.2 (by positivity)
    have hqk : x * Real.sqrt (((k0 + i : ℕ) + 1) / x) ^ 2 = ((k0 + i : ℕ) : ℝ) + 1 := by
      rw [Real.sq_sqrt (by positivity)]; field_simp
    obtain ⟨-, h⟩ := err_mono hx hax (k0 + i) (by push_cast; linarith) hq hqk
    have hM1 : (0 : ℝ) < (prodW i).1 := by
      have := prodW_sq i
      have : (prodW i).1 ≠ 0 := by intro hc; simp [hc] at this
      exact_mod_cast Nat.pos_of_ne_zero this
    have hqM : Real.sqrt (((k0 + i : ℕ) + 1) / x) ≤ (prodW i).1 := by
      rw [Real.sqrt_le_left hM1.le]
      have h1 : ((i : ℝ) + 1) ≤ ((prodW i).1 : ℝ) ^ 2 := by exact_mod_cast prodW_sq i
      refine le_trans ?_ h1
      rw [div_le_iff₀ hx]
      push_cast
      nlinarith
    generalize Real.sqrt (((k0 + i : ℕ) + 1) / x) = q at *
    have hqw : q / (1 + q) ≤ ((prodW i).1 : ℝ) / ((prodW i).1 + 1) := by
      rw [div_le_div_iff₀ (by linarith) (by linarith)]
      nlinarith
    have hmm : (((k0 + i : ℕ) : ℝ) + 2 - a) / (x + (((k0 + i : ℕ) : ℝ) + 2 - a)) ≤ (i + 2) / (x + i + 2) := by
      push_cast
      rw [div_le_div_iff₀ (by linarith) (by linarith)]
      nlinarith
    have hm0 : 0 ≤ (((k0 + i : ℕ) : ℝ) + 2 - a) / (x + (((k0 + i : ℕ) : ℝ) + 2 - a)) := by
      push_cast
      apply div_nonneg <;> linarith
    have hW := prodW_pos i
    have hWr : (0 : ℝ) < ((prodW i).2 : ℝ) := by exact_mod_cast hW
    have hstep : (if i = 0 then (x + 2) / 2 else 3 / ((i : ℝ) + 2)) * ((i + 2) / (x + i + 2)) ≤ 3 / ((i : ℝ) + 3) := by
      by_cases hi : i = 0
      · subst hi
        simp only [if_true, Nat.cast_zero, add_zero, zero_add]
        apply le_of_eq
        field_simp
      · rw [if_neg hi, div_mul_div_comm, div_le_div_iff₀ (by positivity) (by positivity)]
        nlinarith
    have hB0 : 0 ≤ (if i = 0 then (x + 2) / 2 else 3 / ((i : ℝ) + 2)) := by
      split <;> positivity
    generalize (if i = 0 then (x + 2) / 2 else 3 / ((i : ℝ) + 2)) = B at *
    rw [if_neg (Nat.succ_ne_zero i), show k0 + (i + 1) = k0 + i + 1 from rfl]
    simp only [prodW]
    push_cast
    rw [show (i : ℝ) + 1 + 2 = i + 3 by ring]
    refine h.trans ?_
    calc _ ≤ (i + 2) / (x + i + 2) * (((prodW i).1 : ℝ) / ((prodW i).1 + 1)) * (I x 0 (a - 1) * (B * ((prodW i).2 : ℝ))) := by
          apply mul_le_mul _ ih (abs_nonneg _) (by positivity)
          exact mul_le_mul hmm hqw (by positivity) (by positivity)
      _ = I x 0 (a - 1) * ((B * ((i + 2) / (x + i + 2))) * (((prodW i).2 : ℝ) * ((prodW i).1 / ((prodW i).1 + 1)))) := by
          ring
      _ ≤ _ := by
          apply mul_le_mul_of_nonneg_left _ p.le
          apply mul_le_mul_of_nonneg_right hstep (by positivity)

/-- After `361` steps beyond the shape the loop's test succeeds. -/
theorem test_end {a x : ℝ} (ha : 0 < a) (hax : a < x) (hx1 : 1 ≤ x) :
    0 < conv a x (⌈a⌉₊ - 2 + 362) ∧
    |conv a x (⌈a⌉₊ - 2 + 361) - conv a x (⌈a⌉₊ - 2 + 362)| ≤ eps * conv a x (⌈a⌉₊ - 2 + 362) := by
  have hx : 0 < x := by linarith
  have p := I_pos hx 0 (a - 1)
  have h := err_decay ha hax hx1 361
  have hW : ((prodW 361).2 : ℝ) * 3 / 363 ≤ 1 / (2 * 10 ^ 15) := by
    have h := (Rat.cast_le (K := ℝ)).2 prodW_end
    push_cast at h
    exact h
  have h1 : |err a x (⌈a⌉₊ - 2 + 361)| ≤ I x 0 (a - 1) * (1 / (2 * 10 ^ 15)) := by
    refine h.trans (mul_le_mul_of_nonneg_left ?_ p.le)
    rw [if_neg (by norm_num)]
    push_cast
    linarith
  have hk2 : a ≤ ((⌈a⌉₊ - 2 + 361 : ℕ) : ℝ) + 2 := by
    have h1 := Nat.le_ceil a
    have h2 : ⌈a⌉₊ ≤ ⌈a⌉₊ - 2 + 361 + 2 := by omega
    have h3 : (⌈a⌉₊ : ℝ) ≤ ((⌈a⌉₊ - 2 + 361 : ℕ) : ℝ) + 2 := by exact_mod_cast h2
    linarith
  rw [show ⌈a⌉₊ - 2 + 362 = ⌈a⌉₊ - 2 + 361 + 1 from rfl]
  generalize ⌈a⌉₊ - 2 + 361 = k at h1 hk2 ⊢
  have hq : 0 < Real.sqrt (((k : ℝ) + 1) / x) := Real.sqrt_pos.2 (by positivity)
  have hqk : x * Real.sqrt (((k : ℝ) + 1) / x) ^ 2 = (k : ℝ) + 1 := by
    rw [Real.sq_sqrt (by positivity)]; field_simp
  obtain ⟨s1, s2⟩ := err_mono hx hax k hk2 hq hqk
  have s3 : |err a x (k + 1)| ≤ |err a x k| := by
    refine s2.trans (mul_le_of_le_one_left (abs_nonneg _) ?_)
    have hm : (k + 2 - a) / (x + (k + 2 - a)) ≤ 1 := by
      rw [div_le_one (by linarith)]; linarith
    have hm2 : Real.sqrt (((k : ℝ) + 1) / x) / (1 + Real.sqrt (((k : ℝ) + 1) / x)) ≤ 1 := by
      rw [div_le_one (by linarith)]; linarith
    exact mul_le_one₀ hm (by positivity) hm2
  have e : conv a x k - conv a x (k + 1) = err a x k - err a x (k + 1) := by unfold err; ring
  have s4 : |err a x k - err a x (k + 1)| ≤ |err a x k| := by
    generalize err a x k = u at *
    generalize err a x (k + 1) = v at *
    rw [abs_le_iff_mul_self_le] at s3 ⊢
    nlinarith
  have hlow : I x 0 (a - 1) * (1 - 1 / (2 * 10 ^ 15)) ≤ conv a x (k + 1) := by
    have := (abs_le.1 (s3.trans h1)).1
    unfold err at this
    linarith
  have hpos : 0 < conv a x (k + 1) := lt_of_lt_of_le (mul_pos p (by norm_num)) hlow
  refine ⟨hpos, ?_⟩
  rw [e]
  refine s4.trans (h1.trans ?_)
  refine le_trans ?_ (mul_le_mul_of_nonneg_left hlow eps_pos.le)
  unfold eps
  linarith

/-- The loop ends at the first step whose test succeeds. -/
theorem fraction_runR {a x : ℝ} (hx : 0 < x) (hax : a < x) (d k : ℕ) (l : ℝ) (hl : 0 < l)
    (hpos : 0 < conv a x (k + d + 2))
    (hend : |conv a x (k + d + 1) - conv a x (k + d + 2)| ≤ eps * conv a x (k + d + 2)) :
    ∃ j, k ≤ j ∧ j ≤ k + d ∧ |conv a x (j + 1) - conv a x (j + 2)| ≤ eps * |conv a x (j + 2)| ∧
      ∀ fuel, d + 1 ≤ fuel →
      fraction fuel ⟨1 - a + k, x + 2 - a + 2 * k, k, l * num a x k, l * den a x k, l * num a x (k + 1),
        l * den a x (k + 1), conv a x (k + 1)⟩ = some (conv a x (j + 2)) := by
  induction d generalizing k l with
  | zero =>
    refine ⟨k, le_rfl, le_rfl, ?_, ?_⟩
    · rw [abs_of_pos hpos]; exact hend
    intro fuel hf
    obtain ⟨m, rfl⟩ : ∃ m, fuel = m + 1 := ⟨fuel - 1, by omega⟩
    have d2 := (den_grow hx hax (k + 2)).1
    have hp : l * num a x (k + 1) * (x + 2 - a + 2 * (k : ℝ) + 2) - l * num a x k * ((1 - a + k + 1) * ((k : ℝ) + 1)) =
        l * num a x (k + 2) := by rw [num]; ring
    have hd : l * den a x (k + 1) * (x + 2 - a + 2 * (k : ℝ) + 2) - l * den a x k * ((1 - a + k + 1) * ((k : ℝ) + 1)) =
        l * den a x (k + 2) := by rw [den]; ring
    have hr : l * num a x (k + 2) / (l * den a x (k + 2)) = conv a x (k + 2) := by unfold conv; field_simp
    simp only [fraction]
    rw [hp, hd, hr, if_neg (mul_pos hl d2).ne', if_pos]
    refine ⟨hpos.ne', ?_⟩
    rw [abs_div, div_le_iff₀ (abs_pos.2 hpos.ne'), abs_of_pos hpos]
    exact hend
  | succ d ih =>
    have d2 := (den_grow hx hax (k + 2)).1
    have hp : l * num a x (k + 1) * (x + 2 - a + 2 * (k : ℝ) + 2) - l * num a x k * ((1 - a + k + 1) * ((k : ℝ) + 1)) =
        l * num a x (k + 2) := by rw [num]; ring
    have hd : l * den a x (k + 1) * (x + 2 - a + 2 * (k : ℝ) + 2) - l * den a x k * ((1 - a + k + 1) * ((k : ℝ) + 1)) =
        l * den a x (k + 2) := by rw [den]; ring
    have hr : l * num a x (k + 2) / (l * den a x (k + 2)) = conv a x (k + 2) := by unfold conv; field_simp
    by_cases hs : conv a x (k + 2) ≠ 0 ∧ |(conv a x (k + 1) - conv a x (k + 2)) / conv a x (k + 2)| ≤ eps
    · refine ⟨k, le_rfl, by omega, ?_, ?_⟩
      · have := hs.2
        rwa [abs_div, div_le_iff₀ (abs_pos.2 hs.1)] at this
      · intro fuel hf
        obtain ⟨m, rfl⟩ : ∃ m, fuel = m + 1 := ⟨fuel - 1, by omega⟩
        simp only [fraction]
        rw [hp, hd, hr, if_neg (mul_pos hl d2).ne', if_pos hs]
    · have hK : 0 < (if big < |l * num a x (k + 2)| then bigInv else 1) := by
        split
        · unfold bigInv; norm_num
        · norm_num
      obtain ⟨j, j1, j2, j3, j4⟩ := ih (k + 1) (l * (if big < |l * num a x (k + 2)| then bigInv else 1))
        (mul_pos hl hK) (by rw [show k + 1 + d + 2 = k + (d + 1) + 2 by omega]; exact hpos)
        (by rw [show k + 1 + d + 2 = k + (d + 1) + 2 by omega, show k + 1 + d + 1 = k + (d + 1) + 1 by omega]; exact hend)
      refine ⟨j, by omega, by omega, j3, ?_⟩
      intro fuel hf
      obtain ⟨m, rfl⟩ : ∃ m, fuel = m + 1 := ⟨fuel - 1, by omega⟩
      simp only [fraction]
      rw [hp, hd, hr, if_neg (mul_pos hl d2).ne', if_neg hs, ← j4 m (by omega)]
      congr 1
      push_cast
      simp only [CF.mk.injEq]
      refine ⟨by ring, by ring, trivial, by ring, by ring, ?_, ?_, trivial⟩
      · rw [show k + 1 + 1 = k + 2 from rfl]; ring
      · rw [show k + 1 + 1 = k + 2 from rfl]; ring

/-- The continued fraction loop ends for every shape `a > 0` and `x > a`, `x ≥ 1`, and its result is within
`20 eps` of the true value, relative to it. -/
theorem fraction_specR {a x : ℝ} (ha : 0 < a) (hax : a < x) (hx1 : 1 ≤ x) :
    ∃ w N, 0 < w ∧ |w - I x 0 (a - 1)| ≤ 20 * eps * w ∧ ∀ fuel, N ≤ fuel → fraction fuel (start a x) = some w := by
  have hx : 0 < x := by linarith
  obtain ⟨t1, t2⟩ := test_end ha hax hx1
  obtain ⟨j, -, j2, j3, j4⟩ := fraction_runR hx hax (⌈a⌉₊ - 2 + 360) 0 1 one_pos
    (by rw [Nat.zero_add]; exact t1) (by rw [Nat.zero_add]; exact t2)
  have p := I_pos hx 0 (a - 1)
  have hk1 : ((⌈a⌉₊ - 2 : ℕ) : ℝ) + 1 ≤ x := by
    by_cases h2 : a ≤ 2
    · have : ⌈a⌉₊ ≤ 2 := Nat.ceil_le.2 (by exact_mod_cast h2)
      rw [show ⌈a⌉₊ - 2 = 0 by omega]
      simpa using hx1
    · rw [not_le] at h2
      have hc := Nat.ceil_lt_add_one ha.le
      have hc2 : 2 < ⌈a⌉₊ := Nat.lt_ceil.2 (by exact_mod_cast h2)
      rw [Nat.cast_sub hc2.le]; push_cast; linarith
  have hq : 0 < Real.sqrt ((((j + 1 : ℕ) : ℝ) + 1) / x) := Real.sqrt_pos.2 (by positivity)
  have hqk : x * Real.sqrt ((((j + 1 : ℕ) : ℝ) + 1) / x) ^ 2 = ((j + 1 : ℕ) : ℝ) + 1 := by
    rw [Real.sq_sqrt (by positivity)]; field_simp
  have hq20 : max 1 (Real.sqrt ((((j + 1 : ℕ) : ℝ) + 1) / x)) ≤ 20 := by
    apply max_le (by norm_num)
    rw [Real.sqrt_le_left (by norm_num), div_le_iff₀ hx]
    have hj : j ≤ ⌈a⌉₊ - 2 + 360 := by rw [Nat.zero_add] at j2; exact j2
    have hj' := (Nat.cast_le (α := ℝ)).2 hj
    rw [Nat.cast_add, Nat.cast_ofNat] at hj'
    push_cast
    nlinarith
  have h := err_close hx hax (j + 1) hq hqk
  rw [show j + 1 + 1 = j + 2 from rfl] at h
  have h1 : |err a x (j + 2)| ≤ 20 * (eps * |conv a x (j + 2)|) :=
    h.trans (mul_le_mul hq20 j3 (abs_nonneg _) (by norm_num))
  have he : 20 * eps < 1 := by unfold eps; norm_num
  have hw : 0 < conv a x (j + 2) := by
    by_contra hc
    rw [not_lt] at hc
    rw [abs_of_nonpos hc] at h1
    have := (abs_le.1 h1).1
    unfold err at this
    nlinarith
  rw [abs_of_pos hw] at h1
  refine ⟨conv a x (j + 2), ⌈a⌉₊ - 2 + 360 + 1, hw, ?_, ?_⟩
  · unfold err at h1
    linarith
  · intro fuel hf
    rw [← j4 fuel hf]
    congr 1
    simp only [start, conv, num, den, CF.mk.injEq, Nat.cast_zero, one_mul, add_zero, mul_zero]
    refine ⟨trivial, by ring, trivial, trivial, trivial, trivial, by ring, ?_⟩
    congr 1
    ring

/-- The limit is at most one. -/
theorem I_le_one {a x : ℝ} (hx : 1 ≤ x) (hax : a ≤ x) : I x 0 (a - 1) ≤ 1 := by
  have hx0 : 0 < x := by linarith
  have h := (I_parts hx0 (a - 1)).1
  have p := I_pos hx0 0 (a - 1)
  have p2 := I_pos hx0 0 (a - 1 - 1)
  rcases le_total a 1 with ha | ha
  · nlinarith
  · have := I_dec hx0 (a - 1)
    nlinarith

end Verif.Gamma
