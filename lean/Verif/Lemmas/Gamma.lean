import Mathlib.Analysis.SpecialFunctions.Gamma.BohrMollerup
import Mathlib.Analysis.SpecialFunctions.Integrals.Basic
import Mathlib.Tactic.Linarith
import Mathlib.Tactic.FieldSimp
import Mathlib.Tactic.Positivity
import Verif.Model.Gamma

/-! # Incomplete gamma function: recurrences and the two expansions -/

namespace Verif.Gamma

open MeasureTheory Set intervalIntegral

/-- Lower incomplete gamma function. -/
noncomputable def gam (a x : ℝ) : ℝ := ∫ t in (0 : ℝ)..x, Real.exp (-t) * t ^ (a - 1)

theorem gam_integrable {a x : ℝ} (ha : 0 < a) :
    IntervalIntegrable (fun t => Real.exp (-t) * t ^ (a - 1)) volume 0 x := by
  apply IntervalIntegrable.continuousOn_mul
  · exact intervalIntegrable_rpow' (by linarith)
  · fun_prop

theorem gam_nonneg {a x : ℝ} (hx : 0 ≤ x) : 0 ≤ gam a x := by
  apply intervalIntegral.integral_nonneg hx
  intro t ht
  exact mul_nonneg (Real.exp_pos _).le (Real.rpow_nonneg ht.1 _)

theorem gam_add_one {a x : ℝ} (ha : 0 < a) (hx : 0 ≤ x) :
    gam (a + 1) x = a * gam a x - Real.exp (-x) * x ^ a := by
  have hd : ∀ t ∈ Ioo (0 : ℝ) x, HasDerivAt (fun t : ℝ => -(Real.exp (-t) * t ^ a))
      (Real.exp (-t) * t ^ (a + 1 - 1) - a * (Real.exp (-t) * t ^ (a - 1))) t := by
    intro t ht
    have h1 : HasDerivAt (fun t : ℝ => Real.exp (-t)) (Real.exp (-t) * (-1)) t := (hasDerivAt_neg t).exp
    have h2 : HasDerivAt (fun t : ℝ => t ^ a) (a * t ^ (a - 1)) t := Real.hasDerivAt_rpow_const (Or.inl ht.1.ne')
    have h3 := (h1.mul h2).neg
    refine h3.congr_deriv ?_
    rw [add_sub_cancel_right]
    ring
  have hint : IntervalIntegrable (fun t => Real.exp (-t) * t ^ (a + 1 - 1) - a * (Real.exp (-t) * t ^ (a - 1)))
      volume 0 x := (gam_integrable (by linarith)).sub ((gam_integrable ha).const_mul a)
  have hc : ContinuousOn (fun t : ℝ => -(Real.exp (-t) * t ^ a)) (Icc 0 x) := by
    apply ContinuousOn.neg
    apply ContinuousOn.mul
    · fun_prop
    · exact fun t _ => (Real.continuousAt_rpow_const t a (Or.inr ha.le)).continuousWithinAt
  have h := integral_eq_sub_of_hasDerivAt_of_le hx hc hd hint
  rw [integral_sub (gam_integrable (by linarith)) ((gam_integrable ha).const_mul a),
    intervalIntegral.integral_const_mul] at h
  rw [Real.zero_rpow ha.ne'] at h
  unfold gam
  linarith

theorem gam_succ_le {a x : ℝ} (ha : 0 < a) (hx : 0 ≤ x) : gam (a + 1) x ≤ x * gam a x := by
  unfold gam
  rw [← intervalIntegral.integral_const_mul]
  apply integral_mono_on hx (gam_integrable (by linarith)) ((gam_integrable ha).const_mul x)
  intro t ht
  rw [add_sub_cancel_right]
  rcases ht.1.eq_or_lt with h | h
  · rw [← h, Real.zero_rpow ha.ne']
    have : 0 ≤ (0 : ℝ) ^ (a - 1) := Real.rpow_nonneg le_rfl _
    have := mul_nonneg hx (mul_nonneg (Real.exp_pos (-0 : ℝ)).le this)
    simpa using this
  · have h1 : t ^ a = t * t ^ (a - 1) := by
      rw [Real.rpow_sub_one h.ne']; field_simp
    rw [h1]
    have h2 : 0 ≤ Real.exp (-t) * t ^ (a - 1) := mul_nonneg (Real.exp_pos _).le (Real.rpow_nonneg h.le _)
    nlinarith [ht.2]

/-- `γ(b,x) ≤ x^b e^{-x} / (b - x)`. -/
theorem gam_le {b x : ℝ} (hb : 0 < b) (hx : 0 ≤ x) :
    gam b x * (b - x) ≤ Real.exp (-x) * x ^ b := by
  have h1 := gam_add_one hb hx
  have h2 := gam_succ_le hb hx
  linarith

/-- The regularised upper function, as one minus the lower one. -/
theorem upper_eq {a x : ℝ} (ha : 0 < a) (hx : 0 ≤ x) :
    (∫ t in Ioi x, Real.exp (-t) * t ^ (a - 1)) / Real.Gamma a = 1 - gam a x / Real.Gamma a := by
  have hg := Real.Gamma_pos_of_pos ha
  have h1 : Real.Gamma a = ∫ t in Ioi (0 : ℝ), Real.exp (-t) * t ^ (a - 1) := Real.Gamma_eq_integral ha
  have hi : IntegrableOn (fun t : ℝ => Real.exp (-t) * t ^ (a - 1)) (Ioi 0) := Real.GammaIntegral_convergent ha
  have h2 : gam a x + (∫ t in Ioi x, Real.exp (-t) * t ^ (a - 1)) = Real.Gamma a := by
    rw [h1]
    unfold gam
    rw [integral_of_le hx, ← setIntegral_union (Ioc_disjoint_Ioi le_rfl) measurableSet_Ioi
      (hi.mono_set Ioc_subset_Ioi_self) (hi.mono_set (Ioi_subset_Ioi hx)), Ioc_union_Ioi_eq_Ioi hx]
  field_simp
  linarith

/-! ## The series -/

/-- Term of the series. -/
noncomputable def term (a x : ℝ) : ℕ → ℝ
  | 0 => 1
  | k + 1 => term a x k * (x / (a + k + 1))

/-- Partial sum. -/
noncomputable def psum (a x : ℝ) : ℕ → ℝ
  | 0 => 1
  | k + 1 => psum a x k + term a x (k + 1)

theorem term_pos {a x : ℝ} (ha : 0 < a) (hx : 0 < x) (k : ℕ) : 0 < term a x k := by
  induction k with
  | zero => simp [term]
  | succ k ih => rw [term]; positivity

theorem one_le_psum {a x : ℝ} (ha : 0 < a) (hx : 0 < x) (k : ℕ) : 1 ≤ psum a x k := by
  induction k with
  | zero => simp [psum]
  | succ k ih => rw [psum]; linarith [term_pos ha hx (k + 1)]

/-- Factor of the remainder. -/
noncomputable def dfac (a : ℝ) : ℕ → ℝ
  | 0 => 1
  | k + 1 => dfac a k / (a + k + 1)

theorem dfac_pos {a : ℝ} (ha : 0 < a) (k : ℕ) : 0 < dfac a k := by
  induction k with
  | zero => simp [dfac]
  | succ k ih => rw [dfac]; positivity

theorem term_dfac {a x : ℝ} (k : ℕ) : term a x k = x ^ k * dfac a k := by
  induction k with
  | zero => simp [term, dfac]
  | succ k ih => rw [term, dfac, ih]; ring

theorem gam_series {a x : ℝ} (ha : 0 < a) (hx : 0 < x) (N : ℕ) :
    a * gam a x = Real.exp (-x) * x ^ a * psum a x N + dfac a N * gam (a + N + 1) x := by
  induction N with
  | zero =>
    have := gam_add_one ha hx.le
    simp only [psum, dfac, Nat.cast_zero, add_zero]
    linarith
  | succ N ih =>
    have hb : 0 < a + N + 1 := by positivity
    have h := gam_add_one hb hx.le
    have h2 : gam (a + N + 1) x = (gam (a + N + 1 + 1) x + Real.exp (-x) * x ^ (a + N + 1)) / (a + N + 1) := by
      field_simp; linarith
    rw [ih, h2, psum, term_dfac, dfac]
    have h3 : x ^ (a + N + 1) = x ^ a * x ^ (N + 1) := by
      rw [add_assoc, Real.rpow_add hx, ← Nat.cast_succ, Real.rpow_natCast]
    rw [h3]
    push_cast
    have h4 : a + (↑N + 1) + 1 = a + N + 1 + 1 := by ring
    rw [h4]
    field_simp
    ring

/-- The true value lies between the partial sum and the partial sum with a multiple of its last term. -/
theorem psum_bounds {a x : ℝ} (ha : 0 < a) (hx : 0 < x) (N : ℕ) (hN : x < a + N + 1) :
    Real.exp (-x) * x ^ a * psum a x N ≤ a * gam a x ∧
    a * gam a x ≤ Real.exp (-x) * x ^ a * (psum a x N + term a x N * (x / (a + N + 1 - x))) := by
  have hb : 0 < a + N + 1 := by positivity
  rw [gam_series ha hx N]
  have h1 := gam_nonneg (a := a + N + 1) hx.le
  have h2 := gam_le hb hx.le
  have hd := dfac_pos ha N
  refine ⟨by nlinarith, ?_⟩
  have hpos : 0 < a + N + 1 - x := by linarith
  have h3 : gam (a + N + 1) x ≤ Real.exp (-x) * x ^ (a + N + 1) / (a + N + 1 - x) := by
    rw [le_div_iff₀ hpos]; exact h2
  have h4 : x ^ (a + N + 1) = x ^ a * x ^ N * x := by
    rw [add_assoc, Real.rpow_add hx, ← Nat.cast_succ, Real.rpow_natCast, pow_succ]; ring
  rw [h4] at h3
  have h5 : dfac a N * gam (a + N + 1) x ≤
      dfac a N * (Real.exp (-x) * (x ^ a * x ^ N * x) / (a + N + 1 - x)) := mul_le_mul_of_nonneg_left h3 hd.le
  rw [term_dfac]
  have h6 : Real.exp (-x) * x ^ a * (psum a x N + x ^ N * dfac a N * (x / (a + N + 1 - x))) =
      Real.exp (-x) * x ^ a * psum a x N +
        dfac a N * (Real.exp (-x) * (x ^ a * x ^ N * x) / (a + N + 1 - x)) := by
    field_simp
  linarith

theorem term_succ (a x : ℝ) (k : ℕ) : term a x k * (x / (a + k + 1)) = term a x (k + 1) := rfl

theorem psum_succ (a x : ℝ) (k : ℕ) : psum a x k + term a x (k + 1) = psum a x (k + 1) := rfl

theorem series_run {a x : ℝ} (d k : ℕ) (h : term a x (k + d + 1) / psum a x (k + d + 1) ≤ eps) :
    ∃ n, k + 1 ≤ n ∧ term a x n / psum a x n ≤ eps ∧
      ∀ fuel, d + 1 ≤ fuel → series x fuel (a + k) (term a x k) (psum a x k) = some (psum a x n) := by
  induction d generalizing k with
  | zero =>
    refine ⟨k + 1, le_rfl, h, ?_⟩
    intro fuel hf
    obtain ⟨m, rfl⟩ : ∃ m, fuel = m + 1 := ⟨fuel - 1, by omega⟩
    simp only [series]
    rw [term_succ, psum_succ, if_pos h]
  | succ d ih =>
    by_cases h1 : term a x (k + 1) / psum a x (k + 1) ≤ eps
    · refine ⟨k + 1, le_rfl, h1, ?_⟩
      intro fuel hf
      obtain ⟨m, rfl⟩ : ∃ m, fuel = m + 1 := ⟨fuel - 1, by omega⟩
      simp only [series]
      rw [term_succ, psum_succ, if_pos h1]
    · obtain ⟨n, hn1, hn2, hn3⟩ := ih (k + 1) (by rwa [show k + 1 + d + 1 = k + (d + 1) + 1 by ring])
      refine ⟨n, by omega, hn2, ?_⟩
      intro fuel hf
      obtain ⟨m, rfl⟩ : ∃ m, fuel = m + 1 := ⟨fuel - 1, by omega⟩
      simp only [series]
      rw [term_succ, psum_succ, if_neg h1]
      have := hn3 m (by omega)
      push_cast at this
      rwa [← add_assoc] at this

theorem term_le {a x : ℝ} (ha : 0 < a) (hx : 0 < x) (k : ℕ) : term a x k ≤ (x / (a + 1)) ^ k := by
  induction k with
  | zero => simp [term]
  | succ k ih =>
    rw [term, pow_succ]
    have h1 : x / (a + k + 1) ≤ x / (a + 1) := by
      apply div_le_div_of_nonneg_left hx.le (by linarith)
      have : (0 : ℝ) ≤ k := Nat.cast_nonneg k
      linarith
    exact mul_le_mul ih h1 (by positivity) (by positivity)

theorem eps_pos : 0 < eps := by unfold eps; norm_num

/-- The series loop ends, and its result is within `eps` (relative, times `max 1 a`) of the true value. -/
theorem series_spec {a x : ℝ} (ha : 0 < a) (hx : 0 < x) (h : x ≤ 1 ∨ x ≤ a) :
    ∃ s N, 1 ≤ s ∧ (∀ fuel, N ≤ fuel → series x fuel a 1 1 = some s) ∧ Real.exp (-x) * x ^ a * s ≤ a * gam a x ∧
      a * gam a x ≤ Real.exp (-x) * x ^ a * (s * (1 + eps * max 1 a)) := by
  have hr : x / (a + 1) < 1 := by rw [div_lt_one (by linarith)]; rcases h with h | h <;> linarith
  obtain ⟨d, hd⟩ := exists_pow_lt_of_lt_one eps_pos hr
  have h1 : term a x (0 + d + 1) / psum a x (0 + d + 1) ≤ eps := by
    have hp := one_le_psum ha hx (0 + d + 1)
    have h2 := term_le ha hx (0 + d + 1)
    have h3 : (x / (a + 1)) ^ (0 + d + 1) ≤ (x / (a + 1)) ^ d :=
      pow_le_pow_of_le_one (by positivity) hr.le (by omega)
    have h4 := div_le_self (term_pos ha hx (0 + d + 1)).le hp
    linarith
  obtain ⟨n, hn1, hn2, hn3⟩ := series_run d 0 h1
  refine ⟨psum a x n, d + 1, one_le_psum ha hx n, ?_, ?_⟩
  · intro fuel hf
    have := hn3 fuel hf
    simpa [term, psum] using this
  · have hn : (1 : ℝ) ≤ n := by exact_mod_cast hn1
    have hxn : x < a + n + 1 := by rcases h with h | h <;> linarith
    obtain ⟨b1, b2⟩ := psum_bounds ha hx n hxn
    refine ⟨b1, b2.trans ?_⟩
    have hE : 0 < Real.exp (-x) * x ^ a := mul_pos (Real.exp_pos _) (Real.rpow_pos_of_pos hx a)
    apply mul_le_mul_of_nonneg_left _ hE.le
    have hS := one_le_psum ha hx n
    have ht : term a x n ≤ eps * psum a x n := by rwa [div_le_iff₀ (by linarith)] at hn2
    have hq : x / (a + n + 1 - x) ≤ max 1 a := by
      rw [div_le_iff₀ (by linarith)]
      rcases h with h | h
      · have := le_max_left 1 a
        nlinarith
      · have := le_max_right 1 a
        have := le_max_left 1 a
        nlinarith
    have hq0 : 0 ≤ x / (a + n + 1 - x) := by
      apply div_nonneg hx.le; linarith
    have h5 : term a x n * (x / (a + n + 1 - x)) ≤ eps * psum a x n * max 1 a :=
      mul_le_mul ht hq hq0 (by have := eps_pos; positivity)
    linarith

/-! ## The continued fraction for a whole number of shape -/

/-- `∫ e^{-xs} s^u (1+s)^v ds` over the positive axis, in closed form. -/
noncomputable def J (x : ℝ) : ℕ → ℕ → ℝ
  | u, 0 => (u.factorial : ℝ) / x ^ (u + 1)
  | u, v + 1 => J x u v + J x (u + 1) v

theorem J_pos {x : ℝ} (hx : 0 < x) (v u : ℕ) : 0 < J x u v := by
  induction v generalizing u with
  | zero => rw [J]; positivity
  | succ v ih => rw [J]; exact add_pos (ih u) (ih (u + 1))

theorem J_rec {x : ℝ} (hx : 0 < x) (v : ℕ) :
    x * J x 0 v = 1 + v * J x 0 (v - 1) ∧
    ∀ u, x * J x (u + 1) v = (u + 1) * J x u v + v * J x (u + 1) (v - 1) := by
  induction v with
  | zero =>
    refine ⟨?_, ?_⟩
    · simp only [J, Nat.factorial_zero, Nat.cast_one, zero_add, pow_one, Nat.cast_zero, zero_mul, add_zero]
      field_simp
    · intro u
      simp only [J, Nat.cast_zero, zero_mul, add_zero, Nat.factorial_succ, Nat.cast_mul]
      push_cast
      field_simp
      ring
  | succ v ih =>
    obtain ⟨h0, h1⟩ := ih
    have hv : ∀ u, (v : ℝ) * J x u (v - 1) + v * J x (u + 1) (v - 1) = v * J x u v := by
      intro u
      cases v with
      | zero => simp
      | succ w => rw [Nat.add_sub_cancel, J]; ring
    refine ⟨?_, ?_⟩
    · rw [J, mul_add, h0, h1 0, Nat.add_sub_cancel]
      have := hv 0
      push_cast
      linarith
    · intro u
      rw [J, mul_add, h1 u, h1 (u + 1), Nat.add_sub_cancel]
      have := hv (u + 1)
      have h2 : J x u (v + 1) = J x u v + J x (u + 1) v := rfl
      rw [h2]
      push_cast
      linarith

/-- Numerators (without the rescaling), starting two steps before the first iteration. -/
noncomputable def num (n x : ℝ) : ℕ → ℝ
  | 0 => 1
  | 1 => x + 1
  | k + 2 => num n x (k + 1) * (x + 2 - n + 2 * (k + 1)) - num n x k * ((k + 2 - n) * (k + 1))

/-- Denominators. -/
noncomputable def den (n x : ℝ) : ℕ → ℝ
  | 0 => x
  | 1 => (x + 2 - n) * x
  | k + 2 => den n x (k + 1) * (x + 2 - n + 2 * (k + 1)) - den n x k * ((k + 2 - n) * (k + 1))

theorem num_den_pos {n : ℕ} {x : ℝ} (hx : (n : ℝ) < x) (k : ℕ) (hk : k + 1 ≤ n) :
    0 < num n x k ∧ 0 < den n x k ∧ 0 < num n x (k + 1) ∧ 0 < den n x (k + 1) := by
  have hx0 : 0 < x := lt_of_le_of_lt (Nat.cast_nonneg n) hx
  induction k with
  | zero =>
    refine ⟨by simp [num], by simpa [den] using hx0, by simp only [num]; linarith, ?_⟩
    simp only [den]
    apply mul_pos _ hx0
    linarith
  | succ k ih =>
    obtain ⟨h1, h2, h3, h4⟩ := ih (by omega)
    have hk' : (k : ℝ) + 2 ≤ n := by exact_mod_cast hk
    have hk0 : (0 : ℝ) ≤ k := Nat.cast_nonneg k
    have hb : 0 < x + 2 - n + 2 * ((k : ℝ) + 1) := by linarith
    have hc : ((k : ℝ) + 2 - n) * (k + 1) ≤ 0 := mul_nonpos_of_nonpos_of_nonneg (by linarith) (by linarith)
    refine ⟨h3, h4, ?_, ?_⟩
    · rw [num]
      have := mul_pos h3 hb
      have := mul_nonpos_of_nonneg_of_nonpos h1.le hc
      linarith
    · rw [den]
      have := mul_pos h4 hb
      have := mul_nonpos_of_nonneg_of_nonpos h2.le hc
      linarith

/-- How far a convergent is from the true value `J 0 (n-1)`, times its denominator. -/
noncomputable def gap (n : ℕ) (x : ℝ) (k : ℕ) : ℝ := num n x k - J x 0 (n - 1) * den n x k

theorem gap_rec (n : ℕ) (x : ℝ) (k : ℕ) :
    gap n x (k + 2) = gap n x (k + 1) * (x + 2 - n + 2 * (k + 1)) - gap n x k * ((k + 2 - n) * (k + 1)) := by
  unfold gap
  rw [num, den]
  ring

/-- Falling product `(n-1)(n-2)...(n-1-k)`. -/
noncomputable def fall (n : ℝ) : ℕ → ℝ
  | 0 => n - 1
  | k + 1 => fall n k * (n - 2 - k)

theorem fall_nonneg {n : ℕ} (k : ℕ) (hk : k + 1 ≤ n) : 0 ≤ fall n k := by
  induction k with
  | zero =>
    have : (1 : ℝ) ≤ n := by exact_mod_cast hk
    simp only [fall]; linarith
  | succ k ih =>
    rw [fall]
    have : (k : ℝ) + 1 + 1 ≤ n := by exact_mod_cast hk
    exact mul_nonneg (ih (by omega)) (by linarith)

theorem gap_eq {x : ℝ} (hx : 0 < x) (k r n : ℕ) (hn : n = k + 2 + r) :
    gap n x k = (-1) ^ (k + 1) * fall n k * J x k r := by
  induction k using Nat.twoStepInduction generalizing r with
  | zero =>
    subst hn
    unfold gap
    have := (J_rec hx (r + 1)).1
    rw [show 0 + 2 + r - 1 = r + 1 by omega]
    simp only [num, den, fall, Nat.add_sub_cancel] at this ⊢
    push_cast at this ⊢
    linarith
  | one =>
    subst hn
    unfold gap
    have h1 := (J_rec hx (r + 2)).1
    have h2 := (J_rec hx (r + 1)).1
    have h3 : J x 0 (r + 1) = J x 0 r + J x 1 r := rfl
    have h4 : J x 0 (r + 2) = J x 0 (r + 1) + J x 1 (r + 1) := rfl
    rw [show 1 + 2 + r - 1 = r + 2 by omega]
    rw [show r + 2 - 1 = r + 1 from rfl] at h1
    rw [show r + 1 - 1 = r from rfl] at h2
    simp only [num, den, fall]
    push_cast at h1 h2 ⊢
    linear_combination (-(x - 1 - (r : ℝ))) * h1 - ((r : ℝ) + 2) * h2 + ((r : ℝ) + 2) * (r + 1) * h3
  | more k ih0 ih1 =>
    have g0 := ih0 (r + 2) (by omega)
    have g1 := ih1 (r + 1) (by omega)
    rw [gap_rec, g0, g1]
    have h1 := (J_rec hx (r + 1)).2 k
    rw [show r + 1 - 1 = r from rfl] at h1
    have h2 : J x k (r + 2) = J x k (r + 1) + J x (k + 1) (r + 1) := rfl
    have h3 : J x (k + 1) (r + 1) = J x (k + 1) r + J x (k + 2) r := rfl
    have hn' : (n : ℝ) = k + 2 + 2 + r := by rw [hn]; push_cast; ring
    have f1 : fall n (k + 1) = fall n k * (r + 2) := by rw [fall, hn']; ring
    have f2 : fall n (k + 2) = fall n k * (r + 2) * (r + 1) := by
      rw [fall, f1, hn']; push_cast; ring
    rw [f1, f2, hn', h2]
    push_cast at h1
    linear_combination (-1) ^ k * (fall (k + 2 + 2 + r) k * (r + 2)) * h1 -
      (-1) ^ k * (fall (k + 2 + 2 + r) k * (r + 2)) * (r + 1) * h3

theorem gap_last {x : ℝ} (hx : 0 < x) (n : ℕ) (hn : 2 ≤ n) : gap n x (n - 1) = 0 := by
  obtain ⟨m, rfl⟩ : ∃ m, n = m + 2 := ⟨n - 2, by omega⟩
  cases m with
  | zero =>
    unfold gap
    simp only [Nat.zero_add, Nat.add_one_sub_one, num, den, J, Nat.factorial_zero, Nat.factorial_one]
    push_cast
    field_simp
    ring
  | succ k =>
    have g0 := gap_eq hx k 1 (k + 1 + 2) (by omega)
    have g1 := gap_eq hx (k + 1) 0 (k + 1 + 2) (by omega)
    rw [show k + 1 + 2 - 1 = k + 2 by omega, gap_rec, g0, g1]
    have h1 := (J_rec hx 0).2 k
    have h2 : J x k 1 = J x k 0 + J x (k + 1) 0 := rfl
    rw [h2, fall]
    push_cast at h1 ⊢
    have e : ∀ A : ℝ, A * J x (k + 1) 0 * (x + 2 - ((k : ℝ) + 1 + 2) + 2 * (k + 1)) =
        A * (x * J x (k + 1) 0) + A * J x (k + 1) 0 * (k + 1) := by intro A; ring
    rw [e, h1]
    ring

theorem gap_end {x : ℝ} (hx : 0 < x) (n : ℕ) (hn : 2 ≤ n) : gap n x n = 0 := by
  obtain ⟨m, rfl⟩ : ∃ m, n = m + 2 := ⟨n - 2, by omega⟩
  have := gap_last hx (m + 2) (by omega)
  rw [show m + 2 - 1 = m + 1 by omega] at this
  rw [gap_rec, this]
  push_cast
  ring

/-- Successive convergents lie on opposite sides of the true value. -/
theorem gap_alternates {x : ℝ} (hx : 0 < x) (n k : ℕ) (hk : k + 1 ≤ n) (hn : 2 ≤ n) :
    gap n x k * gap n x (k + 1) ≤ 0 := by
  by_cases h1 : k + 3 ≤ n
  · obtain ⟨r, rfl⟩ : ∃ r, n = k + 1 + 2 + r := ⟨n - (k + 3), by omega⟩
    rw [gap_eq hx k (r + 1) _ (by omega), gap_eq hx (k + 1) r _ (by omega)]
    have a := fall_nonneg (n := k + 1 + 2 + r) k (by omega)
    have b := fall_nonneg (n := k + 1 + 2 + r) (k + 1) (by omega)
    have c := J_pos hx (r + 1) k
    have d := J_pos hx r (k + 1)
    have e : (-1 : ℝ) ^ (k + 1) * fall ↑(k + 1 + 2 + r) k * J x k (r + 1) *
        ((-1) ^ (k + 1 + 1) * fall ↑(k + 1 + 2 + r) (k + 1) * J x (k + 1) r) =
        -(((-1 : ℝ) ^ (k + 1) * (-1) ^ (k + 1)) * (fall ↑(k + 1 + 2 + r) k * J x k (r + 1) *
          (fall ↑(k + 1 + 2 + r) (k + 1) * J x (k + 1) r))) := by ring
    rw [e, ← mul_pow]
    have := mul_nonneg (mul_nonneg a c.le) (mul_nonneg b d.le)
    norm_num
    exact_mod_cast this
  · by_cases h2 : k + 2 = n
    · have := gap_last hx n hn
      rw [show n - 1 = k + 1 by omega] at this
      rw [this, mul_zero]
    · have := gap_end hx n hn
      rw [show k + 1 = n by omega, this, mul_zero]

theorem convergent_close {x : ℝ} {n : ℕ} (hx : (n : ℝ) < x) (k : ℕ) (hk : k + 1 ≤ n) (hn : 2 ≤ n) :
    |num n x (k + 1) / den n x (k + 1) - J x 0 (n - 1)| ≤
      |num n x k / den n x k - num n x (k + 1) / den n x (k + 1)| := by
  have hx0 : 0 < x := lt_of_le_of_lt (Nat.cast_nonneg n) hx
  obtain ⟨_, d0, _, d1⟩ := num_den_pos hx k hk
  have h := gap_alternates hx0 n k hk hn
  have e0 : num n x k / den n x k = J x 0 (n - 1) + gap n x k / den n x k := by unfold gap; field_simp; ring
  have e1 : num n x (k + 1) / den n x (k + 1) = J x 0 (n - 1) + gap n x (k + 1) / den n x (k + 1) := by
    unfold gap; field_simp; ring
  rw [e0, e1]
  have h2 : gap n x k / den n x k * (gap n x (k + 1) / den n x (k + 1)) ≤ 0 := by
    rw [div_mul_div_comm]
    exact div_nonpos_of_nonpos_of_nonneg h (by positivity)
  generalize gap n x k / den n x k = u at h2 ⊢
  generalize gap n x (k + 1) / den n x (k + 1) = v at h2 ⊢
  rw [abs_le_iff_mul_self_le]
  nlinarith [mul_self_nonneg u]

theorem fraction_run {x : ℝ} {n : ℕ} (hx : (n : ℝ) < x) (hn : 2 ≤ n) (d k : ℕ) (hk : k + 2 + d = n) (l : ℝ) (hl : 0 < l) :
    ∃ w, 0 < w ∧ |w - J x 0 (n - 1)| ≤ eps * w ∧ ∀ fuel, d + 1 ≤ fuel →
      fraction fuel ⟨1 - n + k, x + 2 - n + 2 * k, k, l * num n x k, l * den n x k, l * num n x (k + 1),
        l * den n x (k + 1), num n x (k + 1) / den n x (k + 1)⟩ = some w := by
  have hx0 : 0 < x := lt_of_le_of_lt (Nat.cast_nonneg n) hx
  induction d generalizing k l with
  | zero =>
    obtain ⟨p1, d1, p2, d2⟩ := num_den_pos hx (k + 1) (by omega)
    have hp : l * num n x (k + 1) * (x + 2 - n + 2 * (k : ℝ) + 2) - l * num n x k * ((1 - n + k + 1) * ((k : ℝ) + 1)) =
        l * num n x (k + 2) := by rw [num]; ring
    have hd : l * den n x (k + 1) * (x + 2 - n + 2 * (k : ℝ) + 2) - l * den n x k * ((1 - n + k + 1) * ((k : ℝ) + 1)) =
        l * den n x (k + 2) := by rw [den]; ring
    have hr : l * num n x (k + 2) / (l * den n x (k + 2)) = num n x (k + 2) / den n x (k + 2) := by field_simp
    have hw : 0 < num n x (k + 2) / den n x (k + 2) := div_pos p2 d2
    have ga := gap_last hx0 n hn
    have gb := gap_end hx0 n hn
    have e1 : num n x (k + 1) / den n x (k + 1) = J x 0 (n - 1) := by
      rw [show n - 1 = k + 1 by omega] at ga
      rw [div_eq_iff d1.ne']
      unfold gap at ga
      rw [show n - 1 = k + 1 by omega] at ga ⊢
      linarith
    have e2 : num n x (k + 2) / den n x (k + 2) = J x 0 (n - 1) := by
      rw [div_eq_iff d2.ne']
      have : n = k + 2 := by omega
      unfold gap at gb
      have e : num n x n = num n x (k + 2) := by rw [this]
      have e' : den n x n = den n x (k + 2) := by rw [this]
      rw [e, e'] at gb
      linarith
    refine ⟨num n x (k + 2) / den n x (k + 2), hw, ?_, ?_⟩
    · rw [e2, sub_self, abs_zero, ← e2]
      exact mul_nonneg eps_pos.le hw.le
    · intro fuel hf
      obtain ⟨m, rfl⟩ : ∃ m, fuel = m + 1 := ⟨fuel - 1, by omega⟩
      simp only [fraction]
      rw [hp, hd, hr, if_neg (mul_pos hl d2).ne', if_pos]
      refine ⟨hw.ne', ?_⟩
      rw [e1, e2, sub_self, zero_div, abs_zero]
      exact eps_pos.le
  | succ d ih =>
    obtain ⟨p1, d1, p2, d2⟩ := num_den_pos hx (k + 1) (by omega)
    have hp : l * num n x (k + 1) * (x + 2 - n + 2 * (k : ℝ) + 2) - l * num n x k * ((1 - n + k + 1) * ((k : ℝ) + 1)) =
        l * num n x (k + 2) := by rw [num]; ring
    have hd : l * den n x (k + 1) * (x + 2 - n + 2 * (k : ℝ) + 2) - l * den n x k * ((1 - n + k + 1) * ((k : ℝ) + 1)) =
        l * den n x (k + 2) := by rw [den]; ring
    have hr : l * num n x (k + 2) / (l * den n x (k + 2)) = num n x (k + 2) / den n x (k + 2) := by field_simp
    have hw : 0 < num n x (k + 2) / den n x (k + 2) := div_pos p2 d2
    by_cases hs : |(num n x (k + 1) / den n x (k + 1) - num n x (k + 2) / den n x (k + 2)) /
        (num n x (k + 2) / den n x (k + 2))| ≤ eps
    · refine ⟨num n x (k + 2) / den n x (k + 2), hw, ?_, ?_⟩
      · have := convergent_close hx (k + 1) (by omega) hn
        rw [abs_div, div_le_iff₀ (abs_pos.2 hw.ne'), abs_of_pos hw] at hs
        exact this.trans hs
      · intro fuel hf
        obtain ⟨m, rfl⟩ : ∃ m, fuel = m + 1 := ⟨fuel - 1, by omega⟩
        simp only [fraction]
        rw [hp, hd, hr, if_neg (mul_pos hl d2).ne', if_pos ⟨hw.ne', hs⟩]
    · have hK : 0 < (if big < |l * num n x (k + 2)| then bigInv else 1) := by
        split
        · unfold bigInv; norm_num
        · norm_num
      obtain ⟨w, w0, w1, w2⟩ := ih (k + 1) (by omega) (l * (if big < |l * num n x (k + 2)| then bigInv else 1))
        (mul_pos hl hK)
      refine ⟨w, w0, w1, ?_⟩
      intro fuel hf
      obtain ⟨m, rfl⟩ : ∃ m, fuel = m + 1 := ⟨fuel - 1, by omega⟩
      simp only [fraction]
      rw [hp, hd, hr, if_neg (mul_pos hl d2).ne', if_neg (fun h => hs h.2), ← w2 m (by omega)]
      congr 1
      push_cast
      simp only [CF.mk.injEq]
      refine ⟨by ring, by ring, trivial, by ring, by ring, ?_, ?_, trivial⟩
      · rw [show k + 1 + 1 = k + 2 from rfl]; ring
      · rw [show k + 1 + 1 = k + 2 from rfl]; ring

/-- The continued fraction loop ends, for every whole shape `n ≥ 1` and `x > n`, within `eps` of the true value. -/
theorem fraction_spec {x : ℝ} {n : ℕ} (hx : (n : ℝ) ≤ x) (h1 : 1 ≤ x) (hn : 1 ≤ n) (hn2 : n = 1 ∨ (n : ℝ) < x) :
    ∃ w N, 0 < w ∧ |w - J x 0 (n - 1)| ≤ eps * w ∧ ∀ fuel, N ≤ fuel → fraction fuel (start n x) = some w := by
  have hx0 : 0 < x := by linarith
  by_cases h2 : n = 1
  · subst h2
    refine ⟨1 / x, 1, by positivity, ?_, ?_⟩
    · have : J x 0 (1 - 1) = 1 / x := by simp [J]
      rw [this, sub_self, abs_zero]
      have := eps_pos
      positivity
    · intro fuel hf
      obtain ⟨m, rfl⟩ : ∃ m, fuel = m + 1 := ⟨fuel - 1, by omega⟩
      simp only [fraction, start, Nat.cast_one, sub_self, add_zero, zero_add, mul_one]
      have hq : (x + 1) * x * (x + 1 + 2) - x = x * ((x + 1) * (x + 1 + 2) - 1) := by ring
      have hpos : 0 < (x + 1) * (x + 1 + 2) - 1 := by nlinarith
      have hr : ((x + 1) * (x + 1 + 2) - 1) / (x * ((x + 1) * (x + 1 + 2) - 1)) = 1 / x := by
        field_simp
      have ha : (x + 1) / ((x + 1) * x) = 1 / x := by field_simp
      rw [hq, hr, ha, if_neg (mul_pos hx0 hpos).ne', if_pos]
      refine ⟨by positivity, ?_⟩
      rw [sub_self, zero_div, abs_zero]
      exact eps_pos.le
  · have hlt : (n : ℝ) < x := hn2.resolve_left h2
    obtain ⟨w, w0, w1, w2⟩ := fraction_run hlt (by omega) (n - 2) 0 (by omega) 1 one_pos
    refine ⟨w, n - 2 + 1, w0, w1, ?_⟩
    intro fuel hf
    rw [← w2 fuel hf]
    congr 1
    simp only [start, num, den, CF.mk.injEq, Nat.cast_zero, one_mul, add_zero, mul_zero]
    refine ⟨trivial, by ring, trivial, trivial, trivial, trivial, by ring, ?_⟩
    congr 1
    ring

end Verif.Gamma
