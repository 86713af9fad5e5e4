import Verif.Lemmas.BetaFrac

/-! # How fast the continued fraction of the incomplete beta function converges -/

namespace Verif.BetaFrac

open MeasureTheory Set Verif.TTest intervalIntegral

variable {a b x : ℝ}

theorem K_le_K {u u' : ℕ} {v w v' w' r : ℝ} (hx1 : x < 1) (hv : -1 < v) (hv' : -1 < v')
    (h : ∀ s ∈ Ioo (0 : ℝ) 1, kb x u v w s ≤ r * kb x u' v' w' s) : K x u v w ≤ r * K x u' v' w' := by
  unfold K
  rw [← intervalIntegral.integral_const_mul]
  exact integral_mono_on_of_le_Ioo zero_le_one (kb_int hx1 u hv w) ((kb_int hx1 u' hv' w').const_mul r) h

theorem P_ratio_sigma {σ : ℝ} (ha : 0 < a) (hx1 : x < 1) (hs0 : 0 ≤ σ) (hs : σ ^ 2 ≤ 1 - x) (k : ℕ) :
    P a b x (k + 1) ≤ 1 / (1 + σ) ^ 2 * P a b x k := by
  have hk : (0 : ℝ) ≤ k := Nat.cast_nonneg k
  unfold P
  push_cast
  apply K_le_K hx1 (by linarith) (by linarith)
  intro s hs'
  have h1 := one_sub_pos hx1 hs'.1.le hs'.2.le
  have h2 : 0 < 1 - s := by linarith [hs'.2]
  have h3 := hs'.1
  have e1 : kb x (k + 1) (a + (k + 1) - 1) (-(a + b + (k + 1))) s =
      kb x k (a + k - 1) (-(a + b + k) - 1) s * (s * (1 - s)) := by
    simp only [kb, pow_succ]
    rw [show a + ((k : ℝ) + 1) - 1 = a + k - 1 + 1 by ring, Real.rpow_add_one h2.ne',
      show -(a + b + ((k : ℝ) + 1)) = -(a + b + k) - 1 by ring]
    ring
  have e2 : kb x k (a + k - 1) (-(a + b + k)) s = kb x k (a + k - 1) (-(a + b + k) - 1) s * (1 - x * s) := by
    simp only [kb]
    rw [show -(a + b + (k : ℝ)) = -(a + b + k) - 1 + 1 by ring, Real.rpow_add_one h1.ne']
    ring_nf
  have p := kb_pos (v := a + k - 1) (w := -(a + b + k) - 1) hx1 k hs'
  rw [e1, e2]
  have h4 : s * (1 - s) ≤ 1 / (1 + σ) ^ 2 * (1 - x * s) := by
    rw [one_div_mul_eq_div, le_div_iff₀ (by positivity)]
    nlinarith [sq_nonneg (1 - (1 + σ) * s), mul_le_mul_of_nonneg_right hs h3.le]
  calc _ ≤ kb x k (a + k - 1) (-(a + b + k) - 1) s * (1 / (1 + σ) ^ 2 * (1 - x * s)) :=
        mul_le_mul_of_nonneg_left h4 p.le
    _ = _ := by ring

theorem P_ratio_q {q : ℝ} (R : Reg a b x) (hq : 0 < q) (k : ℕ)
    (hqk : (k : ℝ) + 1 ≤ (1 - x) * (a + k) * q ^ 2 + ((a + b - 1) * (1 - x) - b) * q) :
    P a b x (k + 1) ≤ q / (1 + q) * P a b x k := by
  have hk : (0 : ℝ) ≤ k := Nat.cast_nonneg k
  have ha := R.ha; have hb := R.hb; have hx := R.x0; have hx1 := R.x1
  have hv : -1 < a + (k : ℝ) - 1 := by linarith
  obtain ⟨T, hT⟩ : ∃ T, T = K x (k + 1) (a + k - 1) (-(a + b + k)) := ⟨_, rfl⟩
  obtain ⟨U, hU⟩ : ∃ U, U = K x (k + 1) (a + k - 1) (-(a + b + k) - 1) := ⟨_, rfl⟩
  have y0 : 0 < 1 - x := by linarith
  -- integration by parts
  have id1 : (k + 1) * P a b x k = (k + 1 - b) * T + (a + b + k) * (1 - x) * U := by
    have h := K_parts hx1 (k + 1) (by linarith : 0 < a + (k : ℝ)) (-(a + b + (k : ℝ)))
    rw [if_neg (Nat.succ_ne_zero k)] at h
    have e2 := K_split_v hx1 k hv (-(a + b + (k : ℝ)))
    have e3 := K_split_v hx1 (k + 1) hv (-(a + b + (k : ℝ)) - 1)
    have e5 := K_split_w hx1 (k + 1) hv (-(a + b + (k : ℝ)) - 1)
    rw [sub_add_cancel] at e2 e3 e5
    simp only [Nat.add_sub_cancel] at h
    push_cast at h
    unfold P
    rw [e2, e3] at h
    rw [← hT] at h e5
    rw [← hU] at h e5
    linear_combination h + (a + b + k) * e5
  -- tangent
  have id2 : T - x * (q / (1 + q)) ^ 2 * P a b x k ≤ (1 - x * (q / (1 + q))) ^ 2 * U := by
    rw [hT, hU]
    unfold P K
    have i1 := kb_int hx1 (k + 1) hv (-(a + b + (k : ℝ)))
    have i2 := (kb_int hx1 k hv (-(a + b + (k : ℝ)))).const_mul (x * (q / (1 + q)) ^ 2)
    have i3 := (kb_int hx1 (k + 1) hv (-(a + b + (k : ℝ)) - 1)).const_mul ((1 - x * (q / (1 + q))) ^ 2)
    rw [← intervalIntegral.integral_const_mul, ← intervalIntegral.integral_const_mul,
      ← intervalIntegral.integral_sub i1 i2]
    refine integral_mono_on_of_le_Ioo zero_le_one (i1.sub i2) i3 ?_
    intro s hs'
    have h1 := one_sub_pos hx1 hs'.1.le hs'.2.le
    have e2 : ∀ j : ℕ, kb x j (a + k - 1) (-(a + b + k)) s = kb x j (a + k - 1) (-(a + b + k) - 1) s * (1 - x * s) := by
      intro j
      simp only [kb]
      rw [show -(a + b + (k : ℝ)) = -(a + b + k) - 1 + 1 by ring, Real.rpow_add_one h1.ne']
      ring_nf
    have e3 : kb x (k + 1) (a + k - 1) (-(a + b + k) - 1) s = kb x k (a + k - 1) (-(a + b + k) - 1) s * s := by
      simp only [kb, pow_succ]; ring
    rw [e2, e2, e3]
    have p := kb_pos (v := a + k - 1) (w := -(a + b + k) - 1) hx1 k hs'
    generalize q / (1 + q) = s0
    generalize kb x k (a + k - 1) (-(a + b + k) - 1) s = w at *
    have : 0 ≤ w * (x * (s - s0) ^ 2) := by positivity
    nlinarith
  -- the next integral is at most T
  have id3 : P a b x (k + 1) ≤ T := by
    have : P a b x (k + 1) ≤ 1 * T := by
      rw [hT]
      unfold P
      push_cast
      apply K_le_K hx1 (by linarith) hv
      intro s hs'
      have h1 := one_sub_pos hx1 hs'.1.le hs'.2.le
      have h2 : 0 < 1 - s := by linarith [hs'.2]
      have e1 : kb x (k + 1) (a + (k + 1) - 1) (-(a + b + (k + 1))) s =
          kb x (k + 1) (a + k - 1) (-(a + b + k) - 1) s * (1 - s) := by
        simp only [kb]
        rw [show a + ((k : ℝ) + 1) - 1 = a + k - 1 + 1 by ring, Real.rpow_add_one h2.ne',
          show -(a + b + ((k : ℝ) + 1)) = -(a + b + k) - 1 by ring]
        ring
      have e2 : kb x (k + 1) (a + k - 1) (-(a + b + k)) s =
          kb x (k + 1) (a + k - 1) (-(a + b + k) - 1) s * (1 - x * s) := by
        simp only [kb]
        rw [show -(a + b + (k : ℝ)) = -(a + b + k) - 1 + 1 by ring, Real.rpow_add_one h1.ne']
        ring_nf
      rw [e1, e2, one_mul]
      apply mul_le_mul_of_nonneg_left _ (kb_pos hx1 (k + 1) hs').le
      nlinarith [hs'.1]
    simpa using this
  refine id3.trans ?_
  have p := P_pos (b := b) ha hx1 k
  generalize P a b x k = p0 at *
  -- algebra
  have hq1 : 0 < 1 + q := by linarith
  have hz : 1 - x * (q / (1 + q)) = (1 + (1 - x) * q) / (1 + q) := by field_simp; ring
  rw [hz] at id2
  have id4 : (1 + q) ^ 2 * T - x * q ^ 2 * p0 ≤ (1 + (1 - x) * q) ^ 2 * U := by
    have := mul_le_mul_of_nonneg_left id2 (sq_nonneg (1 + q))
    have e1 : (1 + q) ^ 2 * (T - x * (q / (1 + q)) ^ 2 * p0) = (1 + q) ^ 2 * T - x * q ^ 2 * p0 := by field_simp
    have e2 : (1 + q) ^ 2 * (((1 + (1 - x) * q) / (1 + q)) ^ 2 * U) = (1 + (1 - x) * q) ^ 2 * U := by field_simp
    rw [e1, e2] at this
    exact this
  have hA : 0 ≤ (a + b + k) * (1 - x) := by positivity
  have id5 : T * ((k + 1 - b) * (1 + (1 - x) * q) ^ 2 + (a + b + k) * (1 - x) * (1 + q) ^ 2) ≤
      p0 * ((k + 1) * (1 + (1 - x) * q) ^ 2 + (a + b + k) * (1 - x) * x * q ^ 2) := by
    have h1 := mul_le_mul_of_nonneg_left id4 hA
    have h2 : (k + 1) * p0 * (1 + (1 - x) * q) ^ 2 =
      ((k + 1 - b) * T + (a + b + k) * (1 - x) * U) * (1 + (1 - x) * q) ^ 2 := by rw [id1]
    linarith
  have hD : 0 < (k + 1 - b) * (1 + (1 - x) * q) ^ 2 + (a + b + k) * (1 - x) * (1 + q) ^ 2 := by
    have h1 := R.denO_pos k
    have h2 : (1 + (1 - x) * q) ^ 2 ≤ (1 + q) ^ 2 := by
      apply pow_le_pow_left₀ (by positivity)
      nlinarith
    have h3 := mul_le_mul_of_nonneg_left h2 hA
    have h4 : 0 < (k + 1 - b + (a + b + k) * (1 - x)) * (1 + (1 - x) * q) ^ 2 := by
      apply mul_pos _ (by positivity)
      linarith
    linarith
  rw [div_mul_eq_mul_div, le_div_iff₀ hq1]
  refine le_of_mul_le_mul_right ?_ hD
  have id6 : ((k + 1) * (1 + (1 - x) * q) ^ 2 + (a + b + k) * (1 - x) * x * q ^ 2) * (1 + q) ≤
      q * ((k + 1 - b) * (1 + (1 - x) * q) ^ 2 + (a + b + k) * (1 - x) * (1 + q) ^ 2) := by
    have h1 : 0 ≤ (1 + (1 - x) * q) * ((1 - x) * (a + k) * q ^ 2 + ((a + b - 1) * (1 - x) - b) * q - (k + 1)) := by
      apply mul_nonneg (by positivity); linarith
    nlinarith
  calc T * (1 + q) * ((k + 1 - b) * (1 + (1 - x) * q) ^ 2 + (a + b + k) * (1 - x) * (1 + q) ^ 2)
      = (1 + q) * (T * ((k + 1 - b) * (1 + (1 - x) * q) ^ 2 + (a + b + k) * (1 - x) * (1 + q) ^ 2)) := by ring
    _ ≤ (1 + q) * (p0 * ((k + 1) * (1 + (1 - x) * q) ^ 2 + (a + b + k) * (1 - x) * x * q ^ 2)) :=
        mul_le_mul_of_nonneg_left id5 hq1.le
    _ = p0 * (((k + 1) * (1 + (1 - x) * q) ^ 2 + (a + b + k) * (1 - x) * x * q ^ 2) * (1 + q)) := by ring
    _ ≤ p0 * (q * ((k + 1 - b) * (1 + (1 - x) * q) ^ 2 + (a + b + k) * (1 - x) * (1 + q) ^ 2)) :=
        mul_le_mul_of_nonneg_left id6 p.le
    _ = _ := by ring

theorem rate_eq (R : Reg a b x) (m : ℕ) :
    rate a b x m = (a + b + ↑(m + 1)) * x * (|b - ↑(m + 1) - 1| * x) * (P a b x (m + 1 + 1) / P a b x (m + 1)) /
      ((a + 2 * ↑(m + 1) - ↑(m + 1) * x) * (a + 2 * ↑(m + 1) + 1 - (a + b + ↑(m + 1)) * x)) := by
  have ha := R.ha; have hb := R.hb; have hx := R.x0; have hx1 := R.x1
  have hO := R.denO_pos (m + 1)
  have hE := R.denE_pos (m + 1)
  have p1 := P_pos (b := b) ha hx1 (m + 1)
  have p2 := P_pos (b := b) ha hx1 (m + 1 + 1)
  have p' := P'_pos (b := b) ha hx1 (m + 1)
  unfold rate tE tO bE bO
  have hk : (0 : ℝ) ≤ ((m + 1 : ℕ) : ℝ) := Nat.cast_nonneg _
  generalize ((m + 1 : ℕ) : ℝ) = k at *
  generalize P a b x (m + 1 + 1) = P2 at *
  generalize P a b x (m + 1) = P1 at *
  generalize P' a b x (m + 1) = P1' at *
  have h1 : 0 < a + 2 * k := by linarith
  have h2 : 0 < a + 2 * k + 1 := by linarith
  have h3 : 0 < a + 2 * k - k * x := by linarith
  have e : |-((a + b + k) * x * P1' / ((a + 2 * k) * P1)) * ((b - k - 1) * x * P2 / ((a + 2 * k + 1) * P1'))| =
      (a + b + k) * x * (|b - k - 1| * x) * (P2 / P1) / ((a + 2 * k) * (a + 2 * k + 1)) := by
    rw [abs_mul, abs_neg, abs_of_pos (by positivity), abs_div, abs_mul, abs_mul, abs_of_pos p2, abs_of_pos hx,
      abs_of_pos (by positivity : 0 < (a + 2 * k + 1) * P1')]
    field_simp
  rw [e]
  field_simp

/-- The rate of a round, given a bound for the ratio of the integrals. -/
theorem rate_le (R : Reg a b x) (m : ℕ) {ρ : ℝ} (h : P a b x (m + 1 + 1) ≤ ρ * P a b x (m + 1)) :
    rate a b x m ≤ |b - ↑(m + 1) - 1| * x * ρ / (a + 2 * ↑(m + 1) + 1 - (a + b + ↑(m + 1)) * x) := by
  have ha := R.ha; have hb := R.hb; have hx := R.x0; have hx1 := R.x1
  have hO := R.denO_pos (m + 1)
  have hE := R.denE_pos (m + 1)
  have p1 := P_pos (b := b) ha hx1 (m + 1)
  have p2 := P_pos (b := b) ha hx1 (m + 1 + 1)
  rw [rate_eq R m]
  have hk : (1 : ℝ) ≤ ((m + 1 : ℕ) : ℝ) := by simp
  generalize ((m + 1 : ℕ) : ℝ) = k at *
  generalize P a b x (m + 1 + 1) = P2 at *
  generalize P a b x (m + 1) = P1 at *
  have hr : P2 / P1 ≤ ρ := by rw [div_le_iff₀ p1]; exact h
  have h1 : (a + b + k) * x ≤ a + k := by
    have hA : 0 < a + b + 2 := by linarith
    refine le_of_mul_le_mul_right ?_ hA
    have := mul_le_mul_of_nonneg_left R.hx (by linarith : 0 ≤ a + b + k)
    nlinarith [mul_nonneg hb.le (by linarith : 0 ≤ k - 1)]
  rw [div_le_div_iff₀ (mul_pos (by linarith) hO) hO]
  have h2 : (a + b + k) * x * (|b - k - 1| * x) * (P2 / P1) ≤ (a + 2 * k - k * x) * (|b - k - 1| * x) * ρ := by
    have : 0 ≤ P2 / P1 := by positivity
    apply mul_le_mul _ hr this
    · apply mul_nonneg _ (by positivity); linarith
    · apply mul_le_mul_of_nonneg_right _ (by positivity); linarith
  nlinarith [mul_le_mul_of_nonneg_right h2 hO.le]

theorem Reg.denO_ge (R : Reg a b x) {k : ℕ} (hk : 2 ≤ k) : (k : ℝ) + 2 ≤ a + 2 * k + 1 - (a + b + k) * x := by
  have hy := R.y_ge
  have hk' : (2 : ℝ) ≤ k := by exact_mod_cast hk
  have := R.x1
  nlinarith [mul_nonneg (by linarith : 0 ≤ (k : ℝ) - 2) (by linarith : 0 ≤ 1 - x)]

/-- From the second round on. -/
theorem rate_le' (R : Reg a b x) (m : ℕ) {ρ : ℝ} (hρ : 0 ≤ ρ) (h : P a b x (m + 2 + 1) ≤ ρ * P a b x (m + 2)) :
    rate a b x (m + 1) ≤ |b - m - 3| / (m + 4) * (x * ρ) := by
  refine (rate_le R (m + 1) h).trans ?_
  have h1 := R.denO_ge (k := m + 1 + 1) (by omega)
  have hx := R.x0
  have hm : (0 : ℝ) ≤ m := Nat.cast_nonneg m
  push_cast at h1 ⊢
  rw [show b - ((m : ℝ) + 1 + 1) - 1 = b - m - 3 by ring, div_mul_eq_mul_div, ← mul_assoc]
  apply div_le_div_of_nonneg_left (by positivity) (by linarith) (by linarith)

/-- The first round. -/
theorem rate_first (R : Reg a b x) : rate a b x 0 ≤ max 1 b := by
  have ha := R.ha; have hb := R.hb; have hx := R.x0; have hx1 := R.x1
  have h0 := P_ratio_sigma (b := b) ha hx1 le_rfl (by simpa using hx1.le) (0 + 1)
  have h := rate_le (ρ := 1) R 0 (by simpa using h0)
  refine h.trans ?_
  have h1 := R.denO (0 + 1)
  have h2 : 0 < 2 * (a + 1) / (a + b + 2) := by positivity
  have h3 := R.y_ge
  have y0 : 0 < 1 - x := by linarith
  push_cast at h1 ⊢
  rw [div_le_iff₀ (by linarith)]
  rcases le_total b 2 with hb2 | hb2
  · rw [abs_of_nonpos (by linarith)]
    have h4 : -(b - 1 - 1) * x * 1 ≤ a + 2 * 1 + 1 - (a + b + 1) * x := by
      nlinarith [mul_nonneg ha.le y0.le, mul_nonneg hb.le y0.le]
    refine h4.trans (le_mul_of_one_le_left (by linarith) (le_max_left 1 b))
  · rw [abs_of_nonneg (by linarith)]
    have h4 : (b - 1 - 1) * x * 1 ≤ b * 1 := by nlinarith
    refine h4.trans (mul_le_mul (le_max_right 1 b) (by linarith) zero_le_one (by positivity))

end Verif.BetaFrac
