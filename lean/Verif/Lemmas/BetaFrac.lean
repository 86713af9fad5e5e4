import Verif.Lemmas.BetaInt
import Verif.Model.TTest

/-! # Errors of the continued fraction of the incomplete beta function -/

namespace Verif.BetaFrac

open MeasureTheory Set Verif.TTest

/-- The integrals at the odd places. -/
noncomputable def P (a b x : ℝ) (m : ℕ) : ℝ := K x m (a + m - 1) (-(a + b + m))

/-- The integrals at the even places. -/
noncomputable def P' (a b x : ℝ) (m : ℕ) : ℝ := K x m (a + m) (-(a + b + m) - 1)

section
variable {a b x : ℝ}

theorem P_pos (ha : 0 < a) (hx1 : x < 1) (m : ℕ) : 0 < P a b x m :=
  K_pos hx1 m (by have : (0 : ℝ) ≤ m := Nat.cast_nonneg m; linarith) _

theorem P'_pos (ha : 0 < a) (hx1 : x < 1) (m : ℕ) : 0 < P' a b x m :=
  K_pos hx1 m (by have : (0 : ℝ) ≤ m := Nat.cast_nonneg m; linarith) _

theorem P_zero (ha : 0 < a) (hx1 : x < 1) : a * P a b x 0 - (a + b) * x * P' a b x 0 = 1 := by
  have h := K_parts hx1 0 ha (-(a + b))
  simp only [Nat.cast_zero, zero_mul, if_true] at h
  simp only [P, P', Nat.cast_zero, add_zero]
  linarith

theorem P_even (ha : 0 < a) (hx1 : x < 1) (m : ℕ) :
    (a + 2 * (m + 1)) * P a b x (m + 1) - (a + b + (m + 1)) * x * P' a b x (m + 1) = (m + 1) * P' a b x m := by
  have hm : (0 : ℝ) ≤ m := Nat.cast_nonneg m
  have h := K_parts hx1 (m + 1) (by push_cast; linarith : 0 < a + ((m + 1 : ℕ) : ℝ)) (-(a + b + ((m + 1 : ℕ) : ℝ)))
  rw [if_neg (Nat.succ_ne_zero m)] at h
  have h2 := K_split_v hx1 m (by linarith : -1 < a + m) (-(a + b + ((m + 1 : ℕ) : ℝ)))
  simp only [P, P', Nat.add_sub_cancel] at h ⊢
  push_cast at h h2 ⊢
  rw [← add_assoc] at h
  rw [h2, show a + (m : ℝ) + 1 - 1 = a + m by ring] at h
  rw [show a + ((m : ℝ) + 1) = a + m + 1 by ring, show a + (m : ℝ) + 1 - 1 = a + m by ring,
    show -(a + b + (m : ℝ)) - 1 = -(a + b + (m + 1)) by ring]
  linarith

theorem P_odd (ha : 0 < a) (hx1 : x < 1) (m : ℕ) :
    (a + 2 * m + 1) * P' a b x m + (b - m - 1) * x * P a b x (m + 1) = (a + m) * P a b x m := by
  have hm : (0 : ℝ) ≤ m := Nat.cast_nonneg m
  have h := K_parts hx1 (m + 1) (by linarith : 0 < a + (m : ℝ)) (-(a + b + (m : ℝ)))
  rw [if_neg (Nat.succ_ne_zero m)] at h
  have hv : -1 < a + (m : ℝ) - 1 := by linarith
  have e1 := K_split_w hx1 m hv (-(a + b + (m : ℝ)) - 1)
  have e2 := K_split_v hx1 m hv (-(a + b + (m : ℝ)) - 1)
  have e3 := K_split_v hx1 (m + 1) hv (-(a + b + (m : ℝ)) - 1)
  have e4 := K_split_w hx1 m (by linarith : -1 < a + (m : ℝ)) (-(a + b + (m : ℝ)) - 1)
  have e5 := K_split_w hx1 (m + 1) hv (-(a + b + (m : ℝ)) - 1)
  simp only [P, P', Nat.add_sub_cancel] at h ⊢
  push_cast at h ⊢
  rw [show a + ((m : ℝ) + 1) - 1 = a + m by ring, show -(a + b + ((m : ℝ) + 1)) = -(a + b + m) - 1 by ring]
  rw [sub_add_cancel] at e1 e2 e3 e4 e5
  rw [e4, e5, e3, e2] at h
  rw [e1, e2, e3]
  linear_combination h

/-- Tails of the continued fraction. -/
noncomputable def tE (a b x : ℝ) (m : ℕ) : ℝ := -((a + b + m) * x * P' a b x m / ((a + 2 * m) * P a b x m))
noncomputable def tO (a b x : ℝ) (m : ℕ) : ℝ := (b - m - 1) * x * P a b x (m + 1) / ((a + 2 * m + 1) * P' a b x m)

/-- Coefficients. -/
noncomputable def cE (a b x : ℝ) (m : ℕ) : ℝ := m * (b - m) * x / ((a - 1 + m * 2) * (a + m * 2))
noncomputable def cO (a b x : ℝ) (m : ℕ) : ℝ := -(a + m) * (a + b + m) * x / ((a + m * 2) * (a + 1 + m * 2))

theorem one_add_tO (ha : 0 < a) (hx1 : x < 1) (m : ℕ) :
    1 + tO a b x m = (a + m) * P a b x m / ((a + 2 * m + 1) * P' a b x m) := by
  have hm : (0 : ℝ) ≤ m := Nat.cast_nonneg m
  have p' := P'_pos (b := b) ha hx1 m
  have : a + 2 * (m : ℝ) + 1 ≠ 0 := by linarith
  rw [← P_odd ha hx1 m, tO]
  field_simp

theorem tE_tO (ha : 0 < a) (hx1 : x < 1) (m : ℕ) : tE a b x m * (1 + tO a b x m) = cO a b x m := by
  have hm : (0 : ℝ) ≤ m := Nat.cast_nonneg m
  have p := P_pos (b := b) ha hx1 m
  have p' := P'_pos (b := b) ha hx1 m
  have h1 : a + 2 * (m : ℝ) + 1 ≠ 0 := by linarith
  have h2 : a + 2 * (m : ℝ) ≠ 0 := by linarith
  rw [one_add_tO ha hx1, tE, cO, show a + (m : ℝ) * 2 = a + 2 * m by ring,
    show a + 1 + (m : ℝ) * 2 = a + 2 * m + 1 by ring]
  field_simp

theorem one_add_tE (ha : 0 < a) (hx1 : x < 1) (m : ℕ) :
    1 + tE a b x (m + 1) = (m + 1) * P' a b x m / ((a + 2 * (m + 1)) * P a b x (m + 1)) := by
  have hm : (0 : ℝ) ≤ m := Nat.cast_nonneg m
  have p' := P_pos (b := b) ha hx1 (m + 1)
  have : a + 2 * ((m : ℝ) + 1) ≠ 0 := by linarith
  rw [← P_even ha hx1 m, tE]
  push_cast
  field_simp
  ring

theorem tO_tE (ha : 0 < a) (hx1 : x < 1) (m : ℕ) :
    tO a b x m * (1 + tE a b x (m + 1)) = cE a b x (m + 1) := by
  have hm : (0 : ℝ) ≤ m := Nat.cast_nonneg m
  have p := P_pos (b := b) ha hx1 (m + 1)
  have p' := P'_pos (b := b) ha hx1 m
  have h1 : a + 2 * (m : ℝ) + 1 ≠ 0 := by linarith
  have h2 : a + 2 * ((m : ℝ) + 1) ≠ 0 := by linarith
  rw [one_add_tE ha hx1, tO, cE]
  push_cast
  rw [show a + ((m : ℝ) + 1) * 2 = a + 2 * (m + 1) by ring,
    show a - 1 + ((m : ℝ) + 1) * 2 = a + 2 * m + 1 by ring]
  field_simp
  ring

/-- One half of a round. -/
theorem half_step {f h hp c d e t t' : ℝ} (hc : 0 < c) (hd : 0 < d) (hh : h = hp * c * d)
    (hf : f - h = t' * d * (hp - f)) (he : t' * (1 + t) = e) (hd' : 0 < 1 + e * d) :
    f - h * (1 / (1 + e * d)) * (1 + e / c) = t * (1 / (1 + e * d)) * (h - f) := by
  have h1 : f * (1 + t' * d) = h * (1 + t' / c) := by
    have : h / c = hp * d := by rw [hh]; field_simp
    have e2 : h * (1 + t' / c) = h + t' * (h / c) := by ring
    rw [e2, this]
    linarith
  have h2 : f * (1 + t + e * d) = h * (1 + t + e / c) := by
    rw [← he]
    have e2 : h * (1 + t + t' * (1 + t) / c) = (1 + t) * (h * (1 + t' / c)) := by ring
    rw [e2, ← h1]
    ring
  field_simp
  have h3 : h * (1 + t + e / c) * c = h * (c + t * c + e) := by field_simp
  have h4 : f * (1 + t + e * d) * c = h * (c + t * c + e) := by rw [h2, h3]
  linarith

/-- Bounds for the inverse denominators. -/
noncomputable def bE (a x : ℝ) (m : ℕ) : ℝ := (a + 2 * m) / (a + 2 * m - m * x)
noncomputable def bO (a b x : ℝ) (m : ℕ) : ℝ := (a + 2 * m + 1) / (a + 2 * m + 1 - (a + b + m) * x)

/-- The region in which the fraction is used. -/
structure Reg (a b x : ℝ) : Prop where
  ha : 0 < a
  hb : 0 < b
  x0 : 0 < x
  hx : x * (a + b + 2) ≤ a + 1

namespace Reg

theorem x1 (R : Reg a b x) : x < 1 := by
  have := R.ha; have := R.hb; have := R.x0; have := R.hx
  by_contra h
  rw [not_lt] at h
  nlinarith

theorem denO (R : Reg a b x) (m : ℕ) :
    (m : ℝ) + 2 * (a + 1) / (a + b + 2) ≤ a + 2 * m + 1 - (a + b + m) * x := by
  have ha := R.ha; have hb := R.hb; have hx := R.hx
  have hm : (0 : ℝ) ≤ m := Nat.cast_nonneg m
  have hA : 0 < a + b + 2 := by linarith
  have h1 : x ≤ (a + 1) / (a + b + 2) := by rw [le_div_iff₀ hA]; linarith
  have h2 : (m : ℝ) * x ≤ m * 1 := mul_le_mul_of_nonneg_left R.x1.le hm
  have h3 : (a + b) * x ≤ (a + b) * ((a + 1) / (a + b + 2)) := mul_le_mul_of_nonneg_left h1 (by linarith)
  have h4 : (a + b) * ((a + 1) / (a + b + 2)) + 2 * (a + 1) / (a + b + 2) = a + 1 := by field_simp
  linarith

theorem denO_pos (R : Reg a b x) (m : ℕ) : 0 < a + 2 * m + 1 - (a + b + m) * x := by
  have ha := R.ha; have hb := R.hb
  have hm : (0 : ℝ) ≤ m := Nat.cast_nonneg m
  have : 0 < 2 * (a + 1) / (a + b + 2) := by positivity
  linarith [R.denO m]

theorem denE_pos (R : Reg a b x) (m : ℕ) : a + m ≤ a + 2 * m - m * x := by
  have h2 : (m : ℝ) * x ≤ m * 1 := mul_le_mul_of_nonneg_left R.x1.le (Nat.cast_nonneg m)
  linarith

theorem bE_pos (R : Reg a b x) (m : ℕ) : 0 < bE a x m := by
  have := R.denE_pos m; have := R.ha; have hm : (0 : ℝ) ≤ m := Nat.cast_nonneg m
  unfold bE
  apply div_pos <;> linarith

theorem bO_pos (R : Reg a b x) (m : ℕ) : 0 < bO a b x m := by
  have := R.denO_pos m; have := R.ha; have hm : (0 : ℝ) ≤ m := Nat.cast_nonneg m
  unfold bO
  apply div_pos <;> linarith

/-- The bound at an odd place gives the one at the next even place. -/
theorem step_E (R : Reg a b x) (m : ℕ) {g : ℝ} (hg : 0 < g) (hgb : g ≤ bO a b x m) :
    1 / bE a x (m + 1) ≤ 1 + cE a b x (m + 1) * g := by
  have ha := R.ha; have hb := R.hb; have hx := R.x0
  have hm : (0 : ℝ) ≤ m := Nat.cast_nonneg m
  have e : 1 / bE a x (m + 1) = 1 - (m + 1) * x / (a + 2 * (m + 1)) := by
    unfold bE
    push_cast
    rw [one_div_div, sub_div, div_self (by linarith)]
  rw [e]
  unfold cE
  push_cast
  rw [show a + ((m : ℝ) + 1) * 2 = a + 2 * (m + 1) by ring,
    show a - 1 + ((m : ℝ) + 1) * 2 = a + 2 * m + 1 by ring]
  by_cases hs : 0 ≤ b - (m + 1)
  · have h1 : 0 ≤ ((m : ℝ) + 1) * (b - (m + 1)) * x / ((a + 2 * m + 1) * (a + 2 * (m + 1))) := by positivity
    have h2 : 0 ≤ ((m : ℝ) + 1) * x / (a + 2 * (m + 1)) := by positivity
    nlinarith [mul_nonneg h1 hg.le]
  · rw [not_le] at hs
    have hO := R.denO_pos m
    have h3 : (m + 1 - b) * g ≤ a + 2 * m + 1 := by
      have : (m + 1 - b) * g ≤ (m + 1 - b) * bO a b x m := mul_le_mul_of_nonneg_left hgb (by linarith)
      refine this.trans ?_
      unfold bO
      rw [mul_div_assoc', div_le_iff₀ hO, mul_comm]
      apply mul_le_mul_of_nonneg_left _ (by linarith)
      nlinarith [R.x1]
    have h4 : ((m : ℝ) + 1) * (b - (m + 1)) * x / ((a + 2 * m + 1) * (a + 2 * (m + 1))) * g =
        -((m + 1) * x / (a + 2 * (m + 1))) * ((m + 1 - b) * g / (a + 2 * m + 1)) := by
      field_simp
      ring
    rw [h4]
    have h5 : (m + 1 - b) * g / (a + 2 * m + 1) ≤ 1 := by rw [div_le_one (by linarith)]; exact h3
    have h6 : 0 ≤ ((m : ℝ) + 1) * x / (a + 2 * (m + 1)) := by positivity
    nlinarith

/-- The bound at an even place gives the one at the next odd place. -/
theorem step_O (R : Reg a b x) (m : ℕ) {g : ℝ} (hg : 0 < g) (hgb : g ≤ bE a x m) :
    1 / bO a b x m ≤ 1 + cO a b x m * g := by
  have ha := R.ha; have hb := R.hb; have hx := R.x0
  have hm : (0 : ℝ) ≤ m := Nat.cast_nonneg m
  have e : 1 / bO a b x m = 1 - (a + b + m) * x / (a + 2 * m + 1) := by
    unfold bO
    rw [one_div_div, sub_div, div_self (by linarith)]
  rw [e]
  unfold cO
  rw [show a + (m : ℝ) * 2 = a + 2 * m by ring, show a + 1 + (m : ℝ) * 2 = a + 2 * m + 1 by ring]
  have hE := R.denE_pos m
  have h3 : (a + m) * g ≤ a + 2 * m := by
    have : (a + m) * g ≤ (a + m) * bE a x m := mul_le_mul_of_nonneg_left hgb (by linarith)
    refine this.trans ?_
    unfold bE
    rw [mul_div_assoc', div_le_iff₀ (by linarith), mul_comm]
    exact mul_le_mul_of_nonneg_left hE (by linarith)
  have h4 : -(a + m) * (a + b + m) * x / ((a + 2 * m) * (a + 2 * m + 1)) * g =
      -((a + b + m) * x / (a + 2 * m + 1)) * ((a + m) * g / (a + 2 * m)) := by
    field_simp
  rw [h4]
  have h5 : (a + m) * g / (a + 2 * m) ≤ 1 := by rw [div_le_one (by linarith)]; exact h3
  have h6 : 0 ≤ (a + b + m) * x / (a + 2 * m + 1) := by positivity
  nlinarith

theorem tE_neg (R : Reg a b x) (m : ℕ) : tE a b x m ≤ 0 := by
  have := R.ha; have := R.hb; have := R.x0; have hm : (0 : ℝ) ≤ m := Nat.cast_nonneg m
  have := P_pos (b := b) R.ha R.x1 m
  have := P'_pos (b := b) R.ha R.x1 m
  unfold tE
  rw [neg_nonpos]
  positivity

theorem tO_one (R : Reg a b x) (m : ℕ) : 0 < 1 + tO a b x m := by
  have := R.ha; have := R.hb; have hm : (0 : ℝ) ≤ m := Nat.cast_nonneg m
  have := P_pos (b := b) R.ha R.x1 m
  have := P'_pos (b := b) R.ha R.x1 m
  rw [one_add_tO R.ha R.x1]
  positivity

theorem tE_one (R : Reg a b x) (m : ℕ) : 0 < 1 + tE a b x (m + 1) := by
  have := R.ha; have := R.hb; have hm : (0 : ℝ) ≤ m := Nat.cast_nonneg m
  have := P_pos (b := b) R.ha R.x1 (m + 1)
  have := P'_pos (b := b) R.ha R.x1 m
  rw [one_add_tE R.ha R.x1]
  positivity

end Reg

/-- What holds when the loop variable is `m + 1`. -/
structure Good (a b x : ℝ) (m : ℕ) (c d h hp : ℝ) : Prop where
  c0 : 0 < c
  d0 : 0 < d
  hp0 : 0 < hp
  cb : 1 / c ≤ bO a b x m
  db : d ≤ bO a b x m
  eq : h = hp * c * d
  err : a * P a b x 0 - h = tO a b x m * d * (hp - a * P a b x 0)

/-- The factor by which one round reduces the error. -/
noncomputable def rate (a b x : ℝ) (m : ℕ) : ℝ :=
  |tE a b x (m + 1) * tO a b x (m + 1)| * (bE a x (m + 1) * bO a b x (m + 1))

theorem clamp_eq {fpmin v : ℝ} (h : fpmin ≤ v) : clampTiny fpmin v = v := by
  unfold clampTiny
  rw [if_neg]
  rw [not_lt]
  exact h.trans (le_abs_self v)

theorem Good.start (R : Reg a b x) :
    Good a b x 0 1 (1 / (1 - (a + b) * x / (a + 1))) (1 / (1 - (a + b) * x / (a + 1))) 1 := by
  have ha := R.ha
  have hd := R.denO_pos 0
  simp only [Nat.cast_zero, mul_zero, add_zero] at hd
  have e : 1 / (1 - (a + b) * x / (a + 1)) = bO a b x 0 := by
    unfold bO
    simp only [Nat.cast_zero, mul_zero, add_zero]
    have h1 : a + 1 ≠ 0 := by linarith
    have h2 : 1 - (a + b) * x / (a + 1) = (a + 1 - (a + b) * x) / (a + 1) := by rw [sub_div, div_self h1]
    rw [h2, one_div_div]
  refine ⟨one_pos, ?_, one_pos, ?_, e.le, by ring, ?_⟩
  · rw [e]; exact R.bO_pos 0
  · rw [div_one]
    unfold bO
    rw [le_div_iff₀ (R.denO_pos 0)]
    have := R.x0; have := R.hb
    have : 0 ≤ (a + b + ((0 : ℕ) : ℝ)) * x := by simp only [Nat.cast_zero, add_zero]; positivity
    linarith
  · have h1 := tE_tO (b := b) ha R.x1 0
    have h2 := P_zero (b := b) ha R.x1
    have h3 := R.tO_one 0
    have p := P_pos (b := b) ha R.x1 0
    have h4 : 1 + tE a b x 0 = 1 / (a * P a b x 0) := by
      have : a * P a b x 0 ≠ 0 := by positivity
      have h3 : 1 / (a * P a b x 0) = (a * P a b x 0 - (a + b) * x * P' a b x 0) / (a * P a b x 0) := by rw [h2]
      rw [h3, sub_div, div_self this]
      unfold tE
      simp only [Nat.cast_zero, mul_zero, add_zero]
      ring
    have h5 : cO a b x 0 = -((a + b) * x / (a + 1)) := by
      unfold cO
      simp only [Nat.cast_zero, zero_mul, add_zero]
      field_simp
    generalize tE a b x 0 = u at *
    generalize tO a b x 0 = v at *
    rw [h5] at h1
    have h6 : 1 - (a + b) * x / (a + 1) = 1 + u * (1 + v) := by rw [h1]; ring
    have h7 : 0 < 1 + u * (1 + v) := by
      rw [← h6, sub_pos, div_lt_one (by linarith)]; linarith
    rw [h6]
    have hF : a * P a b x 0 = 1 / (1 + u) := by rw [h4, one_div_one_div]
    have hu : 0 < 1 + u := by rw [h4]; positivity
    rw [hF]
    field_simp
    ring

/-- One round without clamping. -/
theorem Good.next (R : Reg a b x) {m : ℕ} {c d h hp : ℝ} (G : Good a b x m c d h hp) {fpmin : ℝ}
    (hfp : fpmin * (a + b + 2 * m + 5) ≤ 1) :
    let e1 := cE a b x (m + 1)
    let e2 := cO a b x (m + 1)
    let d1 := 1 / (1 + e1 * d)
    let c1 := 1 + e1 / c
    let h1 := h * d1 * c1
    let d2 := 1 / (1 + e2 * d1)
    let c2 := 1 + e2 / c1
    fpmin ≤ 1 + e1 * d ∧ fpmin ≤ c1 ∧ fpmin ≤ 1 + e2 * d1 ∧ fpmin ≤ c2 ∧
    Good a b x (m + 1) c2 d2 (h1 * (d2 * c2)) h1 ∧ a * P a b x 0 - h1 = tE a b x (m + 1) * d1 * (h - a * P a b x 0) ∧
    |a * P a b x 0 - h1 * (d2 * c2)| ≤ rate a b x m * |a * P a b x 0 - h| := by
  intro e1 e2 d1 c1 h1 d2 c2
  have ha := R.ha; have hb := R.hb; have hx := R.x0
  have hm : (0 : ℝ) ≤ m := Nat.cast_nonneg m
  have E0 := R.bE_pos (m + 1)
  have O0 := R.bO_pos (m + 1)
  have i1 : 1 / bE a x (m + 1) ≤ 1 + e1 * d := R.step_E m G.d0 G.db
  have i2 : 1 / bE a x (m + 1) ≤ c1 := by
    have := R.step_E m (one_div_pos.2 G.c0) G.cb
    simpa [c1, e1, div_eq_mul_inv] using this
  have p1 : 0 < 1 + e1 * d := lt_of_lt_of_le (by positivity) i1
  have p2 : 0 < c1 := lt_of_lt_of_le (by positivity) i2
  have d1p : 0 < d1 := one_div_pos.2 p1
  have d1b : d1 ≤ bE a x (m + 1) := by
    rw [one_div_le (by positivity) p1] at i1
    exact i1
  have c1b : 1 / c1 ≤ bE a x (m + 1) := by
    rw [one_div_le (by positivity) p2] at i2
    exact i2
  have i3 : 1 / bO a b x (m + 1) ≤ 1 + e2 * d1 := R.step_O (m + 1) d1p d1b
  have i4 : 1 / bO a b x (m + 1) ≤ c2 := by
    have := R.step_O (m + 1) (one_div_pos.2 p2) c1b
    simpa [c2, e2, div_eq_mul_inv] using this
  have p3 : 0 < 1 + e2 * d1 := lt_of_lt_of_le (by positivity) i3
  have p4 : 0 < c2 := lt_of_lt_of_le (by positivity) i4
  have d2p : 0 < d2 := one_div_pos.2 p3
  have d2b : d2 ≤ bO a b x (m + 1) := by
    rw [one_div_le (by positivity) p3] at i3
    exact i3
  have c2b : 1 / c2 ≤ bO a b x (m + 1) := by
    rw [one_div_le (by positivity) p4] at i4
    exact i4
  have hpos : 0 < h := by rw [G.eq]; have := G.c0; have := G.d0; have := G.hp0; positivity
  have q1 : fpmin ≤ 1 / bO a b x (m + 1) := by
    have h1 := R.denO (m + 1)
    have h2 : 0 < 2 * (a + 1) / (a + b + 2) := by positivity
    unfold bO
    rw [one_div_div, le_div_iff₀ (by positivity)]
    push_cast at h1 ⊢
    rcases le_or_gt fpmin 0 with hf | hf
    · have : fpmin * (a + 2 * (m + 1) + 1) ≤ 0 := mul_nonpos_of_nonpos_of_nonneg hf (by positivity)
      linarith
    · have : fpmin * (a + 2 * (m + 1) + 1) ≤ fpmin * (a + b + 2 * m + 5) :=
        mul_le_mul_of_nonneg_left (by linarith) hf.le
      linarith
  have q2 : fpmin ≤ 1 / bE a x (m + 1) := by
    have h1 := R.denE_pos (m + 1)
    unfold bE
    rw [one_div_div, le_div_iff₀ (by positivity)]
    push_cast at h1 ⊢
    rcases le_or_gt fpmin 0 with hf | hf
    · have : fpmin * (a + 2 * (m + 1)) ≤ 0 := mul_nonpos_of_nonpos_of_nonneg hf (by positivity)
      linarith
    · have : fpmin * (a + 2 * (m + 1)) ≤ fpmin * (a + b + 2 * m + 5) :=
        mul_le_mul_of_nonneg_left (by linarith) hf.le
      linarith
  have s1 : a * P a b x 0 - h1 = tE a b x (m + 1) * d1 * (h - a * P a b x 0) :=
    half_step G.c0 G.d0 G.eq G.err (tO_tE ha R.x1 m) p1
  have hh1 : h1 = h * c1 * d1 := by simp only [h1]; ring
  have s2 : a * P a b x 0 - h1 * d2 * c2 = tO a b x (m + 1) * d2 * (h1 - a * P a b x 0) :=
    half_step p2 d1p hh1 s1 (tE_tO ha R.x1 (m + 1)) p3
  refine ⟨q2.trans i1, q2.trans i2, q1.trans i3, q1.trans i4, ⟨p4, d2p, ?_, c2b, d2b, by ring, ?_⟩, s1, ?_⟩
  · simp only [h1]; positivity
  · rw [← mul_assoc]; exact s2
  · rw [← mul_assoc, s2, show h1 - a * P a b x 0 = -(a * P a b x 0 - h1) by ring, s1]
    have e : tO a b x (m + 1) * d2 * -(tE a b x (m + 1) * d1 * (h - a * P a b x 0)) =
        (tE a b x (m + 1) * tO a b x (m + 1)) * (d1 * d2) * (a * P a b x 0 - h) := by ring
    rw [e, abs_mul, abs_mul, rate]
    apply mul_le_mul_of_nonneg_right _ (abs_nonneg _)
    apply mul_le_mul_of_nonneg_left _ (abs_nonneg _)
    rw [abs_of_pos (by positivity)]
    exact mul_le_mul d1b d2b d2p.le E0.le

/-- One round of the loop. -/
theorem loop_step (R : Reg a b x) {eps fpmin : ℝ} (n m : ℕ) {c d h hp : ℝ} (G : Good a b x m c d h hp)
    (hfp : fpmin * (a + b + 2 * m + 5) ≤ 1) :
    ∃ c' d' h' hp', Good a b x (m + 1) c' d' h' hp' ∧
      a * P a b x 0 - hp' = tE a b x (m + 1) * (1 / (1 + cE a b x (m + 1) * d)) * (h - a * P a b x 0) ∧
      |a * P a b x 0 - h'| ≤ rate a b x m * |a * P a b x 0 - h| ∧
      betaLoop eps fpmin a b x (n + 1) (m + 1) c d h =
        if |d' * c' - 1| ≤ eps then h' else betaLoop eps fpmin a b x n (m + 2) c' d' h' := by
  obtain ⟨f1, f2, f3, f4, G', s1, herr⟩ := G.next R hfp
  refine ⟨_, _, _, _, G', s1, herr, ?_⟩
  have E1 : ((m + 1 : ℕ) : ℝ) * (b - ((m + 1 : ℕ) : ℝ)) * x / ((a - 1 + ((m + 1 : ℕ) : ℝ) * 2) * (a + ((m + 1 : ℕ) : ℝ) * 2)) =
      cE a b x (m + 1) := rfl
  have E2 : -(a + ((m + 1 : ℕ) : ℝ)) * (a + b + ((m + 1 : ℕ) : ℝ)) * x /
      ((a + ((m + 1 : ℕ) : ℝ) * 2) * (a + 1 + ((m + 1 : ℕ) : ℝ) * 2)) = cO a b x (m + 1) := rfl
  rw [betaLoop]
  simp only [E1, E2, clamp_eq f1, clamp_eq f2, clamp_eq f3, clamp_eq f4]

theorem rate_nonneg (R : Reg a b x) (m : ℕ) : 0 ≤ rate a b x m := by
  unfold rate
  have := R.bE_pos (m + 1); have := R.bO_pos (m + 1)
  positivity

/-- The result of the loop: either the test succeeded or all rounds were used, and then the error is at most the
product of the rates. -/
theorem loop_result (R : Reg a b x) {eps fpmin : ℝ} (n m : ℕ) (c d h hp : ℝ) (G : Good a b x m c d h hp)
    (hfp : fpmin * (a + b + 2 * (m + n) + 5) ≤ 1) :
    (∃ k c' d' hp', m < k ∧ k ≤ m + n ∧ Good a b x k c' d' (betaLoop eps fpmin a b x n (m + 1) c d h) hp' ∧
      |d' * c' - 1| ≤ eps) ∨
    |a * P a b x 0 - betaLoop eps fpmin a b x n (m + 1) c d h| ≤
      (∏ i ∈ Finset.range n, rate a b x (m + i)) * |a * P a b x 0 - h| := by
  have ha := R.ha; have hb := R.hb
  induction n generalizing m c d h hp with
  | zero => exact Or.inr (by simp [betaLoop])
  | succ n ih =>
    have hm : (0 : ℝ) ≤ m := Nat.cast_nonneg m
    have hn : (0 : ℝ) ≤ n := Nat.cast_nonneg n
    have hf1 : fpmin * (a + b + 2 * m + 5) ≤ 1 := by
      rcases le_or_gt fpmin 0 with hf | hf
      · have := mul_nonpos_of_nonpos_of_nonneg hf (by positivity : 0 ≤ a + b + 2 * (m : ℝ) + 5)
        linarith
      · refine le_trans (mul_le_mul_of_nonneg_left ?_ hf.le) hfp
        push_cast
        linarith
    obtain ⟨c', d', h', hp', G', -, herr, e⟩ := loop_step (eps := eps) R n m G hf1
    rw [e]
    by_cases ht : |d' * c' - 1| ≤ eps
    · rw [if_pos ht]
      exact Or.inl ⟨m + 1, _, _, _, by omega, by omega, G', ht⟩
    · rw [if_neg ht]
      rcases ih (m + 1) _ _ _ _ G' (by refine le_trans (le_of_eq ?_) hfp; push_cast; ring) with
        ⟨k, c1, d1, hp1, k1, k2, k3, k4⟩ | k4
      · exact Or.inl ⟨k, c1, d1, hp1, by omega, by omega, k3, k4⟩
      · right
        refine k4.trans ?_
        rw [Finset.prod_range_succ']
        have hr : 0 ≤ ∏ i ∈ Finset.range n, rate a b x (m + 1 + i) :=
          Finset.prod_nonneg fun i _ => rate_nonneg R _
        have hp : ∏ i ∈ Finset.range n, rate a b x (m + (i + 1)) = ∏ i ∈ Finset.range n, rate a b x (m + 1 + i) :=
          Finset.prod_congr rfl fun i _ => by rw [show m + (i + 1) = m + 1 + i by omega]
        rw [hp]
        exact (mul_le_mul_of_nonneg_left herr hr).trans (le_of_eq (by rw [add_zero]; ring))

/-! ## The error when the test succeeds -/

theorem Reg.y_ge (R : Reg a b x) : b + 1 ≤ (1 - x) * (a + b + 2) := by
  have := R.hx
  linarith

/-- The mean of `s` is below one. -/
theorem P_lt_P' (ha : 0 < a) (hx1 : x < 1) (m : ℕ) : P a b x (m + 1) ≤ P' a b x m := by
  have hm : (0 : ℝ) ≤ m := Nat.cast_nonneg m
  have h := K_split_v hx1 m (by linarith : -1 < a + (m : ℝ)) (-(a + b + m) - 1)
  have p := K_pos hx1 m (by linarith : -1 < a + (m : ℝ) + 1) (-(a + b + m) - 1)
  unfold P P'
  push_cast
  rw [show a + ((m : ℝ) + 1) - 1 = a + m by ring, show -(a + b + ((m : ℝ) + 1)) = -(a + b + m) - 1 by ring]
  linarith

theorem tO_abs (R : Reg a b x) (m : ℕ) : |tO a b x m| ≤ |b - m - 1| * x / (a + 2 * m + 1) := by
  have hm : (0 : ℝ) ≤ m := Nat.cast_nonneg m
  have ha := R.ha; have hx := R.x0
  have p' := P'_pos (b := b) ha R.x1 m
  have p := P_pos (b := b) ha R.x1 (m + 1)
  unfold tO
  rw [abs_div, abs_mul, abs_mul, abs_of_pos hx, abs_of_pos p, abs_of_pos (by positivity : 0 < (a + 2 * m + 1) * P' a b x m),
    div_le_div_iff₀ (by positivity) (by positivity)]
  have := P_lt_P' (b := b) ha R.x1 m
  have h0 : 0 ≤ |b - m - 1| * x * (a + 2 * m + 1) := by positivity
  nlinarith [mul_le_mul_of_nonneg_left this h0]

theorem exit_err (R : Reg a b x) {m : ℕ} {c d h hp eps : ℝ} (G : Good a b x m c d h hp)
    (hm1 : 1 ≤ m) (ht : |d * c - 1| ≤ eps) : |a * P a b x 0 - h| ≤ (m + 1) * eps * hp := by
  have hm : (1 : ℝ) ≤ m := by exact_mod_cast hm1
  have ha := R.ha; have hb := R.hb; have hx := R.x0; have hx1 := R.x1
  have he : 0 ≤ eps := (abs_nonneg _).trans ht
  have hhp := G.hp0
  have e1 : |h - hp| ≤ eps * hp := by
    rw [G.eq, show hp * c * d - hp = (d * c - 1) * hp by ring, abs_mul, abs_of_pos hhp]
    exact mul_le_mul_of_nonneg_right ht hhp.le
  have hd := G.d0
  have herr := G.err
  suffices hs : |a * P a b x 0 - h| ≤ (m + 1) * |h - hp| by
    refine hs.trans ?_
    rw [mul_assoc]
    exact mul_le_mul_of_nonneg_left e1 (by linarith)
  by_cases hs : 0 ≤ tO a b x m
  · -- the value lies between the two convergents
    have h1 : |a * P a b x 0 - h| ≤ |h - hp| := by
      generalize a * P a b x 0 = f at *
      have h2 : 0 ≤ tO a b x m * d := by positivity
      generalize tO a b x m * d = r at *
      rcases le_total f hp with h3 | h3
      · have : 0 ≤ f - h := by rw [herr]; exact mul_nonneg h2 (by linarith)
        rw [abs_of_nonneg this, abs_of_nonpos (by linarith)]; linarith
      · have : f - h ≤ 0 := by rw [herr]; exact mul_nonpos_of_nonneg_of_nonpos h2 (by linarith)
        rw [abs_of_nonpos this, abs_of_nonneg (by linarith)]; linarith
    refine h1.trans ?_
    nlinarith [abs_nonneg (h - hp)]
  · rw [not_le] at hs
    have hbm : b < m + 1 := by
      by_contra hc
      rw [not_lt] at hc
      have p' := P'_pos (b := b) ha R.x1 m
      have p := P_pos (b := b) ha R.x1 (m + 1)
      have : 0 ≤ tO a b x m := by
        unfold tO
        apply div_nonneg
        · apply mul_nonneg _ p.le
          apply mul_nonneg _ hx.le
          linarith
        · positivity
      linarith
    have hO := R.denO_pos m
    have q1 : -tO a b x m * d ≤ (m + 1 - b) * x / (a + 2 * m + 1 - (a + b + m) * x) := by
      have h1 := tO_abs R m
      rw [abs_of_neg hs, abs_of_neg (by linarith : b - m - 1 < 0)] at h1
      calc -tO a b x m * d ≤ (-(b - m - 1) * x / (a + 2 * m + 1)) * bO a b x m :=
            mul_le_mul h1 G.db hd.le (by apply div_nonneg <;> nlinarith)
        _ = _ := by
            unfold bO
            have : a + 2 * (m : ℝ) + 1 ≠ 0 := by linarith
            field_simp
            ring
    have q2 : (m + 1 - b) * x / (a + 2 * m + 1 - (a + b + m) * x) ≤ (m + 1) / (m + 2) := by
      rw [div_le_div_iff₀ hO (by linarith)]
      have hy := R.y_ge
      have y0 : 0 < 1 - x := by linarith
      have k1 : (m + 1 - b) ≤ (m + 1) * (a + 2 * m + 1) * (1 - x) := by
        have k2 : (m + 1 - b) * (a + b + 2) ≤ (m + 1) * (a + 2 * m + 1) * ((1 - x) * (a + b + 2)) := by
          have k3 : (m + 1) * (a + 2 * m + 1) * (b + 1) ≤ (m + 1) * (a + 2 * m + 1) * ((1 - x) * (a + b + 2)) :=
            mul_le_mul_of_nonneg_left hy (by positivity)
          refine le_trans ?_ k3
          have k5 : (m + 1 - b) * (a + b + 2) ≤ (m + 1) * (a + b + 2) :=
            mul_le_mul_of_nonneg_right (by linarith) (by linarith)
          have k6 : (m + 1 : ℝ) * (a + b + 2) ≤ (m + 1) * ((a + 2 * m + 1) * (b + 1)) := by
            apply mul_le_mul_of_nonneg_left _ (by linarith)
            nlinarith [mul_pos ha hb]
          linarith
        have k4 : 0 < a + b + 2 := by linarith
        refine le_of_mul_le_mul_right ?_ k4
        linarith
      nlinarith
    have q3 : -tO a b x m * d ≤ (m + 1) / (m + 2) := q1.trans q2
    have q0 : 0 ≤ -tO a b x m * d := by nlinarith
    have herr' : a * P a b x 0 - h = (-tO a b x m * d) * (a * P a b x 0 - hp) := by rw [herr]; ring
    generalize -tO a b x m * d = r at *
    generalize a * P a b x 0 = f at *
    have h1 : (1 - r) * |f - h| = r * |h - hp| := by
      have : (1 - r) * (f - h) = r * (h - hp) := by linear_combination herr'
      have h3 : |(1 - r) * (f - h)| = |r * (h - hp)| := by rw [this]
      have hr1 : r < 1 := lt_of_le_of_lt q3 (by rw [div_lt_one (by linarith)]; linarith)
      rwa [abs_mul, abs_mul, abs_of_nonneg q0, abs_of_pos (by linarith)] at h3
    have h2 : 1 / (m + 2) ≤ 1 - r := by
      have : (1 : ℝ) / (m + 2) = 1 - (m + 1) / (m + 2) := by field_simp; ring
      linarith
    have h4 : (1 / (m + 2)) * |f - h| ≤ (m + 1) / (m + 2) * |h - hp| :=
      (mul_le_mul_of_nonneg_right h2 (abs_nonneg _)).trans
        (h1.le.trans (mul_le_mul_of_nonneg_right q3 (abs_nonneg _)))
    have h5 : (m + 2 : ℝ) * ((1 / (m + 2)) * |f - h|) ≤ (m + 2) * ((m + 1) / (m + 2) * |h - hp|) :=
      mul_le_mul_of_nonneg_left h4 (by linarith)
    have h6 : (m + 2 : ℝ) * ((1 / (m + 2)) * |f - h|) = |f - h| := by field_simp
    have h7 : (m + 2 : ℝ) * ((m + 1) / (m + 2) * |h - hp|) = (m + 1) * |h - hp| := by field_simp
    linarith

end

end Verif.BetaFrac
