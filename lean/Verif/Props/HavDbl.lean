import Verif.Lemmas.HavDbl
import Verif.Props.Haversine

/-!
# The haversine distance of antipodes may be NaN
-/

namespace Verif.HavDbl
open Verif.Doubles Verif.Ieee Verif.FloatBits

namespace Spec

/-- What is asked of the platform: its results are those of rounding something between the bounds of the exact functions, `sin` is odd and
`cos` even, and the values at 0 are exact. -/
structure Sane (P : Plat) : Prop where
  sin_zero : P.sin 0 = 0
  sin_neg : ∀ x, P.sin (-x) = -P.sin x
  sin_le : ∀ x, |P.sin x| ≤ 1
  cos_neg : ∀ x, P.cos (-x) = P.cos x
  cos_range : ∀ x, |x| < Real.pi / 2 → 0 ≤ P.cos x ∧ P.cos x ≤ 1
  atan2_zero : P.atan2 0 1 = 0
  atan2_range : ∀ y x, 0 ≤ y → 0 ≤ x → 0 ≤ P.atan2 y x ∧ P.atan2 y x ≤ rd (Real.pi / 2)

/-- The platform whose functions return the double next to the exact value. -/
noncomputable def exact : Plat where
  sin x := rd (Real.sin x)
  cos x := rd (Real.cos x)
  atan2 y x := rd (Complex.arg ⟨x, y⟩)

/-- The sines and cosines of the platform are off by at most `2 ^ -53`. -/
def Close (P : Plat) : Prop := ∀ x, |P.sin x - Real.sin x| ≤ 1 / 2 ^ 53 ∧ |P.cos x - Real.cos x| ≤ 1 / 2 ^ 53

end Spec
open Spec

theorem exact_sane : Sane exact where
  sin_zero := by simp [exact, rd_zero]
  sin_neg x := by simp [exact, rd_neg]
  sin_le x := by
    show |rd _| ≤ 1
    rw [rd_abs]
    exact rd_le_one (Real.abs_sin_le_one x)
  cos_neg x := by simp [exact]
  cos_range x h := by
    rw [abs_lt] at h
    exact ⟨rd_nonneg (Real.cos_nonneg_of_mem_Icc ⟨by linarith, by linarith⟩), rd_le_one (Real.cos_le_one x)⟩
  atan2_zero := by
    show rd (Complex.arg ⟨1, 0⟩) = 0
    rw [show (⟨1, 0⟩ : ℂ) = 1 from rfl, Complex.arg_one, rd_zero]
  atan2_range y x hy hx :=
    ⟨rd_nonneg (Complex.arg_nonneg_iff.2 hy), rd_mono ((le_abs_self _).trans (Complex.abs_arg_le_pi_div_two_iff.2 hx))⟩

theorem toRad_lat {x : ℝ} (h : |x| ≤ 90) : |toRad x| < Real.pi / 2 := by
  have h0 : 0 ≤ rd (rd Real.pi / 180) := by rw [rd_deg]; positivity
  have h1 : |toRad x| ≤ toRad 90 := by
    unfold toRad
    rw [rd_abs, abs_mul, abs_of_nonneg h0]
    exact rd_mono (mul_le_mul_of_nonneg_right h h0)
  refine h1.trans_lt ?_
  rw [toRad_90]
  have := Real.pi_gt_d20
  norm_num at this ⊢
  linarith

theorem havA_nonneg {P : Plat} (hP : Sane P) {lat1 lon1 lat2 lon2 : ℝ} (h1 : |lat1| ≤ 90) (h2 : |lat2| ≤ 90) :
    0 ≤ havA P lat1 lon1 lat2 lon2 := by
  have c1 := (hP.cos_range _ (toRad_lat h1)).1
  have c2 := (hP.cos_range _ (toRad_lat h2)).1
  exact rd_nonneg (add_nonneg (rd_nonneg (mul_self_nonneg _))
    (rd_nonneg (mul_nonneg (rd_nonneg (mul_nonneg (rd_nonneg (mul_self_nonneg _)) c1)) c2)))

/-- The double number `1 - a` keeps its sign. -/
theorem rd_one_sub_neg {a : ℝ} (ha : rd a = a) : rd (1 - a) < 0 ↔ 1 < a := by
  constructor
  · intro h
    by_contra hn
    have := rd_nonneg (x := 1 - a) (by linarith)
    linarith
  · intro h
    rw [← ha] at h
    have hge : 1 + 2 ^ (-52 : ℤ) ≤ a := by
      by_contra hlt
      push Not at hlt
      rw [ha] at h
      have hh : rd a = a := ha
      by_cases hc : a ≤ 1 + 2 ^ (-54 : ℤ)
      · rw [SplitDbl.near_one (by have := two_zpow_pos (-54); linarith) hc] at hh
        linarith
      · push Not at hc
        have hu : ulp f64 a = -52 := ConfDbl.ulp_eq (e := 0) (by rw [zpow_zero]; linarith)
          (by norm_num at hlt ⊢; linarith) (by simp [f64]) (by simp [f64])
        unfold rd fl at hh
        rw [hu] at hh
        have h3 : (rne (a / 2 ^ (-52 : ℤ)) : ℝ) = a * 2 ^ 52 := by
          rw [← eq_div_iff (by positivity)] at hh
          rw [hh]; norm_num; ring
        have g1 : (4503599627370496 : ℤ) < rne (a / 2 ^ (-52 : ℤ)) := by
          have : (4503599627370496 : ℝ) < rne (a / 2 ^ (-52 : ℤ)) := by rw [h3]; norm_num; linarith
          exact_mod_cast this
        have g2 : rne (a / 2 ^ (-52 : ℤ)) < (4503599627370497 : ℤ) := by
          have : (rne (a / 2 ^ (-52 : ℤ)) : ℝ) < 4503599627370497 := by rw [h3]; norm_num at hlt ⊢; linarith
          exact_mod_cast this
        omega
    have : rd (1 - a) ≤ rd (((-1 : ℤ) : ℝ) * 2 ^ (-52 : ℤ)) := rd_mono (by push_cast; linarith)
    rw [rd_mk (by norm_num) (by norm_num)] at this
    refine this.trans_lt ?_
    norm_num

/-- **For latitudes from -90 to 90 degrees the distance is NaN exactly if the rounded `a` is above 1**, and otherwise a number from 0 to
20015.0868 kilometres, half the circumference. -/
theorem hav_range_partial (P : Plat) (hP : Sane P) (lat1 lon1 lat2 lon2 : ℝ) (h1 : |lat1| ≤ 90) (h2 : |lat2| ≤ 90) :
    (hav P lat1 lon1 lat2 lon2 = none ↔ 1 < havA P lat1 lon1 lat2 lon2) ∧
    ∀ v, hav P lat1 lon1 lat2 lon2 = some v → 0 ≤ v ∧ v ≤ 20015.0868 := by
  have h0 := havA_nonneg hP (lon1 := lon1) (lon2 := lon2) h1 h2
  have hr : rd (havA P lat1 lon1 lat2 lon2) = havA P lat1 lon1 lat2 lon2 := ConfDbl.rd_idem _
  have hs := rd_one_sub_neg hr
  unfold hav
  dsimp only
  generalize havA P lat1 lon1 lat2 lon2 = a at h0 hs ⊢
  constructor
  · rw [← hs]
    split_ifs with c
    · simp only [true_iff]
      exact c.resolve_left (by linarith)
    · simp only [false_iff]
      exact fun h => c (Or.inr h)
  · intro v hv
    split_ifs at hv with c
    cases hv
    obtain ⟨t0, t1⟩ := hP.atan2_range (rd √a) (rd √(rd (1 - a))) (rd_nonneg (Real.sqrt_nonneg _)) (rd_nonneg (Real.sqrt_nonneg _))
    refine ⟨rd_nonneg (mul_nonneg (by norm_num) (rd_nonneg (by linarith))), ?_⟩
    have hp : rd (Real.pi / 2) = (7074237752028440 : ℤ) * 2 ^ (-52 : ℤ) := by
      have h3 := Real.pi_gt_three
      have e : (2 : ℝ) ^ (-1000 : ℤ) ≤ 1 := zpow_le_one_of_nonpos₀ (by norm_num) (by norm_num)
      have h4 : (1 : ℝ) ≤ 2 ^ (-1 : ℤ) * Real.pi := by norm_num; linarith
      have := ConfDbl.rd_scale (x := Real.pi) (-1) (by rw [abs_of_pos Real.pi_pos]; exact e.trans (by linarith))
        (by rw [abs_of_pos Real.pi_pos]; exact e.trans h4)
      rw [show Real.pi / 2 = 2 ^ (-1 : ℤ) * Real.pi by norm_num; ring, this, rd_pi]
      norm_num
    have e2 : rd (2 * P.atan2 (rd √a) (rd √(rd (1 - a)))) ≤ (7074237752028440 : ℤ) * 2 ^ (-51 : ℤ) := by
      rw [← rd_mk (k := -51) (m := 7074237752028440) (by norm_num) (by norm_num)]
      refine rd_mono ?_
      rw [hp] at t1
      norm_num at t1 ⊢
      linarith
    have e3 := rd_mono (mul_le_mul_of_nonneg_left e2 (by norm_num : (0 : ℝ) ≤ 6371))
    refine e3.trans ?_
    rw [ConfDbl.rd_at (x := 6371 * ((7074237752028440 : ℤ) * 2 ^ (-51 : ℤ))) (-38) 5501705165792626 (by norm_num) (by norm_num)
      (by norm_num) (by rw [abs_lt]; norm_num)]
    norm_num

example (v : ℝ) (h : hav exact 10 20 (-30) 170 = some v) : v ≤ 20015.0868 :=
  ((hav_range_partial exact exact_sane 10 20 (-30) 170 (by norm_num) (by norm_num [abs_of_neg])).2 v h).2

/-- **The distance of a point to itself is exactly 0.** -/
theorem hav_self (P : Plat) (hP : Sane P) (lat lon : ℝ) : hav P lat lon lat lon = some 0 := by
  have ha : havA P lat lon lat lon = 0 := by
    unfold havA toRad
    simp [rd_zero, hP.sin_zero]
  unfold hav
  dsimp only
  rw [ha, sub_zero, rd_one, if_neg (by norm_num), Real.sqrt_zero, rd_zero, Real.sqrt_one, rd_one, hP.atan2_zero]
  simp [rd_zero]

example : hav exact 48.1 11.6 48.1 11.6 = some 0 := hav_self exact exact_sane _ _

/-- **The distance does not depend on the order of the points if their latitudes agree up to the sign or their longitudes agree.** -/
theorem hav_symm_partial (P : Plat) (hP : Sane P) (lat1 lon1 lat2 lon2 : ℝ) (h : |lat1| = |lat2| ∨ lon1 = lon2) :
    hav P lat1 lon1 lat2 lon2 = hav P lat2 lon2 lat1 lon1 := by
  have hs : ∀ x y, P.sin (rd (toRad (rd (x - y)) / 2)) = -P.sin (rd (toRad (rd (y - x)) / 2)) := by
    intro x y
    rw [← hP.sin_neg, ← rd_neg, ← neg_div, ← toRad_neg, ← rd_neg, neg_sub]
  have ha : havA P lat1 lon1 lat2 lon2 = havA P lat2 lon2 lat1 lon1 := by
    unfold havA
    dsimp only
    rw [hs lat2 lat1, hs lon2 lon1, neg_mul_neg, neg_mul_neg]
    rcases h with h | rfl
    · have hc : P.cos (toRad lat1) = P.cos (toRad lat2) := by
        rcases abs_eq_abs.1 h with rfl | rfl
        · rfl
        · rw [toRad_neg, hP.cos_neg]
      rw [hc]
    · simp [rd_zero, toRad, hP.sin_zero]
  unfold hav
  rw [ha]

example : hav exact 10 20 (-10) 170 = hav exact (-10) 170 10 20 := hav_symm_partial exact exact_sane _ _ _ _ (by simp)

/-- **The antipodes (8, 0) and (-8, 180)**: with trigonometric functions that round correctly `a` is `1 + 2 ^ -52` and the distance is NaN. -/
theorem antipode_a : havA exact 8 0 (-8) 180 = 1 + 2 ^ (-52 : ℤ) := by
  have e1 : rd ((-8 : ℝ) - 8) = -16 := by
    rw [show (-8 : ℝ) - 8 = ((-16 : ℤ) : ℝ) by norm_num, rd_int (by norm_num)]; norm_num
  have e2 : rd ((180 : ℝ) - 0) = 180 := by
    rw [show (180 : ℝ) - 0 = ((180 : ℤ) : ℝ) by norm_num, rd_int (by norm_num)]; norm_num
  unfold havA
  dsimp only
  rw [e1, e2, toRad_neg, toRad_neg, toRad_16, toRad_180, toRad_8]
  have x1 : rd (-((5030569068109113 : ℤ) * 2 ^ (-54 : ℤ) : ℝ) / 2) = -((5030569068109113 : ℤ) * 2 ^ (-55 : ℤ)) := by
    rw [show (-((5030569068109113 : ℤ) * 2 ^ (-54 : ℤ) : ℝ) / 2) = -((5030569068109113 : ℤ) * 2 ^ (-55 : ℤ)) by norm_num, rd_neg,
      rd_mk (by norm_num) (by norm_num)]
  have x2 : rd ((7074237752028440 : ℤ) * 2 ^ (-51 : ℤ) / 2 : ℝ) = (7074237752028440 : ℤ) * 2 ^ (-52 : ℤ) := by
    rw [show ((7074237752028440 : ℤ) * 2 ^ (-51 : ℤ) / 2 : ℝ) = (7074237752028440 : ℤ) * 2 ^ (-52 : ℤ) by norm_num,
      rd_mk (by norm_num) (by norm_num)]
  rw [x1, x2]
  simp only [exact, Real.sin_neg, Real.cos_neg, rd_neg, neg_mul_neg]
  rw [sin_8, cos_8, sin_90, mul_one, rd_one, one_mul, rd_mk (by norm_num) (by norm_num)]
  rw [ConfDbl.rd_at (x := (5014239404989977 : ℤ) * 2 ^ (-55 : ℤ) * ((5014239404989977 : ℤ) * 2 ^ (-55 : ℤ))) (-58) 5582777975588868 (by norm_num) (by norm_num) (by norm_num) (by rw [abs_lt]; norm_num),
    ConfDbl.rd_at (x := (8919541810762874 : ℤ) * 2 ^ (-53 : ℤ) * ((8919541810762874 : ℤ) * 2 ^ (-53 : ℤ))) (-53) 8832737443003841 (by norm_num) (by norm_num) (by norm_num) (by rw [abs_lt]; norm_num),
    ConfDbl.rd_at (-52) 4503599627370497 (by norm_num) (by norm_num) (by norm_num) (by rw [abs_lt]; norm_num)]
  norm_num

theorem antipode_nan : hav exact 8 0 (-8) 180 = none ∧ Haversine.havElem 8 0 (-8) 180 = 6371 * Real.pi := by
  refine ⟨(hav_range_partial exact exact_sane 8 0 (-8) 180 (by norm_num) (by norm_num [abs_of_neg])).1.2 ?_, ?_⟩
  · rw [antipode_a]
    have := two_zpow_pos (-52)
    linarith
  · have ha : Haversine.havA 8 0 (-8) 180 = 1 := by
      unfold Haversine.havA Haversine.toRad
      dsimp only
      rw [show (-8 - 8 : ℝ) * Real.pi / 180 / 2 = -(8 * Real.pi / 180) by ring, show (180 - 0 : ℝ) * Real.pi / 180 / 2 = Real.pi / 2 by ring,
        show (-8 : ℝ) * Real.pi / 180 = -(8 * Real.pi / 180) by ring, Real.sin_neg, Real.cos_neg, Real.sin_pi_div_two]
      have := Real.sin_sq_add_cos_sq (8 * Real.pi / 180)
      nlinarith
    unfold Haversine.havElem
    dsimp only
    rw [ha, Haversine.arg_eq 1 (by norm_num) le_rfl, Real.sqrt_one, Real.arcsin_one]
    ring

/-! ## How far from the antipode -/

theorem exact_close : Close exact := by
  intro x
  have e : (2 : ℝ) ^ (-54 : ℤ) ≤ 1 / 2 ^ 53 := by norm_num
  exact ⟨(ConfDbl.rd_abs_err' (Real.abs_sin_le_one x)).trans e, (ConfDbl.rd_abs_err' (Real.abs_cos_le_one x)).trans e⟩

theorem rd_err {x : ℝ} (e : ℤ) (he : -1074 ≤ e) (h : |x| < 2 ^ (e + 53)) : |rd x - x| ≤ 2 ^ e / 2 := by
  by_cases h0 : x = 0
  · rw [h0, rd_zero, sub_zero, abs_zero]; positivity
  have hu : ulp f64 x ≤ e := ulp_of_lt f64 h0 (by simpa [f64] using he) (by simpa [f64] using h)
  refine (fl_err f64 x).trans ?_
  exact div_le_div_of_nonneg_right (zpow_le_zpow_right₀ (by norm_num) hu) (by norm_num)

theorem deg_err : |rd (rd Real.pi / 180) - Real.pi / 180| ≤ 1 / 2 ^ 58 ∧ 0 ≤ rd (rd Real.pi / 180) ∧ rd (rd Real.pi / 180) ≤ 0.0175 := by
  have h1 := Real.pi_gt_d20
  have h2 := Real.pi_lt_d20
  rw [rd_deg, abs_le]
  norm_num at h1 h2 ⊢
  constructor <;> linarith

/-- The error of the angle of a difference of degrees. -/
theorem half_err {d : ℝ} (h : |d| ≤ 360) : |rd (toRad (rd d) / 2) - d * Real.pi / 180 / 2| ≤ 1 / 2 ^ 48 := by
  obtain ⟨r1, r0, r2⟩ := deg_err
  have e1 := rd_err (x := d) (-44) (by norm_num) (lt_of_le_of_lt h (by norm_num))
  have hd : |rd d| ≤ 361 := by
    have := abs_sub_abs_le_abs_sub (rd d) d
    norm_num at e1; linarith
  unfold toRad
  generalize rd (rd Real.pi / 180) = R at r1 r0 r2 ⊢
  have hp : |rd d * R| ≤ 361 * 0.0175 := by
    rw [abs_mul, abs_of_nonneg r0]
    exact mul_le_mul hd r2 r0 (by norm_num)
  have e2 := rd_err (x := rd d * R) (-50) (by norm_num) (lt_of_le_of_lt hp (by norm_num))
  have hq : |rd (rd d * R)| ≤ 7 := by
    have := abs_sub_abs_le_abs_sub (rd (rd d * R)) (rd d * R)
    norm_num at e2; linarith
  have e3 := rd_err (x := rd (rd d * R) / 2) (-51) (by norm_num) (by
    rw [abs_div, abs_two]; norm_num; linarith)
  have m1 : |(rd d - d) * R| ≤ 2 ^ (-44 : ℤ) / 2 * 0.0175 := by
    rw [abs_mul, abs_of_nonneg r0]
    exact mul_le_mul e1 r2 r0 (by positivity)
  have m2 : |d * (R - Real.pi / 180)| ≤ 360 * (1 / 2 ^ 58) := by
    rw [abs_mul]
    exact mul_le_mul h r1 (abs_nonneg _) (by norm_num)
  generalize rd (rd (rd d * R) / 2) = z at e3 ⊢
  generalize rd (rd d * R) = y at e2 e3
  rw [abs_le] at *
  norm_num at *
  constructor <;> nlinarith

/-- The error of the angle of a latitude. -/
theorem lat_err {d : ℝ} (h : |d| ≤ 90) : |toRad d - d * Real.pi / 180| ≤ 1 / 2 ^ 50 := by
  obtain ⟨r1, r0, r2⟩ := deg_err
  unfold toRad
  generalize rd (rd Real.pi / 180) = R at r1 r0 r2 ⊢
  have hp : |d * R| ≤ 90 * 0.0175 := by
    rw [abs_mul, abs_of_nonneg r0]
    exact mul_le_mul h r2 r0 (by norm_num)
  have e2 := rd_err (x := d * R) (-52) (by norm_num) (lt_of_le_of_lt hp (by norm_num))
  have m2 : |d * (R - Real.pi / 180)| ≤ 90 * (1 / 2 ^ 58) := by
    rw [abs_mul]
    exact mul_le_mul h r1 (abs_nonneg _) (by norm_num)
  generalize rd (d * R) = y at e2 ⊢
  rw [abs_le] at *
  norm_num at *
  constructor <;> nlinarith

theorem mul_err {a b a' b' α β : ℝ} (h1 : |a'| ≤ 1) (h2 : |b| ≤ 1) (ha : |a' - a| ≤ α) (hb : |b' - b| ≤ β) :
    |a' * b' - a * b| ≤ α + β := by
  have e : a' * b' - a * b = (a' - a) * b + a' * (b' - b) := by ring
  rw [e]
  refine (abs_add_le _ _).trans (add_le_add ?_ ?_)
  · rw [abs_mul]
    exact (mul_le_of_le_one_right (abs_nonneg _) h2).trans ha
  · rw [abs_mul]
    exact (mul_le_of_le_one_left (abs_nonneg _) h1).trans hb

theorem rd_abs_one {x : ℝ} (h : |x| ≤ 1) : |rd x| ≤ 1 := by rw [rd_abs]; exact rd_le_one h

theorem abs_mul_one {a b : ℝ} (h1 : |a| ≤ 1) (h2 : |b| ≤ 1) : |a * b| ≤ 1 := by
  rw [abs_mul]; exact mul_le_one₀ h1 (abs_nonneg _) h2

/-- Product and rounding. -/
theorem rd_mul_err {a b a' b' α β : ℝ} (h1 : |a'| ≤ 1) (h3 : |b'| ≤ 1) (h2 : |b| ≤ 1) (ha : |a' - a| ≤ α) (hb : |b' - b| ≤ β) :
    |rd (a' * b') - a * b| ≤ α + β + 1 / 2 ^ 54 := by
  have e1 := ConfDbl.rd_abs_err' (abs_mul_one h1 h3)
  have e2 := mul_err h1 h2 ha hb
  have e : (2 : ℝ) ^ (-54 : ℤ) = 1 / 2 ^ 54 := by norm_num
  rw [e] at e1
  exact (abs_sub_le _ (a' * b') _).trans (by linarith)

/-- **The rounded `a` is within `2 ^ -45` of the exact one.** -/
theorem havA_accuracy (P : Plat) (hP : Sane P) (hc : Close P) (lat1 lon1 lat2 lon2 : ℝ) (h1 : |lat1| ≤ 90) (h2 : |lat2| ≤ 90)
    (h3 : |lon1| ≤ 180) (h4 : |lon2| ≤ 180) :
    |havA P lat1 lon1 lat2 lon2 - Haversine.havA lat1 lon1 lat2 lon2| ≤ 1 / 2 ^ 45 := by
  have hs : ∀ d, |d| ≤ 360 → |P.sin (rd (toRad (rd d) / 2)) - Real.sin (d * Real.pi / 180 / 2)| ≤ 1 / 2 ^ 48 + 1 / 2 ^ 53 := by
    intro d hd
    have a1 := (hc (rd (toRad (rd d) / 2))).1
    have a2 := (Real.abs_sin_sub_sin_le _ _).trans (half_err hd)
    exact (abs_sub_le _ _ _).trans ((add_le_add a1 a2).trans (by linarith))
  have hk : ∀ d, |d| ≤ 90 → |P.cos (toRad d) - Real.cos (d * Real.pi / 180)| ≤ 1 / 2 ^ 50 + 1 / 2 ^ 53 := by
    intro d hd
    have a1 := (hc (toRad d)).2
    have a2 := (Real.abs_cos_sub_cos_le _ _).trans (lat_err hd)
    exact (abs_sub_le _ _ _).trans ((add_le_add a1 a2).trans (by linarith))
  have hk1 : ∀ d, |d| ≤ 90 → |P.cos (toRad d)| ≤ 1 := by
    intro d hd
    obtain ⟨c1, c2⟩ := hP.cos_range _ (toRad_lat hd)
    rwa [abs_of_nonneg c1]
  have s := hs (lat2 - lat1) ((abs_sub _ _).trans (by linarith))
  have t := hs (lon2 - lon1) ((abs_sub _ _).trans (by linarith))
  have k1 := hk lat1 h1
  have k2 := hk lat2 h2
  have l1 := hk1 lat1 h1
  have l2 := hk1 lat2 h2
  unfold havA Haversine.havA Haversine.toRad
  dsimp only
  have s1 := hP.sin_le (rd (toRad (rd (lat2 - lat1)) / 2))
  have t1 := hP.sin_le (rd (toRad (rd (lon2 - lon1)) / 2))
  have s2 := Real.abs_sin_le_one ((lat2 - lat1) * Real.pi / 180 / 2)
  have t2 := Real.abs_sin_le_one ((lon2 - lon1) * Real.pi / 180 / 2)
  have m1 := Real.abs_cos_le_one (lat1 * Real.pi / 180)
  have m2 := Real.abs_cos_le_one (lat2 * Real.pi / 180)
  generalize P.sin (rd (toRad (rd (lat2 - lat1)) / 2)) = S at *
  generalize P.sin (rd (toRad (rd (lon2 - lon1)) / 2)) = T at *
  generalize P.cos (toRad lat1) = K at *
  generalize P.cos (toRad lat2) = L at *
  generalize Real.sin ((lat2 - lat1) * Real.pi / 180 / 2) = S' at *
  generalize Real.sin ((lon2 - lon1) * Real.pi / 180 / 2) = T' at *
  generalize Real.cos (lat1 * Real.pi / 180) = K' at *
  generalize Real.cos (lat2 * Real.pi / 180) = L' at *
  have p1 := rd_mul_err s1 s1 s2 s s
  have p2 := rd_mul_err t1 t1 t2 t t
  have q2 := rd_abs_one (abs_mul_one t1 t1)
  have p3 := rd_mul_err q2 l1 m1 p2 k1
  have q3 := rd_abs_one (abs_mul_one q2 l1)
  have p4 := rd_mul_err q3 l2 m2 p3 k2
  have q4 := rd_abs_one (abs_mul_one q3 l2)
  have q1 := rd_abs_one (abs_mul_one s1 s1)
  generalize rd (S * S) = A at *
  generalize rd (rd (rd (T * T) * K) * L) = B at *
  have e := rd_err (x := A + B) (-51) (by norm_num) (lt_of_le_of_lt (abs_add_le _ _) (by norm_num; linarith))
  generalize rd (A + B) = C at *
  clear p2 p3 q2 q3 s t k1 k2
  rw [abs_le] at *
  norm_num at p1 p4 e ⊢
  constructor <;> linarith

example : |havA exact 48 11 52 13 - Haversine.havA 48 11 52 13| ≤ 1 / 2 ^ 45 :=
  havA_accuracy exact exact_sane exact_close 48 11 52 13 (by norm_num) (by norm_num) (by norm_num) (by norm_num)

/-- **NaN only happens within 4 metres of the antipode**: the exact distance is then within 0.004 kilometres of half the circumference. -/
theorem nan_near_antipode (P : Plat) (hP : Sane P) (hc : Close P) (lat1 lon1 lat2 lon2 : ℝ) (h1 : |lat1| ≤ 90) (h2 : |lat2| ≤ 90)
    (h3 : |lon1| ≤ 180) (h4 : |lon2| ≤ 180) (h : hav P lat1 lon1 lat2 lon2 = none) :
    6371 * Real.pi - 0.004 ≤ Haversine.havElem lat1 lon1 lat2 lon2 := by
  have ha := (hav_range_partial P hP lat1 lon1 lat2 lon2 h1 h2).1.1 h
  have he := havA_accuracy P hP hc lat1 lon1 lat2 lon2 h1 h2 h3 h4
  obtain ⟨b0, b1⟩ := Haversine.havA_mem lat1 lon1 lat2 lon2
  unfold Haversine.havElem
  dsimp only
  rw [Haversine.arg_eq _ b0 b1]
  rw [abs_le] at he
  have hb : 1 - Haversine.havA lat1 lon1 lat2 lon2 ≤ 1 / 2 ^ 45 := by linarith [he.2]
  generalize Haversine.havA lat1 lon1 lat2 lon2 = b at b0 b1 hb
  have p0 : 0 ≤ Real.pi / 2 - Real.arcsin √b := by linarith [Real.arcsin_le_pi_div_two √b]
  have p1 : Real.pi / 2 - Real.arcsin √b ≤ Real.pi / 2 := by linarith [Real.arcsin_nonneg.2 (Real.sqrt_nonneg b)]
  have hm := Real.mul_le_sin p0 p1
  rw [Real.sin_pi_div_two_sub, Real.cos_arcsin, Real.sq_sqrt b0] at hm
  have hr : √(1 - b) ≤ 1 / 2 ^ 22 * (3 / 4) := Real.sqrt_le_iff.2 ⟨by norm_num, hb.trans (by norm_num)⟩
  have hpi := Real.pi_lt_d2
  have hp := Real.pi_pos
  rw [div_mul_eq_mul_div, div_le_iff₀ hp] at hm
  have := mul_le_mul hr hpi.le hp.le (by norm_num)
  norm_num at this ⊢
  linarith

example : 6371 * Real.pi - 0.004 ≤ Haversine.havElem 8 0 (-8) 180 :=
  nan_near_antipode exact exact_sane exact_close 8 0 (-8) 180 (by norm_num) (by norm_num [abs_of_neg]) (by norm_num) (by norm_num)
    antipode_nan.1

/-! ## The order of the points -/

theorem rd_small (n : ℤ) (h : |n| ≤ 2 ^ 53) (x : ℝ) (hx : x = n) : rd x = n := by rw [hx, rd_int h]

theorem half_8 : rd ((5030569068109113 : ℤ) * 2 ^ (-55 : ℤ) / 2 : ℝ) = (5030569068109113 : ℤ) * 2 ^ (-56 : ℤ) := by
  rw [show ((5030569068109113 : ℤ) * 2 ^ (-55 : ℤ) / 2 : ℝ) = (5030569068109113 : ℤ) * 2 ^ (-56 : ℤ) by norm_num,
    rd_mk (by norm_num) (by norm_num)]

theorem half_4 : rd ((5030569068109113 : ℤ) * 2 ^ (-56 : ℤ) / 2 : ℝ) = (5030569068109113 : ℤ) * 2 ^ (-57 : ℤ) := by
  rw [show ((5030569068109113 : ℤ) * 2 ^ (-56 : ℤ) / 2 : ℝ) = (5030569068109113 : ℤ) * 2 ^ (-57 : ℤ) by norm_num,
    rd_mk (by norm_num) (by norm_num)]

theorem square_2 : rd ((5029547531033639 : ℤ) * 2 ^ (-57 : ℤ) * ((5029547531033639 : ℤ) * 2 ^ (-57 : ℤ))) =
    (5616917679180172 : ℤ) * 2 ^ (-62 : ℤ) :=
  ConfDbl.rd_at _ _ (by norm_num) (by norm_num) (by norm_num) (by rw [abs_lt]; norm_num)

theorem square_4 : rd ((5026483666571560 : ℤ) * 2 ^ (-56 : ℤ) * ((5026483666571560 : ℤ) * 2 ^ (-56 : ℤ))) =
    (5610076414599579 : ℤ) * 2 ^ (-60 : ℤ) :=
  ConfDbl.rd_at _ _ (by norm_num) (by norm_num) (by norm_num) (by rw [abs_lt]; norm_num)

theorem there_a : havA exact 4 0 8 8 = (6946176087439522 : ℤ) * 2 ^ (-60 : ℤ) := by
  unfold havA
  dsimp only
  rw [rd_small 4 (by norm_num) (8 - 4) (by norm_num), rd_small 8 (by norm_num) (8 - 0) (by norm_num)]
  push_cast
  rw [toRad_4, toRad_8, half_4, half_8]
  simp only [exact]
  rw [sin_2, sin_4, cos_4, cos_8, square_2, square_4,
    ConfDbl.rd_at (x := (5610076414599579 : ℤ) * 2 ^ (-60 : ℤ) * ((8985258170056694 : ℤ) * 2 ^ (-53 : ℤ))) (-60) 5596410550415069
      (by norm_num) (by norm_num) (by norm_num) (by rw [abs_lt]; norm_num),
    ConfDbl.rd_at (x := (5596410550415069 : ℤ) * 2 ^ (-60 : ℤ) * ((8919541810762874 : ℤ) * 2 ^ (-53 : ℤ))) (-60) 5541946667644479
      (by norm_num) (by norm_num) (by norm_num) (by rw [abs_lt]; norm_num),
    ConfDbl.rd_at (-60) 6946176087439522 (by norm_num) (by norm_num) (by norm_num) (by rw [abs_lt]; norm_num)]
  norm_num

theorem back_a : havA exact 8 8 4 0 = (6946176087439521 : ℤ) * 2 ^ (-60 : ℤ) := by
  unfold havA
  dsimp only
  rw [rd_small (-4) (by norm_num) (4 - 8) (by norm_num), rd_small (-8) (by norm_num) (0 - 8) (by norm_num)]
  push_cast
  rw [toRad_neg, toRad_neg, toRad_4, toRad_8, neg_div, neg_div, rd_neg, rd_neg, half_4, half_8]
  simp only [exact, Real.sin_neg, rd_neg, neg_mul_neg]
  rw [sin_2, sin_4, cos_4, cos_8, square_2, square_4,
    ConfDbl.rd_at (x := (5610076414599579 : ℤ) * 2 ^ (-60 : ℤ) * ((8919541810762874 : ℤ) * 2 ^ (-53 : ℤ))) (-60) 5555479536578158
      (by norm_num) (by norm_num) (by norm_num) (by rw [abs_lt]; norm_num),
    ConfDbl.rd_at (x := (5555479536578158 : ℤ) * 2 ^ (-60 : ℤ) * ((8985258170056694 : ℤ) * 2 ^ (-53 : ℤ))) (-60) 5541946667644478
      (by norm_num) (by norm_num) (by norm_num) (by rw [abs_lt]; norm_num),
    ConfDbl.rd_at (-60) 6946176087439521 (by norm_num) (by norm_num) (by norm_num) (by rw [abs_lt]; norm_num)]
  norm_num

/-- **The order of the points matters**: from (4, 0) to (8, 8) it is 990.0284723578798 kilometres, back 990.0284723578795, with trigonometric
functions that round correctly. -/
theorem symm_wrong : hav exact 4 0 8 8 = some (((8708382537494392 : ℤ) : ℝ) * 2 ^ (-43 : ℤ)) ∧
    hav exact 8 8 4 0 = some (((8708382537494390 : ℤ) : ℝ) * 2 ^ (-43 : ℤ)) := by
  constructor
  · unfold hav
    dsimp only
    rw [there_a, ConfDbl.rd_at (x := 1 - (6946176087439522 : ℤ) * 2 ^ (-60 : ℤ)) (-53) 8952932254057871 (by norm_num) (by norm_num)
      (by norm_num) (by rw [abs_lt]; norm_num), if_neg (by norm_num),
      ConfDbl.rd_sqrt_at (-56) 5593102541438203 (by norm_num) (by norm_num) (by norm_num) (by norm_num) (by norm_num) (by norm_num),
      ConfDbl.rd_sqrt_at (-53) 8980024762020239 (by norm_num) (by norm_num) (by norm_num) (by norm_num) (by norm_num) (by norm_num)]
    simp only [exact]
    rw [arg_there, show (2 : ℝ) * ((5598734087831899 : ℤ) * 2 ^ (-56 : ℤ)) = (5598734087831899 : ℤ) * 2 ^ (-55 : ℤ) by norm_num,
      rd_mk (by norm_num) (by norm_num),
      ConfDbl.rd_at (-43) 8708382537494392 (by norm_num) (by norm_num) (by norm_num) (by rw [abs_lt]; norm_num)]
  · unfold hav
    dsimp only
    rw [back_a, ConfDbl.rd_at (x := 1 - (6946176087439521 : ℤ) * 2 ^ (-60 : ℤ)) (-53) 8952932254057871 (by norm_num) (by norm_num)
      (by norm_num) (by rw [abs_lt]; norm_num), if_neg (by norm_num),
      ConfDbl.rd_sqrt_at (-56) 5593102541438202 (by norm_num) (by norm_num) (by norm_num) (by norm_num) (by norm_num) (by norm_num),
      ConfDbl.rd_sqrt_at (-53) 8980024762020239 (by norm_num) (by norm_num) (by norm_num) (by norm_num) (by norm_num) (by norm_num)]
    simp only [exact]
    rw [arg_back, show (2 : ℝ) * ((5598734087831898 : ℤ) * 2 ^ (-56 : ℤ)) = (5598734087831898 : ℤ) * 2 ^ (-55 : ℤ) by norm_num,
      rd_mk (by norm_num) (by norm_num),
      ConfDbl.rd_at (-43) 8708382537494390 (by norm_num) (by norm_num) (by norm_num) (by rw [abs_lt]; norm_num)]

/-- The two distances differ. -/
example : hav exact 4 0 8 8 ≠ hav exact 8 8 4 0 := by
  rw [symm_wrong.1, symm_wrong.2]
  norm_num

end Verif.HavDbl
