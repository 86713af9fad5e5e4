import Verif.Model.HavDbl
import Verif.Lemmas.ConfDbl
import Verif.Props.SplitDbl
import Mathlib.Analysis.Real.Pi.Bounds
import Mathlib.Analysis.Complex.Trigonometric
import Mathlib.Analysis.SpecialFunctions.Complex.Arg
import Mathlib.Analysis.SpecialFunctions.Trigonometric.Bounds
import Mathlib.Tactic.NormNum
import Mathlib.Tactic.Linarith
import Mathlib.Tactic.LinearCombination

/-!
# Rounded sines and cosines of a few angles
-/

namespace Verif.HavDbl
open Verif.Doubles

theorem taylor (x : ℝ) (h : |x| ≤ 1) :
    |Real.sin x - (x - x ^ 3 / 6 + x ^ 5 / 120 - x ^ 7 / 5040 + x ^ 9 / 362880 - x ^ 11 / 39916800)| ≤ |x| ^ 12 / 239500800 ∧
    |Real.cos x - (1 - x ^ 2 / 2 + x ^ 4 / 24 - x ^ 6 / 720 + x ^ 8 / 40320 - x ^ 10 / 3628800)| ≤ |x| ^ 12 / 239500800 := by
  have hb := Complex.exp_bound' (x := (x : ℂ) * Complex.I) (n := 12) (by
    rw [norm_mul, Complex.norm_I, mul_one, Complex.norm_real, Real.norm_eq_abs]
    push_cast
    rw [div_le_iff₀ (by norm_num)]
    linarith)
  have hs : ∑ m ∈ Finset.range 12, ((x : ℂ) * Complex.I) ^ m / m.factorial =
      ((1 - x ^ 2 / 2 + x ^ 4 / 24 - x ^ 6 / 720 + x ^ 8 / 40320 - x ^ 10 / 3628800 : ℝ) : ℂ) +
      ((x - x ^ 3 / 6 + x ^ 5 / 120 - x ^ 7 / 5040 + x ^ 9 / 362880 - x ^ 11 / 39916800 : ℝ) : ℂ) * Complex.I := by
    simp only [Finset.sum_range_succ, Finset.sum_range_zero, mul_pow, Nat.factorial]
    have i2 : Complex.I ^ 2 = -1 := Complex.I_sq
    have i3 : Complex.I ^ 3 = -Complex.I := Complex.I_pow_three
    have i4 : Complex.I ^ 4 = 1 := Complex.I_pow_four
    have i5 : Complex.I ^ 5 = Complex.I := by rw [pow_succ, i4, one_mul]
    have i6 : Complex.I ^ 6 = -1 := by rw [show 6 = 4 + 2 by norm_num, pow_add, i4, i2, one_mul]
    have i7 : Complex.I ^ 7 = -Complex.I := by rw [show 7 = 4 + 3 by norm_num, pow_add, i4, i3, one_mul]
    have i8 : Complex.I ^ 8 = 1 := by rw [show 8 = 4 + 4 by norm_num, pow_add, i4, one_mul]
    have i9 : Complex.I ^ 9 = Complex.I := by rw [pow_succ, i8, one_mul]
    have i10 : Complex.I ^ 10 = -1 := by rw [show 10 = 8 + 2 by norm_num, pow_add, i8, i2, one_mul]
    have i11 : Complex.I ^ 11 = -Complex.I := by rw [show 11 = 8 + 3 by norm_num, pow_add, i8, i3, one_mul]
    rw [i2, i3, i4, i5, i6, i7, i8, i9, i10, i11]
    push_cast
    ring
  rw [hs, norm_mul, Complex.norm_I, mul_one, Complex.norm_real, Real.norm_eq_abs] at hb
  have hf : |x| ^ 12 / ((12).factorial : ℝ) * 2 = |x| ^ 12 / 239500800 := by
    simp only [Nat.factorial]; push_cast; ring
  rw [hf] at hb
  generalize (1 - x ^ 2 / 2 + x ^ 4 / 24 - x ^ 6 / 720 + x ^ 8 / 40320 - x ^ 10 / 3628800 : ℝ) = C at hb ⊢
  generalize (x - x ^ 3 / 6 + x ^ 5 / 120 - x ^ 7 / 5040 + x ^ 9 / 362880 - x ^ 11 / 39916800 : ℝ) = S at hb ⊢
  constructor
  · have := (Complex.abs_im_le_norm _).trans hb
    simpa [Complex.exp_ofReal_mul_I_im] using this
  · have := (Complex.abs_re_le_norm _).trans hb
    simpa [Complex.exp_ofReal_mul_I_re] using this

theorem rd_mk {k m : ℤ} (h1 : |m| < 2 ^ 53) (h4 : -1074 ≤ k) : rd ((m : ℝ) * 2 ^ k) = m * 2 ^ k := SplitDbl.rd_exact m k h1 h4

theorem rd_pi : rd Real.pi = (7074237752028440 : ℤ) * 2 ^ (-51 : ℤ) := by
  have h1 := Real.pi_gt_d20
  have h2 := Real.pi_lt_d20
  refine ConfDbl.rd_at _ _ ?_ ?_ (by norm_num) ?_
  · norm_num; linarith
  · norm_num; linarith
  · rw [abs_lt]
    constructor
    · rw [lt_sub_iff_add_lt, lt_div_iff₀ (by positivity)]; norm_num at h1 ⊢; linarith
    · rw [sub_lt_iff_lt_add, div_lt_iff₀ (by positivity)]; norm_num at h2 ⊢; linarith

theorem rd_deg : rd (rd Real.pi / 180) = (5030569068109113 : ℤ) * 2 ^ (-58 : ℤ) := by
  rw [rd_pi]
  refine ConfDbl.rd_at _ _ ?_ ?_ (by norm_num) ?_
  · norm_num
  · norm_num
  · rw [abs_lt]; norm_num

theorem toRad_8 : toRad 8 = (5030569068109113 : ℤ) * 2 ^ (-55 : ℤ) := by
  unfold toRad
  rw [rd_deg, ← rd_mk (k := -55) (m := 5030569068109113) (by norm_num) (by norm_num)]
  congr 1; norm_num

theorem toRad_16 : toRad 16 = (5030569068109113 : ℤ) * 2 ^ (-54 : ℤ) := by
  unfold toRad
  rw [rd_deg, ← rd_mk (k := -54) (m := 5030569068109113) (by norm_num) (by norm_num)]
  congr 1; norm_num

theorem toRad_90 : toRad 90 = (7074237752028440 : ℤ) * 2 ^ (-52 : ℤ) := by
  unfold toRad
  rw [rd_deg]
  refine ConfDbl.rd_at _ _ ?_ ?_ (by norm_num) ?_
  · norm_num
  · norm_num
  · rw [abs_lt]; norm_num

theorem toRad_180 : toRad 180 = (7074237752028440 : ℤ) * 2 ^ (-51 : ℤ) := by
  unfold toRad
  rw [rd_deg]
  refine ConfDbl.rd_at _ _ ?_ ?_ (by norm_num) ?_
  · norm_num
  · norm_num
  · rw [abs_lt]; norm_num

theorem toRad_neg (x : ℝ) : toRad (-x) = -toRad x := by
  unfold toRad; rw [neg_mul, rd_neg]

theorem sin_8 : rd (Real.sin ((5030569068109113 : ℤ) * 2 ^ (-55 : ℤ))) = (5014239404989977 : ℤ) * 2 ^ (-55 : ℤ) := by
  obtain ⟨h, -⟩ := taylor ((5030569068109113 : ℤ) * 2 ^ (-55 : ℤ)) (by rw [abs_le]; norm_num)
  generalize Real.sin ((5030569068109113 : ℤ) * 2 ^ (-55 : ℤ)) = s at h ⊢
  rw [abs_of_pos (by positivity : (0 : ℝ) < (5030569068109113 : ℤ) * 2 ^ (-55 : ℤ)), abs_le] at h
  obtain ⟨h1, h2⟩ := h
  norm_num at h1 h2
  refine ConfDbl.rd_at _ _ ?_ ?_ (by norm_num) ?_
  · norm_num; linarith
  · norm_num; linarith
  · rw [abs_lt]
    constructor
    · rw [lt_sub_iff_add_lt, lt_div_iff₀ (by positivity)]; norm_num; linarith
    · rw [sub_lt_iff_lt_add, div_lt_iff₀ (by positivity)]; norm_num; linarith

theorem cos_8 : rd (Real.cos ((5030569068109113 : ℤ) * 2 ^ (-55 : ℤ))) = (8919541810762874 : ℤ) * 2 ^ (-53 : ℤ) := by
  obtain ⟨-, h⟩ := taylor ((5030569068109113 : ℤ) * 2 ^ (-55 : ℤ)) (by rw [abs_le]; norm_num)
  generalize Real.cos ((5030569068109113 : ℤ) * 2 ^ (-55 : ℤ)) = s at h ⊢
  rw [abs_of_pos (by positivity : (0 : ℝ) < (5030569068109113 : ℤ) * 2 ^ (-55 : ℤ)), abs_le] at h
  obtain ⟨h1, h2⟩ := h
  norm_num at h1 h2
  refine ConfDbl.rd_at _ _ ?_ ?_ (by norm_num) ?_
  · norm_num; linarith
  · norm_num; linarith
  · rw [abs_lt]
    constructor
    · rw [lt_sub_iff_add_lt, lt_div_iff₀ (by positivity)]; norm_num; linarith
    · rw [sub_lt_iff_lt_add, div_lt_iff₀ (by positivity)]; norm_num; linarith

theorem sin_90 : rd (Real.sin ((7074237752028440 : ℤ) * 2 ^ (-52 : ℤ))) = 1 := by
  have h1 := Real.pi_gt_d20
  have h2 := Real.pi_lt_d20
  have hc := Real.one_sub_sq_div_two_le_cos (x := Real.pi / 2 - (7074237752028440 : ℤ) * 2 ^ (-52 : ℤ))
  rw [Real.cos_pi_div_two_sub] at hc
  have hle := Real.sin_le_one ((7074237752028440 : ℤ) * 2 ^ (-52 : ℤ))
  generalize Real.sin ((7074237752028440 : ℤ) * 2 ^ (-52 : ℤ)) = s at hc hle ⊢
  have hd : |Real.pi / 2 - (7074237752028440 : ℤ) * 2 ^ (-52 : ℤ)| ≤ 1 / 10 ^ 10 := by
    rw [abs_le]; norm_num at h1 h2 ⊢; constructor <;> linarith
  generalize Real.pi / 2 - (7074237752028440 : ℤ) * 2 ^ (-52 : ℤ) = d at hc hd
  have hs : 1 - 1 / 10 ^ 19 ≤ s := by
    have := sq_le_sq' (by linarith [abs_le.1 hd]) (abs_le.1 hd).2
    norm_num at this ⊢; linarith
  refine le_antisymm ?_ ?_
  · have := rd_mono hle; rwa [rd_one] at this
  · have := rd_mono hs
    rwa [SplitDbl.near_one (by norm_num) (by norm_num)] at this

theorem toRad_4 : toRad 4 = (5030569068109113 : ℤ) * 2 ^ (-56 : ℤ) := by
  unfold toRad
  rw [rd_deg, ← rd_mk (k := -56) (m := 5030569068109113) (by norm_num) (by norm_num)]
  congr 1; norm_num

theorem sin_2 : rd (Real.sin ((5030569068109113 : ℤ) * 2 ^ (-57 : ℤ))) = (5029547531033639 : ℤ) * 2 ^ (-57 : ℤ) := by
  obtain ⟨h, -⟩ := taylor ((5030569068109113 : ℤ) * 2 ^ (-57 : ℤ)) (by rw [abs_le]; norm_num)
  generalize Real.sin ((5030569068109113 : ℤ) * 2 ^ (-57 : ℤ)) = s at h ⊢
  rw [abs_of_pos (by positivity : (0 : ℝ) < (5030569068109113 : ℤ) * 2 ^ (-57 : ℤ)), abs_le] at h
  obtain ⟨h1, h2⟩ := h
  norm_num at h1 h2
  refine ConfDbl.rd_at _ _ ?_ ?_ (by norm_num) ?_
  · norm_num; linarith
  · norm_num; linarith
  · rw [abs_lt]
    constructor
    · rw [lt_sub_iff_add_lt, lt_div_iff₀ (by positivity)]; norm_num; linarith
    · rw [sub_lt_iff_lt_add, div_lt_iff₀ (by positivity)]; norm_num; linarith

theorem sin_4 : rd (Real.sin ((5030569068109113 : ℤ) * 2 ^ (-56 : ℤ))) = (5026483666571560 : ℤ) * 2 ^ (-56 : ℤ) := by
  obtain ⟨h, -⟩ := taylor ((5030569068109113 : ℤ) * 2 ^ (-56 : ℤ)) (by rw [abs_le]; norm_num)
  generalize Real.sin ((5030569068109113 : ℤ) * 2 ^ (-56 : ℤ)) = s at h ⊢
  rw [abs_of_pos (by positivity : (0 : ℝ) < (5030569068109113 : ℤ) * 2 ^ (-56 : ℤ)), abs_le] at h
  obtain ⟨h1, h2⟩ := h
  norm_num at h1 h2
  refine ConfDbl.rd_at _ _ ?_ ?_ (by norm_num) ?_
  · norm_num; linarith
  · norm_num; linarith
  · rw [abs_lt]
    constructor
    · rw [lt_sub_iff_add_lt, lt_div_iff₀ (by positivity)]; norm_num; linarith
    · rw [sub_lt_iff_lt_add, div_lt_iff₀ (by positivity)]; norm_num; linarith

theorem cos_4 : rd (Real.cos ((5030569068109113 : ℤ) * 2 ^ (-56 : ℤ))) = (8985258170056694 : ℤ) * 2 ^ (-53 : ℤ) := by
  obtain ⟨-, h⟩ := taylor ((5030569068109113 : ℤ) * 2 ^ (-56 : ℤ)) (by rw [abs_le]; norm_num)
  generalize Real.cos ((5030569068109113 : ℤ) * 2 ^ (-56 : ℤ)) = s at h ⊢
  rw [abs_of_pos (by positivity : (0 : ℝ) < (5030569068109113 : ℤ) * 2 ^ (-56 : ℤ)), abs_le] at h
  obtain ⟨h1, h2⟩ := h
  norm_num at h1 h2
  refine ConfDbl.rd_at _ _ ?_ ?_ (by norm_num) ?_
  · norm_num; linarith
  · norm_num; linarith
  · rw [abs_lt]
    constructor
    · rw [lt_sub_iff_add_lt, lt_div_iff₀ (by positivity)]; norm_num; linarith
    · rw [sub_lt_iff_lt_add, div_lt_iff₀ (by positivity)]; norm_num; linarith

/-- An angle below the argument of a point in the first quadrant, and one above. -/
theorem arg_between {x y t1 t2 : ℝ} (hx : 0 < x) (h1 : 0 < t1) (h2 : t1 < t2) (h3 : t2 < 1)
    (a1 : Real.sin t1 * x < y * Real.cos t1) (a2 : y * Real.cos t2 < Real.sin t2 * x) :
    t1 < Complex.arg ⟨x, y⟩ ∧ Complex.arg ⟨x, y⟩ < t2 := by
  have hp := Real.pi_gt_three
  have hr := abs_lt.1 (Complex.abs_arg_lt_pi_div_two_iff.2 (Or.inl hx : 0 < (⟨x, y⟩ : ℂ).re ∨ _))
  have ht : Real.tan (Complex.arg ⟨x, y⟩) = y / x := Complex.tan_arg _
  have c1 : 0 < Real.cos t1 := Real.cos_pos_of_mem_Ioo ⟨by linarith, by linarith⟩
  have c2 : 0 < Real.cos t2 := Real.cos_pos_of_mem_Ioo ⟨by linarith, by linarith⟩
  constructor
  · refine (Real.strictMonoOn_tan.lt_iff_lt ⟨by linarith, by linarith⟩ hr).1 ?_
    rw [ht, Real.tan_eq_sin_div_cos, div_lt_div_iff₀ c1 hx]
    linarith
  · refine (Real.strictMonoOn_tan.lt_iff_lt hr ⟨by linarith, by linarith⟩).1 ?_
    rw [ht, Real.tan_eq_sin_div_cos, div_lt_div_iff₀ hx c2]
    linarith

theorem arg_there : rd (Complex.arg ⟨(8980024762020239 : ℤ) * 2 ^ (-53 : ℤ), (5593102541438203 : ℤ) * 2 ^ (-56 : ℤ)⟩) = (5598734087831899 : ℤ) * 2 ^ (-56 : ℤ) := by
  obtain ⟨p1, p2⟩ := taylor (11197468175663797 * 2 ^ (-57 : ℤ)) (by rw [abs_le]; norm_num)
  obtain ⟨q1, q2⟩ := taylor (11197468175663799 * 2 ^ (-57 : ℤ)) (by rw [abs_le]; norm_num)
  have h := arg_between (x := (8980024762020239 : ℤ) * 2 ^ (-53 : ℤ)) (y := (5593102541438203 : ℤ) * 2 ^ (-56 : ℤ)) (t1 := 11197468175663797 * 2 ^ (-57 : ℤ))
    (t2 := 11197468175663799 * 2 ^ (-57 : ℤ)) (by positivity) (by positivity) (by norm_num) (by norm_num) (by
      clear q1 q2
      generalize Real.sin (11197468175663797 * 2 ^ (-57 : ℤ)) = s at p1 ⊢
      generalize Real.cos (11197468175663797 * 2 ^ (-57 : ℤ)) = c at p2 ⊢
      rw [abs_of_pos (by positivity : (0 : ℝ) < 11197468175663797 * 2 ^ (-57 : ℤ)), abs_le] at p1 p2
      norm_num at p1 p2 ⊢
      linarith [p1.1, p1.2, p2.1, p2.2]) (by
      clear p1 p2
      generalize Real.sin (11197468175663799 * 2 ^ (-57 : ℤ)) = s at q1 ⊢
      generalize Real.cos (11197468175663799 * 2 ^ (-57 : ℤ)) = c at q2 ⊢
      rw [abs_of_pos (by positivity : (0 : ℝ) < 11197468175663799 * 2 ^ (-57 : ℤ)), abs_le] at q1 q2
      norm_num at q1 q2 ⊢
      linarith [q1.1, q1.2, q2.1, q2.2])
  clear p1 p2 q1 q2
  generalize Complex.arg ⟨(8980024762020239 : ℤ) * 2 ^ (-53 : ℤ), (5593102541438203 : ℤ) * 2 ^ (-56 : ℤ)⟩ = t at h ⊢
  obtain ⟨h1, h2⟩ := h
  norm_num at h1 h2
  refine ConfDbl.rd_at _ _ ?_ ?_ (by norm_num) ?_
  · norm_num; linarith
  · norm_num; linarith
  · rw [abs_lt]
    constructor
    · rw [lt_sub_iff_add_lt, lt_div_iff₀ (by positivity)]; norm_num; linarith
    · rw [sub_lt_iff_lt_add, div_lt_iff₀ (by positivity)]; norm_num; linarith

theorem arg_back : rd (Complex.arg ⟨(8980024762020239 : ℤ) * 2 ^ (-53 : ℤ), (5593102541438202 : ℤ) * 2 ^ (-56 : ℤ)⟩) = (5598734087831898 : ℤ) * 2 ^ (-56 : ℤ) := by
  obtain ⟨p1, p2⟩ := taylor (11197468175663795 * 2 ^ (-57 : ℤ)) (by rw [abs_le]; norm_num)
  obtain ⟨q1, q2⟩ := taylor (11197468175663797 * 2 ^ (-57 : ℤ)) (by rw [abs_le]; norm_num)
  have h := arg_between (x := (8980024762020239 : ℤ) * 2 ^ (-53 : ℤ)) (y := (5593102541438202 : ℤ) * 2 ^ (-56 : ℤ)) (t1 := 11197468175663795 * 2 ^ (-57 : ℤ))
    (t2 := 11197468175663797 * 2 ^ (-57 : ℤ)) (by positivity) (by positivity) (by norm_num) (by norm_num) (by
      clear q1 q2
      generalize Real.sin (11197468175663795 * 2 ^ (-57 : ℤ)) = s at p1 ⊢
      generalize Real.cos (11197468175663795 * 2 ^ (-57 : ℤ)) = c at p2 ⊢
      rw [abs_of_pos (by positivity : (0 : ℝ) < 11197468175663795 * 2 ^ (-57 : ℤ)), abs_le] at p1 p2
      norm_num at p1 p2 ⊢
      linarith [p1.1, p1.2, p2.1, p2.2]) (by
      clear p1 p2
      generalize Real.sin (11197468175663797 * 2 ^ (-57 : ℤ)) = s at q1 ⊢
      generalize Real.cos (11197468175663797 * 2 ^ (-57 : ℤ)) = c at q2 ⊢
      rw [abs_of_pos (by positivity : (0 : ℝ) < 11197468175663797 * 2 ^ (-57 : ℤ)), abs_le] at q1 q2
      norm_num at q1 q2 ⊢
      linarith [q1.1, q1.2, q2.1, q2.2])
  clear p1 p2 q1 q2
  generalize Complex.arg ⟨(8980024762020239 : ℤ) * 2 ^ (-53 : ℤ), (5593102541438202 : ℤ) * 2 ^ (-56 : ℤ)⟩ = t at h ⊢
  obtain ⟨h1, h2⟩ := h
  norm_num at h1 h2
  refine ConfDbl.rd_at _ _ ?_ ?_ (by norm_num) ?_
  · norm_num; linarith
  · norm_num; linarith
  · rw [abs_lt]
    constructor
    · rw [lt_sub_iff_add_lt, lt_div_iff₀ (by positivity)]; norm_num; linarith
    · rw [sub_lt_iff_lt_add, div_lt_iff₀ (by positivity)]; norm_num; linarith

end Verif.HavDbl
