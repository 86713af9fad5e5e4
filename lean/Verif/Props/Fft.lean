import Verif.Model.Fft
import Mathlib.Tactic.Linarith
import Mathlib.Tactic.FieldSimp
import Mathlib.Tactic.NormNum
import Mathlib.Tactic.Ring

/-!
# Real FFT: the full output is the whole transform
-/

namespace Verif.Fft

namespace Spec

/-- The discrete Fourier transform, written with cosines and sines. -/
noncomputable def coef (f : ℕ → ℝ) (N k : ℕ) : ℝ × ℝ :=
  (∑ j ∈ Finset.range N, f j * Real.cos (2 * Real.pi * j * k / N),
   -∑ j ∈ Finset.range N, f j * Real.sin (2 * Real.pi * j * k / N))

end Spec

theorem exp_parts (t : ℝ) : (Complex.exp (-((t : ℂ) * Complex.I))).re = Real.cos t ∧
    (Complex.exp (-((t : ℂ) * Complex.I))).im = -Real.sin t := by
  have : -((t : ℂ) * Complex.I) = ((-t : ℝ) : ℂ) * Complex.I := by push_cast; ring
  rw [this, Complex.exp_ofReal_mul_I_re, Complex.exp_ofReal_mul_I_im, Real.cos_neg, Real.sin_neg]
  exact ⟨rfl, rfl⟩

theorem dft_pair (x : List ℝ) (k : ℕ) : pair (dft x k) = Spec.coef (fun j => x.getD j 0) x.length k := by
  have e : ∀ j : ℕ, -(2 * (Real.pi : ℂ) * Complex.I * (j * k / x.length)) =
        -(((2 * Real.pi * j * k / x.length : ℝ) : ℂ) * Complex.I) := by
    intro j; push_cast; ring
  unfold pair dft Spec.coef
  apply Prod.ext
  · dsimp only
    rw [Complex.re_sum]
    apply Finset.sum_congr rfl
    intro j _
    rw [e j, Complex.re_ofReal_mul, (exp_parts _).1]
  · dsimp only
    rw [Complex.im_sum]
    rw [← Finset.sum_neg_distrib]
    apply Finset.sum_congr rfl
    intro j _
    rw [e j, Complex.im_ofReal_mul, (exp_parts _).2]
    ring

theorem pairConj_eq (c : ℂ) : pairConj c = ((pair c).1, -(pair c).2) := rfl

/-- Conjugate symmetry of the transform of a real sequence. -/
theorem coef_sym (f : ℕ → ℝ) (N k : ℕ) (hN : 0 < N) (hk : k ≤ N) :
    Spec.coef f N (N - k) = ((Spec.coef f N k).1, -(Spec.coef f N k).2) := by
  have hq : (N : ℝ) ≠ 0 := by exact_mod_cast hN.ne'
  have e : ∀ j : ℕ, 2 * Real.pi * j * ((N - k : ℕ) : ℝ) / N = j * (2 * Real.pi) - 2 * Real.pi * j * k / N := by
    intro j
    rw [Nat.cast_sub hk]
    field_simp
  unfold Spec.coef
  apply Prod.ext
  · dsimp only
    apply Finset.sum_congr rfl
    intro j _
    rw [e j, Real.cos_nat_mul_two_pi_sub]
  · simp only [neg_neg]
    rw [← Finset.sum_neg_distrib]
    apply Finset.sum_congr rfl
    intro j _
    rw [e j, Real.sin_nat_mul_two_pi_sub]
    ring

theorem spectrum_length (x : List ℝ) : (spectrum x).length = x.length / 2 + 1 := by simp [spectrum]

theorem spectrum_pair (x : List ℝ) : (spectrum x).map pair =
    (List.range (x.length / 2 + 1)).map (Spec.coef (fun j => x.getD j 0) x.length) := by
  unfold spectrum
  rw [List.map_map]
  apply List.map_congr_left
  intro k _
  exact dft_pair x k

/-- The mirrored part is the missing part of the transform. -/
theorem mirror_eq (x : List ℝ) (h : 0 < x.length) :
    mirror x = (List.range (x.length - (x.length / 2 + 1))).map fun i =>
      Spec.coef (fun j => x.getD j 0) x.length (x.length / 2 + 1 + i) := by
  have hget : ∀ i, i < x.length / 2 + 1 → (spectrum x)[i]? = some (dft x i) := by
    intro i hi
    unfold spectrum
    rw [List.getElem?_map, List.getElem?_range hi]; rfl
  have hconj : ∀ i, i ≤ x.length → pairConj (dft x (x.length - i)) =
      Spec.coef (fun j => x.getD j 0) x.length i := by
    intro i hi
    have := coef_sym (fun j => x.getD j 0) x.length (x.length - i) h (by omega)
    rw [show x.length - (x.length - i) = i by omega] at this
    rw [this, pairConj_eq, dft_pair]
  apply List.ext_getElem?
  intro i
  unfold mirror
  rw [List.getElem?_map]
  split
  · rename_i heven
    have h2 : 1 ≤ x.length / 2 := by omega
    rw [if_pos h2, List.getElem?_map, List.getElem?_take]
    by_cases hi : i < x.length / 2 - 1
    · rw [if_pos hi, List.getElem?_drop, List.getElem?_reverse (by rw [spectrum_length]; omega), spectrum_length,
        hget _ (by omega), List.getElem?_range (by omega)]
      simp only [Option.map_some, Option.some.injEq]
      rw [← hconj _ (by omega)]
      congr 2
      omega
    · rw [if_neg hi, List.getElem?_eq_none (l := List.range _) (by rw [List.length_range]; omega)]
      rfl
  · rename_i hodd
    rw [List.getElem?_map, List.getElem?_take]
    by_cases hi : i < x.length / 2
    · rw [if_pos hi, List.getElem?_reverse (by rw [spectrum_length]; omega), spectrum_length,
        hget _ (by omega), List.getElem?_range (by omega)]
      simp only [Option.map_some, Option.some.injEq]
      rw [← hconj _ (by omega)]
      congr 2
      omega
    · rw [if_neg hi, List.getElem?_eq_none (l := List.range _) (by rw [List.length_range]; omega)]
      rfl

theorem full_eq (x : List ℝ) (h : 0 < x.length) :
    (spectrum x).map pair ++ mirror x =
      (List.range x.length).map (Spec.coef (fun j => x.getD j 0) x.length) := by
  rw [spectrum_pair, mirror_eq x h]
  have e : x.length = (x.length / 2 + 1) + (x.length - (x.length / 2 + 1)) := by omega
  conv_rhs => rw [show List.range x.length = List.range ((x.length / 2 + 1) + (x.length - (x.length / 2 + 1))) by
    rw [← e]]
  rw [List.range_add (n := x.length / 2 + 1), List.map_append, List.map_map]
  rfl

theorem noNulls_some (v : List ℝ) : noNulls (v.map some) = some v := by
  induction v with
  | nil => rfl
  | cons a t ih => simp [noNulls, ih]

theorem noNulls_none (s : List (Option ℝ)) (h : none ∈ s) : noNulls s = none := by
  induction s with
  | nil => cases h
  | cons o t ih =>
    cases o with
    | none => rfl
    | some a =>
      have : none ∈ t := by simpa using h
      simp [noNulls, ih this]

theorem resize_length (v : List ℝ) (n : ℕ) : (resize v n).length = n := by
  unfold resize
  split
  · simp; omega
  · simp; omega

theorem resize_getD (v : List ℝ) (n j : ℕ) (hj : j < n) : (resize v n).getD j 0 = v.getD j 0 := by
  unfold resize
  split
  · by_cases h : j < v.length
    · simp [List.getD, List.getElem?_append_left h]
    · rw [List.getD, List.getElem?_append_right (by omega), List.getElem?_replicate, List.getD,
        List.getElem?_eq_none (l := v) (by omega)]
      split <;> rfl
  · simp [List.getD, List.getElem?_take, hj]

theorem coef_congr (f g : ℕ → ℝ) (N k : ℕ) (h : ∀ j < N, f j = g j) : Spec.coef f N k = Spec.coef g N k := by
  unfold Spec.coef
  apply Prod.ext
  · dsimp only
    exact Finset.sum_congr rfl fun j hj => by rw [h j (Finset.mem_range.1 hj)]
  · simp only [neg_inj]
    exact Finset.sum_congr rfl fun j hj => by rw [h j (Finset.mem_range.1 hj)]

/-- **C69.** `rfft(x, n)` returns the coefficients `0, …, N / 2` and `rfft(x, n, return_full=True)` all `N`
coefficients of the transform of `x` cropped or zero padded to `N = n` points (`N` the length when `n` is not
given), for even and odd `N`. -/
theorem rfft_correct (v : List ℝ) (n : Option ℕ) (hn : ∀ m, n = some m → 2 ≤ m) (hN : 0 < n.getD v.length) :
    rfft (v.map some) n true = .ok ((List.range (n.getD v.length)).map
      (Spec.coef (fun j => v.getD j 0) (n.getD v.length))) ∧
    rfft (v.map some) n false = .ok ((List.range (n.getD v.length / 2 + 1)).map
      (Spec.coef (fun j => v.getD j 0) (n.getD v.length))) := by
  have hany : ¬ (n.any (· ≤ 1) = true) := by
    cases n with
    | none => simp
    | some m => have := hn m rfl; simp; omega
  have hc : ∀ M, (List.range M).map (Spec.coef (fun j => (resize v (n.getD v.length)).getD j 0) (n.getD v.length)) =
      (List.range M).map (Spec.coef (fun j => v.getD j 0) (n.getD v.length)) := by
    intro M
    apply List.map_congr_left
    intro k _
    exact coef_congr _ _ _ _ fun j hj => resize_getD v _ j hj
  unfold rfft
  rw [if_neg hany, if_neg hany, noNulls_some, List.length_map]
  simp only [if_true, Bool.false_eq_true, if_false]
  constructor
  · rw [full_eq _ (by rw [resize_length]; exact hN), resize_length, hc]
  · rw [spectrum_pair, resize_length, hc]

example : (∀ m, (some 4 : Option ℕ) = some m → 2 ≤ m) ∧ 0 < (some 4).getD ([1, 2, 3] : List ℝ).length := by
  refine ⟨fun m h => ?_, by simp⟩
  simp only [Option.some.injEq] at h
  omega

/-- **C69.** A null makes `rfft` fail, and so does `n ≤ 1`; it never returns a transform of altered data. -/
theorem rfft_rejects (s : List (Option ℝ)) (n : Option ℕ) (full : Bool)
    (h : none ∈ s ∨ ∃ m, n = some m ∧ m ≤ 1) : rfft s n full = .err := by
  unfold rfft
  split
  · rfl
  · rename_i hany
    rcases h with h | ⟨m, rfl, hm⟩
    · rw [noNulls_none s h]
    · simp [hm] at hany

example : none ∈ ([some 1, none] : List (Option ℝ)) := by simp

end Verif.Fft
