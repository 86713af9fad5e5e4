import Verif.Model.AucDbl
import Verif.Lemmas.ConfDbl
import Verif.Lemmas.Roc
import Mathlib.Algebra.BigOperators.Group.List.Basic

/-!
# Lemmas on rounded sums, rounded trapezoids and the rounded ROC curve
-/

namespace Verif.AucDbl
open Verif Verif.Doubles Verif.Ieee Verif.Ieee.Spec Verif.Roc Verif.ConfDbl
open Verif.FloatBits (f64)

/-- The exact sum of products. -/
def exact (l : List (ℝ × ℝ)) : ℝ := (l.map fun p => p.1 * p.2).sum
/-- The sum of the sizes of the products. -/
def size (l : List (ℝ × ℝ)) : ℝ := (l.map fun p => |p.1 * p.2|).sum

theorem size_nonneg (l : List (ℝ × ℝ)) : 0 ≤ size l :=
  List.sum_nonneg (by intro x hx; obtain ⟨p, _, rfl⟩ := List.mem_map.1 hx; exact abs_nonneg _)

theorem exact_append (a b : List (ℝ × ℝ)) : exact (a ++ b) = exact a + exact b := by simp [exact]
theorem size_append (a b : List (ℝ × ℝ)) : size (a ++ b) = size a + size b := by simp [size]
theorem exact_cons (p : ℝ × ℝ) (l : List (ℝ × ℝ)) : exact (p :: l) = p.1 * p.2 + exact l := by simp [exact]
theorem size_cons (p : ℝ × ℝ) (l : List (ℝ × ℝ)) : size (p :: l) = |p.1 * p.2| + size l := by simp [size]

theorem exact_le_size : ∀ l : List (ℝ × ℝ), |exact l| ≤ size l
  | [] => by simp [exact, size]
  | p :: l => by
    rw [exact_cons, size_cons]
    exact (abs_add_le _ _).trans (by linarith [exact_le_size l])

theorem rep_zero : Rep f64 0 := by have := isRep 0; rwa [rd_zero] at this

theorem dot_rep {l : List (ℝ × ℝ)} {v : ℝ} (h : IsDot l v) : Rep f64 v := by
  induction h with
  | nil => exact rep_zero
  | term a b => exact isRep _
  | add _ _ _ _ => exact isRep _
  | fma a b _ _ => exact isRep _
  | perm _ _ ih => exact ih

theorem step_err {n m : ℕ} {u η e A : ℝ} (u0 : 0 ≤ u) (η0 : 0 ≤ η) (A0 : 0 ≤ A) (hm : n + 1 ≤ m)
    (h : e ≤ ((1 + u) ^ n - 1) * A + n * (1 + u) ^ n * η) :
    (1 + u) * e + u * A ≤ ((1 + u) ^ m - 1) * A + n * (1 + u) ^ m * η := by
  have hp : (1 + u) ^ (n + 1) ≤ (1 + u) ^ m := pow_le_pow_right₀ (by linarith) hm
  have h1 : (1 + u) * e ≤ (1 + u) * (((1 + u) ^ n - 1) * A + n * (1 + u) ^ n * η) :=
    mul_le_mul_of_nonneg_left h (by linarith)
  have h2 : (1 + u) * (((1 + u) ^ n - 1) * A + n * (1 + u) ^ n * η) + u * A =
      ((1 + u) ^ (n + 1) - 1) * A + n * (1 + u) ^ (n + 1) * η := by rw [pow_succ]; ring
  have h3 : ((1 + u) ^ (n + 1) - 1) * A ≤ ((1 + u) ^ m - 1) * A := mul_le_mul_of_nonneg_right (by linarith) A0
  have h4 : n * (1 + u) ^ (n + 1) * η ≤ n * (1 + u) ^ m * η :=
    mul_le_mul_of_nonneg_right (mul_le_mul_of_nonneg_left hp (Nat.cast_nonneg _)) η0
  linarith

/-- Every order of adding the products is within the same distance of the exact sum. -/
theorem dot_err {l : List (ℝ × ℝ)} {v : ℝ} (h : IsDot l v) :
    |v - exact l| ≤ ((1 + unit f64) ^ l.length - 1) * size l + l.length * (1 + unit f64) ^ l.length * tiny f64 := by
  have u0 := (unit_pos f64).le
  have η0 := (tiny_pos f64).le
  induction h with
  | nil => simp [exact, size]
  | term a b =>
    have := fl_err_mixed f64 (a * b)
    have e : exact [(a, b)] = a * b := by simp [exact]
    have s : size [(a, b)] = |a * b| := by simp [size]
    rw [e, s]
    simp only [List.length_singleton, pow_one, Nat.cast_one]
    nlinarith [mul_nonneg u0 η0]
  | @add l₁ l₂ v₁ v₂ h₁ h₂ ih₁ ih₂ =>
    rcases Nat.eq_zero_or_pos l₁.length with z | p₁
    · have hl := List.length_eq_zero_iff.1 z
      subst hl
      have : v₁ = 0 := by simpa [exact, size] using ih₁
      subst this
      rw [zero_add, show rd v₂ = v₂ from fl_rep f64 (dot_rep h₂), List.nil_append]
      exact ih₂
    rcases Nat.eq_zero_or_pos l₂.length with z | p₂
    · have hl := List.length_eq_zero_iff.1 z
      subst hl
      have : v₂ = 0 := by simpa [exact, size] using ih₂
      subst this
      rw [add_zero, show rd v₁ = v₁ from fl_rep f64 (dot_rep h₁), List.append_nil]
      exact ih₁
    have hr := fl_add_err f64 (dot_rep h₁) (dot_rep h₂)
    have s₁ := step_err (m := (l₁ ++ l₂).length) u0 η0 (size_nonneg l₁) (by rw [List.length_append]; omega) ih₁
    have s₂ := step_err (m := (l₁ ++ l₂).length) u0 η0 (size_nonneg l₂) (by rw [List.length_append]; omega) ih₂
    have a₁ := exact_le_size l₁
    have a₂ := exact_le_size l₂
    rw [exact_append, size_append]
    have t1 : |rd (v₁ + v₂) - (exact l₁ + exact l₂)| ≤
        |fl f64 (v₁ + v₂) - (v₁ + v₂)| + (|v₁ - exact l₁| + |v₂ - exact l₂|) := by
      have : rd (v₁ + v₂) - (exact l₁ + exact l₂) = (fl f64 (v₁ + v₂) - (v₁ + v₂)) + ((v₁ - exact l₁) + (v₂ - exact l₂)) := by
        ring
      rw [this]
      exact (abs_add_le _ _).trans (by linarith [abs_add_le (v₁ - exact l₁) (v₂ - exact l₂)])
    have t2 : |v₁ + v₂| ≤ (|v₁ - exact l₁| + size l₁) + (|v₂ - exact l₂| + size l₂) := by
      have : v₁ + v₂ = (v₁ - exact l₁) + exact l₁ + ((v₂ - exact l₂) + exact l₂) := by ring
      rw [this]
      refine (abs_add_le _ _).trans ?_
      have := abs_add_le (v₁ - exact l₁) (exact l₁)
      have := abs_add_le (v₂ - exact l₂) (exact l₂)
      linarith
    have t3 := mul_le_mul_of_nonneg_left t2 u0
    have hc : (((l₁ ++ l₂).length : ℕ) : ℝ) = l₁.length + l₂.length := by rw [List.length_append]; push_cast; ring
    rw [hc]
    linarith
  | @fma l v a b h ih =>
    have hr := fl_err_mixed f64 (a * b + v)
    have s := step_err (m := ((a, b) :: l).length) u0 η0 (size_nonneg l) (by simp) ih
    have a₁ := exact_le_size l
    rw [exact_cons, size_cons]
    have t1 : |rd (a * b + v) - (a * b + exact l)| ≤ |fl f64 (a * b + v) - (a * b + v)| + |v - exact l| := by
      have : rd (a * b + v) - (a * b + exact l) = (fl f64 (a * b + v) - (a * b + v)) + (v - exact l) := by ring
      rw [this]
      exact abs_add_le _ _
    have t2 : |a * b + v| ≤ |a * b| + (|v - exact l| + size l) := by
      have : a * b + v = a * b + ((v - exact l) + exact l) := by ring
      rw [this]
      refine (abs_add_le _ _).trans ?_
      have := abs_add_le (v - exact l) (exact l)
      linarith
    have t3 := mul_le_mul_of_nonneg_left t2 u0
    have hc : ((((a, b) :: l).length : ℕ) : ℝ) = l.length + 1 := by simp
    have hp1 : 1 ≤ (1 + unit f64) ^ ((a, b) :: l).length := one_le_pow₀ (by linarith)
    have hpu : 1 + unit f64 ≤ (1 + unit f64) ^ ((a, b) :: l).length := le_self_pow₀ (by linarith) (by simp)
    have t4 : unit f64 * |a * b| ≤ ((1 + unit f64) ^ ((a, b) :: l).length - 1) * |a * b| :=
      mul_le_mul_of_nonneg_right (by linarith) (abs_nonneg _)
    have t5 : tiny f64 ≤ (1 + unit f64) ^ ((a, b) :: l).length * tiny f64 := by nlinarith
    rw [hc]
    linarith
  | @perm l₁ l₂ v hp h ih =>
    have e : exact l₂ = exact l₁ := ((hp.map _).sum_eq).symm
    have s : size l₂ = size l₁ := ((hp.map _).sum_eq).symm
    rw [e, s, ← hp.length_eq]
    exact ih

/-- Many roundings in a row. -/
theorem pow_bound {u : ℝ} (u0 : 0 ≤ u) : ∀ m : ℕ, 2 * m * u ≤ 1 → (1 + u) ^ m ≤ 1 + 2 * m * u
  | 0, _ => by simp
  | m + 1, h => by
    push_cast at h ⊢
    have ih := pow_bound u0 m (by nlinarith)
    rw [pow_succ]
    have : (1 + u) ^ m * (1 + u) ≤ (1 + 2 * m * u) * (1 + u) := mul_le_mul_of_nonneg_right ih (by linarith)
    nlinarith

/-- The rounded sums of heights and differences of places. -/
noncomputable def panels : List (ℝ × ℝ) → List (ℝ × ℝ)
  | p :: q :: rest => (rd (q.2 + p.2), rd (q.1 - p.1)) :: panels (q :: rest)
  | _ => []

/-- The sum of the sizes of the trapezoids. -/
noncomputable def absArea : List (ℝ × ℝ) → ℝ
  | p :: q :: rest => |(q.1 - p.1) * ((p.2 + q.2) / 2)| + absArea (q :: rest)
  | _ => 0

theorem absArea_nonneg : ∀ l : List (ℝ × ℝ), 0 ≤ absArea l
  | [] => le_refl _
  | [_] => le_refl _
  | p :: q :: rest => by
    rw [absArea]
    exact add_nonneg (abs_nonneg _) (absArea_nonneg (q :: rest))

theorem area_le_absArea : ∀ l : List (ℝ × ℝ), |Trapz.Spec.area l| ≤ absArea l
  | [] => by simp [Trapz.Spec.area, absArea]
  | [_] => by simp [Trapz.Spec.area, absArea]
  | p :: q :: rest => by
    rw [absArea, Trapz.Spec.area]
    exact (abs_add_le _ _).trans (by linarith [area_le_absArea (q :: rest)])

theorem length_panels : ∀ l : List (ℝ × ℝ), (panels l).length = l.length - 1
  | [] => rfl
  | [_] => rfl
  | p :: q :: rest => by
    rw [panels, List.length_cons, length_panels (q :: rest)]
    simp

theorem zip_panels : ∀ y x : List ℝ, y.length = x.length →
    (List.zipWith (fun a b => rd (a + b)) y.tail y).zip (List.zipWith (fun a b => rd (a - b)) x.tail x) = panels (x.zip y)
  | [], [], _ => by simp [panels]
  | [y0], [x0], _ => by simp [panels]
  | y0 :: y1 :: y, x0 :: x1 :: x, h => by
    have ih := zip_panels (y1 :: y) (x1 :: x) (by simpa using h)
    simp only [List.tail_cons, List.zipWith_cons_cons, List.zip_cons_cons, panels] at ih ⊢
    rw [ih]
  | [], x0 :: x, h => by simp at h
  | y0 :: y, [], h => by simp at h
  | [y0], x0 :: x1 :: x, h => by simp at h
  | y0 :: y1 :: y, [x0], h => by simp at h

theorem prod_err {a b A B u : ℝ} (u0 : 0 ≤ u) (ha : |a - A| ≤ u * |A|) (hb : |b - B| ≤ u * |B|) :
    |a * b - A * B| ≤ ((1 + u) ^ 2 - 1) * |A * B| ∧ |a * b| ≤ (1 + u) ^ 2 * |A * B| := by
  have h1 : |a * b - A * B| ≤ ((1 + u) ^ 2 - 1) * |A * B| := by
    have e : a * b - A * B = (a - A) * (b - B) + A * (b - B) + (a - A) * B := by ring
    rw [e, abs_mul A B]
    have t1 : |(a - A) * (b - B)| ≤ (u * |A|) * (u * |B|) := by
      rw [abs_mul]; exact mul_le_mul ha hb (abs_nonneg _) (by positivity)
    have t2 : |A * (b - B)| ≤ |A| * (u * |B|) := by
      rw [abs_mul]; exact mul_le_mul_of_nonneg_left hb (abs_nonneg _)
    have t3 : |(a - A) * B| ≤ (u * |A|) * |B| := by
      rw [abs_mul]; exact mul_le_mul_of_nonneg_right ha (abs_nonneg _)
    have := abs_add_three ((a - A) * (b - B)) (A * (b - B)) ((a - A) * B)
    nlinarith
  refine ⟨h1, ?_⟩
  have : |a * b| ≤ |a * b - A * B| + |A * B| := by
    have := abs_add_le (a * b - A * B) (A * B)
    rwa [sub_add_cancel] at this
  linarith

theorem panels_err : ∀ l : List (ℝ × ℝ), (∀ p ∈ l, Rep f64 p.1 ∧ Rep f64 p.2) →
    |exact (panels l) - 2 * Trapz.Spec.area l| ≤ ((1 + unit f64) ^ 2 - 1) * (2 * absArea l) ∧
      size (panels l) ≤ (1 + unit f64) ^ 2 * (2 * absArea l)
  | [], _ => by simp [panels, exact, size, Trapz.Spec.area, absArea]
  | [_], _ => by simp [panels, exact, size, Trapz.Spec.area, absArea]
  | p :: q :: rest, h => by
    obtain ⟨i1, i2⟩ := panels_err (q :: rest) fun r hr => h r (by simp [hr])
    have hp := h p (by simp)
    have hq := h q (by simp)
    have e1 := fl_add_err f64 hq.2 hp.2
    have e2 := fl_sub_err f64 hq.1 hp.1
    obtain ⟨g1, g2⟩ := prod_err (unit_pos f64).le e1 e2
    rw [panels, exact_cons, size_cons, Trapz.Spec.area, absArea]
    have hA : |(q.1 - p.1) * ((p.2 + q.2) / 2)| = |(q.2 + p.2) * (q.1 - p.1)| / 2 := by
      rw [show (q.1 - p.1) * ((p.2 + q.2) / 2) = (q.2 + p.2) * (q.1 - p.1) / 2 by ring, abs_div]
      norm_num
    rw [hA]
    constructor
    · have e : rd (q.2 + p.2) * rd (q.1 - p.1) + exact (panels (q :: rest)) -
          2 * ((q.1 - p.1) * ((p.2 + q.2) / 2) + Trapz.Spec.area (q :: rest)) =
          (rd (q.2 + p.2) * rd (q.1 - p.1) - (q.2 + p.2) * (q.1 - p.1)) +
            (exact (panels (q :: rest)) - 2 * Trapz.Spec.area (q :: rest)) := by ring
      rw [e]
      have := abs_add_le (rd (q.2 + p.2) * rd (q.1 - p.1) - (q.2 + p.2) * (q.1 - p.1))
        (exact (panels (q :: rest)) - 2 * Trapz.Spec.area (q :: rest))
      have g1' : |rd (q.2 + p.2) * rd (q.1 - p.1) - (q.2 + p.2) * (q.1 - p.1)| ≤
        ((1 + unit f64) ^ 2 - 1) * |(q.2 + p.2) * (q.1 - p.1)| := g1
      linarith
    · have g2' : |rd (q.2 + p.2) * rd (q.1 - p.1)| ≤ (1 + unit f64) ^ 2 * |(q.2 + p.2) * (q.1 - p.1)| := g2
      linarith

theorem unit_eq : unit f64 = 2 ^ (-53 : ℤ) := by simp [unit, f64]
theorem tiny_eq : tiny f64 = 2 ^ (-1075 : ℤ) := by simp [tiny, f64]

/-- The rounded half of a sum of rounded trapezoids. -/
theorem half_err (l : List (ℝ × ℝ)) (h : ∀ p ∈ l, Rep f64 p.1 ∧ Rep f64 p.2) (hl : l.length ≤ 2 ^ 50) (h1 : 1 ≤ l.length)
    {d : ℝ} (hd : IsDot (panels l) d) :
    |rd (1 / 2 * d) - Trapz.Spec.area l| ≤ (l.length + 2 : ℕ) * 2 ^ (-52 : ℤ) * absArea l + (l.length + 1 : ℕ) * 2 ^ (-1075 : ℤ) := by
  have u0 := (unit_pos f64).le
  have η0 := (tiny_pos f64).le
  have e0 := dot_err hd
  obtain ⟨e1, e2⟩ := panels_err l h
  have e3 := fl_err_mixed f64 (1 / 2 * d)
  rw [length_panels] at e0
  obtain ⟨n, hn⟩ : ∃ n, l.length = n + 1 := ⟨l.length - 1, by omega⟩
  rw [hn] at hl ⊢
  rw [hn, Nat.add_sub_cancel] at e0
  have A0 := absArea_nonneg l
  have a0 := area_le_absArea l
  set S := exact (panels l)
  set A := absArea l
  set T := Trapz.Spec.area l
  have hrd : rd (1 / 2 * d) = fl f64 (1 / 2 * d) := rfl
  rw [hrd]
  have hb1 := pow_bound u0 (n + 3) (by
    rw [unit_eq]
    have : ((n + 3 : ℕ) : ℝ) ≤ 2 ^ 51 := by exact_mod_cast (by omega : n + 3 ≤ 2 ^ 51)
    have := mul_le_mul_of_nonneg_right this (two_zpow_pos (-53)).le
    norm_num at this ⊢
    linarith)
  have hb2 := pow_bound u0 (n + 1) (by
    rw [unit_eq]
    have : ((n + 1 : ℕ) : ℝ) ≤ 2 ^ 51 := by exact_mod_cast (by omega : n + 1 ≤ 2 ^ 51)
    have := mul_le_mul_of_nonneg_right this (two_zpow_pos (-53)).le
    norm_num at this ⊢
    linarith)
  have hb3 : (1 + unit f64) ^ (n + 1) ≤ 2 := by
    refine hb2.trans ?_
    rw [unit_eq]
    have : ((n + 1 : ℕ) : ℝ) ≤ 2 ^ 51 := by exact_mod_cast (by omega : n + 1 ≤ 2 ^ 51)
    have := mul_le_mul_of_nonneg_right this (two_zpow_pos (-53)).le
    norm_num at this ⊢
    linarith
  have hu : (2 : ℝ) ^ (-52 : ℤ) = 2 * unit f64 := by rw [unit_eq]; norm_num
  rw [hu, ← tiny_eq]
  generalize unit f64 = u at *
  generalize tiny f64 = η at *
  have P1 : 1 ≤ (1 + u) ^ n := one_le_pow₀ (by linarith)
  -- the distance of the sum
  have f1 : |d - 2 * T| ≤ ((1 + u) ^ (n + 2) - 1) * (2 * A) + n * (1 + u) ^ n * η := by
    have t : |d - 2 * T| ≤ |d - S| + |S - 2 * T| := by
      have := abs_add_le (d - S) (S - 2 * T)
      rwa [sub_add_sub_cancel] at this
    have t2 : ((1 + u) ^ n - 1) * size (panels l) ≤ ((1 + u) ^ n - 1) * ((1 + u) ^ 2 * (2 * A)) :=
      mul_le_mul_of_nonneg_left e2 (by linarith)
    have t3 : ((1 + u) ^ n - 1) * ((1 + u) ^ 2 * (2 * A)) + ((1 + u) ^ 2 - 1) * (2 * A) = ((1 + u) ^ (n + 2) - 1) * (2 * A) := by
      rw [pow_add]; ring
    linarith
  have f2 : |1 / 2 * d - T| ≤ ((1 + u) ^ (n + 2) - 1) * A + n / 2 * (1 + u) ^ n * η := by
    have : 1 / 2 * d - T = (d - 2 * T) / 2 := by ring
    rw [this, abs_div, abs_two]
    linarith
  have f3 : |1 / 2 * d| ≤ |1 / 2 * d - T| + A := by
    have := abs_add_le (1 / 2 * d - T) T
    rw [sub_add_cancel] at this
    linarith
  have f4 : |fl f64 (1 / 2 * d) - T| ≤ |fl f64 (1 / 2 * d) - 1 / 2 * d| + |1 / 2 * d - T| := by
    have := abs_add_le (fl f64 (1 / 2 * d) - 1 / 2 * d) (1 / 2 * d - T)
    rwa [sub_add_sub_cancel] at this
  have f5 := mul_le_mul_of_nonneg_left f3 u0
  have f6 := mul_le_mul_of_nonneg_left f2 (by linarith : 0 ≤ 1 + u)
  have f7 : (1 + u) * (((1 + u) ^ (n + 2) - 1) * A + n / 2 * (1 + u) ^ n * η) + u * A =
      ((1 + u) ^ (n + 3) - 1) * A + n / 2 * (1 + u) ^ (n + 1) * η := by
    rw [show n + 3 = n + 2 + 1 by ring, pow_succ, pow_succ (1 + u) n]; ring
  have f8 : ((1 + u) ^ (n + 3) - 1) * A ≤ (2 * ((n + 3 : ℕ) : ℝ) * u) * A := mul_le_mul_of_nonneg_right (by linarith) A0
  have f9 : n / 2 * (1 + u) ^ (n + 1) * η ≤ n / 2 * 2 * η :=
    mul_le_mul_of_nonneg_right (mul_le_mul_of_nonneg_left hb3 (by positivity)) η0
  push_cast at *
  nlinarith

/-! ## Curves given by functions of the threshold -/

theorem area_bilinear (x y X Y : ℝ → ℝ) : ∀ ts : List ℝ,
    Trapz.Spec.area (ts.map fun t => (x t, y t)) - Trapz.Spec.area (ts.map fun t => (X t, Y t)) =
      Trapz.Spec.area (ts.map fun t => (x t, y t - Y t)) + Trapz.Spec.area (ts.map fun t => (x t - X t, Y t))
  | [] => by simp [Trapz.Spec.area]
  | [_] => by simp [Trapz.Spec.area]
  | t :: w :: ts => by
    have ih := area_bilinear x y X Y (w :: ts)
    simp only [List.map_cons, Trapz.Spec.area] at ih ⊢
    linarith

theorem area_parts (p q : ℝ → ℝ) : ∀ (t : ℝ) (ts : List ℝ),
    Trapz.Spec.area ((t :: ts).map fun t => (p t, q t)) =
      p ((t :: ts).getLast (by simp)) * q ((t :: ts).getLast (by simp)) - p t * q t -
        Trapz.Spec.area ((t :: ts).map fun t => (q t, p t))
  | t, [] => by simp [Trapz.Spec.area]
  | t, w :: ts => by
    have ih := area_parts p q w ts
    rw [List.getLast_cons (by simp)]
    simp only [List.map_cons, Trapz.Spec.area] at ih ⊢
    linarith

/-- Under a falling curve of places, heights up to `e` give at most `e` times the width. -/
theorem absArea_falling {x q : ℝ → ℝ} {e : ℝ} : ∀ (t : ℝ) (ts : List ℝ), (t :: ts).Pairwise (fun a b => x b ≤ x a) →
    (∀ w ∈ t :: ts, |q w| ≤ e) →
    absArea ((t :: ts).map fun t => (x t, q t)) ≤ e * (x t - x ((t :: ts).getLast (by simp)))
  | t, [], _, _ => by simp [absArea]
  | t, w :: ts, hx, hq => by
    have ih := absArea_falling w ts (List.pairwise_cons.1 hx).2 fun v hv => hq v (by simp [hv])
    rw [List.getLast_cons (by simp)]
    simp only [List.map_cons, absArea] at ih ⊢
    have h1 := (List.pairwise_cons.1 hx).1 w (by simp)
    have h2 : |(x w - x t) * ((q t + q w) / 2)| ≤ (x t - x w) * e := by
      rw [abs_mul, abs_sub_comm, abs_of_nonneg (sub_nonneg.2 h1)]
      refine mul_le_mul_of_nonneg_left ?_ (sub_nonneg.2 h1)
      have a1 := hq t (by simp)
      have a2 := hq w (by simp)
      rw [abs_le] at *
      constructor <;> linarith
    linarith

/-- A curve with falling coordinates in [0, 1] that starts at place one: moving every coordinate by at most `e`, without moving
the first place, moves the area by at most `2 e`. -/
theorem area_moved {x y X Y : ℝ → ℝ} {e : ℝ} (e0 : 0 ≤ e) (t : ℝ) (ts : List ℝ)
    (hx : (t :: ts).Pairwise (fun a b => x b ≤ x a)) (hY : (t :: ts).Pairwise (fun a b => Y b ≤ Y a))
    (ex : ∀ w ∈ t :: ts, |x w - X w| ≤ e) (ey : ∀ w ∈ t :: ts, |y w - Y w| ≤ e) (h0 : x t = X t)
    (x1 : ∀ w ∈ t :: ts, 0 ≤ x w ∧ x w ≤ 1) (Y1 : ∀ w ∈ t :: ts, 0 ≤ Y w ∧ Y w ≤ 1) :
    |Trapz.Spec.area ((t :: ts).map fun t => (x t, y t)) - Trapz.Spec.area ((t :: ts).map fun t => (X t, Y t))| ≤ 2 * e := by
  rw [area_bilinear]
  have a1 := (area_le_absArea _).trans (absArea_falling (q := fun t => y t - Y t) t ts hx ey)
  have a2 := (area_le_absArea _).trans (absArea_falling (x := Y) (q := fun t => x t - X t) t ts hY ex)
  have hp := area_parts (fun t => x t - X t) Y t ts
  have hm : (t :: ts).getLast (by simp) ∈ t :: ts := List.getLast_mem _
  generalize (t :: ts).getLast (by simp) = w at *
  have b1 := x1 t (by simp)
  have b2 := x1 w hm
  have b3 := Y1 t (by simp)
  have b4 := Y1 w hm
  have b5 := ex w hm
  have c1 : e * (x t - x w) ≤ e * 1 := mul_le_mul_of_nonneg_left (by linarith) e0
  have c2 : |(x w - X w) * Y w| ≤ e * Y w := by
    rw [abs_mul, abs_of_nonneg b4.1]
    exact mul_le_mul_of_nonneg_right b5 b4.1
  have c3 : e * Y t ≤ e * 1 := mul_le_mul_of_nonneg_left b3.2 e0
  have c4 : |Trapz.Spec.area ((t :: ts).map fun t => (x t - X t, Y t))| ≤ e := by
    rw [hp, h0, sub_self, zero_mul, sub_zero]
    have := abs_sub ((x w - X w) * Y w) (Trapz.Spec.area ((t :: ts).map fun t => (Y t, x t - X t)))
    nlinarith
  have := abs_add_le (Trapz.Spec.area ((t :: ts).map fun t => (x t, y t - Y t))) (Trapz.Spec.area ((t :: ts).map fun t => (x t - X t, Y t)))
  linarith

/-- The row of the rounded frame at a threshold. -/
noncomputable def dblRow (rows : List (ℝ × ℕ)) (t : ℝ) : FrameRow ℝ :=
  ⟨t, quot ((Spec.positives rows).countP fun s => decide (t ≤ s)) (Spec.positives rows).length,
    quot ((Spec.negatives rows).countP fun s => decide (t ≤ s)) (Spec.negatives rows).length,
    quot ((Spec.positives rows).countP fun s => decide (t ≤ s)) (rows.countP fun r => decide (t ≤ r.1))⟩

theorem frame_eq (rows : List (ℝ × ℕ)) (hb : ∀ r ∈ rows, r.2 = 0 ∨ r.2 = 1) :
    frame rows (Spec.positives rows).length = (thresholds rows).map (dblRow rows) := by
  set ts := thresholds rows with hts
  have hsort := thresholds_sorted rows
  rw [← hts] at hsort
  have hg : groups rows = ts.map fun t =>
      (⟨t, (rows.map Prod.fst).count t, (Spec.positives rows).count t⟩ : Roc.Group ℝ) := by
    unfold groups
    rw [hts, thresholds]
    apply List.map_congr_left
    intro t _
    rw [cnt_eq, pos_eq rows hb]
  have hnd : ts.Nodup := hsort.imp fun h => ne_of_lt h
  have hcnt_sum : (ts.map fun t => (rows.map Prod.fst).count t).sum = rows.length := by
    rw [sum_count_eq _ _ hnd, List.countP_eq_length.2]
    · simp
    · intro s hs; simpa [hts, mem_thresholds] using hs
  have hpos_sum : (ts.map fun t => (Spec.positives rows).count t).sum = (Spec.positives rows).length := by
    rw [sum_count_eq _ _ hnd, List.countP_eq_length.2]
    intro s hs
    simpa [hts, mem_thresholds] using pos_mem hs
  have hpp : predictedPositive rows.length (groups rows) =
      ts.map fun t => rows.countP fun r => decide (t ≤ r.1) := by
    unfold predictedPositive
    rw [hg, List.map_map]
    have hz := zip_cumSum (ts.map fun t => (rows.map Prod.fst).count t) 0 rows.length (by omega)
    have hs := sufs_count (rows.map Prod.fst) ts hsort (fun s hs => .inl (mem_thresholds.2 hs))
    rw [hs] at hz
    refine Eq.trans hz ?_
    apply List.map_congr_left
    intro t _
    rw [List.countP_map]
    rfl
  have htp : tpCol (Spec.positives rows).length (groups rows) =
      ts.map fun t => (Spec.positives rows).countP fun s => decide (t ≤ s) := by
    unfold tpCol
    rw [hg, List.map_map]
    have hs := sufs_count (Spec.positives rows) ts hsort (fun s hs => .inl (mem_thresholds.2 (pos_mem hs)))
    rcases Nat.eq_zero_or_pos ts.length with h0 | h0
    · rw [List.length_eq_zero_iff.1 h0]; rfl
    · have hz := shift_cumSum (ts.map fun t => (Spec.positives rows).count t) 0 (Spec.positives rows).length
        (by intro h; simp at h; simp [h] at h0) (by omega)
      rw [hs, Nat.sub_zero] at hz
      rw [← hz]
      obtain ⟨t0, ts', ht⟩ := List.exists_cons_of_ne_nil (List.ne_nil_of_length_pos h0)
      simp [ht, cumSum, shiftFill, Function.comp_def]
  have hneg : ∀ t, (rows.countP fun r => decide (t ≤ r.1)) -
      ((Spec.positives rows).countP fun s => decide (t ≤ s)) =
      (Spec.negatives rows).countP fun s => decide (t ≤ s) := by
    intro t
    have := countP_split rows hb (fun s => decide (t ≤ s))
    omega
  unfold frame
  simp only [hpp, htp]
  have hfp : List.zipWith (· - ·) (ts.map fun t => rows.countP fun r => decide (t ≤ r.1))
      (ts.map fun t => (Spec.positives rows).countP fun s => decide (t ≤ s)) =
      ts.map fun t => (Spec.negatives rows).countP fun s => decide (t ≤ s) := by
    rw [List.zipWith_map, List.zipWith_self]
    apply List.map_congr_left
    intro t _
    exact hneg t
  rw [hfp, hg, List.map_map]
  have hz : ∀ (ts : List ℝ) (f g h : ℝ → ℕ) (F : ℝ → ℕ × ℕ × ℕ → FrameRow ℝ),
      List.zipWith F ts ((ts.map f).zip ((ts.map g).zip (ts.map h))) =
        ts.map fun t => F t (f t, g t, h t) := by
    intro ts f g h F
    induction ts with
    | nil => rfl
    | cons t ts ih => simp [ih]
  have hid : ((fun g : Roc.Group ℝ => g.threshold) ∘ fun t =>
      (⟨t, (rows.map Prod.fst).count t, (Spec.positives rows).count t⟩ : Roc.Group ℝ)) = id := rfl
  rw [hid, List.map_id, hz]
  cases hc : ts with
  | nil => rfl
  | cons t0 ts' =>
    have hmin : ∀ s ∈ rows.map Prod.fst, t0 ≤ s := by
      intro s hs
      have : s ∈ ts := by rw [hts]; exact mem_thresholds.2 hs
      rw [hc] at this hsort
      rcases List.mem_cons.1 this with h | h
      · rw [h]
      · exact ((List.pairwise_cons.1 hsort).1 s h).le
    have e1 : ((Spec.positives rows).countP fun s => decide (t0 ≤ s)) = (Spec.positives rows).length :=
      List.countP_eq_length.2 fun s hs => by simpa using hmin s (pos_mem hs)
    have e2 : ((Spec.negatives rows).countP fun s => decide (t0 ≤ s)) = (Spec.negatives rows).length :=
      List.countP_eq_length.2 fun s hs => by simpa using hmin s (neg_mem hs)
    apply List.map_congr_left
    intro t _
    simp only [List.map_cons, List.head?_cons, Option.getD_some, e1, e2]
    rfl

/-! ## Sums from left to right -/

theorem foldl_isDot : ∀ (l l₀ : List (ℝ × ℝ)) (v : ℝ), IsDot l₀ v →
    IsDot (l.reverse ++ l₀) (l.foldl (fun acc p => rd (p.1 * p.2 + acc)) v)
  | [], _, _, h => h
  | (a, b) :: l, l₀, v, h => by
    rw [List.foldl_cons, List.reverse_cons, List.append_assoc]
    exact foldl_isDot l ((a, b) :: l₀) _ (.fma a b h)

theorem foldl_dot (l : List (ℝ × ℝ)) : IsDot l (l.foldl (fun acc p => rd (p.1 * p.2 + acc)) 0) := by
  have := foldl_isDot l [] 0 .nil
  rw [List.append_nil] at this
  exact this.perm l.reverse_perm

/-- Every list of products has a sum in some order. -/
theorem dot_exists (l : List (ℝ × ℝ)) : ∃ d, IsDot l d := ⟨_, foldl_dot l⟩

theorem sum_err {u : ℝ} (hu : u = unit f64) : ∀ (l : List ℝ) (a : ℝ), Rep f64 a → (∀ y ∈ l, Rep f64 y) →
    Rep f64 (l.foldl (fun a b => rd (a + b)) a) ∧
    |l.foldl (fun a b => rd (a + b)) a - (a + l.sum)| ≤ ((1 + u) ^ l.length - 1) * (|a| + (l.map abs).sum)
  | [], a, ha, _ => by simpa using ha
  | b :: l, a, ha, h => by
    have u0 : 0 ≤ u := hu ▸ (unit_pos f64).le
    obtain ⟨i1, i2⟩ := sum_err hu l (rd (a + b)) (isRep _) fun y hy => h y (by simp [hy])
    have e := fl_add_err f64 ha (h b (by simp))
    rw [← hu] at e
    refine ⟨i1, ?_⟩
    rw [List.foldl_cons, List.sum_cons, List.map_cons, List.sum_cons, List.length_cons]
    set F := l.foldl (fun a b => rd (a + b)) (rd (a + b))
    have t1 : |F - (a + (b + l.sum))| ≤ |F - (rd (a + b) + l.sum)| + |fl f64 (a + b) - (a + b)| := by
      have := abs_add_le (F - (rd (a + b) + l.sum)) (fl f64 (a + b) - (a + b))
      have e2 : F - (a + (b + l.sum)) = F - (rd (a + b) + l.sum) + (fl f64 (a + b) - (a + b)) := by ring
      rwa [e2]
    have t2 : |rd (a + b)| ≤ (1 + u) * (|a| + |b|) := by
      have := abs_add_le (fl f64 (a + b) - (a + b)) (a + b)
      rw [sub_add_cancel] at this
      have h2 : |rd (a + b)| ≤ (1 + u) * |a + b| := by linarith
      exact h2.trans (mul_le_mul_of_nonneg_left (abs_add_le _ _) (by linarith))
    have P1 : 1 ≤ (1 + u) ^ l.length := one_le_pow₀ (by linarith)
    have B0 : 0 ≤ (l.map abs).sum :=
      List.sum_nonneg (by intro x hx; obtain ⟨p, _, rfl⟩ := List.mem_map.1 hx; exact abs_nonneg _)
    have t3 : ((1 + u) ^ l.length - 1) * (|rd (a + b)| + (l.map abs).sum) ≤
        ((1 + u) ^ l.length - 1) * ((1 + u) * (|a| + |b|) + (l.map abs).sum) :=
      mul_le_mul_of_nonneg_left (by linarith) (by linarith)
    have t4 : u * |a + b| ≤ u * (|a| + |b|) := mul_le_mul_of_nonneg_left (abs_add_le _ _) u0
    have t5 : ((1 + u) ^ l.length - 1) * (l.map abs).sum ≤ ((1 + u) ^ (l.length + 1) - 1) * (l.map abs).sum :=
      mul_le_mul_of_nonneg_right (by rw [pow_succ]; nlinarith) B0
    rw [pow_succ] at t5 ⊢
    nlinarith

/-! ## The steps of the average precision -/

/-- The rounded steps of the recall with their precision. -/
noncomputable def steps (y p : ℝ → ℝ) : List ℝ → List (ℝ × ℝ)
  | t :: w :: ts => (rd (y w - y t), p t) :: steps y p (w :: ts)
  | _ => []

theorem length_steps (y p : ℝ → ℝ) : ∀ l : List ℝ, (steps y p l).length = l.length - 1
  | [] => rfl
  | [_] => rfl
  | t :: w :: ts => by
    rw [steps, List.length_cons, length_steps y p (w :: ts)]
    simp

theorem steps_eq (y p : ℝ → ℝ) : ∀ ts : List ℝ,
    (((ts.map y).zip (ts.map y).tail).zip (ts.map p)).map (fun q => (rd (q.1.2 - q.1.1), q.2)) = steps y p ts
  | [] => rfl
  | [_] => rfl
  | t :: w :: ts => by
    have ih := steps_eq y p (w :: ts)
    simp only [List.map_cons, List.tail_cons, List.zip_cons_cons, steps] at ih ⊢
    rw [ih]

/-- The exact sum of the steps. -/
noncomputable def stepSum (Y P : ℝ → ℝ) : List ℝ → ℝ
  | t :: w :: ts => (Y w - Y t) * P t + stepSum Y P (w :: ts)
  | _ => 0

theorem stepSum_eq (Y P : ℝ → ℝ) : ∀ ts : List ℝ,
    ((((ts.map Y).zip (ts.map Y).tail).zip (ts.map P)).map fun q => (q.1.2 - q.1.1) * q.2).sum = stepSum Y P ts
  | [] => rfl
  | [_] => rfl
  | t :: w :: ts => by
    have ih := stepSum_eq Y P (w :: ts)
    simp only [List.map_cons, List.tail_cons, List.zip_cons_cons, List.sum_cons, stepSum] at ih ⊢
    rw [ih]

theorem steps_err {y p Y P : ℝ → ℝ} {e : ℝ} (e0 : 0 ≤ e) : ∀ (t : ℝ) (ts : List ℝ),
    (t :: ts).Pairwise (fun a b => y b ≤ y a) → (∀ w ∈ t :: ts, Rep f64 (y w)) → (∀ w ∈ t :: ts, |y w - Y w| ≤ e) →
    (∀ w ∈ t :: ts, |p w - P w| ≤ e) → (∀ w ∈ t :: ts, 0 ≤ p w ∧ p w ≤ 1) → (∀ w ∈ t :: ts, 0 ≤ P w ∧ P w ≤ 1) →
    |exact (steps y p (t :: ts)) - stepSum Y P (t :: ts)| ≤
      (unit f64 + e) * (y t - y ((t :: ts).getLast (by simp))) + 2 * e * ts.length ∧
    size (steps y p (t :: ts)) ≤ (1 + unit f64) * (y t - y ((t :: ts).getLast (by simp)))
  | t, [], _, _, _, _, _, _ => by simp [steps, stepSum, exact, size]
  | t, w :: ts, hy, hr, ey, ep, p1, P1 => by
    obtain ⟨i1, i2⟩ := steps_err e0 w ts (List.pairwise_cons.1 hy).2 (fun v hv => hr v (by simp [hv]))
      (fun v hv => ey v (by simp [hv])) (fun v hv => ep v (by simp [hv])) (fun v hv => p1 v (by simp [hv]))
      (fun v hv => P1 v (by simp [hv]))
    rw [List.getLast_cons (by simp)]
    have u0 := (unit_pos f64).le
    have hyw := (List.pairwise_cons.1 hy).1 w (by simp)
    have r := fl_sub_err f64 (hr w (by simp)) (hr t (by simp))
    rw [abs_sub_comm (y w) (y t), abs_of_nonneg (sub_nonneg.2 hyw)] at r
    have r' : |rd (y w - y t) - (y w - y t)| ≤ unit f64 * (y t - y w) := r
    have a1 := ey t (by simp)
    have a2 := ey w (by simp)
    have a3 := ep t (by simp)
    have a4 := p1 t (by simp)
    have a5 := P1 t (by simp)
    rw [steps, exact_cons, size_cons, stepSum]
    have s1 : |rd (y w - y t) * p t| ≤ (1 + unit f64) * (y t - y w) := by
      rw [abs_mul, abs_of_nonneg a4.1]
      have h1 : |rd (y w - y t)| ≤ (1 + unit f64) * (y t - y w) := by
        have := abs_add_le (rd (y w - y t) - (y w - y t)) (y w - y t)
        rw [sub_add_cancel, abs_sub_comm (y w) (y t), abs_of_nonneg (sub_nonneg.2 hyw)] at this
        linarith
      have := mul_le_mul h1 a4.2 a4.1 (mul_nonneg (by linarith) (sub_nonneg.2 hyw))
      linarith
    refine ⟨?_, by linarith⟩
    have d1 : |(rd (y w - y t) - (y w - y t)) * p t| ≤ unit f64 * (y t - y w) := by
      rw [abs_mul, abs_of_nonneg a4.1]
      have := mul_le_mul r' a4.2 a4.1 (mul_nonneg u0 (sub_nonneg.2 hyw))
      linarith
    have d2 : |(y w - y t) * (p t - P t)| ≤ e * (y t - y w) := by
      rw [abs_mul, abs_sub_comm (y w), abs_of_nonneg (sub_nonneg.2 hyw), mul_comm]
      exact mul_le_mul_of_nonneg_right a3 (sub_nonneg.2 hyw)
    have d3 : |((y w - Y w) - (y t - Y t)) * P t| ≤ 2 * e := by
      rw [abs_mul, abs_of_nonneg a5.1]
      have h1 : |(y w - Y w) - (y t - Y t)| ≤ 2 * e := by
        have := abs_sub (y w - Y w) (y t - Y t)
        linarith
      have := mul_le_mul h1 a5.2 a5.1 (by linarith)
      linarith
    have e1 : rd (y w - y t) * p t + exact (steps y p (w :: ts)) - ((Y w - Y t) * P t + stepSum Y P (w :: ts)) =
        ((rd (y w - y t) - (y w - y t)) * p t + (y w - y t) * (p t - P t) + ((y w - Y w) - (y t - Y t)) * P t) +
          (exact (steps y p (w :: ts)) - stepSum Y P (w :: ts)) := by ring
    simp only [] at *
    rw [e1]
    have q1 := abs_add_le ((rd (y w - y t) - (y w - y t)) * p t + (y w - y t) * (p t - P t) + ((y w - Y w) - (y t - Y t)) * P t)
      (exact (steps y p (w :: ts)) - stepSum Y P (w :: ts))
    have q2 := abs_add_three ((rd (y w - y t) - (y w - y t)) * p t) ((y w - y t) * (p t - P t)) (((y w - Y w) - (y t - Y t)) * P t)
    rw [List.length_cons]
    push_cast
    linarith

end Verif.AucDbl
