import Verif.Model.ScaleDbl
import Verif.Props.AucDbl

/-! # C161: centring and scaling in double arithmetic -/

namespace Verif.ScaleDbl
open Verif Verif.Doubles Verif.Pl Verif.Ieee Verif.Ieee.Spec Verif.ConfDbl
open Verif.FloatBits (f64)
open Verif.Confusion (Val)

namespace Spec

/-- `a` is the least and `b` the greatest known value of the column. -/
def Ends (c : List (Option ℝ)) (a b : ℝ) : Prop :=
  some a ∈ c ∧ some b ∈ c ∧ ∀ x, some x ∈ c → a ≤ x ∧ x ≤ b

/-- Every known value is a double. -/
def Doubles (c : List (Option ℝ)) : Prop := ∀ x, some x ∈ c → Rep f64 x

/-- The mean of a list. -/
noncomputable def mean (l : List ℝ) : ℝ := l.sum / l.length

end Spec

theorem mem_vals {c : Col ℝ} {x : ℝ} : x ∈ vals c ↔ some x ∈ c := by
  unfold vals
  rw [List.mem_filterMap]
  exact ⟨fun ⟨o, ho, e⟩ => by rwa [show o = some x from e] at ho, fun h => ⟨some x, h, rfl⟩⟩

theorem ends_min {c : Col ℝ} {a b : ℝ} (h : Spec.Ends c a b) : (vals c).min? = some a :=
  List.min?_eq_some_iff.2 ⟨mem_vals.2 h.1, fun x hx => (h.2.2 x (mem_vals.1 hx)).1⟩

theorem ends_max {c : Col ℝ} {a b : ℝ} (h : Spec.Ends c a b) : (vals c).max? = some b :=
  List.max?_eq_some_iff.2 ⟨mem_vals.2 h.2.1, fun x hx => (h.2.2 x (mem_vals.1 hx)).2⟩

/-- The difference of two doubles keeps its sign. -/
theorem sub_pos_rd {x y : ℝ} (hx : Rep f64 x) (hy : Rep f64 y) (h : y < x) : 0 < rd (x - y) := by
  have h1 := fl_sub_err f64 hx hy
  have hu : unit f64 = 2 ^ (-53 : ℤ) := AucDbl.unit_eq
  have hd : 0 < x - y := by linarith
  rw [abs_of_pos hd, hu] at h1
  have h2 := (abs_le.1 h1).1
  have : rd (x - y) = fl f64 (x - y) := rfl
  rw [this]
  have h3 : (2 : ℝ) ^ (-53 : ℤ) ≤ 1 / 2 := by norm_num
  have h4 := mul_le_mul_of_nonneg_right h3 hd.le
  generalize (2 : ℝ) ^ (-53 : ℤ) * (x - y) = w at *
  linarith

theorem quot_sub {x a b : ℝ} (hx : Rep f64 x) (ha : Rep f64 a) (hb : Rep f64 b) (hab : a < b) :
    |rd (rd (x - a) / rd (b - a)) - (x - a) / (b - a)| ≤ 2 ^ (-51 : ℤ) * |(x - a) / (b - a)| + 2 ^ (-1075 : ℤ) := by
  have e1 := fl_sub_err f64 hx ha
  have e2 := fl_sub_err f64 hb ha
  have hD := sub_pos_rd hb ha hab
  have e3 := fl_err_mixed f64 (rd (x - a) / rd (b - a))
  rw [AucDbl.unit_eq] at e1 e2 e3
  rw [AucDbl.tiny_eq] at e3
  have hd : 0 < b - a := by linarith
  rw [abs_of_pos hd] at e2
  change |rd (x - a) - (x - a)| ≤ _ at e1
  change |rd (b - a) - (b - a)| ≤ _ at e2
  change |rd (rd (x - a) / rd (b - a)) - rd (x - a) / rd (b - a)| ≤ _ at e3
  generalize rd (x - a) = N at *
  generalize rd (b - a) = D at *
  generalize rd (N / D) = f at *
  generalize x - a = n at *
  generalize b - a = d at *
  have h51 : (2 : ℝ) ^ (-51 : ℤ) = 4 * 2 ^ (-53 : ℤ) := by norm_num
  have hu1 : (2 : ℝ) ^ (-53 : ℤ) ≤ 1 / 8 := by norm_num
  have hu0 : (0 : ℝ) < 2 ^ (-53 : ℤ) := by positivity
  rw [h51]
  generalize (2 : ℝ) ^ (-53 : ℤ) = u at *
  generalize (2 : ℝ) ^ (-1075 : ℤ) = η at *
  have hDl : (1 - u) * d ≤ D := by have := (abs_le.1 e2).1; linarith
  -- the quotient before rounding
  have key : |N / D - n / d| ≤ (2 * u / (1 - u)) * |n / d| := by
    have hnd : |n / d| = |n| / d := by rw [abs_div, abs_of_pos hd]
    have : N / D - n / d = ((N - n) * d + n * (d - D)) / (D * d) := by field_simp; ring
    rw [this, abs_div, abs_of_pos (mul_pos hD hd), hnd, div_le_iff₀ (mul_pos hD hd)]
    have t1 : |(N - n) * d + n * (d - D)| ≤ 2 * u * |n| * d := by
      refine (abs_add_le _ _).trans ?_
      rw [abs_mul, abs_mul, abs_of_pos hd, abs_sub_comm d D]
      have := mul_le_mul_of_nonneg_right e1 hd.le
      have := mul_le_mul_of_nonneg_left e2 (abs_nonneg n)
      linarith
    refine t1.trans ?_
    have h1u : 0 < 1 - u := by linarith
    have : 2 * u / (1 - u) * (|n| / d) * (D * d) = 2 * u * |n| * (D / (1 - u)) := by field_simp
    rw [this]
    apply mul_le_mul_of_nonneg_left _ (by positivity)
    rw [le_div_iff₀ h1u]
    linarith
  have hq := abs_nonneg (n / d)
  have h1u : 0 < 1 - u := by linarith
  have hratio : 2 * u / (1 - u) ≤ 2 * u + 4 * u * u := by
    rw [div_le_iff₀ h1u]
    have : (2 * u + 4 * u * u) * (1 - u) = 2 * u + 2 * (u * u) * (1 - 2 * u) := by ring
    rw [this]
    have : 0 ≤ 2 * (u * u) * (1 - 2 * u) := mul_nonneg (by positivity) (by linarith)
    linarith
  have key' : |N / D - n / d| ≤ (2 * u + 4 * u * u) * |n / d| := key.trans (mul_le_mul_of_nonneg_right hratio hq)
  have hN : |N / D| ≤ |n / d| + (2 * u + 4 * u * u) * |n / d| := by
    have := abs_sub_abs_le_abs_sub (N / D) (n / d)
    linarith
  have tri : |f - n / d| ≤ |f - N / D| + |N / D - n / d| := abs_sub_le _ _ _
  have h5 := mul_le_mul_of_nonneg_left hN hu0.le
  have h6 : u * (2 * u + 4 * u * u) + 4 * u * u ≤ u := by
    have : u - (u * (2 * u + 4 * u * u) + 4 * u * u) = u * (1 - 6 * u - 4 * (u * u)) := by ring
    have h8 : u * u ≤ 1 / 8 * (1 / 8) := mul_le_mul hu1 hu1 hu0.le (by norm_num)
    have : 0 ≤ u * (1 - 6 * u - 4 * (u * u)) := mul_nonneg hu0.le (by linarith)
    linarith
  have h7 := mul_le_mul_of_nonneg_right h6 hq
  nlinarith

/-- **C161a.** Min-max scaling of doubles: with the least value `a` below the greatest value `b` of the training column, the
function that is applied to every column is monotone, maps `a` to exactly 0 and `b` to exactly 1, training values into [0, 1], and every
double to within `2 ^ -51` (relative) of the exact quotient. -/
theorem min_max_double (train c : Col ℝ) (a b : ℝ) (he : Spec.Ends train a b) (hd : Spec.Doubles train) (hab : a < b) :
    ∃ f : ℝ → ℝ, minMax train c = some (c.map (Option.map fun x => .num (f x))) ∧ Monotone f ∧ f a = 0 ∧ f b = 1 ∧
      (∀ x, some x ∈ train → 0 ≤ f x ∧ f x ≤ 1) ∧
      ∀ x, Rep f64 x → |f x - (x - a) / (b - a)| ≤ 2 ^ (-51 : ℤ) * |(x - a) / (b - a)| + 2 ^ (-1075 : ℤ) := by
  have ha := hd a he.1
  have hb := hd b he.2.1
  have hD := sub_pos_rd hb ha hab
  have hmono : Monotone fun x => rd (rd (x - a) / rd (b - a)) := by
    intro x y hxy
    apply rd_mono
    apply div_le_div_of_nonneg_right _ hD.le
    exact rd_mono (by linarith)
  have h0 : rd (rd (a - a) / rd (b - a)) = 0 := by rw [sub_self, rd_zero, zero_div, rd_zero]
  have h1 : rd (rd (b - a) / rd (b - a)) = 1 := by rw [div_self hD.ne', rd_one]
  refine ⟨fun x => rd (rd (x - a) / rd (b - a)), ?_, hmono, h0, h1, ?_, fun x hx => quot_sub hx ha hb hab⟩
  · unfold minMax between
    rw [ends_min he, ends_max he]
    simp only [Option.bind_some, Option.map_some]
    unfold map1 fdiv
    simp only [hD.ne', if_false]
  · intro x hx
    have := he.2.2 x hx
    constructor
    · rw [← h0]; exact hmono this.1
    · rw [← h1]; exact hmono this.2

theorem rep_nat {n : ℕ} (h : n ≤ 2 ^ 53) : Rep f64 n := by
  have := isRep (n : ℝ)
  rwa [rd_nat h] at this

/-- Trained on 1, 2, 4. -/
example : ∃ f : ℝ → ℝ, minMax [some 2, none, some 1, some 4] [some 3] = some ([some 3].map (Option.map fun x => .num (f x))) ∧
    Monotone f ∧ f 1 = 0 ∧ f 4 = 1 ∧ (∀ x, some x ∈ [some 2, none, some 1, some 4] → 0 ≤ f x ∧ f x ≤ 1) ∧
    ∀ x, Rep f64 x → |f x - (x - 1) / (4 - 1)| ≤ 2 ^ (-51 : ℤ) * |(x - 1) / (4 - 1)| + 2 ^ (-1075 : ℤ) := by
  refine min_max_double _ _ 1 4 ⟨by simp, by simp, ?_⟩ ?_ (by norm_num)
  · intro x hx
    simp at hx
    rcases hx with rfl | rfl | rfl <;> norm_num
  · intro x hx
    simp at hx
    rcases hx with rfl | rfl | rfl
    · exact_mod_cast rep_nat (n := 2) (by norm_num)
    · exact_mod_cast rep_nat (n := 1) (by norm_num)
    · exact_mod_cast rep_nat (n := 4) (by norm_num)

/-- **C161b.** Robust scaling with the learned quantiles `a < b` (doubles): the same function, so `a` is mapped to 0, `b` to 1, and the order of
the values is kept. Equal quantiles give NaN for that value, and an infinity on either side of it. -/
theorem robust_double (a b : ℝ) (ha : Rep f64 a) (hb : Rep f64 b) (c : Col ℝ) :
    (a < b → ∃ f : ℝ → ℝ, between a b c = c.map (Option.map fun x => .num (f x)) ∧ Monotone f ∧ f a = 0 ∧ f b = 1 ∧
      ∀ x, Rep f64 x → |f x - (x - a) / (b - a)| ≤ 2 ^ (-51 : ℤ) * |(x - a) / (b - a)| + 2 ^ (-1075 : ℤ)) ∧
    (Spec.Doubles c → a = b → ∀ (i : ℕ) (x : ℝ), c[i]? = some (some x) → (between a b c)[i]? =
      some (some (if x = a then .nan else .inf (decide (a < x))))) := by
  constructor
  · intro hab
    have hD := sub_pos_rd hb ha hab
    refine ⟨fun x => rd (rd (x - a) / rd (b - a)), ?_, ?_, ?_, ?_, fun x hx => quot_sub hx ha hb hab⟩
    · unfold between map1 fdiv
      simp only [hD.ne', if_false]
    · intro x y hxy
      apply rd_mono
      apply div_le_div_of_nonneg_right _ hD.le
      exact rd_mono (by linarith)
    · simp only [sub_self, rd_zero, zero_div]
    · simp only [div_self hD.ne', rd_one]
  · rintro hc rfl i x hi
    have hx := hc x (List.mem_of_getElem? hi)
    unfold between map1
    rw [List.getElem?_map, hi]
    simp only [Option.map_some, Option.some_inj]
    unfold fdiv
    rw [sub_self, rd_zero, if_pos rfl]
    rcases lt_trichotomy x a with h | h | h
    · have : rd (x - a) < 0 := by
        have := sub_pos_rd ha hx h
        have e : rd (x - a) = -rd (a - x) := by rw [← rd_neg, neg_sub]
        linarith
      rw [if_neg this.ne, if_neg h.ne]
      simp [not_lt.2 this.le, not_lt.2 h.le]
    · subst h
      simp [rd_zero]
    · have := sub_pos_rd hx ha h
      rw [if_neg this.ne', if_neg h.ne']
      simp [this, h]

/-- Both quantiles are 2. -/
example : (between 2 2 [some 3, some 2])[1]? = some (some .nan) := by
  have := (robust_double 2 2 (by exact_mod_cast rep_nat (n := 2) (by norm_num))
    (by exact_mod_cast rep_nat (n := 2) (by norm_num)) [some 3, some 2]).2 (by
      intro x hx
      simp at hx
      rcases hx with rfl | rfl
      · exact_mod_cast rep_nat (n := 3) (by norm_num)
      · exact_mod_cast rep_nat (n := 2) (by norm_num)) rfl 1 2 rfl
  simpa using this

/-- **C161c.** Scaling by the largest absolute value `m` of the training column, not 0: the function is monotone, odd, maps training
values into [-1, 1] and reaches 1 or -1, and errs by half a unit of rounding. -/
theorem abs_max_double (train c : Col ℝ) (a b : ℝ) (he : Spec.Ends train a b) (h0 : ∃ x, some x ∈ train ∧ x ≠ 0) :
    ∃ (f : ℝ → ℝ) (m : ℝ), absMax train c = c.map (Option.map fun x => .num (f x)) ∧ Monotone f ∧ (∀ x, f (-x) = -f x) ∧
      (∃ x, some x ∈ train ∧ |x| = m ∧ |f x| = 1) ∧ (∀ x, some x ∈ train → |x| ≤ m ∧ |f x| ≤ 1) ∧
      ∀ x, |f x - x / m| ≤ 2 ^ (-53 : ℤ) * |x / m| + 2 ^ (-1075 : ℤ) := by
  have hle : ∀ x, some x ∈ train → |x| ≤ max |a| |b| := fun x hx =>
    abs_le_max_abs_abs (he.2.2 x hx).1 (he.2.2 x hx).2
  have hpos : 0 < max |a| |b| := by
    obtain ⟨x, hx, hx0⟩ := h0
    exact lt_of_lt_of_le (abs_pos.2 hx0) (hle x hx)
  refine ⟨fun x => rd (x / max |a| |b|), max |a| |b|, ?_, ?_, ?_, ?_, ?_, ?_⟩
  · unfold absMax
    rw [ends_min he, ends_max he]
    simp only
    unfold map1 fdiv
    simp only [hpos.ne', if_false]
  · intro x y hxy
    exact rd_mono (div_le_div_of_nonneg_right hxy hpos.le)
  · intro x
    show rd (-x / _) = -rd (x / _)
    rw [neg_div, rd_neg]
  · have hend : ∀ x, |x| = max |a| |b| → |rd (x / max |a| |b|)| = 1 := by
      intro x hx
      rw [rd_abs, abs_div, abs_of_pos hpos, hx, div_self hpos.ne', rd_one]
    rcases max_choice |a| |b| with hm | hm
    · exact ⟨a, he.1, hm.symm, hend a hm.symm⟩
    · exact ⟨b, he.2.1, hm.symm, hend b hm.symm⟩
  · intro x hx
    refine ⟨hle x hx, ?_⟩
    show |rd (x / max |a| |b|)| ≤ 1
    rw [rd_abs, abs_div, abs_of_pos hpos]
    exact rd_le_one ((div_le_one hpos).2 (hle x hx))
  · intro x
    have := fl_err_mixed f64 (x / max |a| |b|)
    rwa [AucDbl.unit_eq, AucDbl.tiny_eq] at this

/-- Trained on -3 and 2. -/
example : ∃ (f : ℝ → ℝ) (m : ℝ), absMax [some (-3), some 2] [some 1] = [some 1].map (Option.map fun x => .num (f x)) ∧ Monotone f ∧
    (∀ x, f (-x) = -f x) ∧ (∃ x, some x ∈ [some (-3), some (2 : ℝ)] ∧ |x| = m ∧ |f x| = 1) ∧
    (∀ x, some x ∈ [some (-3), some (2 : ℝ)] → |x| ≤ m ∧ |f x| ≤ 1) ∧
    ∀ x, |f x - x / m| ≤ 2 ^ (-53 : ℤ) * |x / m| + 2 ^ (-1075 : ℤ) := by
  refine abs_max_double _ _ (-3) 2 ⟨by simp, by simp, ?_⟩ ⟨2, by simp, by norm_num⟩
  intro x hx
  simp at hx
  rcases hx with rfl | rfl <;> norm_num

/-- **C161.**  Without a training value every scaled value is null. -/
theorem abs_max_no_training (train c : Col ℝ) (h : ∀ x, some x ∉ train) : absMax train c = c.map fun _ => none := by
  have : vals train = [] := by
    rw [List.eq_nil_iff_forall_not_mem]
    intro x hx
    unfold vals at hx
    rw [List.mem_filterMap] at hx
    obtain ⟨y, hy, rfl⟩ := hx
    exact h x hy
  simp [absMax, this]

example : absMax [none, none] [some 1, none] = [none, none] := abs_max_no_training _ _ (by simp)

theorem sum_rep {l : List ℝ} {v : ℝ} (h : IsSum l v) (hl : ∀ x ∈ l, Rep f64 x) : Rep f64 v := by
  induction h with
  | nil => exact AucDbl.rep_zero
  | leaf x => exact hl x (by simp)
  | add _ _ _ _ => exact isRep _
  | perm hp _ ih => exact ih fun x hx => hl x (hp.subset hx)

theorem abs_sum_le (l : List ℝ) : |l.sum| ≤ (l.map fun x => |x|).sum := by
  induction l with
  | nil => simp
  | cons x l ih =>
    rw [List.sum_cons, List.map_cons, List.sum_cons]
    exact (abs_add_le _ _).trans (by linarith)

theorem sumabs_nonneg (l : List ℝ) : 0 ≤ (l.map fun x => |x|).sum := (abs_nonneg _).trans (abs_sum_le l)

/-- Every order of adding is within the same distance of the sum. -/
theorem sum_any_err {l : List ℝ} {v : ℝ} (h : IsSum l v) (hl : ∀ x ∈ l, Rep f64 x) :
    |v - l.sum| ≤ ((1 + unit f64) ^ l.length - 1) * (l.map fun x => |x|).sum := by
  have u0 := (unit_pos f64).le
  induction h with
  | nil => simp
  | leaf x =>
    simp only [List.sum_singleton, sub_self, abs_zero, List.length_singleton, pow_one, List.map_cons, List.map_nil]
    have := mul_nonneg u0 (abs_nonneg x)
    linarith
  | @add l₁ l₂ v₁ v₂ h₁ h₂ ih₁ ih₂ =>
    have hl₁ : ∀ x ∈ l₁, Rep f64 x := fun x hx => hl x (List.mem_append_left _ hx)
    have hl₂ : ∀ x ∈ l₂, Rep f64 x := fun x hx => hl x (List.mem_append_right _ hx)
    have ih₁ := ih₁ hl₁
    have ih₂ := ih₂ hl₂
    have r₁ := sum_rep h₁ hl₁
    have r₂ := sum_rep h₂ hl₂
    rcases Nat.eq_zero_or_pos l₁.length with z | p₁
    · have e := List.length_eq_zero_iff.1 z
      subst e
      have : v₁ = 0 := by simpa using ih₁
      subst this
      rw [zero_add, show rd v₂ = v₂ from fl_rep f64 r₂, List.nil_append]
      exact ih₂
    rcases Nat.eq_zero_or_pos l₂.length with z | p₂
    · have e := List.length_eq_zero_iff.1 z
      subst e
      have : v₂ = 0 := by simpa using ih₂
      subst this
      rw [add_zero, show rd v₁ = v₁ from fl_rep f64 r₁, List.append_nil]
      exact ih₁
    have hr := fl_add_err f64 r₁ r₂
    have s₁ := AucDbl.step_err (n := l₁.length) (m := (l₁ ++ l₂).length) (e := |v₁ - l₁.sum|) (η := 0) u0 le_rfl (sumabs_nonneg l₁)
      (by rw [List.length_append]; omega) (by simpa using ih₁)
    have s₂ := AucDbl.step_err (n := l₂.length) (m := (l₁ ++ l₂).length) (e := |v₂ - l₂.sum|) (η := 0) u0 le_rfl (sumabs_nonneg l₂)
      (by rw [List.length_append]; omega) (by simpa using ih₂)
    simp only [mul_zero, add_zero] at s₁ s₂
    have a₁ := abs_sum_le l₁
    have a₂ := abs_sum_le l₂
    rw [List.sum_append, List.map_append, List.sum_append]
    have t1 : |rd (v₁ + v₂) - (l₁.sum + l₂.sum)| ≤ |fl f64 (v₁ + v₂) - (v₁ + v₂)| + (|v₁ - l₁.sum| + |v₂ - l₂.sum|) := by
      have : rd (v₁ + v₂) - (l₁.sum + l₂.sum) = (fl f64 (v₁ + v₂) - (v₁ + v₂)) + ((v₁ - l₁.sum) + (v₂ - l₂.sum)) := by
        show fl f64 (v₁ + v₂) - _ = _
        ring
      rw [this]
      exact (abs_add_le _ _).trans (by linarith [abs_add_le (v₁ - l₁.sum) (v₂ - l₂.sum)])
    have t2 : |v₁ + v₂| ≤ (|v₁ - l₁.sum| + (l₁.map fun x => |x|).sum) + (|v₂ - l₂.sum| + (l₂.map fun x => |x|).sum) := by
      have : v₁ + v₂ = (v₁ - l₁.sum) + l₁.sum + ((v₂ - l₂.sum) + l₂.sum) := by ring
      rw [this]
      refine (abs_add_le _ _).trans ?_
      have := abs_add_le (v₁ - l₁.sum) l₁.sum
      have := abs_add_le (v₂ - l₂.sum) l₂.sum
      linarith
    have t3 := mul_le_mul_of_nonneg_left t2 u0
    linarith
  | @perm l₁ l₂ v hp h ih =>
    rw [← hp.sum_eq, ← (hp.map _).sum_eq, ← hp.length_eq]
    exact ih fun x hx => hl x (hp.subset hx)

theorem sum_exists : ∀ l : List ℝ, ∃ v, IsSum l v
  | [] => ⟨0, .nil⟩
  | x :: l => by
    obtain ⟨v, hv⟩ := sum_exists l
    exact ⟨rd (x + v), .add (.leaf x) hv⟩

theorem sumabs_le {l : List ℝ} {A : ℝ} (h : ∀ x ∈ l, |x| ≤ A) : (l.map fun x => |x|).sum ≤ l.length * A := by
  induction l with
  | nil => simp
  | cons x l ih =>
    rw [List.map_cons, List.sum_cons, List.length_cons]
    push_cast
    have := h x (by simp)
    have := ih fun y hy => h y (by simp [hy])
    linarith

/-- The mean, in any order of adding. -/
theorem mean_err {l : List ℝ} {m A : ℝ} (h : IsMean l m) (hl : ∀ x ∈ l, Rep f64 x) (hA : ∀ x ∈ l, |x| ≤ A) (hne : l ≠ [])
    (hn : l.length ≤ 2 ^ 32) :
    |m - Spec.mean l| ≤ (2 * l.length + 2) * 2 ^ (-53 : ℤ) * A + 2 ^ (-1075 : ℤ) := by
  obtain ⟨s, hs, rfl⟩ := h
  have e1 := sum_any_err hs hl
  have hnpos : 0 < l.length := List.length_pos_of_ne_nil hne
  have hn0 : (0 : ℝ) < l.length := by exact_mod_cast hnpos
  have hn32 : (l.length : ℝ) ≤ 2 ^ 32 := by exact_mod_cast hn
  have hA0 : 0 ≤ A := by
    obtain ⟨x, hx⟩ := List.exists_mem_of_ne_nil l hne
    exact (abs_nonneg x).trans (hA x hx)
  have hS := sumabs_le hA
  have hu := AucDbl.unit_eq
  rw [hu] at e1
  have hu0 : (0 : ℝ) < 2 ^ (-53 : ℤ) := by positivity
  have hun : 2 * (l.length : ℝ) * 2 ^ (-53 : ℤ) ≤ 1 / 2 := by
    have : 2 * (l.length : ℝ) * 2 ^ (-53 : ℤ) ≤ 2 * 2 ^ 32 * 2 ^ (-53 : ℤ) := by
      apply mul_le_mul_of_nonneg_right _ hu0.le
      linarith
    refine this.trans ?_
    norm_num
  have hp := AucDbl.pow_bound hu0.le l.length (hun.trans (by norm_num))
  have e3 := fl_err_mixed f64 (s / l.length)
  rw [hu, AucDbl.tiny_eq] at e3
  change |rd (s / l.length) - s / l.length| ≤ _ at e3
  unfold Spec.mean
  generalize rd (s / l.length) = m at *
  generalize (2 : ℝ) ^ (-53 : ℤ) = u at *
  generalize (2 : ℝ) ^ (-1075 : ℤ) = η at *
  have hS0 := sumabs_nonneg l
  have a1 := abs_sum_le l
  generalize (l.map fun x => |x|).sum = S at *
  generalize l.sum = T at *
  generalize (1 + u) ^ l.length = q at *
  generalize (l.length : ℝ) = n at *
  have e2 : |s - T| ≤ 2 * n * u * (n * A) := by
    refine e1.trans ?_
    have : (q - 1) * S ≤ (2 * n * u) * S := mul_le_mul_of_nonneg_right (by linarith) hS0
    refine this.trans ?_
    exact mul_le_mul_of_nonneg_left hS (by positivity)
  have e4 : |s / n - T / n| ≤ 2 * n * u * A := by
    rw [← sub_div, abs_div, abs_of_pos hn0, div_le_iff₀ hn0]
    linarith
  have e5 : |T / n| ≤ A := by
    rw [abs_div, abs_of_pos hn0, div_le_iff₀ hn0]
    linarith
  have e6 : |s / n| ≤ A + 2 * n * u * A := by
    have := abs_sub_abs_le_abs_sub (s / n) (T / n)
    linarith
  have tri : |m - T / n| ≤ |m - s / n| + |s / n - T / n| := abs_sub_le _ _ _
  have h7 := mul_le_mul_of_nonneg_left e6 hu0.le
  have h8 : u * (A + 2 * n * u * A) ≤ u * (2 * A) := by
    apply mul_le_mul_of_nonneg_left _ hu0.le
    have : 2 * n * u * A ≤ 1 / 2 * A := mul_le_mul_of_nonneg_right hun hA0
    linarith
  linarith

/-- **C161d.** Centring doubles of size at most `A`, whatever the order of adding in the mean of `n` values: it is applied
to every column by one monotone function, whose result is within `(n + 3) 2^-52 A + 2^-1074` of the difference from the mean of the
training column for values of size at most `A`. In particular the centred training column has a mean of at most that. -/
theorem center_double (train : Col ℝ) (hd : Spec.Doubles train) (A : ℝ) (hA : ∀ x, some x ∈ train → |x| ≤ A)
    (hne : train.filterMap id ≠ []) (hn : (train.filterMap id).length ≤ 2 ^ 32) :
    (∀ c, ∃ out, IsCenter train c out) ∧
    ∀ c out, IsCenter train c out → ∃ f : ℝ → ℝ, out = c.map (Option.map f) ∧ Monotone f ∧
      (∀ x, Rep f64 x → |x| ≤ A → |f x - (x - Spec.mean (train.filterMap id))| ≤
        ((train.filterMap id).length + 3) * 2 ^ (-52 : ℤ) * A + 2 ^ (-1074 : ℤ)) ∧
      |Spec.mean ((train.filterMap id).map f)| ≤ ((train.filterMap id).length + 3) * 2 ^ (-52 : ℤ) * A + 2 ^ (-1074 : ℤ) := by
  have hv : vals train = train.filterMap id := rfl
  refine ⟨fun c => ?_, fun c out h => ?_⟩
  · unfold IsCenter
    simp only [hv, if_neg hne]
    obtain ⟨s, hs⟩ := sum_exists (train.filterMap id)
    exact ⟨_, _, ⟨s, hs, rfl⟩, rfl⟩
  · unfold IsCenter at h
    rw [hv, if_neg hne] at h
    obtain ⟨m, hm, rfl⟩ := h
    have hrep : ∀ x ∈ train.filterMap id, Rep f64 x := fun x hx => hd x (mem_vals.1 hx)
    have hbound : ∀ x ∈ train.filterMap id, |x| ≤ A := fun x hx => hA x (mem_vals.1 hx)
    have e1 := mean_err hm hrep hbound hne hn
    have hmrep : Rep f64 m := by
      obtain ⟨s, -, rfl⟩ := hm
      exact isRep _
    have key : ∀ x, Rep f64 x → |x| ≤ A → |rd (x - m) - (x - Spec.mean (train.filterMap id))| ≤
        ((train.filterMap id).length + 3) * 2 ^ (-52 : ℤ) * A + 2 ^ (-1074 : ℤ) := by
      intro x hx hxA
      have e2 := fl_sub_err f64 hx hmrep
      rw [AucDbl.unit_eq] at e2
      change |rd (x - m) - (x - m)| ≤ _ at e2
      have hA0 : 0 ≤ A := (abs_nonneg x).trans hxA
      have hmean : |Spec.mean (train.filterMap id)| ≤ A := by
        unfold Spec.mean
        have hn0 : (0 : ℝ) < (train.filterMap id).length := by exact_mod_cast List.length_pos_of_ne_nil hne
        rw [abs_div, abs_of_pos hn0, div_le_iff₀ hn0]
        exact (abs_sum_le _).trans (by linarith [sumabs_le hbound])
      have hn32 : ((train.filterMap id).length : ℝ) ≤ 2 ^ 32 := by exact_mod_cast hn
      have hu0 : (0 : ℝ) < 2 ^ (-53 : ℤ) := by positivity
      have hη0 : (0 : ℝ) < 2 ^ (-1075 : ℤ) := by positivity
      have hun : (2 * ((train.filterMap id).length : ℝ) + 2) * 2 ^ (-53 : ℤ) ≤ 1 := by
        have : (2 * ((train.filterMap id).length : ℝ) + 2) * 2 ^ (-53 : ℤ) ≤ (2 * 2 ^ 32 + 2) * 2 ^ (-53 : ℤ) := by
          apply mul_le_mul_of_nonneg_right _ hu0.le
          linarith
        refine this.trans ?_
        norm_num
      have h52 : (2 : ℝ) ^ (-52 : ℤ) = 2 * 2 ^ (-53 : ℤ) := by norm_num
      have h1074 : (2 : ℝ) ^ (-1074 : ℤ) = 2 * 2 ^ (-1075 : ℤ) := by
        rw [← zpow_one_add₀ two_ne_zero]; norm_num
      have hu1 : (2 : ℝ) ^ (-53 : ℤ) ≤ 1 := by norm_num
      rw [h52, h1074]
      generalize Spec.mean (train.filterMap id) = M at *
      generalize ((train.filterMap id).length : ℝ) = n at *
      generalize rd (x - m) = f at *
      generalize (2 : ℝ) ^ (-53 : ℤ) = u at *
      generalize (2 : ℝ) ^ (-1075 : ℤ) = η at *
      have t1 : |x - m| ≤ 2 * A + ((2 * n + 2) * u * A + η) := by
        have : x - m = x - M - (m - M) := by ring
        rw [this]
        have := abs_sub (x - M) (m - M)
        have := abs_sub x M
        linarith
      have t2 : |f - (x - M)| ≤ |f - (x - m)| + |m - M| := by
        have : f - (x - M) = (f - (x - m)) - (m - M) := by ring
        rw [this]
        exact abs_sub _ _
      have t3 := mul_le_mul_of_nonneg_left t1 hu0.le
      have t4 : (2 * n + 2) * u * A ≤ 1 * A := mul_le_mul_of_nonneg_right hun hA0
      have t5 := mul_le_mul_of_nonneg_left t4 hu0.le
      have t6 : u * η ≤ 1 * η := mul_le_mul_of_nonneg_right hu1 hη0.le
      have t7 : 0 ≤ u * A := by positivity
      nlinarith
    refine ⟨fun x => rd (x - m), rfl, fun x y hxy => rd_mono (by linarith), key, ?_⟩
    have hn0 : (0 : ℝ) < (train.filterMap id).length := by exact_mod_cast List.length_pos_of_ne_nil hne
    have hgen : ∀ (l : List ℝ) (B M : ℝ), (∀ x ∈ l, |rd (x - m) - (x - M)| ≤ B) →
        |(l.map fun x => rd (x - m)).sum - (l.sum - l.length * M)| ≤ l.length * B := by
      intro l B M hl
      induction l with
      | nil => simp
      | cons x l ih =>
        have h1 := hl x (by simp)
        have h2 := ih fun y hy => hl y (by simp [hy])
        rw [List.map_cons, List.sum_cons, List.sum_cons, List.length_cons]
        push_cast
        have : rd (x - m) + (l.map fun x => rd (x - m)).sum - (x + l.sum - (l.length + 1) * M) =
            (rd (x - m) - (x - M)) + ((l.map fun x => rd (x - m)).sum - (l.sum - l.length * M)) := by ring
        rw [this]
        exact (abs_add_le _ _).trans (by linarith)
    have h3 := hgen (train.filterMap id) _ _ fun x hx => key x (hrep x hx) (hbound x hx)
    have h4 : (train.filterMap id).sum - (train.filterMap id).length * Spec.mean (train.filterMap id) = 0 := by
      unfold Spec.mean
      field_simp
      ring
    rw [h4, sub_zero] at h3
    rw [show Spec.mean ((train.filterMap id).map fun x => rd (x - m)) =
      ((train.filterMap id).map fun x => rd (x - m)).sum / (train.filterMap id).length from by
        unfold Spec.mean; rw [List.length_map]]
    rw [abs_div, abs_of_pos hn0, div_le_iff₀ hn0]
    linarith

/-- Three values. -/
example : ∃ out, IsCenter [some 1, none, some 2, some 4] [some 2] out :=
  (center_double [some 1, none, some 2, some 4] (by
    intro x hx
    simp at hx
    rcases hx with rfl | rfl | rfl
    · exact_mod_cast rep_nat (n := 1) (by norm_num)
    · exact_mod_cast rep_nat (n := 2) (by norm_num)
    · exact_mod_cast rep_nat (n := 4) (by norm_num)) 4 (by
    intro x hx
    simp at hx
    rcases hx with rfl | rfl | rfl <;> norm_num) (by simp) (by simp)).1 [some 2]

/-- **C161e.** Standard scaling with the learned mean `m` and standard deviation `s`, both doubles. With `s > 0`: a monotone function with the
sign of `x - m`, within two and a half units of the exact quotient. With `s = 0` a value is NaN only if it equals `m`; others
become infinite. -/
theorem standard_double (m s : ℝ) (hm : Rep f64 m) (c : Col ℝ) :
    (0 < s → ∃ f : ℝ → ℝ, standard m s c = c.map (Option.map fun x => .num (f x)) ∧ Monotone f ∧ f m = 0 ∧
      ∀ x, Rep f64 x → |f x - (x - m) / s| ≤ 3 * 2 ^ (-53 : ℤ) * |(x - m) / s| + 2 ^ (-1075 : ℤ)) ∧
    (Spec.Doubles c → s = 0 → ∀ (i : ℕ) (x : ℝ), c[i]? = some (some x) → (standard m s c)[i]? =
      some (some (if x = m then .nan else .inf (decide (m < x))))) := by
  constructor
  · intro hs
    refine ⟨fun x => rd (rd (x - m) / s), ?_, ?_, ?_, ?_⟩
    · unfold standard map1 fdiv
      simp only [hs.ne', if_false]
    · intro x y hxy
      exact rd_mono (div_le_div_of_nonneg_right (rd_mono (by linarith)) hs.le)
    · simp only [sub_self, rd_zero, zero_div]
    · intro x hx
      have e1 := fl_sub_err f64 hx hm
      have e3 := fl_err_mixed f64 (rd (x - m) / s)
      rw [AucDbl.unit_eq] at e1 e3
      rw [AucDbl.tiny_eq] at e3
      change |rd (x - m) - (x - m)| ≤ _ at e1
      change |rd (rd (x - m) / s) - rd (x - m) / s| ≤ _ at e3
      show |rd (rd (x - m) / s) - (x - m) / s| ≤ _
      generalize rd (x - m) = N at *
      generalize rd (N / s) = f at *
      generalize x - m = n at *
      have hu1 : (2 : ℝ) ^ (-53 : ℤ) ≤ 1 := by norm_num
      have hu0 : (0 : ℝ) < 2 ^ (-53 : ℤ) := by positivity
      generalize (2 : ℝ) ^ (-53 : ℤ) = u at *
      generalize (2 : ℝ) ^ (-1075 : ℤ) = η at *
      have h1 : |N / s - n / s| ≤ u * |n / s| := by
        rw [← sub_div, abs_div, abs_div, abs_of_pos hs, mul_div_assoc']
        exact div_le_div_of_nonneg_right e1 hs.le
      have hq := abs_nonneg (n / s)
      have h2 : |N / s| ≤ |n / s| + u * |n / s| := by
        have := abs_sub_abs_le_abs_sub (N / s) (n / s)
        linarith
      have h3 := mul_le_mul_of_nonneg_left h2 hu0.le
      have tri : |f - n / s| ≤ |f - N / s| + |N / s - n / s| := abs_sub_le _ _ _
      have h4 : u * (u * |n / s|) ≤ u * (1 * |n / s|) :=
        mul_le_mul_of_nonneg_left (mul_le_mul_of_nonneg_right hu1 hq) hu0.le
      linarith
  · rintro hc rfl i x hi
    have hx := hc x (List.mem_of_getElem? hi)
    unfold standard map1
    rw [List.getElem?_map, hi]
    simp only [Option.map_some, Option.some_inj]
    unfold fdiv
    rw [if_pos rfl]
    rcases lt_trichotomy x m with h | h | h
    · have : rd (x - m) < 0 := by
        have := sub_pos_rd hm hx h
        have e : rd (x - m) = -rd (m - x) := by rw [← rd_neg, neg_sub]
        linarith
      rw [if_neg this.ne, if_neg h.ne]
      simp [not_lt.2 this.le, not_lt.2 h.le]
    · subst h
      simp [rd_zero]
    · have := sub_pos_rd hx hm h
      rw [if_neg this.ne', if_neg h.ne']
      simp [this, h]

/-- Standard deviation 0 and a mean above the value. -/
example : (standard 2 0 [some 1])[0]? = some (some (.inf false)) := by
  have := (standard_double 2 0 (by exact_mod_cast rep_nat (n := 2) (by norm_num)) [some 1]).2 (by
    intro x hx
    simp at hx
    subst hx
    exact_mod_cast rep_nat (n := 1) (by norm_num)) rfl 0 1 rfl
  norm_num at this
  simpa using this

/-- What every order of adding gives for up to three equal values 7000000000000006. -/
theorem three_sum {l : List ℝ} {v : ℝ} (h : IsSum l v) (hl : ∀ x ∈ l, x = 7000000000000006) (hn : l.length ≤ 3) :
    (l.length = 0 → v = 0) ∧ (l.length = 1 → v = 7000000000000006) ∧ (l.length = 2 → v = 14000000000000012) ∧
      (l.length = 3 → v = 21000000000000016) := by
  induction h with
  | nil => simp
  | leaf x => simpa using hl x (by simp)
  | @add l₁ l₂ v₁ v₂ h₁ h₂ ih₁ ih₂ =>
    rw [List.length_append] at hn ⊢
    have ih₁ := ih₁ (fun x hx => hl x (List.mem_append_left _ hx)) (by omega)
    have ih₂ := ih₂ (fun x hx => hl x (List.mem_append_right _ hx)) (by omega)
    have d0 : rd 0 = 0 := rd_zero
    have r1 : Rep f64 (7000000000000006 : ℝ) := by exact_mod_cast rep_nat (n := 7000000000000006) (by norm_num)
    have d1 : rd 7000000000000006 = 7000000000000006 := fl_rep f64 r1
    have d2 : rd 14000000000000012 = 14000000000000012 := by
      have := rd_two_mul r1
      norm_num at this
      exact this
    have d3 : rd 21000000000000018 = 21000000000000016 := by
      rw [AucDbl.rd_tie 2 5250000000000004 (by norm_num) (by norm_num) (by norm_num) (by norm_num) (by decide)]
      norm_num
    have d4 : rd 21000000000000016 = 21000000000000016 := by
      rw [← d3]
      exact rd_idem _
    obtain ⟨a0, a1, a2, a3⟩ := ih₁
    obtain ⟨b0, b1, b2, b3⟩ := ih₂
    refine ⟨fun h => ?_, fun h => ?_, fun h => ?_, fun h => ?_⟩
    · rw [a0 (by omega), b0 (by omega), add_zero, d0]
    · rcases (by omega : l₁.length = 0 ∧ l₂.length = 1 ∨ l₁.length = 1 ∧ l₂.length = 0) with ⟨e, f⟩ | ⟨e, f⟩
      · rw [a0 e, b1 f, zero_add, d1]
      · rw [a1 e, b0 f, add_zero, d1]
    · rcases (by omega : l₁.length = 0 ∧ l₂.length = 2 ∨ l₁.length = 1 ∧ l₂.length = 1 ∨ l₁.length = 2 ∧ l₂.length = 0) with
        ⟨e, f⟩ | ⟨e, f⟩ | ⟨e, f⟩
      · rw [a0 e, b2 f, zero_add, d2]
      · rw [a1 e, b1 f]; norm_num; exact d2
      · rw [a2 e, b0 f, add_zero, d2]
    · rcases (by omega : l₁.length = 0 ∧ l₂.length = 3 ∨ l₁.length = 1 ∧ l₂.length = 2 ∨ l₁.length = 2 ∧ l₂.length = 1 ∨
        l₁.length = 3 ∧ l₂.length = 0) with ⟨e, f⟩ | ⟨e, f⟩ | ⟨e, f⟩ | ⟨e, f⟩
      · rw [a0 e, b3 f, zero_add, d4]
      · rw [a1 e, b2 f]; norm_num; exact d3
      · rw [a2 e, b1 f]; norm_num; exact d3
      · rw [a3 e, b0 f, add_zero, d4]
  | @perm l₁ l₂ v hp h ih =>
    rw [← hp.length_eq] at hn ⊢
    exact ih (fun x hx => hl x (hp.subset hx)) hn

/-- **C161f.** A constant column is not always centred to 0: three equal values 7000000000000006 (a double) have a mean one lower, in every
order of adding, so that centring gives 1 for every row; and with a standard deviation of 0 standard scaling gives an
infinity, not NaN. -/
theorem center_const (out : Col ℝ)
    (h : IsCenter [some 7000000000000006, some 7000000000000006, some 7000000000000006]
      [some 7000000000000006, some 7000000000000006, some 7000000000000006] out) :
    out = [some 1, some 1, some 1] ∧
    ∀ m, IsMean [7000000000000006, 7000000000000006, 7000000000000006] m → m = 7000000000000005 ∧
      standard m 0 [some 7000000000000006] = [some (.inf true)] := by
  have hm : ∀ m, IsMean [7000000000000006, 7000000000000006, 7000000000000006] m → m = 7000000000000005 := by
    rintro m ⟨s, hs, rfl⟩
    rw [(three_sum hs (by simp) (by simp)).2.2.2 rfl]
    rw [rd_at 0 7000000000000005 (by norm_num) (by norm_num) (by norm_num) (by norm_num [abs_lt])]
    norm_num
  have hd : rd (7000000000000006 - 7000000000000005) = 1 := by
    norm_num
    exact rd_one
  constructor
  · unfold IsCenter at h
    rw [if_neg (by simp [vals])] at h
    obtain ⟨m, hm', rfl⟩ := h
    rw [hm m hm']
    simp only [map1, List.map_cons, List.map_nil, Option.map_some, hd]
  · intro m h'
    have e := hm m h'
    refine ⟨e, ?_⟩
    subst e
    simp only [standard, map1, List.map_cons, List.map_nil, Option.map_some, hd, fdiv]
    norm_num

/-- There is such a mean. -/
example : ∃ out, IsCenter [some 7000000000000006, some 7000000000000006, some 7000000000000006]
      [some 7000000000000006, some 7000000000000006, some 7000000000000006] out := by
  unfold IsCenter
  simp only [vals, List.filterMap_cons_some (f := id) rfl, List.filterMap_nil, reduceCtorEq, if_false]
  obtain ⟨s, hs⟩ := sum_exists [7000000000000006, 7000000000000006, 7000000000000006]
  exact ⟨_, _, ⟨s, hs, rfl⟩, rfl⟩

end Verif.ScaleDbl
