import Verif.Model.LossDbl
import Verif.Props.ScaleDbl

/-! # Sums of rounded non-negative terms -/

namespace Verif.LossDbl
open Verif Verif.Ieee Verif.Ieee.Spec Verif.ConfDbl Verif.ScaleDbl
open Verif.FloatBits (f64)
open Verif.Doubles (rd)

variable {α : Type}

theorem rd_rep {x : ℝ} (h : Rep f64 x) : rd x = x := fl_rep f64 h

theorem sum_nonneg' {l : List ℝ} {v : ℝ} (h : IsSum l v) (h0 : ∀ x ∈ l, 0 ≤ x) : 0 ≤ v := by
  induction h with
  | nil => exact le_rfl
  | leaf x => exact h0 x (by simp)
  | add _ _ ih₁ ih₂ =>
    exact Doubles.rd_nonneg (add_nonneg (ih₁ fun x hx => h0 x (List.mem_append_left _ hx))
      (ih₂ fun x hx => h0 x (List.mem_append_right _ hx)))
  | perm hp _ ih => exact ih fun x hx => h0 x (hp.subset hx)

theorem sum_ge {l : List ℝ} {v : ℝ} (h : IsSum l v) (h0 : ∀ x ∈ l, 0 ≤ x) (hr : ∀ x ∈ l, Rep f64 x) : ∀ x ∈ l, x ≤ v := by
  induction h with
  | nil => simp
  | leaf x => simp
  | @add l₁ l₂ v₁ v₂ h₁ h₂ ih₁ ih₂ =>
    have a₁ : ∀ x ∈ l₁, 0 ≤ x := fun x hx => h0 x (List.mem_append_left _ hx)
    have a₂ : ∀ x ∈ l₂, 0 ≤ x := fun x hx => h0 x (List.mem_append_right _ hx)
    have b₁ : ∀ x ∈ l₁, Rep f64 x := fun x hx => hr x (List.mem_append_left _ hx)
    have b₂ : ∀ x ∈ l₂, Rep f64 x := fun x hx => hr x (List.mem_append_right _ hx)
    have n₁ := sum_nonneg' h₁ a₁
    have n₂ := sum_nonneg' h₂ a₂
    have c₁ : v₁ ≤ rd (v₁ + v₂) := by
      conv_lhs => rw [← rd_rep (sum_rep h₁ b₁)]
      exact Doubles.rd_mono (by linarith)
    have c₂ : v₂ ≤ rd (v₁ + v₂) := by
      conv_lhs => rw [← rd_rep (sum_rep h₂ b₂)]
      exact Doubles.rd_mono (by linarith)
    intro x hx
    rcases List.mem_append.1 hx with hx | hx
    · exact (ih₁ a₁ b₁ x hx).trans c₁
    · exact (ih₂ a₂ b₂ x hx).trans c₂
  | perm hp _ ih => exact fun x hx => ih (fun y hy => h0 y (hp.subset hy)) (fun y hy => hr y (hp.subset hy)) x (hp.symm.subset hx)

theorem sum_le_length {l : List ℝ} {v : ℝ} (h : IsSum l v) (h1 : ∀ x ∈ l, x ≤ 1) (hn : l.length ≤ 2 ^ 53) : v ≤ l.length := by
  induction h with
  | nil => simp
  | leaf x => simpa using h1 x (by simp)
  | @add l₁ l₂ v₁ v₂ h₁ h₂ ih₁ ih₂ =>
    have hn' := hn
    rw [List.length_append] at hn'
    have a₁ := ih₁ (fun x hx => h1 x (List.mem_append_left _ hx)) (by omega)
    have a₂ := ih₂ (fun x hx => h1 x (List.mem_append_right _ hx)) (by omega)
    rw [← Doubles.rd_nat hn]
    apply Doubles.rd_mono
    rw [List.length_append]
    push_cast
    linarith
  | perm hp _ ih =>
    rw [← hp.length_eq] at hn ⊢
    exact ih (fun x hx => h1 x (hp.subset hx)) hn

theorem sum_int {l : List ℝ} {v : ℝ} (h : IsSum l v) (hz : ∀ x ∈ l, ∃ z : ℤ, x = z) (hb : (l.map fun x => |x|).sum ≤ 2 ^ 53) :
    v = l.sum ∧ ∃ z : ℤ, v = z := by
  induction h with
  | nil => exact ⟨by simp, 0, by simp⟩
  | leaf x =>
    obtain ⟨z, h⟩ := hz x (by simp)
    exact ⟨by simp, z, h⟩
  | @add l₁ l₂ v₁ v₂ h₁ h₂ ih₁ ih₂ =>
    rw [List.map_append, List.sum_append] at hb
    have n₁ := sumabs_nonneg l₁
    have n₂ := sumabs_nonneg l₂
    obtain ⟨e₁, z₁, f₁⟩ := ih₁ (fun x hx => hz x (List.mem_append_left _ hx)) (by linarith)
    obtain ⟨e₂, z₂, f₂⟩ := ih₂ (fun x hx => hz x (List.mem_append_right _ hx)) (by linarith)
    have hs : |v₁ + v₂| ≤ 2 ^ 53 := by
      have a := abs_sum_le l₁
      have b := abs_sum_le l₂
      rw [← e₁] at a
      rw [← e₂] at b
      exact (abs_add_le _ _).trans (by linarith)
    have hv : rd (v₁ + v₂) = v₁ + v₂ := by
      rw [f₁, f₂, ← Int.cast_add] at hs ⊢
      exact Doubles.rd_int (by exact_mod_cast hs)
    refine ⟨by rw [hv, e₁, e₂, List.sum_append], z₁ + z₂, ?_⟩
    rw [hv, f₁, f₂]
    push_cast
    rfl
  | @perm l₁ l₂ v hp h ih =>
    rw [← (hp.map _).sum_eq] at hb
    rw [← hp.sum_eq]
    exact ih (fun x hx => hz x (hp.subset hx)) hb

theorem sum_diff (f g : α → ℝ) {e η : ℝ} : ∀ l : List α, (∀ a ∈ l, |f a - g a| ≤ e * g a + η) →
    |(l.map f).sum - (l.map g).sum| ≤ e * (l.map g).sum + l.length * η
  | [], _ => by simp
  | a :: l, h => by
    have ih := sum_diff f g l fun x hx => h x (by simp [hx])
    have h1 := h a (by simp)
    simp only [List.map_cons, List.sum_cons, List.length_cons]
    rw [add_sub_add_comm]
    refine (abs_add_le _ _).trans ?_
    push_cast
    linarith

/-- A sum of rounded terms, in any order. -/
theorem sum_close (f g : α → ℝ) {c η : ℝ} (hc : 0 ≤ c) (hc8 : c ≤ 8) (hη : 0 ≤ η) (l : List α) (hn : l.length ≤ 2 ^ 32)
    (hr : ∀ a ∈ l, Rep f64 (f a)) (h0 : ∀ a ∈ l, 0 ≤ f a) (g0 : ∀ a ∈ l, 0 ≤ g a)
    (h : ∀ a ∈ l, |f a - g a| ≤ c * 2 ^ (-53 : ℤ) * g a + η) {v : ℝ} (hv : IsSum (l.map f) v) :
    |v - (l.map g).sum| ≤ (2 * l.length + 1 + c) * 2 ^ (-53 : ℤ) * (l.map g).sum + 2 * l.length * η := by
  have e1 := sum_any_err hv (by
    intro x hx
    obtain ⟨a, ha, rfl⟩ := List.mem_map.1 hx
    exact hr a ha)
  have e2 := sum_diff f g l h
  have hG : 0 ≤ (l.map g).sum := List.sum_nonneg (by
    intro x hx
    obtain ⟨a, ha, rfl⟩ := List.mem_map.1 hx
    exact g0 a ha)
  have habs : ((l.map f).map fun x => |x|).sum = (l.map f).sum := by
    rw [List.map_map]
    congr 1
    exact List.map_congr_left fun a ha => abs_of_nonneg (h0 a ha)
  rw [habs, List.length_map, AucDbl.unit_eq] at e1
  have hu0 : (0 : ℝ) < 2 ^ (-53 : ℤ) := by positivity
  have hn32 : (l.length : ℝ) ≤ 2 ^ 32 := by exact_mod_cast hn
  have hun : (l.length : ℝ) * 2 ^ (-53 : ℤ) ≤ 1 / 64 := by
    have : (l.length : ℝ) * 2 ^ (-53 : ℤ) ≤ 2 ^ 32 * 2 ^ (-53 : ℤ) := mul_le_mul_of_nonneg_right hn32 hu0.le
    refine this.trans ?_
    norm_num
  have hp := AucDbl.pow_bound hu0.le l.length (by rw [mul_assoc]; generalize (l.length : ℝ) * 2 ^ (-53 : ℤ) = w at *; linarith)
  have hn0 : (0 : ℝ) ≤ l.length := Nat.cast_nonneg _
  have hF : 0 ≤ (l.map f).sum := List.sum_nonneg (by
    intro x hx
    obtain ⟨a, ha, rfl⟩ := List.mem_map.1 hx
    exact h0 a ha)
  generalize (2 : ℝ) ^ (-53 : ℤ) = u at *
  generalize (l.map f).sum = F at *
  generalize (l.map g).sum = G at *
  generalize (1 + u) ^ l.length = q at *
  generalize (l.length : ℝ) = n at *
  have e3 : |v - F| ≤ 2 * n * u * F := e1.trans (mul_le_mul_of_nonneg_right (by linarith) hF)
  have e4 : F ≤ G + (c * u * G + n * η) := by linarith [(abs_le.1 e2).2]
  have tri : |v - G| ≤ |v - F| + |F - G| := abs_sub_le _ _ _
  have e5 : 2 * n * u * F ≤ 2 * n * u * (G + (c * u * G + n * η)) := mul_le_mul_of_nonneg_left e4 (by positivity)
  have e6 : n * u * (c * (u * G)) ≤ 1 / 64 * (c * (u * G)) := mul_le_mul_of_nonneg_right hun (by positivity)
  have e7 : c * (u * G) ≤ 8 * (u * G) := mul_le_mul_of_nonneg_right hc8 (by positivity)
  have e8 : n * u * (n * η) ≤ 1 / 64 * (n * η) := mul_le_mul_of_nonneg_right hun (by positivity)
  have e9 : 0 ≤ n * η := by positivity
  have e10 : 0 ≤ u * G := by positivity
  nlinarith

/-- Dividing such a sum by a count. -/
theorem quot_close {v G n N c η : ℝ} (hG : 0 ≤ G) (hN : 1 ≤ N) (hnN : n ≤ N) (hn : n ≤ 2 ^ 32) (hc8 : c ≤ 8) (hη : 0 ≤ η)
    (h : |v - G| ≤ (2 * n + 1 + c) * 2 ^ (-53 : ℤ) * G + 2 * n * η) :
    |rd (v / N) - G / N| ≤ (2 * n + 3 + c) * 2 ^ (-53 : ℤ) * (G / N) + 3 * η + 2 ^ (-1075 : ℤ) := by
  have e := fl_err_mixed f64 (v / N)
  rw [AucDbl.unit_eq, AucDbl.tiny_eq] at e
  change |rd (v / N) - v / N| ≤ _ at e
  have hu0 : (0 : ℝ) < 2 ^ (-53 : ℤ) := by positivity
  have hu : (2 : ℝ) ^ (-53 : ℤ) * (2 * n + 1 + c) ≤ 1 / 2 := by
    calc (2 : ℝ) ^ (-53 : ℤ) * (2 * n + 1 + c) ≤ 2 ^ (-53 : ℤ) * (2 * 2 ^ 32 + 1 + 8) := by
          apply mul_le_mul_of_nonneg_left _ hu0.le
          linarith
      _ ≤ _ := by norm_num
  have hu1 : (2 : ℝ) ^ (-53 : ℤ) ≤ 1 / 2 := by norm_num
  generalize (2 : ℝ) ^ (-53 : ℤ) = u at *
  generalize (2 : ℝ) ^ (-1075 : ℤ) = t at *
  generalize rd (v / N) = r at *
  have hN0 : 0 < N := by linarith
  have d1 : |v / N - G / N| ≤ (2 * n + 1 + c) * u * (G / N) + 2 * η := by
    rw [← sub_div, abs_div, abs_of_pos hN0, div_le_iff₀ hN0]
    have a : ((2 * n + 1 + c) * u * (G / N) + 2 * η) * N = (2 * n + 1 + c) * u * G + 2 * N * η := by field_simp
    rw [a]
    have b : n * η ≤ N * η := mul_le_mul_of_nonneg_right hnN hη
    linarith
  have g0 : 0 ≤ G / N := by positivity
  generalize G / N = g at *
  generalize v / N = w at *
  have d2 : |w| ≤ g + ((2 * n + 1 + c) * u * g + 2 * η) := by
    have := abs_sub_abs_le_abs_sub w g
    rw [abs_of_nonneg g0] at this
    linarith
  have d3 := mul_le_mul_of_nonneg_left d2 hu0.le
  have tri : |r - g| ≤ |r - w| + |w - g| := abs_sub_le _ _ _
  have d4 : u * (2 * n + 1 + c) * (u * g) ≤ 1 / 2 * (u * g) := mul_le_mul_of_nonneg_right hu (by positivity)
  have d5 : u * η ≤ 1 / 2 * η := mul_le_mul_of_nonneg_right hu1 hη
  have d6 : 0 ≤ u * g := by positivity
  nlinarith

/-- Three equal numbers, in any order. -/
theorem three_same {x y z : ℝ} (d1 : rd x = x) (d2 : rd (x + x) = y) (d3 : rd (x + y) = z) {l : List ℝ} {v : ℝ} (h : IsSum l v)
    (hl : ∀ a ∈ l, a = x) (hn : l.length ≤ 3) :
    (l.length = 0 → v = 0) ∧ (l.length = 1 → v = x) ∧ (l.length = 2 → v = y) ∧ (l.length = 3 → v = z) := by
  induction h with
  | nil => simp
  | leaf x => simpa using hl x (by simp)
  | @add l₁ l₂ v₁ v₂ h₁ h₂ ih₁ ih₂ =>
    rw [List.length_append] at hn ⊢
    have ih₁ := ih₁ (fun x hx => hl x (List.mem_append_left _ hx)) (by omega)
    have ih₂ := ih₂ (fun x hx => hl x (List.mem_append_right _ hx)) (by omega)
    have d0 : rd 0 = 0 := Doubles.rd_zero
    have d4 : rd y = y := by rw [← d2]; exact rd_idem _
    have d5 : rd z = z := by rw [← d3]; exact rd_idem _
    obtain ⟨a0, a1, a2, a3⟩ := ih₁
    obtain ⟨b0, b1, b2, b3⟩ := ih₂
    refine ⟨fun h => ?_, fun h => ?_, fun h => ?_, fun h => ?_⟩
    · rw [a0 (by omega), b0 (by omega), add_zero, d0]
    · rcases (by omega : l₁.length = 0 ∧ l₂.length = 1 ∨ l₁.length = 1 ∧ l₂.length = 0) with ⟨e, f⟩ | ⟨e, f⟩
      · rw [a0 e, b1 f, zero_add, d1]
      · rw [a1 e, b0 f, add_zero, d1]
    · rcases (by omega : l₁.length = 0 ∧ l₂.length = 2 ∨ l₁.length = 1 ∧ l₂.length = 1 ∨ l₁.length = 2 ∧ l₂.length = 0) with
        ⟨e, f⟩ | ⟨e, f⟩ | ⟨e, f⟩
      · rw [a0 e, b2 f, zero_add, d4]
      · rw [a1 e, b1 f, d2]
      · rw [a2 e, b0 f, add_zero, d4]
    · rcases (by omega : l₁.length = 0 ∧ l₂.length = 3 ∨ l₁.length = 1 ∧ l₂.length = 2 ∨ l₁.length = 2 ∧ l₂.length = 1 ∨
        l₁.length = 3 ∧ l₂.length = 0) with ⟨e, f⟩ | ⟨e, f⟩ | ⟨e, f⟩ | ⟨e, f⟩
      · rw [a0 e, b3 f, zero_add, d5]
      · rw [a1 e, b2 f, d3]
      · rw [a2 e, b1 f, add_comm, d3]
      · rw [a3 e, b0 f, add_zero, d5]
  | @perm l₁ l₂ v hp h ih =>
    rw [← hp.length_eq] at hn ⊢
    exact ih (fun x hx => hl x (hp.subset hx)) hn

end Verif.LossDbl
