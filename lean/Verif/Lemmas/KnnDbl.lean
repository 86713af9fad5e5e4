import Verif.Props.ScaleDbl

/-! # Weighted means in double arithmetic -/

namespace Verif.KnnDbl
open Verif Verif.Ieee Verif.Ieee.Spec Verif.ConfDbl
open Verif.FloatBits (f64)
open Verif.Doubles (rd)

variable {α : Type}

theorem sum_pos' (w : α → ℝ) : ∀ (l : List α), l ≠ [] → (∀ a ∈ l, 0 < w a) → 0 < (l.map w).sum
  | [], h, _ => absurd rfl h
  | [a], _, h => by simpa using h a (by simp)
  | a :: b :: l, _, h => by
    have := sum_pos' w (b :: l) (by simp) fun x hx => h x (by simp [hx])
    have h1 := h a (by simp)
    rw [List.map_cons, List.sum_cons]
    linarith

theorem sum_dev (w t : α → ℝ) {T m : ℝ} (δ : α → ℝ) {e : ℝ} (he : 0 ≤ e) : ∀ (l : List α), (∀ a ∈ l, 0 < w a) → (∀ a ∈ l, |t a - m| ≤ T) →
    (∀ a ∈ l, |δ a| ≤ e * w a) → |(l.map fun a => δ a * (t a - m)).sum| ≤ e * T * (l.map w).sum
  | [], _, _, _ => by simp
  | a :: l, hw, ht, hδ => by
    have ih := sum_dev w t δ he l (fun x hx => hw x (by simp [hx])) (fun x hx => ht x (by simp [hx]))
      (fun x hx => hδ x (by simp [hx]))
    simp only [List.map_cons, List.sum_cons]
    have h1 : |δ a * (t a - m)| ≤ e * w a * T := by
      rw [abs_mul]
      exact mul_le_mul (hδ a (by simp)) (ht a (by simp)) (abs_nonneg _) (mul_nonneg he (hw a (by simp)).le)
    calc _ ≤ |δ a * (t a - m)| + |(l.map fun a => δ a * (t a - m)).sum| := abs_add_le _ _
      _ ≤ e * w a * T + e * T * (l.map w).sum := add_le_add h1 ih
      _ = _ := by ring

theorem sum_split (w v t : α → ℝ) (m : ℝ) (l : List α) :
    (l.map fun a => (w a - v a) * (t a - m)).sum =
      ((l.map fun a => w a * t a).sum - m * (l.map w).sum) - ((l.map fun a => v a * t a).sum - m * (l.map v).sum) := by
  induction l with
  | nil => simp
  | cons a l ih => simp only [List.map_cons, List.sum_cons, ih]; ring

theorem mean_abs (v t : α → ℝ) {T : ℝ} (l : List α) (hne : l ≠ []) (hv : ∀ a ∈ l, 0 < v a) (ht : ∀ a ∈ l, |t a| ≤ T) :
    |(l.map fun a => v a * t a).sum / (l.map v).sum| ≤ T := by
  have hp := sum_pos' v l hne hv
  rw [abs_div, abs_of_pos hp, div_le_iff₀ hp]
  have := sum_dev v t (m := 0) v (e := 1) (T := T) zero_le_one l hv (fun a ha => by simpa using ht a ha)
    (fun a ha => by rw [abs_of_pos (hv a ha), one_mul])
  simpa using this

/-- Weights that are a little off. -/
theorem reweight (w v t : α → ℝ) {T e : ℝ} (he : 0 ≤ e) (he2 : e ≤ 1 / 7) (l : List α) (hne : l ≠ []) (hv : ∀ a ∈ l, 0 < v a)
    (ht : ∀ a ∈ l, |t a| ≤ T) (hw : ∀ a ∈ l, |w a - v a| ≤ e * v a) :
    |(l.map fun a => w a * t a).sum / (l.map w).sum - (l.map fun a => v a * t a).sum / (l.map v).sum| ≤ 7 / 3 * e * T := by
  have hV := sum_pos' v l hne hv
  have hwp : ∀ a ∈ l, 0 < w a := fun a ha => by
    have := (abs_le.1 (hw a ha)).1
    have h2 := mul_le_mul_of_nonneg_right he2 (hv a ha).le
    linarith [hv a ha]
  have hW := sum_pos' w l hne hwp
  have hm := mean_abs v t l hne hv ht
  generalize hmm : (l.map fun a => v a * t a).sum / (l.map v).sum = m at *
  have hm0 : (l.map fun a => v a * t a).sum - m * (l.map v).sum = 0 := by
    rw [← hmm, div_mul_cancel₀ _ hV.ne']; ring
  have hs := sum_split w v t m l
  rw [hm0, sub_zero] at hs
  have hd := sum_dev v t (m := m) (T := 2 * T) (fun a => w a - v a) he l hv
    (fun a ha => (abs_sub _ _).trans (by linarith [ht a ha])) hw
  rw [hs] at hd
  have hlow : (1 - e) * (l.map v).sum ≤ (l.map w).sum := by
    clear hs hd hm0 hm hmm hne hV hW ht
    induction l with
    | nil => simp
    | cons a l ih =>
      simp only [List.map_cons, List.sum_cons]
      have := ih (fun x hx => hv x (by simp [hx])) (fun x hx => hw x (by simp [hx])) (fun x hx => hwp x (by simp [hx]))
      have h1 := (abs_le.1 (hw a (by simp))).1
      linarith
  have hT : 0 ≤ T := (abs_nonneg _).trans hm
  have key : (l.map fun a => w a * t a).sum / (l.map w).sum - m =
      ((l.map fun a => w a * t a).sum - m * (l.map w).sum) / (l.map w).sum := by
    field_simp
  rw [key, abs_div, abs_of_pos hW, div_le_iff₀ hW]
  refine hd.trans ?_
  have h6 : (6 / 7 : ℝ) * (l.map v).sum ≤ (l.map w).sum :=
    (mul_le_mul_of_nonneg_right (by linarith) hV.le).trans hlow
  have h7 : 7 / 3 * e * T * (6 / 7 * (l.map v).sum) ≤ 7 / 3 * e * T * (l.map w).sum :=
    mul_le_mul_of_nonneg_left h6 (by positivity)
  linarith

/-- A weighted mean of doubles, its two sums in any order. -/
theorem wavg_core (w t : α → ℝ) {T c : ℝ} (hc : c = 2 ^ (-501 : ℤ)) (l : List α) (hne : l ≠ []) (hn : l.length ≤ 2 ^ 40)
    (hw : ∀ a ∈ l, c ≤ w a) (hr : ∀ a ∈ l, Rep f64 (w a)) (ht : ∀ a ∈ l, |t a| ≤ T) {N S : ℝ}
    (hN : AucDbl.IsDot (l.map fun a => (w a, t a)) N) (hS : ScaleDbl.IsSum (l.map w) S) :
    |rd (N / S) - (l.map fun a => w a * t a).sum / (l.map w).sum| ≤ (8 * l.length + 2) * 2 ^ (-53 : ℤ) * T + 2 ^ (-570 : ℤ) := by
  have hc0 : 0 < c := by rw [hc]; positivity
  have hw0 : ∀ a ∈ l, 0 < w a := fun a ha => hc0.trans_le (hw a ha)
  have hW := sum_pos' w l hne hw0
  have e1 := AucDbl.dot_err hN
  have e2 := ScaleDbl.sum_any_err hS (by
    intro x hx
    obtain ⟨a, ha, rfl⟩ := List.mem_map.1 hx
    exact hr a ha)
  have hm := mean_abs w t l hne hw0 ht
  have hT : 0 ≤ T := (abs_nonneg _).trans hm
  have ex : AucDbl.exact (l.map fun a => (w a, t a)) = (l.map fun a => w a * t a).sum := by
    simp [AucDbl.exact, List.map_map, Function.comp_def]
  have es : AucDbl.size (l.map fun a => (w a, t a)) ≤ T * (l.map w).sum := by
    have : AucDbl.size (l.map fun a => (w a, t a)) = (l.map fun a => |w a * t a|).sum := by
      simp [AucDbl.size, List.map_map, Function.comp_def]
    rw [this]
    clear e1 e2 hm hN hS hn hne hW ex this
    induction l with
    | nil => simp
    | cons a l ih =>
      simp only [List.map_cons, List.sum_cons]
      have h1 := ih (fun x hx => hw x (by simp [hx])) (fun x hx => hr x (by simp [hx])) (fun x hx => ht x (by simp [hx]))
        (fun x hx => hw0 x (by simp [hx]))
      have h2 : |w a * t a| ≤ w a * T := by
        rw [abs_mul, abs_of_pos (hw0 a (by simp))]
        exact mul_le_mul_of_nonneg_left (ht a (by simp)) (hw0 a (by simp)).le
      linarith
  have ea : (List.map (fun x => |x|) (l.map w)).sum = (l.map w).sum := by
    rw [List.map_map]
    congr 1
    apply List.map_congr_left
    intro a ha
    exact abs_of_pos (hw0 a ha)
  have hlow : l.length * c ≤ (l.map w).sum := by
    clear e1 e2 hm hN hS hn hne hW ex es ea
    induction l with
    | nil => simp
    | cons a l ih =>
      simp only [List.map_cons, List.sum_cons, List.length_cons]
      have h1 := ih (fun x hx => hw x (by simp [hx])) (fun x hx => hr x (by simp [hx])) (fun x hx => ht x (by simp [hx]))
        (fun x hx => hw0 x (by simp [hx]))
      have h2 := hw a (by simp)
      push_cast
      linarith
  rw [ex, List.length_map, AucDbl.unit_eq, AucDbl.tiny_eq] at e1
  rw [ea, List.length_map, AucDbl.unit_eq] at e2
  generalize AucDbl.size (l.map fun a => (w a, t a)) = Z at *
  generalize (l.map fun a => w a * t a).sum = X at *
  generalize (l.map w).sum = W at *
  have hl1 : 1 ≤ l.length := List.length_pos_of_ne_nil hne
  have hn' : (l.length : ℝ) ≤ 2 ^ 40 := by exact_mod_cast hn
  have hl1' : (1 : ℝ) ≤ l.length := by exact_mod_cast hl1
  have hu0 : (0 : ℝ) < 2 ^ (-53 : ℤ) := by positivity
  have hη0 : (0 : ℝ) < 2 ^ (-1075 : ℤ) := by positivity
  have hun : (l.length : ℝ) * 2 ^ (-53 : ℤ) ≤ 2 ^ 40 * 2 ^ (-53 : ℤ) := mul_le_mul_of_nonneg_right hn' hu0.le
  have hun2 : (2 : ℝ) ^ 40 * 2 ^ (-53 : ℤ) = 1 / 8192 := by norm_num
  rw [hun2] at hun
  have hp := AucDbl.pow_bound hu0.le l.length (by
    generalize (2 : ℝ) ^ (-53 : ℤ) = u at *
    linarith)
  have hp1 : (1 : ℝ) ≤ (1 + 2 ^ (-53 : ℤ)) ^ l.length := one_le_pow₀ (by linarith)
  generalize (1 + (2 : ℝ) ^ (-53 : ℤ)) ^ l.length = P at *
  generalize (l.length : ℝ) = n at *
  have e3 := fl_err_mixed f64 (N / S)
  rw [AucDbl.unit_eq, AucDbl.tiny_eq] at e3
  have hη : (2 : ℝ) ^ (-1075 : ℤ) = c * 2 ^ (-574 : ℤ) := by rw [hc, ← zpow_add₀ two_ne_zero]; norm_num
  have h570 : (2 : ℝ) ^ (-570 : ℤ) = 16 * 2 ^ (-574 : ℤ) := by
    rw [show (16 : ℝ) = 2 ^ (4 : ℤ) by norm_num, ← zpow_add₀ two_ne_zero]; norm_num
  have hη1 : (2 : ℝ) ^ (-1075 : ℤ) ≤ 2 ^ (-574 : ℤ) := zpow_le_zpow_right₀ (by norm_num) (by norm_num)
  have hu1 : (2 : ℝ) ^ (-53 : ℤ) ≤ 1 / 8192 := by norm_num
  have hτ0 : (0 : ℝ) < 2 ^ (-574 : ℤ) := by positivity
  rw [h570]
  change |rd (N / S) - N / S| ≤ _ at e3
  generalize rd (N / S) = V at *
  generalize (2 : ℝ) ^ (-574 : ℤ) = τ at *
  generalize (2 : ℝ) ^ (-1075 : ℤ) = η at *
  generalize (2 : ℝ) ^ (-53 : ℤ) = u at *
  generalize hmm : X / W = m at *
  have hX : X = m * W := by rw [← hmm, div_mul_cancel₀ _ hW.ne']
  have hg : P - 1 ≤ 2 * (n * u) := by linarith
  have hg0 : 0 ≤ P - 1 := by linarith
  have hTW : 0 ≤ T * W := mul_nonneg hT hW.le
  -- the numerator
  have a1 : |N - X| ≤ 2 * (n * u) * (T * W) + 2 * (W * τ) := by
    refine e1.trans (add_le_add ?_ ?_)
    · exact (mul_le_mul_of_nonneg_left es hg0).trans (mul_le_mul_of_nonneg_right hg hTW)
    · rw [hη]
      have h1 : n * P ≤ n * 2 := mul_le_mul_of_nonneg_left (by linarith) (by linarith)
      have h2 : n * P * (c * τ) ≤ n * 2 * (c * τ) := mul_le_mul_of_nonneg_right h1 (by positivity)
      have h3 : n * c * τ ≤ W * τ := mul_le_mul_of_nonneg_right hlow hτ0.le
      linarith
  have a2 : |S - W| ≤ 2 * (n * u) * W := e2.trans (mul_le_mul_of_nonneg_right hg hW.le)
  have a3 : |N - m * S| ≤ 4 * (n * u) * (T * W) + 2 * (W * τ) := by
    have h1 : N - m * S = (N - X) + m * (W - S) := by rw [hX]; ring
    have h2 : |m * (W - S)| ≤ T * (2 * (n * u) * W) := by
      rw [abs_mul, abs_sub_comm W S]
      exact mul_le_mul hm a2 (abs_nonneg _) hT
    rw [h1]
    refine (abs_add_le _ _).trans ?_
    linarith
  have hS2 : W / 2 ≤ S := by
    have := (abs_le.1 a2).1
    have h1 : 2 * (n * u) * W ≤ 2 * (1 / 8192) * W := mul_le_mul_of_nonneg_right (by linarith) hW.le
    linarith
  have hS0 : 0 < S := by linarith
  have a4 : |N / S - m| ≤ 8 * (n * u) * T + 4 * τ := by
    have h1 : N / S - m = (N - m * S) / S := by field_simp
    rw [h1, abs_div, abs_of_pos hS0, div_le_iff₀ hS0]
    refine a3.trans ?_
    have h2 : (8 * (n * u) * T + 4 * τ) * (W / 2) ≤ (8 * (n * u) * T + 4 * τ) * S :=
      mul_le_mul_of_nonneg_left hS2 (by positivity)
    linarith
  have a5 : |N / S| ≤ T + (8 * (n * u) * T + 4 * τ) := by
    have := abs_add_le (N / S - m) m
    rw [sub_add_cancel] at this
    linarith
  have a6 : u * |N / S| ≤ 2 * u * T + 4 * τ := by
    have h1 : u * |N / S| ≤ u * (T + (8 * (n * u) * T + 4 * τ)) := mul_le_mul_of_nonneg_left a5 hu0.le
    have h2 : n * u * (u * T) ≤ 1 / 8192 * (u * T) := mul_le_mul_of_nonneg_right hun (mul_nonneg hu0.le hT)
    have h3 : u * τ ≤ 1 * τ := mul_le_mul_of_nonneg_right (by linarith) hτ0.le
    have h4 : 0 ≤ u * T := mul_nonneg hu0.le hT
    linarith
  have : |V - m| ≤ |V - N / S| + |N / S - m| := by
    have := abs_add_le (V - N / S) (N / S - m)
    rwa [sub_add_sub_cancel] at this
  linarith

end Verif.KnnDbl
