import Verif.Model.OnlineDbl
import Verif.Lemmas.ConfDbl
import Mathlib.Tactic.Linarith
import Mathlib.Tactic.FieldSimp

/-! # C168: online, recursive and rolling regression in double arithmetic -/

namespace Verif.OnlineDbl
open Verif Verif.Ieee Verif.Ieee.Spec Verif.ConfDbl
open Verif.FloatBits (f64)
open Verif.Doubles (rd)

namespace Spec

/-- The least squares coefficient of one feature without constant. -/
noncomputable def slope (rows : List (ℝ × ℝ)) : ℝ :=
  (rows.map fun r => r.1 * r.2).sum / (rows.map fun r => r.1 * r.1).sum

end Spec

/-! ## Lemmas -/

theorem rep_two (k : ℤ) (h : -1074 ≤ k) : Rep f64 ((2 : ℝ) ^ k) :=
  ⟨1, k, by norm_num [f64], by simpa [f64] using h, by simp⟩

theorem rd_two (k : ℤ) (h : -1074 ≤ k) : rd ((2 : ℝ) ^ k) = 2 ^ k := fl_rep f64 (rep_two k h)

theorem rd_rep {x : ℝ} (h : Rep f64 x) : rd x = x := fl_rep f64 h

/-- One is lost beside a number from `2 ^ 54` on. -/
theorem rd_one_add (j : ℤ) (h : 54 ≤ j) : rd (1 + 2 ^ j) = 2 ^ j := by
  have hp := two_zpow_pos j
  have h1 : (1 : ℝ) ≤ 2 ^ j := one_le_zpow₀ (by norm_num) (by omega)
  have h0 : (1 + 2 ^ j : ℝ) ≠ 0 := by positivity
  have hu : ulp f64 (1 + 2 ^ j) = j - 52 := by
    refine le_antisymm (ulp_of_lt f64 h0 (by simp [f64]; omega) ?_) ?_
    · rw [abs_of_pos (by positivity)]
      have : (2 : ℝ) ^ (j - 52 + (((f64).frac : ℤ) + 1)) = 2 * 2 ^ j := by
        rw [show (j - 52 + (((f64).frac : ℤ) + 1)) = j + 1 by simp [f64]; ring, zpow_add_one₀ two_ne_zero]; ring
      rw [this]
      have : (1 : ℝ) < 2 ^ j := one_lt_zpow₀ (by norm_num) (by omega)
      linarith
    · refine le_trans ?_ (ulp_mono f64 (x := 2 ^ j) hp.ne' ?_)
      · unfold ulp
        refine le_trans (le_of_eq ?_) (le_max_left _ _)
        rw [abs_of_pos hp]
        have : Int.log 2 ((2 : ℝ) ^ j) = j := by exact_mod_cast Int.log_zpow (R := ℝ) (b := 2) (by norm_num) j
        rw [this]
        simp [f64]
      · rw [abs_of_pos hp, abs_of_pos (by positivity)]; linarith
  unfold rd fl
  rw [hu, Doubles.rne_eq (m := 2 ^ 52)]
  · push_cast
    rw [show j = (j - 52) + 52 by ring, zpow_add₀ two_ne_zero]
    simp only [add_sub_cancel_right]
    rw [mul_comm]
    norm_cast
  · have e : (1 + 2 ^ j : ℝ) / 2 ^ (j - 52) - ((2 ^ 52 : ℤ) : ℝ) = 2 ^ (52 - j) := by
      have : (2 : ℝ) ^ j = 2 ^ (52 : ℤ) * 2 ^ (j - 52) := by rw [← zpow_add₀ two_ne_zero]; congr 1; ring
      have h2 : (2 : ℝ) ^ (52 - j) = (2 ^ (j - 52))⁻¹ := by rw [← zpow_neg]; congr 1; ring
      rw [h2, this]
      have hq := (two_zpow_pos (j - 52)).ne'
      field_simp
      push_cast
      norm_cast
      ring
    rw [e, abs_of_pos (two_zpow_pos _)]
    calc (2 : ℝ) ^ (52 - j) ≤ 2 ^ (-2 : ℤ) := zpow_le_zpow_right₀ (by norm_num) (by omega)
      _ < 1 / 2 := by norm_num

theorem axpy_neg (d a p q r : ℝ) (h : IsAxpy d a p q r) : IsAxpy d a (-p) (-q) r := by
  unfold IsAxpy at *
  simpa [Doubles.rd_neg, mul_neg, neg_mul] using h

/-- A product of zero leaves the sum alone. -/
theorem axpy_zero {d a q r : ℝ} (hd : Rep f64 d) (h : IsAxpy d a 0 q r) : r = d := by
  have hz : rd 0 = 0 := Doubles.rd_zero
  have hr := rd_rep hd
  unfold IsAxpy at h
  simp only [zero_mul, mul_zero, hz, add_zero, hr] at h
  tauto

theorem axpy_exists (d a p q : ℝ) : ∃ r, IsAxpy d a p q r := ⟨_, Or.inl rfl⟩

theorem axpy_rep {d a p q r : ℝ} (h : IsAxpy d a p q r) : Rep f64 r := by
  rcases h with h | h | h | h | h | h <;> rw [h] <;> exact rep_fl f64 _

/-! ## The claims -/

/-- **C168, violated.**  Once the stored inverse is zero the model never learns again: every update, whatever row is
added or removed, leaves the coefficient and the inverse exactly as they are, and no update fails. -/
theorem frozen_forever (s : State) (h0 : s.inv = 0) (hw : Rep f64 s.w) (calls : List (ℝ × ℝ × ℝ))
    (hc : ∀ e ∈ calls, e.2.2 = 1 ∨ e.2.2 = -1) :
    (∃ s', IsRun s calls s') ∧ ∀ s', IsRun s calls s' → s' = s := by
  have hz : rd 0 = 0 := Doubles.rd_zero
  have h1 : rd 1 = 1 := Doubles.rd_one
  have hden : ∀ x c : ℝ, (c = 1 ∨ c = -1) → den s x c ≠ 0 := by
    intro x c hc
    unfold den
    rw [h0, zero_mul, hz, mul_zero, hz, add_zero]
    rcases hc with rfl | rfl
    · rw [h1]; norm_num
    · rw [Doubles.rd_neg, h1]; norm_num
  have key : ∀ x y c s', IsStep s x y c s' → s' = s := by
    rintro x y c ⟨i, v⟩ ⟨-, h2, h3⟩
    simp only [h0, zero_mul, hz] at h2 h3
    have e1 := axpy_zero (d := 0) ⟨0, 0, by norm_num, by norm_num [f64], by norm_num⟩ h2
    have e2 := axpy_zero hw h3
    cases s
    simp_all
  constructor
  · induction calls with
    | nil => exact ⟨s, .nil s⟩
    | cons e calls ih =>
      obtain ⟨s'', hs''⟩ := ih fun e he => hc e (by simp [he])
      obtain ⟨r1, hr1⟩ := axpy_exists s.inv (-rd (1 / den s e.1 e.2.2)) (rd (s.inv * e.1)) (rd (s.inv * e.1))
      obtain ⟨r2, hr2⟩ := axpy_exists s.w (rd (1 / den s e.1 e.2.2)) (rd (s.inv * e.1)) (rd (e.2.1 - rd (e.1 * s.w)))
      have hst : IsStep s e.1 e.2.1 e.2.2 ⟨r1, r2⟩ := ⟨hden _ _ (hc e (by simp)), hr1, hr2⟩
      have := key _ _ _ _ hst
      rw [this] at hst
      exact ⟨s'', .cons hst hs''⟩
  · induction calls with
    | nil => intro s' h; cases h; rfl
    | cons e calls ih =>
      intro s' h
      cases h with
      | cons a b =>
        rw [key _ _ _ _ a] at b
        exact ih (fun e he => hc e (by simp [he])) s' b

example : ∀ s', IsRun ⟨0, 3⟩ [(2, 5, 1), (1, 1, -1)] s' → s' = ⟨0, 3⟩ :=
  (frozen_forever ⟨0, 3⟩ rfl ⟨3, 0, by norm_num [f64], by norm_num [f64], by norm_num⟩ _ (by simp)).2

/-- **C168, violated.**  A row whose feature is `2 ^ 27` times the root of the sum of squares seen so far (here powers of
two) makes the stored inverse exactly zero, in every order of the operations; the exact inverse is positive. -/
theorem large_row_freezes (s s' : State) (e k : ℤ) (x y : ℝ) (hi : s.inv = 2 ^ e) (hx : |x| = 2 ^ k)
    (he : |e| ≤ 300) (hk : |k| ≤ 300) (hj : 54 ≤ e + 2 * k) (h : IsStep s x y 1 s') :
    s'.inv = 0 ∧ Rep f64 s'.w ∧ 0 < s.inv / (1 + s.inv * x ^ 2) := by
  obtain ⟨he1, he2⟩ := abs_le.1 he
  obtain ⟨hk1, hk2⟩ := abs_le.1 hk
  have h2 : ∀ a b : ℤ, (2 : ℝ) ^ a * 2 ^ b = 2 ^ (a + b) := fun a b => (zpow_add₀ two_ne_zero a b).symm
  have hpos : (0 : ℝ) < 2 ^ e := two_zpow_pos e
  refine ⟨?_, axpy_rep h.2.2, by rw [hi]; positivity⟩
  have hu : rd (s.inv * x) = 2 ^ (e + k) ∨ rd (s.inv * x) = -2 ^ (e + k) := by
    rcases abs_choice x with hc | hc
    · left; rw [hi, ← hc, hx, h2]; exact rd_two _ (by omega)
    · right
      rw [hi, show x = -|x| by rw [hc, neg_neg], hx, mul_neg, h2, Doubles.rd_neg, rd_two _ (by omega)]
  have hxu : rd (x * rd (s.inv * x)) = 2 ^ (e + 2 * k) := by
    have : x * rd (s.inv * x) = 2 ^ (e + 2 * k) := by
      rcases abs_choice x with hc | hc
      · have hx' : x = 2 ^ k := by rw [← hc, hx]
        rw [hi, hx', h2, rd_two _ (by omega), h2]; congr 1; ring
      · have hx' : x = -2 ^ k := by rw [show x = -|x| by rw [hc, neg_neg], hx]
        rw [hi, hx', mul_neg, Doubles.rd_neg, neg_mul_neg, h2, rd_two _ (by omega), h2]; congr 1; ring
    rw [this, rd_two _ (by omega)]
  have hd : den s x 1 = 2 ^ (e + 2 * k) := by unfold den; rw [hxu, rd_one_add _ hj]
  have hz : rd (1 / den s x 1) = 2 ^ (-(e + 2 * k)) := by
    rw [hd, one_div, ← zpow_neg]; exact rd_two _ (by omega)
  have hstep : IsAxpy (2 ^ e) (-2 ^ (-(e + 2 * k))) (2 ^ (e + k)) (2 ^ (e + k)) s'.inv := by
    have := h.2.1
    rw [hz, hi] at this
    rcases hu with hu | hu
    · rw [hi] at hu; rwa [hu] at this
    · rw [hi] at hu
      rw [hu] at this
      have := axpy_neg _ _ _ _ _ this
      rwa [neg_neg] at this
  have a1 : rd ((2 : ℝ) ^ (e + k) * 2 ^ (e + k)) = 2 ^ (2 * e + 2 * k) := by
    rw [h2, rd_two _ (by omega)]; congr 1; ring
  have a2 : -(2 : ℝ) ^ (-(e + 2 * k)) * 2 ^ (2 * e + 2 * k) = -2 ^ e := by
    rw [neg_mul, h2]; congr 2; ring
  have a3 : rd (-(2 : ℝ) ^ (-(e + 2 * k)) * 2 ^ (e + k)) = -2 ^ (-k) := by
    rw [neg_mul, h2, Doubles.rd_neg, rd_two _ (by omega)]; congr 2; ring
  have a4 : -(2 : ℝ) ^ (-k) * 2 ^ (e + k) = -2 ^ e := by
    rw [neg_mul, h2]; congr 2; ring
  have a5 : rd (-(2 : ℝ) ^ e) = -2 ^ e := by rw [Doubles.rd_neg, rd_two _ (by omega)]
  unfold IsAxpy at hstep
  simp only [a1, a2, a3, a4, a5, add_neg_cancel, show rd 0 = 0 from Doubles.rd_zero, or_self] at hstep
  exact hstep

example : (1 : ℝ) = 2 ^ (0 : ℤ) ∧ |(-2 ^ 27 : ℝ)| = 2 ^ (27 : ℤ) ∧ (54 : ℤ) ≤ 0 + 2 * 27 := by norm_num

theorem step_exists (s : State) (x y c : ℝ) (h : den s x c ≠ 0) : ∃ s', IsStep s x y c s' := by
  obtain ⟨r1, h1⟩ := axpy_exists s.inv (-rd (1 / den s x c)) (rd (s.inv * x)) (rd (s.inv * x))
  obtain ⟨r2, h2⟩ := axpy_exists s.w (rd (1 / den s x c)) (rd (s.inv * x)) (rd (y - rd (x * s.w)))
  exact ⟨⟨r1, r2⟩, h, h1, h2⟩

theorem rep_zero : Rep f64 0 := ⟨0, 0, by norm_num, by norm_num [f64], by norm_num⟩

theorem frozen_step {s s' : State} {x y c : ℝ} (h0 : s.inv = 0) (hw : Rep f64 s.w) (hc : c = 1 ∨ c = -1)
    (h : IsStep s x y c s') : s' = s :=
  (frozen_forever s h0 hw [(x, y, c)] (by simpa using hc)).2 s' (.cons h (.nil _))

theorem den_frozen {s : State} (h0 : s.inv = 0) {x c : ℝ} (hc : c = 1 ∨ c = -1) : den s x c ≠ 0 := by
  have hz : rd 0 = 0 := Doubles.rd_zero
  have h1 : rd 1 = 1 := Doubles.rd_one
  unfold den
  rw [h0, zero_mul, hz, mul_zero, hz, add_zero]
  rcases hc with rfl | rfl
  · rw [h1]; norm_num
  · rw [Doubles.rd_neg, h1]; norm_num

/-- **C168, violated.**  A model that has seen a single row with feature 1, is given a row with feature `2 ^ 27`, gets it
removed again and is then given any rows at all: every coefficient from the large row on is the one it had right after
that row. -/
theorem online_lost (w y : ℝ) (calls : List (ℝ × ℝ × ℝ)) (hc : ∀ e ∈ calls, e.2.2 = 1 ∨ e.2.2 = -1) (s : State)
    (h : IsRun ⟨1, w⟩ [(2 ^ 27, y, 1)] s) :
    s.inv = 0 ∧ (∃ s', IsRun s calls s') ∧ ∀ s', IsRun s calls s' → s' = s := by
  cases h with
  | cons a b =>
    cases b
    have := large_row_freezes ⟨1, w⟩ s 0 27 (2 ^ 27) y (by simp) (by norm_num) (by norm_num) (by norm_num) (by norm_num) a
    exact ⟨this.1, frozen_forever s this.1 this.2.1 calls hc⟩

example : ∃ s, IsRun ⟨1, 0⟩ [(2 ^ 27, 0, 1)] s := by
  obtain ⟨s, hs⟩ := step_exists ⟨1, 0⟩ (2 ^ 27) 0 1 (by
    unfold den
    have h1 : rd (1 * 2 ^ 27) = 2 ^ 27 := by rw [one_mul]; exact_mod_cast rd_two 27 (by norm_num)
    simp only [h1]
    have h2 : rd ((2 : ℝ) ^ 27 * 2 ^ 27) = 2 ^ 54 := by rw [← pow_add]; exact_mod_cast rd_two 54 (by norm_num)
    have h3 : rd (1 + (2 : ℝ) ^ 54) = 2 ^ 54 := by exact_mod_cast rd_one_add 54 (by norm_num)
    rw [h2, h3]; norm_num)
  exact ⟨s, .cons hs (.nil s)⟩

/-! ### The expressions -/

theorem dot_ones {l : List (ℝ × ℝ)} {v : ℝ} (h : AucDbl.IsDot l v) (hl : ∀ p ∈ l, p = (1, 1)) (hn : l.length ≤ 100) :
    v = l.length := by
  induction h with
  | nil => simp
  | term a b =>
    have := hl (a, b) (by simp)
    obtain ⟨rfl, rfl⟩ := Prod.mk.inj this
    simpa using Doubles.rd_one
  | @add l₁ l₂ v₁ v₂ _ _ ih1 ih2 =>
    rw [List.length_append] at hn ⊢
    rw [ih1 (fun p hp => hl p (by simp [hp])) (by omega), ih2 (fun p hp => hl p (by simp [hp])) (by omega)]
    rw [← Nat.cast_add]
    exact Doubles.rd_nat (by omega)
  | @fma l v a b _ ih =>
    have := hl (a, b) (by simp)
    obtain ⟨rfl, rfl⟩ := Prod.mk.inj this
    rw [List.length_cons] at hn ⊢
    rw [ih (fun p hp => hl p (by simp [hp])) (by omega)]
    have : (1 : ℝ) * 1 + (l.length : ℕ) = ((l.length + 1 : ℕ) : ℝ) := by push_cast; ring
    rw [this]
    exact Doubles.rd_nat (by omega)
  | perm hp _ ih =>
    rw [← hp.length_eq] at hn ⊢
    exact ih (fun p h => hl p (hp.subset h)) hn

/-- The fit on two rows with feature 1. -/
theorem fit_two {y0 y1 : ℝ} {s : State} (h : IsFit [(1, y0), (1, y1)] s) : s.inv = 2 ^ (-1 : ℤ) ∧ Rep f64 s.w := by
  obtain ⟨xtx, xty, h1, -, -, h4, h5⟩ := h
  have := dot_ones h1 (by simp) (by simp)
  rw [this] at h4
  refine ⟨?_, by rw [h5]; exact rep_fl f64 _⟩
  rw [h4]
  simp only [List.map_cons, List.map_nil, List.length_cons, List.length_nil]
  rw [show (1 : ℝ) / ((0 + 1 + 1 : ℕ) : ℝ) = 2 ^ (-1 : ℤ) by norm_num]
  exact rd_two _ (by norm_num)

/-- Removing one of the two rows. -/
theorem remove_one {s s' : State} {y : ℝ} (hi : s.inv = 2 ^ (-1 : ℤ)) (h : IsStep s 1 y (-1) s') : s'.inv = 2 ^ (0 : ℤ) := by
  have r1 : rd (s.inv * 1) = 2 ^ (-1 : ℤ) := by rw [mul_one, hi]; exact rd_two _ (by norm_num)
  have r2 : rd (1 * rd (s.inv * 1)) = 2 ^ (-1 : ℤ) := by rw [r1, one_mul]; exact rd_two _ (by norm_num)
  have r3 : den s 1 (-1) = -2 ^ (-1 : ℤ) := by
    unfold den
    rw [r2, show (-1 : ℝ) + 2 ^ (-1 : ℤ) = -2 ^ (-1 : ℤ) by norm_num, Doubles.rd_neg, rd_two _ (by norm_num)]
  have r4 : rd (1 / den s 1 (-1)) = -2 ^ (1 : ℤ) := by
    rw [r3, show (1 : ℝ) / -2 ^ (-1 : ℤ) = -2 ^ (1 : ℤ) by norm_num, Doubles.rd_neg, rd_two _ (by norm_num)]
  have hs := h.2.1
  rw [r1, r4, hi, neg_neg] at hs
  have a1 : rd ((2 : ℝ) ^ (-1 : ℤ) * 2 ^ (-1 : ℤ)) = 2 ^ (-2 : ℤ) := by
    rw [show (2 : ℝ) ^ (-1 : ℤ) * 2 ^ (-1 : ℤ) = 2 ^ (-2 : ℤ) by norm_num]; exact rd_two _ (by norm_num)
  have a2 : (2 : ℝ) ^ (1 : ℤ) * 2 ^ (-2 : ℤ) = 2 ^ (-1 : ℤ) := by norm_num
  have a3 : rd ((2 : ℝ) ^ (1 : ℤ) * 2 ^ (-1 : ℤ)) = 2 ^ (0 : ℤ) := by
    rw [show (2 : ℝ) ^ (1 : ℤ) * 2 ^ (-1 : ℤ) = 2 ^ (0 : ℤ) by norm_num]; exact rd_two _ (by norm_num)
  have a4 : (2 : ℝ) ^ (0 : ℤ) * 2 ^ (-1 : ℤ) = 2 ^ (-1 : ℤ) := by norm_num
  have a5 : rd ((2 : ℝ) ^ (-1 : ℤ)) = 2 ^ (-1 : ℤ) := rd_two _ (by norm_num)
  have a6 : (2 : ℝ) ^ (-1 : ℤ) + 2 ^ (-1 : ℤ) = 2 ^ (0 : ℤ) := by norm_num
  have a7 : rd ((2 : ℝ) ^ (0 : ℤ)) = 2 ^ (0 : ℤ) := rd_two _ (by norm_num)
  unfold IsAxpy at hs
  simp only [a1, a2, a3, a4, a5, a6, a7, or_self] at hs
  exact hs

theorem rolling_frozen {s : State} (h0 : s.inv = 0) (hw : Rep f64 s.w) :
    ∀ (new old : List (ℝ × ℝ)) (ws : List ℝ), new.length ≤ old.length →
      (IsRolling s old new ws ↔ ws = List.replicate new.length s.w)
  | [], old, ws, _ => by
    constructor
    · intro h; cases h; rfl
    · intro h
      rw [show ws = [] by simpa using h]
      exact .nil s old
  | r :: new, [], ws, hl => by simp at hl
  | r :: new, o :: old, ws, hl => by
    have hl' : new.length ≤ old.length := by simpa using hl
    constructor
    · intro h
      cases h with
      | cons a b c =>
        have e1 := frozen_step h0 hw (Or.inr rfl) a
        rw [e1] at b
        have e2 := frozen_step h0 hw (Or.inl rfl) b
        rw [e2] at c ⊢
        rw [(rolling_frozen h0 hw new old _ hl').1 c]
        rfl
    · intro h
      obtain ⟨s1, h1⟩ := step_exists s o.1 o.2 (-1) (den_frozen h0 (Or.inr rfl))
      obtain ⟨s2, h2⟩ := step_exists s r.1 r.2 1 (den_frozen h0 (Or.inl rfl))
      have e1 := frozen_step h0 hw (Or.inr rfl) h1
      have e2 := frozen_step h0 hw (Or.inl rfl) h2
      rw [e1] at h1
      rw [e2] at h2
      rw [h]
      exact .cons h1 h2 ((rolling_frozen h0 hw new old _ hl').2 rfl)

/-- **C168, violated.**  `rolling_lin_reg` with a window of two rows: after the rows with features 1, 1 and `2 ^ 27` all
coefficients are the same, whatever rows follow and however far the large one is behind. -/
theorem rolling_lost (y0 y1 y2 : ℝ) (rest : List (ℝ × ℝ)) (ws : List ℝ)
    (h : IsRollingLstsq ((1, y0) :: (1, y1) :: (2 ^ 27, y2) :: rest) 2 ws) :
    ∃ v w, ws = v :: List.replicate (rest.length + 1) w := by
  obtain ⟨s, tail, hf, hr, rfl⟩ := h
  simp only [List.take_succ_cons, List.take_zero, List.drop_succ_cons, List.drop_zero] at hf hr
  obtain ⟨hi, -⟩ := fit_two hf
  cases hr with
  | @cons _ s1 s2 _ _ _ _ ws a b c =>
    have h1 := remove_one hi a
    have h2 := large_row_freezes s1 s2 0 27 (2 ^ 27) y2 h1 (by norm_num) (by norm_num) (by norm_num) (by norm_num) b
    have h3 := (rolling_frozen h2.1 h2.2.1 rest _ ws (by simp; omega)).1 c
    exact ⟨s.w, s2.w, by rw [h3, List.replicate_succ]⟩

theorem dot_zero {l : List (ℝ × ℝ)} {v : ℝ} (h : AucDbl.IsDot l v) (hl : ∀ p ∈ l, p.2 = 0) : v = 0 := by
  have hz : rd 0 = 0 := Doubles.rd_zero
  induction h with
  | nil => rfl
  | term a b =>
    have : b = 0 := hl (a, b) (by simp)
    rw [this, mul_zero, hz]
  | add _ _ ih1 ih2 =>
    rw [ih1 (fun p hp => hl p (by simp [hp])), ih2 (fun p hp => hl p (by simp [hp])), add_zero, hz]
  | @fma l v a b _ ih =>
    have : b = 0 := hl (a, b) (by simp)
    rw [ih (fun p hp => hl p (by simp [hp])), this, mul_zero, add_zero, hz]
  | perm hp _ ih => exact ih fun p h => hl p (hp.subset h)

/-- A coefficient of zero stays zero when a row with target zero is added or removed. -/
theorem step_zero {s s' : State} {x c : ℝ} (hw : s.w = 0) (h : IsStep s x 0 c s') : s'.w = 0 := by
  have hz : rd 0 = 0 := Doubles.rd_zero
  have := h.2.2
  unfold IsAxpy at this
  simp only [hw, mul_zero, zero_mul, hz, sub_zero, add_zero, or_self] at this
  exact this

/-- **C168, violated.**  With the targets 0, 0, 0 every coefficient of the rolling regression is exactly 0, although a
later window such as `(1, b)`, `(1, b)` has the least squares coefficient `b`. -/
theorem rolling_wrong (rest : List (ℝ × ℝ)) (ws : List ℝ) :
    IsRollingLstsq ((1, 0) :: (1, 0) :: (2 ^ 27, 0) :: rest) 2 ws → ws = List.replicate (rest.length + 2) 0 := by
  rintro ⟨s, tail, hf, hr, rfl⟩
  simp only [List.take_succ_cons, List.take_zero, List.drop_succ_cons, List.drop_zero] at hf hr
  obtain ⟨hi, -⟩ := fit_two hf
  have hw : s.w = 0 := by
    obtain ⟨a, b, -, h2, -, -, h5⟩ := hf
    rw [h5, dot_zero h2 (by simp), zero_div]
    exact Doubles.rd_zero
  cases hr with
  | @cons _ s1 s2 _ _ _ _ ws a b c =>
    have h1 := remove_one hi a
    have h2 := large_row_freezes s1 s2 0 27 (2 ^ 27) 0 h1 (by norm_num) (by norm_num) (by norm_num) (by norm_num) b
    have h3 := (rolling_frozen h2.1 h2.2.1 rest _ ws (by simp; omega)).1 c
    rw [h3, step_zero (step_zero hw a) b, hw, List.replicate_succ, List.replicate_succ]

example (b : ℝ) : Spec.slope [(1, b), (1, b)] = b := by simp [Spec.slope]; ring

/-- The windows do have other coefficients: two rows (1, 5), (1, 5) have slope 5, two rows (1, 7), (1, 7) slope 7. -/
example : Spec.slope [(1, 5), (1, 5)] = 5 ∧ Spec.slope [(1, 7), (1, 7)] = 7 := by
  constructor <;> norm_num [Spec.slope]

/-- Such runs exist. -/
theorem rolling_lost_exists (y0 y1 y2 : ℝ) (rest : List (ℝ × ℝ)) :
    ∃ ws, IsRollingLstsq ((1, y0) :: (1, y1) :: (2 ^ 27, y2) :: rest) 2 ws := by
  have hd2 : AucDbl.IsDot [((1 : ℝ), (1 : ℝ)), (1, 1)] (rd (rd (1 * 1) + rd (1 * 1))) :=
    .add (l₁ := [(1, 1)]) (l₂ := [(1, 1)]) (.term 1 1) (.term 1 1)
  have hd : AucDbl.IsDot [(1, y0), (1, y1)] (rd (rd (1 * y0) + rd (1 * y1))) :=
    .add (l₁ := [(1, y0)]) (l₂ := [(1, y1)]) (.term 1 y0) (.term 1 y1)
  have hne : rd (rd ((1 : ℝ) * 1) + rd (1 * 1)) ≠ 0 := by
    have := dot_ones hd2 (by simp) (by simp)
    rw [this]; simp
  have hf : IsFit [(1, y0), (1, y1)] ⟨_, _⟩ := ⟨_, _, hd2, hd, hne, rfl, rfl⟩
  obtain ⟨hi, -⟩ := fit_two hf
  obtain ⟨s1, h1⟩ := step_exists (State.mk _ _) 1 y0 (-1) (by
    unfold den
    have r1 : rd ((2 : ℝ) ^ (-1 : ℤ)) = 2 ^ (-1 : ℤ) := rd_two _ (by norm_num)
    rw [hi, mul_one, r1, one_mul, r1, show (-1 : ℝ) + 2 ^ (-1 : ℤ) = -2 ^ (-1 : ℤ) by norm_num, Doubles.rd_neg, r1]
    norm_num)
  have i1 := remove_one hi h1
  obtain ⟨s2, h2⟩ := step_exists s1 (2 ^ 27) y2 1 (by
    unfold den
    rw [i1]
    have e1 : rd ((2 : ℝ) ^ (0 : ℤ) * 2 ^ 27) = 2 ^ 27 := by
      rw [zpow_zero, one_mul]; exact_mod_cast rd_two 27 (by norm_num)
    have e2 : rd ((2 : ℝ) ^ 27 * 2 ^ 27) = 2 ^ 54 := by rw [← pow_add]; exact_mod_cast rd_two 54 (by norm_num)
    have e3 : rd (1 + (2 : ℝ) ^ 54) = 2 ^ 54 := by exact_mod_cast rd_one_add 54 (by norm_num)
    rw [e1, e2, e3]; norm_num)
  have h3 := large_row_freezes s1 s2 0 27 (2 ^ 27) y2 i1 (by norm_num) (by norm_num) (by norm_num) (by norm_num) h2
  exact ⟨_, _, _, hf, .cons h1 h2 ((rolling_frozen h3.1 h3.2.1 rest _ _ (by simp; omega)).2 rfl), rfl⟩

theorem recursive_frozen {s : State} (h0 : s.inv = 0) (hw : Rep f64 s.w) {rs : List (ℝ × ℝ)} {ws : List ℝ}
    (h : IsRecursive s rs ws) : ws = List.replicate rs.length s.w := by
  induction rs generalizing ws with
  | nil => cases h; rfl
  | cons r rs ih =>
    cases h with
    | cons a b =>
      have e := frozen_step h0 hw (Or.inl rfl) a
      rw [e] at b ⊢
      rw [ih b]
      rfl

/-- **C168, violated.**  `recursive_lin_reg` starting with two rows: after the features 1, 1 and `2 ^ 28` no further row
changes the coefficient. -/
theorem recursive_lost (y0 y1 y2 : ℝ) (rest : List (ℝ × ℝ)) (ws : List ℝ)
    (h : IsRecursiveLstsq ((1, y0) :: (1, y1) :: (2 ^ 28, y2) :: rest) 2 ws) :
    ∃ v w, ws = v :: List.replicate (rest.length + 1) w := by
  obtain ⟨s, tail, hf, hr, rfl⟩ := h
  simp only [List.take_succ_cons, List.take_zero, List.drop_succ_cons, List.drop_zero] at hf hr
  obtain ⟨hi, -⟩ := fit_two hf
  cases hr with
  | @cons _ s1 _ _ ws a b =>
    have h2 := large_row_freezes s s1 (-1) 28 (2 ^ 28) y2 hi (by norm_num) (by norm_num) (by norm_num) (by norm_num) a
    have h3 := recursive_frozen h2.1 h2.2.1 b
    exact ⟨s.w, s1.w, by rw [h3, List.replicate_succ]⟩

/-- **C168, violated.**  With the targets 0, 0, 0 every coefficient of the recursive regression is exactly 0, whatever
rows follow, also when they outweigh the large one. -/
theorem recursive_wrong (rest : List (ℝ × ℝ)) (ws : List ℝ)
    (h : IsRecursiveLstsq ((1, 0) :: (1, 0) :: (2 ^ 28, 0) :: rest) 2 ws) :
    ws = List.replicate (rest.length + 2) 0 := by
  obtain ⟨s, tail, hf, hr, rfl⟩ := h
  simp only [List.take_succ_cons, List.take_zero, List.drop_succ_cons, List.drop_zero] at hf hr
  obtain ⟨hi, -⟩ := fit_two hf
  have hw : s.w = 0 := by
    obtain ⟨a, b, -, h2, -, -, h5⟩ := hf
    rw [h5, dot_zero h2 (by simp), zero_div]
    exact Doubles.rd_zero
  cases hr with
  | @cons _ s1 _ _ ws a b =>
    have h2 := large_row_freezes s s1 (-1) 28 (2 ^ 28) 0 hi (by norm_num) (by norm_num) (by norm_num) (by norm_num) a
    have h3 := recursive_frozen h2.1 h2.2.1 b
    rw [h3, step_zero hw a, hw, List.replicate_succ, List.replicate_succ]

/-- With three more rows of feature `2 ^ 28` and target `2 ^ 28` the least squares coefficient is above 0.7. -/
example : (7 / 10 : ℝ) < Spec.slope [(1, 0), (1, 0), (2 ^ 28, 0), (2 ^ 28, 2 ^ 28), (2 ^ 28, 2 ^ 28), (2 ^ 28, 2 ^ 28)] := by
  norm_num [Spec.slope]

/-! ### Moderate rows -/

/-- `a` is `A` up to `n` roundings. -/
def Near (n : ℕ) (A a : ℝ) : Prop :=
  0 < A ∧ (1 - 2 ^ (-53 : ℤ)) ^ n * A ≤ a ∧ (1 - 2 ^ (-53 : ℤ)) ^ n * a ≤ A

theorem q_bounds : (0 : ℝ) < 1 - 2 ^ (-53 : ℤ) ∧ (1 : ℝ) - 2 ^ (-53 : ℤ) ≤ 1 := by constructor <;> norm_num

theorem q_pow (n : ℕ) (h : n ≤ 20) : (1 : ℝ) / 2 ≤ (1 - 2 ^ (-53 : ℤ)) ^ n :=
  le_trans (by norm_num) (pow_le_pow_of_le_one q_bounds.1.le q_bounds.2 h)

theorem near_pos {n : ℕ} {A a : ℝ} (h : Near n A a) : 0 < a :=
  lt_of_lt_of_le (mul_pos (pow_pos q_bounds.1 _) h.1) h.2.1

theorem near_refl {A : ℝ} (h : 0 < A) : Near 0 A A := ⟨h, by simp, by simp⟩

theorem near_mono {n m : ℕ} {A a : ℝ} (h : Near n A a) (hm : n ≤ m) : Near m A a := by
  have hp := near_pos h
  have hq := pow_le_pow_of_le_one q_bounds.1.le q_bounds.2 hm
  exact ⟨h.1, (mul_le_mul_of_nonneg_right hq h.1.le).trans h.2.1, (mul_le_mul_of_nonneg_right hq hp.le).trans h.2.2⟩

theorem near_mul {n m : ℕ} {A a B b : ℝ} (h : Near n A a) (g : Near m B b) : Near (n + m) (A * B) (a * b) := by
  have q1 := (pow_pos q_bounds.1 n).le
  have q2 := (pow_pos q_bounds.1 m).le
  have ha := near_pos h
  have hb := near_pos g
  have hB := g.1
  have hA := h.1
  refine ⟨mul_pos hA hB, ?_, ?_⟩
  · rw [pow_add]
    calc _ = ((1 - 2 ^ (-53 : ℤ)) ^ n * A) * ((1 - 2 ^ (-53 : ℤ)) ^ m * B) := by ring
      _ ≤ _ := mul_le_mul h.2.1 g.2.1 (by positivity) ha.le
  · rw [pow_add]
    calc _ = ((1 - 2 ^ (-53 : ℤ)) ^ n * a) * ((1 - 2 ^ (-53 : ℤ)) ^ m * b) := by ring
      _ ≤ _ := mul_le_mul h.2.2 g.2.2 (by positivity) hA.le

theorem near_inv {n : ℕ} {A a : ℝ} (h : Near n A a) : Near n (1 / A) (1 / a) := by
  have ha := near_pos h
  have hA := h.1
  refine ⟨by positivity, ?_, ?_⟩
  · rw [mul_one_div, div_le_div_iff₀ hA ha, one_mul]; exact h.2.2
  · rw [mul_one_div, div_le_div_iff₀ ha hA, one_mul]; exact h.2.1

theorem near_one_add {n : ℕ} {A a : ℝ} (h : Near n A a) : Near n (1 + A) (1 + a) := by
  have hq : (1 - 2 ^ (-53 : ℤ) : ℝ) ^ n ≤ 1 := pow_le_one₀ q_bounds.1.le q_bounds.2
  have hA := h.1
  refine ⟨by positivity, ?_, ?_⟩
  · rw [mul_add]; linarith [h.2.1]
  · rw [mul_add]; linarith [h.2.2]

theorem near_rd {n : ℕ} {A a : ℝ} (h : Near n A a) (hn : n ≤ 20) (hA : (2 : ℝ) ^ (-999 : ℤ) ≤ A) :
    Near (n + 1) A (rd a) := by
  have hp := near_pos h
  have hq := q_pow n hn
  have ha : (2 : ℝ) ^ (-1000 : ℤ) ≤ a := by
    have e : (2 : ℝ) ^ (-999 : ℤ) = 2 ^ (-1000 : ℤ) * 2 := by rw [← zpow_add_one₀ two_ne_zero]; norm_num
    have := mul_le_mul_of_nonneg_right hq h.1.le
    rw [e] at hA
    have h1 := h.2.1
    clear e hq
    generalize (1 - 2 ^ (-53 : ℤ) : ℝ) ^ n * A = w at *
    generalize (2 : ℝ) ^ (-1000 : ℤ) = t at *
    linarith
  have hr := rd_rel (x := a) (by rwa [abs_of_pos hp])
  rw [abs_of_pos hp, abs_le] at hr
  have hQ := (pow_pos q_bounds.1 n).le
  have hu0 : (0 : ℝ) < 2 ^ (-53 : ℤ) := two_zpow_pos _
  have hu1 : (2 : ℝ) ^ (-53 : ℤ) < 1 := by norm_num
  obtain ⟨h0, h1, h2⟩ := h
  rw [Near, pow_succ]
  generalize (1 - 2 ^ (-53 : ℤ) : ℝ) ^ n = Q at *
  generalize (2 : ℝ) ^ (-53 : ℤ) = u at *
  refine ⟨h0, ?_, ?_⟩
  · have : (1 - u) * (Q * A) ≤ (1 - u) * a := mul_le_mul_of_nonneg_left h1 (by linarith)
    nlinarith [hr.1]
  · have h3 : (1 - u) * rd a ≤ a := by nlinarith [hr.2, mul_pos hu0 hp, mul_pos hu0 hu0]
    calc Q * (1 - u) * rd a = Q * ((1 - u) * rd a) := by ring
      _ ≤ Q * a := mul_le_mul_of_nonneg_left h3 hQ
      _ ≤ A := h2

theorem near_eight {A a : ℝ} (h : Near 8 A a) : |a - A| ≤ 9 * 2 ^ (-53 : ℤ) * A := by
  obtain ⟨h0, h1, h2⟩ := h
  have b1 : (1 : ℝ) - 8 * 2 ^ (-53 : ℤ) ≤ (1 - 2 ^ (-53 : ℤ)) ^ 8 := by norm_num
  have b2 : (1 : ℝ) ≤ (1 - 2 ^ (-53 : ℤ)) ^ 8 * (1 + 9 * 2 ^ (-53 : ℤ)) := by norm_num
  have hu0 : (0 : ℝ) < 2 ^ (-53 : ℤ) := two_zpow_pos _
  have hQ : (0 : ℝ) < (1 - 2 ^ (-53 : ℤ)) ^ 8 := pow_pos q_bounds.1 _
  generalize (1 - 2 ^ (-53 : ℤ) : ℝ) ^ 8 = Q at *
  generalize (2 : ℝ) ^ (-53 : ℤ) = u at *
  rw [abs_le]
  constructor
  · nlinarith [mul_le_mul_of_nonneg_right b1 h0.le, mul_pos hu0 h0]
  · have : Q * a ≤ Q * ((1 + 9 * u) * A) := by
      nlinarith [mul_le_mul_of_nonneg_right b2 h0.le]
    have := le_of_mul_le_mul_left this hQ
    linarith

theorem zpow_two_add (a b : ℤ) : (2 : ℝ) ^ (a + b) = 2 ^ a * 2 ^ b := zpow_add₀ two_ne_zero a b

private theorem accurate_pos (i x y w : ℝ) (s' : State) (hi1 : (2 : ℝ) ^ (-100 : ℤ) ≤ i) (hi2 : i ≤ 2 ^ (100 : ℤ))
    (hx1 : (2 : ℝ) ^ (-100 : ℤ) ≤ x) (hx2 : x ≤ 2 ^ (100 : ℤ)) (h : IsStep ⟨i, w⟩ x y 1 s') :
    |s'.inv - i / (1 + i * x ^ 2)| ≤ 12 * 2 ^ (-53 : ℤ) * i := by
  have hi : 0 < i := (two_zpow_pos _).trans_le hi1
  have hx : 0 < x := (two_zpow_pos _).trans_le hx1
  -- magnitudes
  have m1 : (2 : ℝ) ^ (-200 : ℤ) ≤ i * x := by
    rw [show (-200 : ℤ) = -100 + -100 by norm_num, zpow_two_add]
    exact mul_le_mul hi1 hx1 (two_zpow_pos _).le hi.le
  have m1' : i * x ≤ (2 : ℝ) ^ (200 : ℤ) := by
    rw [show (200 : ℤ) = 100 + 100 by norm_num, zpow_two_add]
    exact mul_le_mul hi2 hx2 hx.le (two_zpow_pos _).le
  have m2 : (2 : ℝ) ^ (-300 : ℤ) ≤ x * (i * x) := by
    rw [show (-300 : ℤ) = -100 + -200 by norm_num, zpow_two_add]
    exact mul_le_mul hx1 m1 (two_zpow_pos _).le hx.le
  have m2' : x * (i * x) ≤ (2 : ℝ) ^ (300 : ℤ) := by
    rw [show (300 : ℤ) = 100 + 200 by norm_num, zpow_two_add]
    exact mul_le_mul hx2 m1' (by positivity) (two_zpow_pos _).le
  have m3 : (1 : ℝ) ≤ 1 + x * (i * x) := by nlinarith [mul_pos hx (mul_pos hi hx)]
  have m3' : 1 + x * (i * x) ≤ (2 : ℝ) ^ (301 : ℤ) := by
    have e : (2 : ℝ) ^ (301 : ℤ) = 2 ^ (300 : ℤ) * 2 := by rw [← zpow_add_one₀ two_ne_zero]; norm_num
    have : (1 : ℝ) ≤ 2 ^ (300 : ℤ) := one_le_zpow₀ (by norm_num) (by norm_num)
    rw [e]
    calc 1 + x * (i * x) ≤ 2 ^ (300 : ℤ) + 2 ^ (300 : ℤ) := add_le_add this m2'
      _ = _ := by ring
  have m4 : (2 : ℝ) ^ (-301 : ℤ) ≤ 1 / (1 + x * (i * x)) := by
    rw [zpow_neg, ← one_div]
    exact one_div_le_one_div_of_le (by linarith) m3'
  have m5 : (2 : ℝ) ^ (-400 : ℤ) ≤ (i * x) * (i * x) := by
    rw [show (-400 : ℤ) = -200 + -200 by norm_num, zpow_two_add]
    exact mul_le_mul m1 m1 (two_zpow_pos _).le (by positivity)
  have m6 : (2 : ℝ) ^ (-501 : ℤ) ≤ 1 / (1 + x * (i * x)) * (i * x) := by
    rw [show (-501 : ℤ) = -301 + -200 by norm_num, zpow_two_add]
    exact mul_le_mul m4 m1 (two_zpow_pos _).le (by positivity)
  have m7 : (2 : ℝ) ^ (-701 : ℤ) ≤ 1 / (1 + x * (i * x)) * ((i * x) * (i * x)) := by
    rw [show (-701 : ℤ) = -301 + -400 by norm_num, zpow_two_add]
    exact mul_le_mul m4 m5 (two_zpow_pos _).le (by positivity)
  have lift : ∀ {k : ℤ} {A : ℝ}, (-999 : ℤ) ≤ k → (2 : ℝ) ^ k ≤ A → (2 : ℝ) ^ (-999 : ℤ) ≤ A :=
    fun hk hA => (zpow_le_zpow_right₀ (by norm_num) hk).trans hA
  -- the roundings
  have n1 : Near 1 (i * x) (rd (i * x)) := near_rd (near_refl (by positivity)) (by norm_num) (lift (by norm_num) m1)
  have n2 : Near 2 (x * (i * x)) (rd (x * rd (i * x))) :=
    near_rd (near_mono (near_mul (near_refl hx) n1) (by norm_num)) (by norm_num) (lift (by norm_num) m2)
  have n3 : Near 3 (1 + x * (i * x)) (rd (1 + rd (x * rd (i * x)))) :=
    near_rd (near_one_add n2) (by norm_num) (lift (k := 0) (by norm_num) (by simpa using m3))
  have n4 : Near 4 (1 / (1 + x * (i * x))) (rd (1 / rd (1 + rd (x * rd (i * x))))) :=
    near_rd (near_inv n3) (by norm_num) (lift (by norm_num) m4)
  have hs := h.2.1
  unfold den at hs
  simp only at hs
  generalize rd (1 / rd (1 + rd (x * rd (i * x)))) = z at *
  generalize rd (i * x) = p at *
  have a1 : Near 3 ((i * x) * (i * x)) (rd (p * p)) := near_rd (near_mul n1 n1) (by norm_num) (lift (by norm_num) m5)
  have a2 := near_mul n4 a1
  have a3 := near_rd a2 (by norm_num) (lift (by norm_num) m7)
  have b1 := near_rd (near_mul n4 n1) (by norm_num) (lift (by norm_num) m6)
  have e7 : 1 / (1 + x * (i * x)) * (i * x) * (i * x) = 1 / (1 + x * (i * x)) * ((i * x) * (i * x)) := by ring
  have b2 := near_mul b1 n1
  rw [e7] at b2
  have b3 := near_rd b2 (by norm_num) (lift (by norm_num) m7)
  -- every order
  have key : ∃ t, Near 8 (1 / (1 + x * (i * x)) * ((i * x) * (i * x))) t ∧ s'.inv = rd (i - t) := by
    unfold IsAxpy at hs
    simp only [neg_mul, Doubles.rd_neg, ← sub_eq_add_neg] at hs
    rcases hs with hs | hs | hs | hs | hs | hs
    · exact ⟨_, near_mono a3 (by norm_num), hs⟩
    · exact ⟨_, near_mono a2 (by norm_num), hs⟩
    · exact ⟨_, near_mono b3 (by norm_num), hs⟩
    · exact ⟨_, near_mono b2 (by norm_num), hs⟩
    · exact ⟨_, near_mono b3 (by norm_num), hs⟩
    · exact ⟨_, near_mono b2 (by norm_num), hs⟩
  obtain ⟨t, ht, hr⟩ := key
  have hT := near_eight ht
  have hD : (0 : ℝ) < 1 + x * (i * x) := by linarith
  have eT : i / (1 + i * x ^ 2) = i - 1 / (1 + x * (i * x)) * ((i * x) * (i * x)) := by
    have : 1 + i * x ^ 2 = 1 + x * (i * x) := by ring
    rw [this]
    field_simp
    ring
  have hTi : 1 / (1 + x * (i * x)) * ((i * x) * (i * x)) ≤ i := by
    have : 0 < i / (1 + i * x ^ 2) := by positivity
    linarith
  have hmix := fl_err_mixed f64 (i - t)
  have hunit : unit f64 = 2 ^ (-53 : ℤ) := by simp [unit, f64]
  have htiny : tiny f64 ≤ 2 ^ (-53 : ℤ) * i := by
    have : tiny f64 ≤ 2 ^ (-53 : ℤ) * 2 ^ (-100 : ℤ) := by
      rw [← zpow_two_add]
      exact zpow_le_zpow_right₀ (by norm_num) (by simp [f64])
    exact this.trans (mul_le_mul_of_nonneg_left hi1 (two_zpow_pos _).le)
  rw [hunit] at hmix
  rw [hr, eT]
  have hTp := ht.1
  generalize 1 / (1 + x * (i * x)) * ((i * x) * (i * x)) = T at *
  change |rd (i - t) - (i - t)| ≤ _ at hmix
  have hu0 : (0 : ℝ) < 2 ^ (-53 : ℤ) := two_zpow_pos _
  have hu1 : (9 : ℝ) * 2 ^ (-53 : ℤ) < 1 / 2 := by norm_num
  generalize (2 : ℝ) ^ (-53 : ℤ) = u at *
  generalize tiny f64 = τ at *
  have hui := mul_pos hu0 hi
  have hTu : u * T ≤ u * i := mul_le_mul_of_nonneg_left hTi hu0.le
  have hab := abs_le.1 hT
  have hit : |i - t| ≤ 2 * i := by rw [abs_le]; constructor <;> nlinarith
  have := mul_le_mul_of_nonneg_left hit hu0.le
  have hm := abs_le.1 hmix
  rw [abs_le]
  constructor <;> nlinarith

/-- **C168, the part that holds.**  For a stored inverse and a feature between `2 ^ -100` and `2 ^ 100` an added row
gives the exact new inverse up to twelve half-ulps *of the old inverse*, in every order of the operations. -/
theorem step_accurate_partial (s s' : State) (x y : ℝ) (hi : (2 : ℝ) ^ (-100 : ℤ) ≤ s.inv ∧ s.inv ≤ 2 ^ (100 : ℤ))
    (hx : (2 : ℝ) ^ (-100 : ℤ) ≤ |x| ∧ |x| ≤ 2 ^ (100 : ℤ)) (h : IsStep s x y 1 s') :
    |s'.inv - s.inv / (1 + s.inv * x ^ 2)| ≤ 12 * 2 ^ (-53 : ℤ) * s.inv := by
  rcases le_or_gt 0 x with h0 | h0
  · rw [abs_of_nonneg h0] at hx
    exact accurate_pos s.inv x y s.w s' hi.1 hi.2 hx.1 hx.2 h
  · rw [abs_of_neg h0] at hx
    have hd : den s (-x) 1 = den s x 1 := by unfold den; simp [Doubles.rd_neg]
    have h' : IsStep ⟨s.inv, s.w⟩ (-x) (-y) 1 s' := by
      obtain ⟨a, b, c⟩ := h
      have e1 : rd (-y - rd (-x * s.w)) = -rd (y - rd (x * s.w)) := by
        rw [neg_mul, Doubles.rd_neg, ← Doubles.rd_neg (y - _)]; congr 1; ring
      refine ⟨by rw [hd]; exact a, ?_, ?_⟩
      · rw [hd, mul_neg, Doubles.rd_neg]; exact axpy_neg _ _ _ _ _ b
      · rw [hd, mul_neg, Doubles.rd_neg, e1]; exact axpy_neg _ _ _ _ _ c
    have := accurate_pos s.inv (-x) (-y) s.w s' hi.1 hi.2 hx.1 hx.2 h'
    simpa using this

example : (2 : ℝ) ^ (-100 : ℤ) ≤ |(-3 : ℝ)| ∧ |(-3 : ℝ)| ≤ 2 ^ (100 : ℤ) := by norm_num

end Verif.OnlineDbl
