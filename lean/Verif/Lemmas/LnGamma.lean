import Mathlib.Analysis.Convex.Deriv
import Mathlib.Analysis.SpecialFunctions.Complex.LogBounds
import Mathlib.Analysis.SpecialFunctions.Gamma.BohrMollerup
import Mathlib.Analysis.SpecialFunctions.Stirling
import Mathlib.Analysis.Real.Pi.Bounds
import Verif.Lemmas.LanczosPoly

/-!
# Accuracy of the Lanczos approximation

`E = L - log Γ` satisfies `E (x + 1) - E x = f (x - 1/2)` with an elementary `f`, whose second derivative is a rational
function. The bound on that is a polynomial with positive coefficients; it is integrated by convexity and summed.
-/

namespace Verif.LnGamma
open Filter Topology ListPoly
open Real (log Gamma exp)

local notation "R" => ((gammaR : ℚ) : ℝ)

theorem R_pos : 0 < R := by unfold gammaR; norm_num

theorem eval_pos {l : List ℚ} (h : nonneg l = true) (h0 : 0 < l.headD 0) {t : ℝ} (ht : 0 ≤ t) : 0 < eval l t := by
  cases l with
  | nil => simp at h0
  | cons a l =>
    simp only [nonneg, List.all_cons, Bool.and_eq_true, decide_eq_true_eq] at h
    rw [eval_cons]
    have := eval_nonneg (l := l) (by simpa [nonneg] using h.2) ht
    have ha : (0 : ℝ) < a := by exact_mod_cast h0
    positivity

theorem P0_pos {t : ℝ} (ht : 0 ≤ t) : 0 < eval P0 t := eval_pos cert.1 cert.2.2.1 ht
theorem P1_pos {t : ℝ} (ht : 0 ≤ t) : 0 < eval P1 t := eval_pos cert.2.1 cert.2.2.2.1 ht

/-- The difference of the errors at `t + 3/2` and `t + 1/2`. -/
noncomputable def f (t : ℝ) : ℝ :=
  log (eval P1 t) - log (eval P0 t) - log (t + 21 / 2) + (t + 1) * log (t + (1 + R)) - t * log (t + R) - 1

noncomputable def f' (t : ℝ) : ℝ :=
  eval (der P1) t / eval P1 t - eval (der P0) t / eval P0 t - 1 / (t + 21 / 2) +
    (1 * log (t + (1 + R)) + (t + 1) * (1 / (t + (1 + R)))) - (1 * log (t + R) + t * (1 / (t + R)))

noncomputable def f'' (t : ℝ) : ℝ :=
  eval (curv P1) t / eval P1 t ^ 2 - eval (curv P0) t / eval P0 t ^ 2 + 1 / (t + 21 / 2) ^ 2 +
    (1 / (t + (1 + R)) + R / (t + (1 + R)) ^ 2) - (1 / (t + R) + R / (t + R) ^ 2)

theorem eval_curv (p : List ℚ) (t : ℝ) :
    eval (curv p) t = eval p t * eval (der (der p)) t - eval (der p) t * eval (der p) t := by
  unfold curv
  rw [eval_add, eval_smul, eval_mul, eval_mul]
  push_cast
  ring

theorem hasDerivAt_f {t : ℝ} (ht : 0 ≤ t) : HasDerivAt f (f' t) t := by
  have hR := R_pos
  have lin : ∀ c : ℝ, HasDerivAt (fun t : ℝ => t + c) 1 t := fun c => (hasDerivAt_id t).add_const c
  have h1 := (hasDerivAt P1 t).log (P1_pos ht).ne'
  have h0 := (hasDerivAt P0 t).log (P0_pos ht).ne'
  have hw := (lin (21 / 2)).log (by positivity)
  have hu := (lin 1).mul ((lin (1 + R)).log (by positivity))
  have hv := (hasDerivAt_id t).mul ((lin R).log (by positivity))
  exact ((((h1.sub h0).sub hw).add hu).sub hv).sub_const 1

theorem hasDerivAt_f' {t : ℝ} (ht : 0 ≤ t) : HasDerivAt f' (f'' t) t := by
  have hR := R_pos
  have lin : ∀ c : ℝ, HasDerivAt (fun t : ℝ => t + c) 1 t := fun c => (hasDerivAt_id t).add_const c
  have p1 := P1_pos ht
  have p0 := P0_pos ht
  have h1 := (hasDerivAt (der P1) t).div (hasDerivAt P1 t) p1.ne'
  have h0 := (hasDerivAt (der P0) t).div (hasDerivAt P0 t) p0.ne'
  have hw := (hasDerivAt_const t (1 : ℝ)).div (lin (21 / 2)) (by positivity)
  have hu := ((hasDerivAt_const t (1 : ℝ)).mul ((lin (1 + R)).log (by positivity))).add
    ((lin 1).mul ((hasDerivAt_const t (1 : ℝ)).div (lin (1 + R)) (by positivity)))
  have hv := ((hasDerivAt_const t (1 : ℝ)).mul ((lin R).log (by positivity))).add
    ((hasDerivAt_id t).mul ((hasDerivAt_const t (1 : ℝ)).div (lin R) (by positivity)))
  have h := (((h1.sub h0).sub hw).add hu).sub hv
  refine h.congr_deriv ?_
  unfold f''
  rw [eval_curv, eval_curv]
  generalize R = r at hR
  generalize eval P1 t = a at p1
  generalize eval P0 t = b at p0
  have e1 : t + (1 + r) ≠ 0 := by positivity
  have e2 : t + r ≠ 0 := by positivity
  simp only [id, Pi.div_apply]
  field_simp
  ring

theorem f''_eq {t : ℝ} (ht : 0 ≤ t) : f'' t = eval num t / eval den t ∧ 0 < eval den t := by
  have hR := R_pos
  have p1 := P1_pos ht
  have p0 := P0_pos ht
  have ew : eval w t = t + 21 / 2 := by simp only [w, eval_cons, eval_nil]; push_cast; ring
  have eu : eval u t = t + (1 + R) := by simp only [u, eval_cons, eval_nil]; push_cast; ring
  have ev : eval v t = t + R := by simp only [v, eval_cons, eval_nil]; push_cast; ring
  have er : eval [gammaR] t = R := by simp only [eval_cons, eval_nil]; ring
  unfold f'' num den sq
  simp only [eval_add, eval_mul, eval_smul, ew, eu, ev, er]
  generalize eval (curv P1) t = c1
  generalize eval (curv P0) t = c0
  generalize R = r at hR
  generalize eval P1 t = a at p1
  generalize eval P0 t = b at p0
  have e1 : 0 < t + (1 + r) := by positivity
  have e2 : 0 < t + r := by positivity
  have e3 : 0 < t + 21 / 2 := by positivity
  generalize t + (1 + r) = x1 at e1 ⊢
  generalize t + r = x2 at e2 ⊢
  generalize t + 21 / 2 = x3 at e3 ⊢
  refine ⟨?_, by positivity⟩
  field_simp
  push_cast
  ring

theorem f''_bound {t : ℝ} (ht : 0 ≤ t) : |f'' t| ≤ 1 / 10 ^ 14 / (t + 20) ^ 4 := by
  obtain ⟨e, hd⟩ := f''_eq ht
  have h1 := eval_nonneg cert.2.2.2.2.1 ht
  have h2 := eval_nonneg cert.2.2.2.2.2 ht
  have es : eval shift4 t = (t + 20) ^ 4 := by
    unfold shift4 sq
    simp only [eval_mul, eval_cons, eval_nil]; push_cast; ring
  simp only [eval_add, eval_smul, eval_mul, es] at h1 h2
  push_cast at h1 h2
  have h4 : 0 < (t + 20) ^ 4 := by positivity
  rw [e, abs_div, abs_of_pos hd, div_le_div_iff₀ hd h4, ← abs_of_pos h4, ← abs_mul, abs_le]
  constructor <;> linarith

/-- A convex function that tends to zero is not negative. -/
theorem convex_nonneg {g : ℝ → ℝ} (hc : ConvexOn ℝ (Set.Ici 0) g) (hl : Tendsto g atTop (𝓝 0)) {t : ℝ} (ht : 0 ≤ t) :
    0 ≤ g t := by
  have h1 : Tendsto (fun s : ℝ => g (t + s)) atTop (𝓝 0) := hl.comp (tendsto_atTop_add_const_left _ t tendsto_id)
  have h2 : Tendsto (fun s : ℝ => g (t + 2 * s)) atTop (𝓝 0) :=
    hl.comp (tendsto_atTop_add_const_left _ t (tendsto_id.const_mul_atTop (by norm_num : (0 : ℝ) < 2)))
  have h3 : ∀ᶠ s in atTop, g (t + s) ≤ 1 / 2 * g t + 1 / 2 * g (t + 2 * s) := by
    filter_upwards [eventually_ge_atTop 0] with s hs
    have := hc.2 (Set.mem_Ici.2 ht) (Set.mem_Ici.2 (by positivity : 0 ≤ t + 2 * s)) (by norm_num : (0 : ℝ) ≤ 1 / 2)
      (by norm_num : (0 : ℝ) ≤ 1 / 2) (by norm_num)
    simp only [smul_eq_mul] at this
    have e : 1 / 2 * t + 1 / 2 * (t + 2 * s) = t + s := by ring
    rwa [e] at this
  have h4 := le_of_tendsto_of_tendsto h1 (tendsto_const_nhds.add (h2.const_mul (1 / 2))) h3
  linarith


/-- A twice differentiable function that tends to zero, from a bound on the second derivative. -/
theorem two_derivatives {g g' g'' : ℝ → ℝ} {C a : ℝ} (ha : 0 < a) (h1 : ∀ t, 0 ≤ t → HasDerivAt g (g' t) t)
    (h2 : ∀ t, 0 ≤ t → HasDerivAt g' (g'' t) t) (h : ∀ t, 0 ≤ t → -g'' t ≤ C / (t + a) ^ 4)
    (hl : Tendsto g atTop (𝓝 0)) {t : ℝ} (ht : 0 ≤ t) : -g t ≤ C / 6 / (t + a) ^ 2 := by
  have lin : ∀ t : ℝ, HasDerivAt (fun t : ℝ => t + a) 1 t := fun t => (hasDerivAt_id t).add_const a
  have hi : ∀ t, 0 ≤ t → HasDerivAt (fun t => C / 6 / (t + a) ^ 2) (-(C / 3) / (t + a) ^ 3) t := by
    intro t ht
    have hp : 0 < t + a := by positivity
    have := (hasDerivAt_const t (C / 6)).div ((lin t).pow 2) (pow_ne_zero 2 hp.ne')
    refine this.congr_deriv ?_
    simp only [Pi.pow_apply]
    field_simp
    ring
  have hi2 : ∀ t, 0 ≤ t → HasDerivAt (fun t => -(C / 3) / (t + a) ^ 3) (C / (t + a) ^ 4) t := by
    intro t ht
    have hp : 0 < t + a := by positivity
    have := (hasDerivAt_const t (-(C / 3))).div ((lin t).pow 3) (pow_ne_zero 3 hp.ne')
    refine this.congr_deriv ?_
    simp only [Pi.pow_apply]
    field_simp
    ring
  have hc : ConvexOn ℝ (Set.Ici 0) fun t => g t + C / 6 / (t + a) ^ 2 := by
    have hin : ∀ x ∈ interior (Set.Ici (0 : ℝ)), 0 ≤ x := fun x hx => interior_subset hx
    refine convexOn_of_hasDerivWithinAt2_nonneg (convex_Ici 0) (f' := fun t => g' t + -(C / 3) / (t + a) ^ 3)
      (f'' := fun t => g'' t + C / (t + a) ^ 4) ?_ ?_ ?_ ?_
    · intro x hx
      exact ((h1 x hx).add (hi x hx)).continuousAt.continuousWithinAt
    · intro x hx
      exact ((h1 x (hin x hx)).add (hi x (hin x hx))).hasDerivWithinAt
    · intro x hx
      exact ((h2 x (hin x hx)).add (hi2 x (hin x hx))).hasDerivWithinAt
    · intro x hx
      have := h x (hin x hx)
      linarith
  have hl2 : Tendsto (fun t : ℝ => C / 6 / (t + a) ^ 2) atTop (𝓝 0) :=
    tendsto_const_nhds.div_atTop ((tendsto_pow_atTop (by norm_num)).comp (tendsto_atTop_add_const_right _ a tendsto_id))
  have := convex_nonneg hc (by simpa using hl.add hl2) ht
  linarith

/-! ## The limit of `f` -/

theorem tendsto_log_ratio (a b : ℝ) : Tendsto (fun t : ℝ => log (t + a) - log (t + b)) atTop (𝓝 0) := by
  have h1 : Tendsto (fun t : ℝ => t + b) atTop atTop := tendsto_atTop_add_const_right _ b tendsto_id
  have h2 : Tendsto (fun t : ℝ => 1 + (a - b) / (t + b)) atTop (𝓝 (1 + 0)) :=
    tendsto_const_nhds.add (tendsto_const_nhds.div_atTop h1)
  rw [add_zero] at h2
  have h3 := h2.log one_ne_zero
  rw [Real.log_one] at h3
  refine h3.congr' ?_
  filter_upwards [eventually_gt_atTop (|a| + |b|)] with t ht
  have ha := neg_abs_le a
  have hb := neg_abs_le b
  have := abs_nonneg a
  have := abs_nonneg b
  have p1 : 0 < t + a := by linarith
  have p2 : 0 < t + b := by linarith
  rw [← Real.log_div p1.ne' p2.ne']
  congr 1
  field_simp
  ring

/-- `t (log (t + a) - log (t + b))` tends to `a - b`. -/
theorem tendsto_mul_log_ratio (a b : ℝ) :
    Tendsto (fun t : ℝ => t * (log (t + a) - log (t + b))) atTop (𝓝 (a - b)) := by
  have h1 : Tendsto (fun t : ℝ => t + b) atTop atTop := tendsto_atTop_add_const_right _ b tendsto_id
  have h2 := (Real.tendsto_mul_log_one_add_div_atTop (a - b)).comp h1
  have h3 := h2.sub ((tendsto_log_ratio a b).const_mul b)
  rw [mul_zero, sub_zero] at h3
  refine h3.congr' ?_
  filter_upwards [eventually_gt_atTop (|a| + |b|)] with t ht
  have ha := neg_abs_le a
  have hb := neg_abs_le b
  have := abs_nonneg a
  have := abs_nonneg b
  have p1 : 0 < t + a := by linarith
  have p2 : 0 < t + b := by linarith
  have e : 1 + (a - b) / (t + b) = (t + a) / (t + b) := by field_simp; ring
  simp only [Function.comp]
  rw [e, Real.log_div p1.ne' p2.ne']
  ring

theorem tendsto_S : Tendsto S atTop (𝓝 ((dk.getD 0 0 : ℚ) : ℝ)) := by
  have h : ∀ d a : ℝ, Tendsto (fun x : ℝ => d / (x + a)) atTop (𝓝 0) := fun d a =>
    tendsto_const_nhds.div_atTop (tendsto_atTop_add_const_right _ a tendsto_id)
  have h0 : ∀ d : ℝ, Tendsto (fun x : ℝ => d / x) atTop (𝓝 0) := fun d => tendsto_const_nhds.div_atTop tendsto_id
  have e : S = _ := funext S_eq
  rw [e]
  have := ((((((((((tendsto_const_nhds (x := ((dk.getD 0 0 : ℚ) : ℝ))).add (h0 (dk.getD 1 0 : ℚ))).add
    (h (dk.getD 2 0 : ℚ) 1)).add (h (dk.getD 3 0 : ℚ) 2)).add (h (dk.getD 4 0 : ℚ) 3)).add
    (h (dk.getD 5 0 : ℚ) 4)).add (h (dk.getD 6 0 : ℚ) 5)).add (h (dk.getD 7 0 : ℚ) 6)).add
    (h (dk.getD 8 0 : ℚ) 7)).add (h (dk.getD 9 0 : ℚ) 8)).add (h (dk.getD 10 0 : ℚ) 9)
  simpa only [add_zero] using this

theorem Q_pos {x : ℝ} (hx : 0 < x) : 0 < Q x := by unfold Q; positivity

theorem S_pos {x : ℝ} (hx : 1 / 2 ≤ x) : 0 < S x := by
  have h := eval_poly (1 / 2) (x - 1 / 2) (by push_cast; linarith)
  have e : x - 1 / 2 + ((1 / 2 : ℚ) : ℝ) = x := by push_cast; ring
  rw [e] at h
  have h2 : 0 < S x * Q x := h ▸ P0_pos (by linarith)
  exact (pos_iff_pos_of_mul_pos h2).2 (Q_pos (by linarith))

/-- `f` in terms of the series. -/
theorem f_eq {x : ℝ} (hx : 1 / 2 ≤ x) : f (x - 1 / 2) = log (S (x + 1)) - log (S x) +
    (x + 1 / 2) * log (x + 1 / 2 + R) - (x - 1 / 2) * log (x - 1 / 2 + R) - 1 - log x := by
  have h0 := eval_poly (1 / 2) (x - 1 / 2) (by push_cast; linarith)
  have h1 := eval_poly (3 / 2) (x - 1 / 2) (by push_cast; linarith)
  have e : x - 1 / 2 + ((1 / 2 : ℚ) : ℝ) = x := by push_cast; ring
  have e1 : x - 1 / 2 + ((3 / 2 : ℚ) : ℝ) = x + 1 := by push_cast; ring
  rw [e] at h0
  rw [e1] at h1
  have hx0 : 0 < x := by linarith
  have s0 := S_pos hx
  have s1 := S_pos (x := x + 1) (by linarith)
  have q0 := Q_pos hx0
  have q1 := Q_pos (x := x + 1) (by linarith)
  have hq : log (Q (x + 1)) = log (Q x) + log (x + 10) - log x := by
    rw [← Real.log_mul q0.ne' (by positivity), ← Real.log_div (by positivity) hx0.ne']
    congr 1
    unfold Q
    field_simp
    ring
  unfold f P0 P1
  rw [h0, h1, Real.log_mul s0.ne' q0.ne', Real.log_mul s1.ne' q1.ne', hq]
  have a1 : x - 1 / 2 + 21 / 2 = x + 10 := by ring
  have a2 : x - 1 / 2 + (1 + R) = x + 1 / 2 + R := by ring
  rw [a1, a2]
  ring

theorem tendsto_f : Tendsto f atTop (𝓝 0) := by
  have hd : ((dk.getD 0 0 : ℚ) : ℝ) ≠ 0 := by norm_num [dk]
  have s0 := tendsto_S.log hd
  have s1 := (tendsto_S.comp (tendsto_atTop_add_const_right atTop (1 : ℝ) tendsto_id)).log hd
  have l1 := tendsto_log_ratio (1 / 2 + R) 0
  have l2 := tendsto_mul_log_ratio (1 / 2 + R) (-(1 / 2) + R)
  have l3 := tendsto_log_ratio (-(1 / 2) + R) (1 / 2 + R)
  have h := (((s1.sub s0).add l1).add l2).add (l3.const_mul (1 / 2))
  have h' := h.sub_const 1
  have e : log ((dk.getD 0 0 : ℚ) : ℝ) - log ((dk.getD 0 0 : ℚ) : ℝ) + 0 + (1 / 2 + R - (-(1 / 2) + R)) + 1 / 2 * 0 - 1 = 0 := by
    ring
  rw [e] at h'
  have hx : Tendsto (fun x => f (x - 1 / 2)) atTop (𝓝 0) := by
    refine h'.congr' ?_
    filter_upwards [eventually_ge_atTop (1 / 2)] with x hx
    rw [f_eq hx]
    simp only [Function.comp, id]
    have a1 : x + (1 / 2 + R) = x + 1 / 2 + R := by ring
    have a2 : x + (-(1 / 2) + R) = x - 1 / 2 + R := by ring
    rw [a1, a2, add_zero]
    ring
  have := hx.comp (tendsto_atTop_add_const_right atTop (1 / 2 : ℝ) tendsto_id)
  refine this.congr fun t => ?_
  simp

theorem f_bound {t : ℝ} (ht : 0 ≤ t) : |f t| ≤ 1 / 10 ^ 14 / 6 / (t + 20) ^ 2 := by
  have h1 := two_derivatives (C := 1 / 10 ^ 14) (a := 20) (by norm_num) (fun t ht => hasDerivAt_f ht)
    (fun t ht => hasDerivAt_f' ht) (fun t ht => (neg_le_abs _).trans (f''_bound ht)) tendsto_f ht
  have h2 := two_derivatives (g := fun t => -f t) (g' := fun t => -f' t) (g'' := fun t => -f'' t) (C := 1 / 10 ^ 14)
    (a := 20) (by norm_num) (fun t ht => (hasDerivAt_f ht).neg) (fun t ht => (hasDerivAt_f' ht).neg)
    (fun t ht => by rw [neg_neg]; exact (le_abs_self _).trans (f''_bound ht)) (by simpa using tendsto_f.neg) ht
  rw [neg_neg] at h2
  rw [abs_le]
  constructor <;> linarith

/-! ## The error -/

/-- The second branch of `ln_gamma`. -/
noncomputable def L (x : ℝ) : ℝ := log (S x) + ln2SqrtEOverPi + (x - 1 / 2) * log ((x - 1 / 2 + R) / exp 1)

noncomputable def err (x : ℝ) : ℝ := L x - log (Gamma x)

theorem L_eq {x : ℝ} (hx : 1 / 2 ≤ x) :
    L x = log (S x) + ln2SqrtEOverPi + (x - 1 / 2) * (log (x - 1 / 2 + R) - 1) := by
  have hR := R_pos
  unfold L
  rw [Real.log_div (by linarith) (Real.exp_pos 1).ne', Real.log_exp]

theorem log_Gamma_add_one {y : ℝ} (hy : 0 < y) : log (Gamma (y + 1)) = log (Gamma y) + log y := by
  rw [Real.Gamma_add_one hy.ne', Real.log_mul hy.ne' (Real.Gamma_pos_of_pos hy).ne', add_comm]

theorem err_step {x : ℝ} (hx : 1 / 2 ≤ x) : err (x + 1) = err x + f (x - 1 / 2) := by
  unfold err
  rw [L_eq hx, L_eq (x := x + 1) (by linarith), f_eq hx, log_Gamma_add_one (by linarith)]
  have a1 : x + 1 - 1 / 2 = x + 1 / 2 := by ring
  rw [a1]
  ring

theorem err_sum {x : ℝ} (hx : 1 / 2 ≤ x) (n : ℕ) :
    |err (x + n) - err x| ≤ 1 / 10 ^ 14 / 6 * (1 / (x + 19) - 1 / (x + n + 19)) := by
  induction n with
  | zero => simp
  | succ n ih =>
    have hn : (0 : ℝ) ≤ n := Nat.cast_nonneg n
    have e : err (x + (n + 1 : ℕ)) = err (x + n) + f (x + n - 1 / 2) := by
      rw [← err_step (by linarith)]
      congr 1
      push_cast
      ring
    have hf := f_bound (t := x + n - 1 / 2) (by linarith)
    have a1 : x + n - 1 / 2 + 20 = x + n + 39 / 2 := by ring
    rw [a1] at hf
    have hs : 1 / (x + n + 39 / 2) ^ 2 ≤ 1 / (x + n + 19) - 1 / (x + (n + 1 : ℕ) + 19) := by
      push_cast
      have p1 : 0 < x + n + 19 := by linarith
      have p2 : 0 < x + (n + 1) + 19 := by linarith
      have p3 : 0 < x + n + 39 / 2 := by linarith
      rw [div_sub_div _ _ p1.ne' p2.ne', div_le_div_iff₀ (by positivity) (by positivity)]
      nlinarith
    have h1 : err (x + (n + 1 : ℕ)) - err x = (err (x + n) - err x) + f (x + n - 1 / 2) := by rw [e]; ring
    rw [h1]
    refine (abs_add_le _ _).trans ?_
    have hf' : |f (x + n - 1 / 2)| ≤ 1 / 10 ^ 14 / 6 * (1 / (x + n + 39 / 2) ^ 2) := by
      rw [mul_one_div]; exact hf
    nlinarith

/-- The limit of the error. -/
noncomputable def errInf : ℝ := log (dk.getD 0 0 : ℚ) + ln2SqrtEOverPi + R - 1 / 2 * log (2 * Real.pi)

theorem tendsto_err {x : ℝ} (hx : 1 / 2 ≤ x) : Tendsto (fun n : ℕ => err (x + (n + 1 : ℕ))) atTop (𝓝 errInf) := by
  have hx0 : 0 < x := by linarith
  have hR := R_pos
  have hd : ((dk.getD 0 0 : ℚ) : ℝ) ≠ 0 := by norm_num [dk]
  have hn : Tendsto (fun n : ℕ => (n : ℝ)) atTop atTop := tendsto_natCast_atTop_atTop
  have g1 := Real.BohrMollerup.tendsto_log_gamma hx0
  have g2 := Stirling.tendsto_stirlingSeq_sqrt_pi.log (Real.sqrt_pos.2 Real.pi_pos).ne'
  have s := (tendsto_S.comp (tendsto_atTop_add_const_right atTop (x + 1) hn)).log hd
  have l1 := (tendsto_mul_log_ratio (x + 1 / 2 + R) 0).comp hn
  have l2 := ((tendsto_log_ratio (x + 1 / 2 + R) 0).comp hn).const_mul (x + 1 / 2)
  have h := ((((s.add l1).add l2).add g1).sub g2)
  have h' := h.add_const (ln2SqrtEOverPi - x - 1 / 2 - 1 / 2 * log 2 - log (Gamma x))
  have e : log ((dk.getD 0 0 : ℚ) : ℝ) + (x + 1 / 2 + R - 0) + (x + 1 / 2) * 0 + log (Gamma x) - log √Real.pi +
      (ln2SqrtEOverPi - x - 1 / 2 - 1 / 2 * log 2 - log (Gamma x)) = errInf := by
    unfold errInf
    rw [Real.log_sqrt Real.pi_pos.le, Real.log_mul two_ne_zero Real.pi_pos.ne']
    ring
  rw [e] at h'
  refine h'.congr' ?_
  filter_upwards [eventually_gt_atTop 0] with n hn0
  have hnp : (0 : ℝ) < n := by exact_mod_cast hn0
  have hG := Real.BohrMollerup.f_add_nat_eq (f := log ∘ Gamma) (fun {y} hy => log_Gamma_add_one hy) hx0 (n + 1)
  simp only [Function.comp] at hG
  unfold err
  rw [L_eq (by push_cast; linarith), hG, Stirling.log_stirlingSeq_formula, Real.log_div hnp.ne' (Real.exp_pos 1).ne',
    Real.log_exp, Real.log_mul two_ne_zero hnp.ne']
  simp only [Function.comp, Real.BohrMollerup.logGammaSeq, add_zero]
  push_cast
  have a1 : x + (↑n + 1) - 1 / 2 + R = n + (x + 1 / 2 + R) := by ring
  have a2 : x + ((n : ℝ) + 1) = n + (x + 1) := by ring
  rw [a1, a2]
  ring

theorem err_bound {x : ℝ} (hx : 1 / 2 ≤ x) : |err x| ≤ |errInf| + 86 / 10 ^ 18 := by
  have h1 := ((tendsto_err hx).sub_const (err x)).abs
  have h2 : |errInf - err x| ≤ 86 / 10 ^ 18 := by
    refine le_of_tendsto h1 (Eventually.of_forall fun n => ?_)
    refine (err_sum hx (n + 1)).trans ?_
    have hn : (0 : ℝ) ≤ (n + 1 : ℕ) := Nat.cast_nonneg _
    have a : 1 / (x + 19) ≤ 1 / (39 / 2 : ℝ) := one_div_le_one_div_of_le (by norm_num) (by linarith)
    have b : 0 ≤ 1 / (x + (n + 1 : ℕ) + 19) := by positivity
    have c : 1 / (x + 19) - 1 / (x + (n + 1 : ℕ) + 19) ≤ 2 / 39 := by
      have : (1 : ℝ) / (39 / 2) = 2 / 39 := by norm_num
      linarith
    calc _ ≤ (1 / 10 ^ 14 / 6 : ℝ) * (2 / 39) := by gcongr
      _ ≤ _ := by norm_num
  have h3 := abs_sub_abs_le_abs_sub (err x) errInf
  rw [abs_sub_comm] at h3
  linarith

end Verif.LnGamma
