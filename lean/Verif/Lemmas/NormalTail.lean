import Verif.Model.Normal
import Verif.Lemmas.ListPoly
import Verif.Lemmas.GaussTail
import Mathlib.Analysis.Real.Pi.Bounds

/-!
# Error bounds for the branches of `erf_impl`
-/

namespace Verif.Normal
open Set Filter Topology Real
open Verif.ListPoly Verif.GaussTail

theorem polynomial_eq (z : ℝ) (l : List ℚ) : polynomial z l = eval l z := by
  induction l with
  | nil => rfl
  | cons a l ih =>
    cases l with
    | nil => simp [polynomial, eval]
    | cons b l =>
      rw [eval_cons, ← ih]
      simp [polynomial, List.getLast?_cons, List.dropLast]

/-- `2 / sqrt pi` to twenty digits. -/
def q : ℚ := 1.12837916709551257390

/-- `2 / sqrt pi`. -/
noncomputable def c : ℝ := 2 / √π

theorem c_pos : 0 < c := by unfold c; positivity

theorem c_sq : c ^ 2 = 4 / π := by
  unfold c
  rw [div_pow, Real.sq_sqrt pi_pos.le]
  norm_num

theorem c_near : |c - q| ≤ 1e-18 := by
  have h1 := pi_gt_d20
  have h2 := pi_lt_d20
  have hlo : (q : ℝ) - 1e-18 < c := by
    refine lt_of_pow_lt_pow_left₀ 2 c_pos.le ?_
    rw [c_sq, lt_div_iff₀ pi_pos]
    have : ((q : ℝ) - 1e-18) ^ 2 * 3.14159265358979323847 < 4 := by
      norm_num [q]
    refine lt_of_le_of_lt ?_ this
    exact mul_le_mul_of_nonneg_left h2.le (sq_nonneg _)
  have hhi : c < (q : ℝ) + 1e-18 := by
    refine lt_of_pow_lt_pow_left₀ 2 (by norm_num [q]) ?_
    rw [c_sq, div_lt_iff₀ pi_pos]
    have : 4 < ((q : ℝ) + 1e-18) ^ 2 * 3.14159265358979323846 := by
      norm_num [q]
    refine lt_of_lt_of_le this ?_
    exact mul_le_mul_of_nonneg_left h1.le (sq_nonneg _)
  rw [abs_le]
  constructor <;> linarith

/-- A branch with its constant `b` replaced. -/
noncomputable def val (p : Piece) (b : ℚ) (z : ℝ) : ℝ :=
  exp (-z ^ 2) / z * (b + eval p.num (z - p.lo) / eval p.den (z - p.lo))

theorem value_eq (p : Piece) (z : ℝ) : p.value z = val p p.b z := by
  unfold Piece.value val
  rw [polynomial_eq, polynomial_eq]
  congr 3
  ring

/-- The variable in terms of the distance from the origin of the branch. -/
def zP (p : Piece) : List ℚ := [p.lo, 1]

/-- `z^2 * den^2` -/
def wP (p : Piece) : List ℚ := mul (mul (zP p) (zP p)) (mul p.den p.den)

/-- `b * den + num` -/
def bnP (p : Piece) (b : ℚ) : List ℚ := add (smul b p.den) p.num

/-- The derivative of the branch over that of `erfc`, minus one, up to positive factors. -/
def rP (p : Piece) (b : ℚ) : List ℚ :=
  add (add (smul q (wP p)) (smul (-1) (mul (bnP p b) p.den)))
    (add (smul (-2) (mul (mul (zP p) (zP p)) (mul (bnP p b) p.den)))
      (mul (zP p) (add (mul (der p.num) p.den) (smul (-1) (mul p.num (der p.den))))))

theorem hasDerivAt_val (p : Piece) (b : ℚ) (z : ℝ) (hz : 0 < z) (hd : eval p.den (z - p.lo) ≠ 0) :
    HasDerivAt (val p b) (exp (-z ^ 2) * (eval (rP p b) (z - p.lo) / eval (wP p) (z - p.lo) - q)) z := by
  have he : HasDerivAt (fun y : ℝ => exp (-y ^ 2)) (exp (-z ^ 2) * (-(2 * z))) z := by
    have := ((hasDerivAt_pow 2 z).neg).exp
    simpa using this
  have hs : HasDerivAt (fun y : ℝ => y - (p.lo : ℝ)) 1 z := (hasDerivAt_id z).sub_const _
  have hn : HasDerivAt (fun y : ℝ => eval p.num (y - p.lo)) (eval (der p.num) (z - p.lo)) z := by
    have := HasDerivAt.comp (h := fun y : ℝ => y - (p.lo : ℝ)) z (ListPoly.hasDerivAt p.num (z - p.lo)) hs
    rw [mul_one] at this
    exact this
  have hden : HasDerivAt (fun y : ℝ => eval p.den (y - p.lo)) (eval (der p.den) (z - p.lo)) z := by
    have := HasDerivAt.comp (h := fun y : ℝ => y - (p.lo : ℝ)) z (ListPoly.hasDerivAt p.den (z - p.lo)) hs
    rw [mul_one] at this
    exact this
  have h1 : HasDerivAt (fun y : ℝ => exp (-y ^ 2) / y) _ z := he.div (hasDerivAt_id z) hz.ne'
  have h2 : HasDerivAt (fun y : ℝ => (b : ℝ) + eval p.num (y - p.lo) / eval p.den (y - p.lo)) _ z :=
    (hn.div hden hd).const_add _
  refine (h1.mul h2).congr_deriv ?_
  simp only [rP, wP, bnP, zP, eval_add, eval_mul, eval_smul, eval_cons, eval_nil]
  push_cast
  have hzz : (p.lo : ℝ) + (z - p.lo) * (1 + (z - p.lo) * 0) = z := by ring
  rw [hzz]
  generalize eval p.den (z - p.lo) = D at *
  generalize eval p.num (z - p.lo) = N at *
  generalize eval (der p.den) (z - p.lo) = D' at *
  generalize eval (der p.num) (z - p.lo) = N' at *
  have hz' := hz.ne'
  field_simp
  ring

/-- The certificate of a branch on `[lo, lo + w]`: the denominator is at least 1/2 and the derivative is right up to
the relative error `δ`. -/
def cert (p : Piece) (b w δ : ℚ) : Bool :=
  check w (add p.den [-1 / 2]) && check w (add (smul δ (wP p)) (rP p b)) &&
    check w (add (smul δ (wP p)) (smul (-1) (rP p b)))

/-- The relative error of the branch is at most `ε`. -/
def Near (p : Piece) (b : ℚ) (ε z : ℝ) : Prop := |val p b z - c * U z| ≤ ε * U z

theorem den_pos {p : Piece} {w : ℚ} (hw : 0 < w) (h : check w (add p.den [-1 / 2]) = true) {u : ℝ} (h0 : 0 ≤ u)
    (h1 : u ≤ w) : 0 < eval p.den u := by
  have := nonneg_of_check hw h u h0 h1
  rw [eval_add, eval_cons, eval_nil] at this
  push_cast at this
  linarith

theorem wP_pos {p : Piece} {z : ℝ} (hz : 0 < z) (hd : 0 < eval p.den (z - p.lo)) : 0 < eval (wP p) (z - p.lo) := by
  have : eval (zP p) (z - p.lo) = z := by simp [zP, eval_cons]
  rw [wP, eval_mul, eval_mul, eval_mul, this]
  positivity

theorem ratio_le {p : Piece} {b δ : ℚ} {z : ℝ} (hW : 0 < eval (wP p) (z - p.lo))
    (h1 : 0 ≤ eval (add (smul δ (wP p)) (rP p b)) (z - p.lo))
    (h2 : 0 ≤ eval (add (smul δ (wP p)) (smul (-1) (rP p b))) (z - p.lo)) :
    |eval (rP p b) (z - p.lo) / eval (wP p) (z - p.lo)| ≤ δ := by
  rw [eval_add, eval_smul] at h1
  rw [eval_add, eval_smul, eval_smul] at h2
  rw [abs_div, abs_of_pos hW, div_le_iff₀ hW, abs_le]
  push_cast at h2
  constructor <;> linarith

theorem phi_deriv (p : Piece) (b : ℚ) (ε s : ℝ) (z : ℝ) (hz : 0 < z) (hd : eval p.den (z - p.lo) ≠ 0) :
    HasDerivAt (fun z => ε * U z + s * (val p b z - c * U z))
      (exp (-z ^ 2) * (-ε + s * (eval (rP p b) (z - p.lo) / eval (wP p) (z - p.lo) - q + c))) z := by
  have h1 := (hasDerivAt_U z).const_mul ε
  have h2 := ((hasDerivAt_val p b z hz hd).sub ((hasDerivAt_U z).const_mul c)).const_mul s
  refine (h1.add h2).congr_deriv ?_
  ring

theorem phi_neg {r ε s : ℝ} {δ : ℝ} (hs : s = 1 ∨ s = -1) (hr : |r| ≤ δ) (hε : δ + 1e-18 ≤ ε) (e : ℝ) (he : 0 ≤ e) :
    e * (-ε + s * (r - q + c)) ≤ 0 := by
  refine mul_nonpos_of_nonneg_of_nonpos he ?_
  have hc := c_near
  rw [abs_le] at hr hc
  rcases hs with rfl | rfl <;> linarith

theorem near_of_phi {p : Piece} {b : ℚ} {ε z : ℝ}
    (h : ∀ s : ℝ, s = 1 ∨ s = -1 → 0 ≤ ε * U z + s * (val p b z - c * U z)) : Near p b ε z := by
  have h1 := h 1 (.inl rfl)
  have h2 := h (-1) (.inr rfl)
  rw [Near, abs_le]
  constructor <;> linarith

theorem phi_of_near {p : Piece} {b : ℚ} {ε z : ℝ} (h : Near p b ε z) (s : ℝ) (hs : s = 1 ∨ s = -1) :
    0 ≤ ε * U z + s * (val p b z - c * U z) := by
  rw [Near, abs_le] at h
  rcases hs with rfl | rfl <;> linarith [h.1, h.2]

/-- A branch that is right at its upper end is right below it. -/
theorem near_step (p : Piece) (b w δ : ℚ) (hw : 0 < w) (hlo : 0 < p.lo) (hc : cert p b w δ = true) (ε : ℝ)
    (hε : (δ : ℝ) + 1e-18 ≤ ε) (hend : Near p b ε (p.lo + w)) (z : ℝ) (h1 : p.lo ≤ z) (h2 : z ≤ p.lo + w) :
    Near p b ε z := by
  rw [cert, Bool.and_eq_true, Bool.and_eq_true] at hc
  obtain ⟨⟨c1, c2⟩, c3⟩ := hc
  have hlo' : (0 : ℝ) < p.lo := by exact_mod_cast hlo
  refine near_of_phi fun s hs => ?_
  have hD : ∀ y ∈ Icc (p.lo : ℝ) (p.lo + w), 0 < eval p.den (y - p.lo) := fun y hy =>
    den_pos hw c1 (by linarith [hy.1]) (by linarith [hy.2])
  refine nonneg_of_deriv_Icc (a := p.lo) (b := p.lo + w)
    (fun y hy => phi_deriv p b ε s y (by linarith [hy.1]) (hD y hy).ne') (fun y hy => ?_) (phi_of_near hend s hs) z
    ⟨h1, h2⟩
  have hy0 : 0 < y := by linarith [hy.1]
  have hr := ratio_le (wP_pos hy0 (hD y hy)) (nonneg_of_check hw c2 _ (by linarith [hy.1]) (by linarith [hy.2]))
    (nonneg_of_check hw c3 _ (by linarith [hy.1]) (by linarith [hy.2]))
  exact phi_neg hs hr hε _ (exp_pos _).le

theorem val_tendsto (p : Piece) (b : ℚ) (M : ℝ)
    (hM : ∀ z : ℝ, p.lo ≤ z → |(b : ℝ) + eval p.num (z - p.lo) / eval p.den (z - p.lo)| ≤ M) :
    Tendsto (val p b) atTop (𝓝 0) := by
  have h1 : Tendsto (fun z : ℝ => exp (-z ^ 2) * M) atTop (𝓝 0) := by simpa using exp_tendsto.mul_const M
  refine squeeze_zero_norm' ?_ h1
  filter_upwards [eventually_ge_atTop (max 1 (p.lo : ℝ))] with z hz
  have hz1 : 1 ≤ z := (le_max_left _ _).trans hz
  have hz2 := hM z ((le_max_right _ _).trans hz)
  rw [val, norm_mul, Real.norm_eq_abs, Real.norm_eq_abs, abs_of_pos (by positivity)]
  refine mul_le_mul ?_ hz2 (abs_nonneg _) (exp_pos _).le
  exact div_le_self (exp_pos _).le hz1

/-- The last branch, without an upper end. -/
theorem near_last (p : Piece) (b δ : ℚ) (hlo : 0 < p.lo) (M : ℚ)
    (c1 : checkInf (add p.den [-1 / 2]) = true) (c2 : checkInf (add (smul δ (wP p)) (rP p b)) = true)
    (c3 : checkInf (add (smul δ (wP p)) (smul (-1) (rP p b))) = true)
    (c4 : checkInf (add (smul M p.den) (bnP p b)) = true)
    (c5 : checkInf (add (smul M p.den) (smul (-1) (bnP p b))) = true) (ε : ℝ)
    (hε : (δ : ℝ) + 1e-18 ≤ ε) (z : ℝ) (h1 : p.lo ≤ z) : Near p b ε z := by
  have hlo' : (0 : ℝ) < p.lo := by exact_mod_cast hlo
  have hD : ∀ y : ℝ, p.lo ≤ y → 0 < eval p.den (y - p.lo) := by
    intro y hy
    have := nonneg_of_checkInf c1 (y - p.lo) (by linarith)
    rw [eval_add, eval_cons, eval_nil] at this
    push_cast at this
    linarith
  have hM : ∀ z : ℝ, p.lo ≤ z → |(b : ℝ) + eval p.num (z - p.lo) / eval p.den (z - p.lo)| ≤ M := by
    intro y hy
    have hd := hD y hy
    have e4 := nonneg_of_checkInf c4 (y - p.lo) (by linarith)
    have e5 := nonneg_of_checkInf c5 (y - p.lo) (by linarith)
    rw [eval_add, eval_smul, bnP, eval_add, eval_smul] at e4
    rw [eval_add, eval_smul, bnP, eval_smul, eval_add, eval_smul] at e5
    push_cast at e5
    have : (b : ℝ) + eval p.num (y - p.lo) / eval p.den (y - p.lo) =
        (b * eval p.den (y - p.lo) + eval p.num (y - p.lo)) / eval p.den (y - p.lo) := by
      field_simp
    rw [this, abs_div, abs_of_pos hd, div_le_iff₀ hd, abs_le]
    constructor <;> linarith
  refine near_of_phi fun s hs => ?_
  refine nonneg_of_deriv (a := p.lo) (fun y hy => phi_deriv p b ε s y (by linarith) (hD y hy).ne') (fun y hy => ?_) ?_ z
    h1
  · have hr := ratio_le (wP_pos (by linarith) (hD y hy)) (nonneg_of_checkInf c2 _ (by linarith))
      (nonneg_of_checkInf c3 _ (by linarith))
    exact phi_neg hs hr hε _ (exp_pos _).le
  · have := (U_tendsto.const_mul ε).add (((val_tendsto p b M hM).sub (U_tendsto.const_mul c)).const_mul s)
    simpa using this

/-- The value of a polynomial at a rational number. -/
def evalQ : List ℚ → ℚ → ℚ
  | [], _ => 0
  | a :: l, u => a + u * evalQ l u

theorem eval_cast (l : List ℚ) (u : ℚ) : eval l (u : ℝ) = (evalQ l u : ℝ) := by
  induction l with
  | nil => simp [evalQ]
  | cons a l ih => rw [eval_cons, ih, evalQ]; push_cast; ring

/-- The factor `b + r` at a rational number. -/
def rhoQ (p : Piece) (b z : ℚ) : ℚ := b + evalQ p.num (z - p.lo) / evalQ p.den (z - p.lo)

theorem val_rat (p : Piece) (b z : ℚ) : val p b z = exp (-(z : ℝ) ^ 2) / z * (rhoQ p b z : ℝ) := by
  unfold val rhoQ
  rw [← Rat.cast_sub, eval_cast, eval_cast]
  push_cast
  rfl

/-- The next branch takes over at the end of this one. -/
theorem near_join (p p' : Piece) (b b' z : ℚ) (hz : 1 / 2 ≤ z) (ε : ℝ) (h : Near p' b' ε z)
    (hj : |rhoQ p b z - rhoQ p' b' z| ≤ 1e-20) : Near p b (ε + 1e-19) z := by
  have hz' : (1 / 2 : ℝ) ≤ z := by
    have : ((1 / 2 : ℚ) : ℝ) ≤ z := by exact_mod_cast hz
    push_cast at this
    exact this
  have hz0 : (0 : ℝ) < z := by linarith
  have hj' : |(rhoQ p b z : ℝ) - rhoQ p' b' z| ≤ 1e-20 := by
    have : ((|rhoQ p b z - rhoQ p' b' z| : ℚ) : ℝ) ≤ ((1e-20 : ℚ) : ℝ) := by exact_mod_cast hj
    push_cast at this
    norm_num at this ⊢
    exact this
  have hl := U_lower z hz0
  have hg : exp (-(z : ℝ) ^ 2) / z ≤ 6 * U z := by
    have h6 : 1 / (z : ℝ) ≤ 6 * (z / (2 * (z : ℝ) ^ 2 + 1)) := by
      rw [mul_div_assoc', div_le_div_iff₀ hz0 (by positivity)]
      nlinarith
    calc exp (-(z : ℝ) ^ 2) / z = exp (-(z : ℝ) ^ 2) * (1 / z) := by ring
      _ ≤ exp (-(z : ℝ) ^ 2) * (6 * (z / (2 * (z : ℝ) ^ 2 + 1))) := mul_le_mul_of_nonneg_left h6 (exp_pos _).le
      _ = 6 * (exp (-(z : ℝ) ^ 2) * (z / (2 * (z : ℝ) ^ 2 + 1))) := by ring
      _ ≤ 6 * U z := by linarith
  have hdiff : |val p b z - val p' b' z| ≤ 1e-19 * U z := by
    rw [val_rat, val_rat, ← mul_sub, abs_mul, abs_of_pos (by positivity)]
    calc exp (-(z : ℝ) ^ 2) / z * |(rhoQ p b z : ℝ) - rhoQ p' b' z| ≤ 6 * U z * 1e-20 :=
          mul_le_mul hg hj' (abs_nonneg _) (by have := U_pos z; positivity)
      _ ≤ 1e-19 * U z := by
          have := U_pos z
          nlinarith
  rw [Near] at h ⊢
  have : val p b z - c * U z = (val p b z - val p' b' z) + (val p' b' z - c * U z) := by ring
  rw [this]
  refine (abs_add_le _ _).trans ?_
  rw [add_mul]
  linarith

end Verif.Normal
