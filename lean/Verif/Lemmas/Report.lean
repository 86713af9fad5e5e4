import Verif.Model.Report
import Verif.Spec.Report
import Mathlib.LinearAlgebra.Matrix.ToLinearEquiv
import Mathlib.LinearAlgebra.Matrix.NonsingularInverse
import Mathlib.Tactic.Linarith
import Mathlib.Tactic.Ring
import Mathlib.Tactic.FieldSimp
import Mathlib.Tactic.Positivity

/-! # Lemmas: regression reports -/

namespace Verif.LrReport
open Matrix Verif.LinReg Verif.TTest Verif.Pl Spec

variable {n d : Nat}

theorem pred_eq (x : Matrix (Fin n) (Fin d) ℝ) (b : Fin d → ℝ) : pred x b = x *ᵥ b := rfl

theorem pred_sub (x : Matrix (Fin n) (Fin d) ℝ) (b c : Fin d → ℝ) (r : Fin n) :
    pred x (c - b) r = pred x c r - pred x b r := by
  rw [pred_eq, pred_eq, pred_eq, Matrix.mulVec_sub]
  rfl

theorem loss_expand (w : Fin n → ℝ) (x : Matrix (Fin n) (Fin d) ℝ) (y : Fin n → ℝ) (b c : Fin d → ℝ)
    (hb : ∀ j, ∑ r, w r * x r j * (y r - pred x b r) = 0) :
    loss w x y c = loss w x y b + ∑ r, w r * pred x (c - b) r ^ 2 := by
  have hcross : ∑ r, w r * (y r - pred x b r) * pred x (c - b) r = 0 := by
    have : ∀ r, w r * (y r - pred x b r) * pred x (c - b) r = ∑ j, (c - b) j * (w r * x r j * (y r - pred x b r)) := by
      intro r
      rw [show pred x (c - b) r = ∑ j, x r j * (c - b) j from rfl, Finset.mul_sum]
      exact Finset.sum_congr rfl fun j _ => by ring
    simp only [this]
    rw [Finset.sum_comm]
    refine Finset.sum_eq_zero fun j _ => ?_
    rw [← Finset.mul_sum, hb j, mul_zero]
  have hpt : ∀ r, w r * (y r - pred x c r) ^ 2 =
      w r * (y r - pred x b r) ^ 2 - 2 * (w r * (y r - pred x b r) * pred x (c - b) r) + w r * pred x (c - b) r ^ 2 := by
    intro r
    rw [pred_sub]
    ring
  unfold loss
  simp only [hpt, Finset.sum_add_distrib, Finset.sum_sub_distrib, ← Finset.mul_sum, hcross]
  ring

theorem best_of_normal {w : Fin n → ℝ} (hw : ∀ r, 0 ≤ w r) {x : Matrix (Fin n) (Fin d) ℝ} {y : Fin n → ℝ} {b : Fin d → ℝ}
    (hb : ∀ j, ∑ r, w r * x r j * (y r - pred x b r) = 0) : Best w x y b := by
  intro c
  rw [loss_expand w x y b c hb]
  have : 0 ≤ ∑ r, w r * pred x (c - b) r ^ 2 := Finset.sum_nonneg fun r _ => mul_nonneg (hw r) (sq_nonneg _)
  linarith

theorem best_unique {w : Fin n → ℝ} (hw : ∀ r, 0 ≤ w r) {x : Matrix (Fin n) (Fin d) ℝ} {y : Fin n → ℝ} {b c : Fin d → ℝ}
    (hd : Determined w x) (hb : ∀ j, ∑ r, w r * x r j * (y r - pred x b r) = 0) (hc : Best w x y c) : c = b := by
  have h1 := hc b
  rw [loss_expand w x y b c hb] at h1
  have h2 : ∑ r, w r * pred x (c - b) r ^ 2 = 0 :=
    le_antisymm (by linarith) (Finset.sum_nonneg fun r _ => mul_nonneg (hw r) (sq_nonneg _))
  have h3 := (Finset.sum_eq_zero_iff_of_nonneg fun r _ => mul_nonneg (hw r) (sq_nonneg _)).mp h2
  refine sub_eq_zero.mp (hd _ fun r hr => ?_)
  have := h3 r (Finset.mem_univ r)
  rcases mul_eq_zero.mp this with h | h
  · exact absurd h hr
  · exact pow_eq_zero_iff (two_ne_zero) |>.mp h

theorem mulVecT (x : Matrix (Fin n) (Fin d) ℝ) (v : Fin n → ℝ) (j : Fin d) : (xᵀ *ᵥ v) j = ∑ r, x r j * v r := rfl

/-- The Gram matrix with weights. -/
theorem wgram_apply (w : Fin n → ℝ) (x : Matrix (Fin n) (Fin d) ℝ) (c : Fin d → ℝ) :
    (xᵀ * diagonal w * x) *ᵥ c = xᵀ *ᵥ fun r => w r * pred x c r := by
  rw [← Matrix.mulVec_mulVec, ← Matrix.mulVec_mulVec]
  congr 1
  funext r
  rw [Matrix.mulVec_diagonal]
  rfl

theorem wgram_unit {w : Fin n → ℝ} (hw : ∀ r, 0 ≤ w r) {x : Matrix (Fin n) (Fin d) ℝ} (hd : Determined w x) :
    IsUnit (xᵀ * diagonal w * x).det := by
  rw [isUnit_iff_ne_zero]
  intro h0
  obtain ⟨v, hv, h⟩ := Matrix.exists_mulVec_eq_zero_iff.mpr h0
  apply hv
  apply hd
  rw [wgram_apply] at h
  have h1 : ∑ j, v j * (∑ r, x r j * (w r * pred x v r)) = 0 := by
    refine Finset.sum_eq_zero fun j _ => ?_
    have := congrFun h j
    rw [mulVecT] at this
    rw [this]
    simp
  have h2 : ∑ r, w r * pred x v r ^ 2 = 0 := by
    rw [← h1]
    simp only [Finset.mul_sum]
    rw [Finset.sum_comm]
    refine Finset.sum_congr rfl fun r _ => ?_
    have : w r * pred x v r ^ 2 = (w r * pred x v r) * pred x v r := by ring
    rw [this]
    conv_lhs => rw [show (w r * pred x v r) * pred x v r = (w r * pred x v r) * ∑ j, x r j * v j from rfl]
    rw [Finset.mul_sum]
    exact Finset.sum_congr rfl fun j _ => by ring
  have h3 := (Finset.sum_eq_zero_iff_of_nonneg fun r _ => mul_nonneg (hw r) (sq_nonneg _)).mp h2
  intro r hr
  rcases mul_eq_zero.mp (h3 r (Finset.mem_univ r)) with h | h
  · exact absurd h hr
  · exact pow_eq_zero_iff (two_ne_zero) |>.mp h

theorem gram_all (x : Matrix (Fin n) (Fin d) ℝ) : xᵀ * diagonal (all : Fin n → ℝ) * x = xᵀ * x := by
  have : (diagonal (all : Fin n → ℝ)) = 1 := by
    rw [← Matrix.diagonal_one]
    rfl
  rw [this, Matrix.mul_one]

theorem gram_unit {x : Matrix (Fin n) (Fin d) ℝ} (hd : Determined all x) : IsUnit (xᵀ * x).det := by
  rw [← gram_all]
  exact wgram_unit (fun _ => zero_le_one) hd

theorem inv_right (S : Solver ℝ) {x : Matrix (Fin n) (Fin d) ℝ} (hd : Determined all x) : (xᵀ * x) * xtxInv S x = 1 :=
  S.qrInverse_spec _ (gram_unit hd)

theorem inv_symm (S : Solver ℝ) {x : Matrix (Fin n) (Fin d) ℝ} (hd : Determined all x) :
    (xtxInv S x)ᵀ = xtxInv S x := by
  have h := Matrix.inv_eq_right_inv (inv_right S hd)
  rw [← h, Matrix.transpose_nonsing_inv, Matrix.transpose_mul, Matrix.transpose_transpose]

/-- Row `r` through the inverse: column `r` of `xtx_inv_xt`. -/
theorem hat_col (S : Solver ℝ) (x : Matrix (Fin n) (Fin d) ℝ) (r : Fin n) :
    (fun i => hat S x i r) = xtxInv S x *ᵥ x r := rfl

theorem gram_hat (S : Solver ℝ) {x : Matrix (Fin n) (Fin d) ℝ} (hd : Determined all x) (v : Fin d → ℝ) :
    (xᵀ * x) *ᵥ (xtxInv S x *ᵥ v) = v := by
  rw [Matrix.mulVec_mulVec, inv_right S hd, Matrix.one_mulVec]

theorem betas_eq (S : Solver ℝ) (x : Matrix (Fin n) (Fin d) ℝ) (y : Fin n → ℝ) :
    betas S x y = xtxInv S x *ᵥ (xᵀ *ᵥ y) := by
  rw [betas, hat, Matrix.mulVec_mulVec]

theorem normal_eq {w : Fin n → ℝ} {x : Matrix (Fin n) (Fin d) ℝ} {y : Fin n → ℝ} {b : Fin d → ℝ}
    (h : (xᵀ * diagonal w * x) *ᵥ b = xᵀ *ᵥ fun r => w r * y r) (j : Fin d) :
    ∑ r, w r * x r j * (y r - pred x b r) = 0 := by
  rw [wgram_apply] at h
  have := congrFun h j
  rw [mulVecT, mulVecT] at this
  have h2 : ∀ r, w r * x r j * (y r - pred x b r) = x r j * (w r * y r) - x r j * (w r * pred x b r) := fun r => by ring
  simp only [h2, Finset.sum_sub_distrib, this, sub_self]

theorem betas_gram (S : Solver ℝ) {x : Matrix (Fin n) (Fin d) ℝ} (hd : Determined all x) (y : Fin n → ℝ) :
    (xᵀ * x) *ᵥ betas S x y = xᵀ *ᵥ y := by
  rw [betas_eq, gram_hat S hd]

theorem betas_normal (S : Solver ℝ) {x : Matrix (Fin n) (Fin d) ℝ} (hd : Determined all x) (y : Fin n → ℝ) (j : Fin d) :
    ∑ r, (all r : ℝ) * x r j * (y r - pred x (betas S x y) r) = 0 := by
  apply normal_eq
  rw [gram_all, betas_gram S hd]
  congr 1
  funext r
  simp [all]

theorem betas_best (S : Solver ℝ) {x : Matrix (Fin n) (Fin d) ℝ} (hd : Determined all x) (y : Fin n → ℝ) :
    Best all x y (betas S x y) := best_of_normal (fun _ => zero_le_one) (betas_normal S hd y)

theorem betas_unique (S : Solver ℝ) {x : Matrix (Fin n) (Fin d) ℝ} (hd : Determined all x) (y : Fin n → ℝ) {c : Fin d → ℝ}
    (hc : Best all x y c) : c = betas S x y :=
  best_unique (fun _ => zero_le_one) hd (betas_normal S hd y) hc

/-- Adding `a` to one target moves the coefficients by `a` times a column of `xtx_inv_xt`. -/
theorem betas_bump (S : Solver ℝ) (x : Matrix (Fin n) (Fin d) ℝ) (y : Fin n → ℝ) (r : Fin n) (a : ℝ) (i : Fin d) :
    betas S x (bump y r a) i = betas S x y i + hat S x i r * a := by
  have : bump y r a = y + Pi.single r a := by
    funext s
    by_cases h : s = r
    · subst h; simp [bump]
    · simp [bump, h]
  rw [betas, betas, this, Matrix.mulVec_add, Pi.add_apply, Matrix.mulVec_single]
  rfl

theorem sandwich_eq (A : Matrix (Fin d) (Fin n) ℝ) (v : Fin n → ℝ) (i : Fin d) :
    sandwich A v i = ∑ r, A i r ^ 2 * v r := by
  unfold sandwich
  rw [Matrix.mul_apply]
  refine Finset.sum_congr rfl fun r _ => ?_
  rw [Matrix.mul_diagonal, Matrix.transpose_apply]
  ring

theorem gram_quad (x : Matrix (Fin n) (Fin d) ℝ) (c : Fin d → ℝ) :
    c ⬝ᵥ ((xᵀ * x) *ᵥ c) = ∑ r, pred x c r ^ 2 := by
  rw [← Matrix.mulVec_mulVec, Matrix.dotProduct_mulVec, Matrix.vecMul_transpose]
  unfold dotProduct
  exact Finset.sum_congr rfl fun r _ => by rw [pred_eq]; ring

theorem leverage_eq (S : Solver ℝ) (x : Matrix (Fin n) (Fin d) ℝ) (r : Fin n) :
    leverage S x r = pred x (xtxInv S x *ᵥ x r) r := rfl

/-- If the other rows determine the coefficients then the leverage of a row is not one. -/
theorem leverage_ne_one (S : Solver ℝ) {x : Matrix (Fin n) (Fin d) ℝ} (hd : Determined all x) (r : Fin n)
    (hr : Determined (without r) x) : leverage S x r ≠ 1 := by
  intro h1
  have hc : xtxInv S x *ᵥ x r = 0 := by
    apply hr
    have hq := gram_quad x (xtxInv S x *ᵥ x r)
    rw [gram_hat S hd] at hq
    have hl : (xtxInv S x *ᵥ x r) ⬝ᵥ x r = 1 := by
      rw [dotProduct_comm]; exact h1
    rw [hl, ← Finset.add_sum_erase _ _ (Finset.mem_univ r), ← leverage_eq, h1] at hq
    have h0 : ∑ s ∈ Finset.univ.erase r, pred x (xtxInv S x *ᵥ x r) s ^ 2 = 0 := by linarith
    have h2 := (Finset.sum_eq_zero_iff_of_nonneg fun s _ => sq_nonneg _).mp h0
    intro s hs
    have hsr : s ≠ r := by
      rintro rfl
      simp [without] at hs
    exact pow_eq_zero_iff (two_ne_zero) |>.mp (h2 s (Finset.mem_erase.mpr ⟨hsr, Finset.mem_univ s⟩))
  rw [leverage_eq, hc, pred_eq, Matrix.mulVec_zero] at h1
  simp at h1

/-- The coefficients without row `r`. -/
theorem betas_without (S : Solver ℝ) {x : Matrix (Fin n) (Fin d) ℝ} (hd : Determined all x) (r : Fin n)
    (hr : Determined (without r) x) (y : Fin n → ℝ) {c : Fin d → ℝ} (hc : Best (without r) x y c) (i : Fin d) :
    betas S x y i - c i = hat S x i r * (y r - pred x (betas S x y) r) / (1 - leverage S x r) := by
  have hl := leverage_ne_one S hd r hr
  have hl' : 1 - leverage S x r ≠ 0 := sub_ne_zero.mpr (Ne.symm hl)
  set b := betas S x y with hb
  set e := y r - pred x b r with he
  have hcand : c = b - (e / (1 - leverage S x r)) • (xtxInv S x *ᵥ x r) := by
    refine best_unique (fun s => ?_) hr (fun j => ?_) hc
    · unfold without
      split <;> norm_num
    · have hsplit : ∀ c' : Fin d → ℝ, ∑ s, without r s * x s j * (y s - pred x c' s) =
          (∑ s, x s j * (y s - pred x c' s)) - x r j * (y r - pred x c' r) := by
        intro c'
        rw [← Finset.add_sum_erase _ _ (Finset.mem_univ r), ← Finset.add_sum_erase _ (fun s => x s j * (y s - pred x c' s))
          (Finset.mem_univ r)]
        have : ∀ s ∈ Finset.univ.erase r, without r s * x s j * (y s - pred x c' s) = x s j * (y s - pred x c' s) := by
          intro s hs
          simp [without, Finset.ne_of_mem_erase hs]
        rw [Finset.sum_congr rfl this]
        simp [without]
      rw [hsplit]
      have hn := betas_normal S hd y j
      rw [← hb] at hn
      simp only [all, one_mul] at hn
      set k := e / (1 - leverage S x r) with hk
      set v := xtxInv S x *ᵥ x r with hv
      have hp : ∀ s, pred x (b - k • v) s = pred x b s - k * pred x v s := by
        intro s
        rw [pred_sub, pred_eq x (k • v), Matrix.mulVec_smul, ← pred_eq]
        rfl
      have hg : ∑ s, x s j * pred x v s = x r j := by
        have := congrFun (gram_hat S hd (x r)) j
        rw [← Matrix.mulVec_mulVec, mulVecT] at this
        exact this
      have h3 : ∑ s, x s j * (y s - pred x (b - k • v) s) = k * x r j := by
        have : ∀ s, x s j * (y s - pred x (b - k • v) s) = x s j * (y s - pred x b s) + k * (x s j * pred x v s) := by
          intro s
          rw [hp]
          ring
        simp only [this, Finset.sum_add_distrib, ← Finset.mul_sum, hn, hg, zero_add]
      rw [h3, hp, ← leverage_eq]
      have : y r - (pred x b r - k * leverage S x r) = e + k * leverage S x r := by rw [he]; ring
      rw [this]
      have hek : e = k * (1 - leverage S x r) := by rw [hk]; field_simp
      rw [hek]
      ring
  have := congrFun hcand i
  rw [this, ← hat_col]
  simp only [Pi.sub_apply, Pi.smul_apply, smul_eq_mul]
  ring

end Verif.LrReport
