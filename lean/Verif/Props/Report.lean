import Verif.Lemmas.Report
import Verif.Props.TTest
import Mathlib.Tactic.FinCases

/-!
# C113, C114: regression reports

`x` and `y` are the rows kept by the null policy; the constant column is part of `x`.
-/

namespace Verif.LrReport
open Matrix Verif.LinReg Verif.TTest Verif.Pl Verif.LrReport.Spec

variable {n d : Nat}

theorem assemble_some {E : BetaEnv} {ppf : ℝ → ℝ} {target : Col ℝ} {b : Fin d → ℝ} {e : Fin n → ℝ} {se : Fin d → Option ℝ}
    {R : Report d} (h : assemble E ppf target b e se = some R) :
    0 < dof n d ∧ R.beta = b ∧ R.stdErr = se ∧
    R.t = (fun i => (se i).bind fun s => quot (b i) s) ∧
    R.p = (fun i => ((se i).bind fun s => quot (b i) s).bind fun v => (studentSf E |v| (dof n d)).map fun q => 2 * q) ∧
    R.lo = (fun i => (se i).map fun s => b i - ppf (dof n d) * s) ∧
    R.hi = (fun i => (se i).map fun s => b i + ppf (dof n d) * s) ∧
    R.r2 = (ratio target e).map (fun q => 1 - q) ∧
    R.adjR2 = (ratio target e).bind fun q => (quot ((n : ℝ) - 1) (dof n d - 1)).map fun f => 1 - q * f := by
  unfold assemble tAlpha at h
  split at h
  · simp at h
  · next hd =>
    simp only [Option.map_some, Option.some.injEq] at h
    subst h
    exact ⟨not_le.mp hd, rfl, rfl, rfl, rfl, rfl, rfl, rfl, rfl⟩

/-- **C113a.** The coefficients of the report are the unique best fit of the kept rows. -/
theorem report_coefficients (S : Solver ℝ) (E : BetaEnv) (ppf : ℝ → ℝ) (kind : StdErr) (target : Col ℝ)
    (x : Matrix (Fin n) (Fin d) ℝ) (y : Fin n → ℝ) (R : Report d) (hR : linRegReport S E ppf kind target x y = some R)
    (hx : Determined all x) : Best all x y R.beta ∧ ∀ c, Best all x y c → c = R.beta := by
  have h := (assemble_some hR).2.1
  rw [h]
  exact ⟨betas_best S hx y, fun c hc => betas_unique S hx y hc⟩

/-- Sum of squared residuals of the report. -/
theorem resid_loss (x : Matrix (Fin n) (Fin d) ℝ) (y : Fin n → ℝ) (b : Fin d → ℝ) :
    ∑ r, resid x y b r * resid x y b r = loss all x y b := by
  unfold loss
  refine Finset.sum_congr rfl fun r _ => ?_
  rw [all, one_mul, sq]
  rfl

/-- **C113b.** The classical standard error of coefficient `i` is the root of the residual variance over the squared
length of feature `i` after the other features have been fitted to it: the least squared length of a combination
of the features with coefficient one at `i`. -/
theorem report_std_err (S : Solver ℝ) (E : BetaEnv) (ppf : ℝ → ℝ) (target : Col ℝ)
    (x : Matrix (Fin n) (Fin d) ℝ) (y : Fin n → ℝ) (R : Report d) (hR : linRegReport S E ppf .se target x y = some R)
    (hx : Determined all x) (i : Fin d) :
    ∃ v, 0 < v ∧ IsLeast {q | ∃ c : Fin d → ℝ, c i = 1 ∧ q = ∑ r, pred x c r ^ 2} v ∧
      R.stdErr i = some √(loss all x y R.beta / ((n : ℝ) - d) / v) := by
  obtain ⟨-, hb, hse, -⟩ := assemble_some hR
  set A := xtxInv S x with hA
  have hinv := inv_right S hx
  set u : Fin d → ℝ := A *ᵥ Pi.single i 1 with hu
  have hgu : (xᵀ * x) *ᵥ u = Pi.single i 1 := gram_hat S hx _
  have hui : u i = A i i := by
    rw [hu, Matrix.mulVec_single]
    simp
  have hpos : 0 < A i i := by
    have hq := gram_quad x u
    rw [hgu, dotProduct_single, mul_one, hui] at hq
    have hnn : 0 ≤ A i i := by rw [hq]; exact Finset.sum_nonneg fun r _ => sq_nonneg _
    refine lt_of_le_of_ne hnn fun h0 => ?_
    rw [← h0] at hq
    have h2 := (Finset.sum_eq_zero_iff_of_nonneg fun r _ => sq_nonneg _).mp hq.symm
    have hu0 : u = 0 := hx u fun r _ => pow_eq_zero_iff (two_ne_zero) |>.mp (h2 r (Finset.mem_univ r))
    rw [hu0, Matrix.mulVec_zero] at hgu
    have := congrFun hgu i
    simp at this
  refine ⟨(A i i)⁻¹, inv_pos.mpr hpos, ⟨⟨(A i i)⁻¹ • u, ?_, ?_⟩, ?_⟩, ?_⟩
  · rw [Pi.smul_apply, hui, smul_eq_mul, inv_mul_cancel₀ hpos.ne']
  · rw [← gram_quad, Matrix.mulVec_smul, hgu, smul_dotProduct, dotProduct_smul, dotProduct_single, hui]
    simp only [smul_eq_mul, mul_one]
    rw [← mul_assoc, mul_assoc, inv_mul_cancel₀ hpos.ne', mul_one]
  · rintro q ⟨c, hc, rfl⟩
    -- the square of `c - u / A i i` under the Gram form
    have hsplit : ∑ r, pred x c r ^ 2 = ∑ r, pred x (c - (A i i)⁻¹ • u) r ^ 2 + (A i i)⁻¹ := by
      have hsym : ∀ a b : Fin d → ℝ, a ⬝ᵥ ((xᵀ * x) *ᵥ b) = b ⬝ᵥ ((xᵀ * x) *ᵥ a) := by
        intro a b
        rw [← Matrix.mulVec_mulVec, ← Matrix.mulVec_mulVec, Matrix.dotProduct_mulVec a, Matrix.dotProduct_mulVec b,
          Matrix.vecMul_transpose, Matrix.vecMul_transpose, dotProduct_comm]
      rw [← gram_quad, ← gram_quad, Matrix.mulVec_sub, sub_dotProduct, dotProduct_sub, dotProduct_sub,
        hsym ((A i i)⁻¹ • u) c, Matrix.mulVec_smul, hgu]
      simp only [dotProduct_smul, dotProduct_single, Pi.smul_apply, hui, hc, smul_eq_mul, mul_one]
      have : (A i i)⁻¹ * A i i = 1 := inv_mul_cancel₀ hpos.ne'
      rw [this]
      ring
    rw [hsplit]
    have : 0 ≤ ∑ r, pred x (c - (A i i)⁻¹ • u) r ^ 2 := Finset.sum_nonneg fun r _ => sq_nonneg _
    linarith
  · rw [hse, hb]
    simp only [stdErrs]
    rw [resid_loss, div_inv_eq_mul, dof]

/-- **C113c.** HC0: the square of the standard error is the sum, over the rows, of the squared change of the coefficient
when the residual of that row is added to its target. HC1 is HC0 times the root of `n / (n - d)`. -/
theorem report_hc0_hc1 (S : Solver ℝ) (E : BetaEnv) (ppf : ℝ → ℝ) (target : Col ℝ) (x : Matrix (Fin n) (Fin d) ℝ)
    (y : Fin n → ℝ) (R0 R1 : Report d) (h0 : linRegReport S E ppf .hc0 target x y = some R0)
    (h1 : linRegReport S E ppf .hc1 target x y = some R1) (hx : Determined all x)
    (moved : Fin n → Fin d → ℝ) (hm : ∀ r, Best all x (bump y r (y r - pred x R0.beta r)) (moved r)) (i : Fin d) :
    R0.stdErr i = some √(∑ r, (moved r i - R0.beta i) ^ 2) ∧
    R1.stdErr i = some √((∑ r, (moved r i - R0.beta i) ^ 2) * (n / ((n : ℝ) - d))) := by
  obtain ⟨hpos, hb0, hse0, -⟩ := assemble_some h0
  obtain ⟨-, -, hse1, -⟩ := assemble_some h1
  have hkey : sandwich (hat S x) (fun r => resid x y (betas S x y) r * resid x y (betas S x y) r) i =
      ∑ r, (moved r i - R0.beta i) ^ 2 := by
    rw [sandwich_eq]
    refine Finset.sum_congr rfl fun r _ => ?_
    rw [betas_unique S hx _ (hm r), hb0, betas_bump]
    have : y r - pred x (betas S x y) r = resid x y (betas S x y) r := rfl
    rw [this]
    ring
  have hdn : d ≤ n := by
    unfold dof at hpos
    have : (d : ℝ) < n := by linarith
    exact_mod_cast this.le
  rw [hse0, hse1]
  simp only [stdErrs, hkey, mul_one, true_and]
  rw [Nat.cast_sub hdn]

/-- **C113d.** HC3 is the jackknife: the square of the standard error is the sum, over the rows, of the squared change
of the coefficient when that row is left out. HC2 is the mixture: each term is the change by leaving the row out times
the change by adding its residual. -/
theorem report_hc3_hc2 (S : Solver ℝ) (E : BetaEnv) (ppf : ℝ → ℝ) (target : Col ℝ) (x : Matrix (Fin n) (Fin d) ℝ)
    (y : Fin n → ℝ) (R2 R3 : Report d) (h2 : linRegReport S E ppf .hc2 target x y = some R2)
    (h3 : linRegReport S E ppf .hc3 target x y = some R3) (hx : Determined all x) (hl : ∀ r, Determined (without r) x)
    (left moved : Fin n → Fin d → ℝ) (hb : ∀ r, Best (without r) x y (left r))
    (hm : ∀ r, Best all x (bump y r (y r - pred x R3.beta r)) (moved r)) (i : Fin d) :
    R3.stdErr i = some √(∑ r, (R3.beta i - left r i) ^ 2) ∧
    R2.stdErr i = some √(∑ r, (R3.beta i - left r i) * (moved r i - R3.beta i)) := by
  obtain ⟨-, hb3, hse3, -⟩ := assemble_some h3
  obtain ⟨-, -, hse2, -⟩ := assemble_some h2
  have hlev : ¬ ∃ r, leverage S x r = 1 := by
    rintro ⟨r, hr⟩
    exact leverage_ne_one S hx r (hl r) hr
  have hres : ∀ r, y r - pred x (betas S x y) r = resid x y (betas S x y) r := fun r => rfl
  rw [hse3, hse2]
  simp only [stdErrs, hlev, if_false, sandwich_eq]
  constructor
  · congr 2
    refine Finset.sum_congr rfl fun r _ => ?_
    rw [hb3, betas_without S hx r (hl r) y (hb r), hres]
    rw [div_pow]
    ring
  · congr 2
    refine Finset.sum_congr rfl fun r _ => ?_
    rw [betas_unique S hx _ (hm r), hb3, betas_without S hx r (hl r) y (hb r), betas_bump, hres]
    ring

/-- **C113e.** A row whose feature pattern no other row shares (leverage one, for instance the only row of a category)
makes HC2 and HC3 not a number for every coefficient. -/
theorem report_hc3_isolated (S : Solver ℝ) (E : BetaEnv) (ppf : ℝ → ℝ) (kind : StdErr) (hk : kind = .hc2 ∨ kind = .hc3)
    (target : Col ℝ) (x : Matrix (Fin n) (Fin d) ℝ) (y : Fin n → ℝ) (R : Report d)
    (hR : linRegReport S E ppf kind target x y = some R) (hx : Determined all x) (r : Fin n) (j : Fin d)
    (h1 : x r j = 1) (h0 : ∀ s, s ≠ r → x s j = 0) (i : Fin d) : R.stdErr i = none ∧ R.t i = none ∧ R.p i = none := by
  have hlev : leverage S x r = 1 := by
    have hg := congrFun (gram_hat S hx (x r)) j
    rw [← Matrix.mulVec_mulVec, mulVecT, ← Finset.add_sum_erase _ _ (Finset.mem_univ r)] at hg
    have hz : ∑ s ∈ Finset.univ.erase r, x s j * (x *ᵥ (xtxInv S x *ᵥ x r)) s = 0 :=
      Finset.sum_eq_zero fun s hs => by rw [h0 s (Finset.ne_of_mem_erase hs), zero_mul]
    rw [hz, h1, one_mul, add_zero] at hg
    exact hg
  obtain ⟨-, -, hse, ht, hp, -⟩ := assemble_some hR
  have hnone : R.stdErr i = none := by
    rw [hse]
    rcases hk with rfl | rfl <;> simp only [stdErrs] <;> rw [if_pos ⟨r, hlev⟩]
  have hse' : stdErrs S kind x (resid x y (betas S x y)) i = none := by rw [← hnone, hse]
  refine ⟨hnone, ?_, ?_⟩
  · rw [ht]; simp [hse']
  · rw [hp]; simp [hse']

/-- **C113f.** `t` is the coefficient over its standard error, the p-value is that of the two-sided t test with `n - d`
degrees of freedom, and the interval is centred on the coefficient. -/
theorem report_inference (S : Solver ℝ) (E : BetaEnv) (ppf : ℝ → ℝ) (kind : StdErr) (target : Col ℝ)
    (x : Matrix (Fin n) (Fin d) ℝ) (y : Fin n → ℝ) (R : Report d) (hR : linRegReport S E ppf kind target x y = some R)
    (i : Fin d) (s : ℝ) (hs : R.stdErr i = some s) :
    (s ≠ 0 → R.t i = some (R.beta i / s) ∧ R.p i = pOf E (R.beta i / s) ((n : ℝ) - d) .twoSided) ∧
    R.lo i = some (R.beta i - ppf ((n : ℝ) - d) * s) ∧ R.hi i = some (R.beta i + ppf ((n : ℝ) - d) * s) := by
  obtain ⟨-, hb, hse, ht, hp, hlo, hhi, -⟩ := assemble_some hR
  rw [hse] at hs
  refine ⟨fun h0 => ⟨?_, ?_⟩, ?_, ?_⟩
  · rw [ht, hb]; simp only [hs, Option.bind_some, quot, if_neg h0]
  · rw [hp, hb]; simp only [hs, Option.bind_some, quot, if_neg h0, pOf, dof]
  · rw [hlo, hb]; simp only [hs, Option.map_some, dof]
  · rw [hhi, hb]; simp only [hs, Option.map_some, dof]

/-- **C113g.** The report panics exactly when there are no more rows than coefficients (a saturated fit). -/
theorem report_panics_iff (S : Solver ℝ) (E : BetaEnv) (ppf : ℝ → ℝ) (kind : StdErr) (target : Col ℝ)
    (x : Matrix (Fin n) (Fin d) ℝ) (y : Fin n → ℝ) : linRegReport S E ppf kind target x y = none ↔ n ≤ d := by
  unfold linRegReport assemble tAlpha dof
  rw [Option.map_eq_none_iff]
  have : (n : ℝ) - d ≤ 0 ↔ n ≤ d := by
    rw [sub_nonpos]; exact_mod_cast Iff.rfl
  simp only [this]
  split <;> simp_all

/-! ## R squared -/

/-- A column without nulls. -/
def full (y : Fin n → ℝ) : Col ℝ := (List.ofFn y).map some

theorem vals_full (y : Fin n → ℝ) : vals (full y) = List.ofFn y := by
  unfold full vals
  induction List.ofFn y with
  | nil => rfl
  | cons a l ih => simp

theorem var1_full (y : Fin n → ℝ) (hn : 2 ≤ n) : var1 (full y) = some (sst y / ((n : ℝ) - 1)) := by
  unfold var1 count Pl.sum
  rw [vals_full, List.length_ofFn, if_neg (by omega)]
  simp only [List.map_ofFn, List.sum_ofFn]
  rfl

/-- **C113h.** What the report gives as `r2` on complete data: the unexplained share is too small by the factor
`(n - 1) / n`, because the variance with divisor `n - 1` is multiplied by `n`. -/
theorem report_r2 (S : Solver ℝ) (E : BetaEnv) (ppf : ℝ → ℝ) (kind : StdErr) (x : Matrix (Fin n) (Fin d) ℝ)
    (y : Fin n → ℝ) (R : Report d) (hR : linRegReport S E ppf kind (full y) x y = some R) (hn : 2 ≤ n) (hy : sst y ≠ 0) :
    R.r2 = some (1 - (1 - rSquared x y R.beta) * (((n : ℝ) - 1) / n)) ∧
    (0 < loss all x y R.beta → ∃ q, R.r2 = some q ∧ rSquared x y R.beta < q) := by
  obtain ⟨-, hb, -, -, -, -, -, hr, -⟩ := assemble_some hR
  have hn0 : (n : ℝ) ≠ 0 := by positivity
  have hn1 : (0 : ℝ) < (n : ℝ) - 1 := by
    have : (2 : ℝ) ≤ n := by exact_mod_cast hn
    linarith
  have hsst : 0 < sst y := lt_of_le_of_ne (Finset.sum_nonneg fun r _ => sq_nonneg _) (Ne.symm hy)
  have h1 : R.r2 = some (1 - (1 - rSquared x y R.beta) * (((n : ℝ) - 1) / n)) := by
    rw [hr]
    unfold ratio
    rw [var1_full y hn]
    have hne : sst y / ((n : ℝ) - 1) * n ≠ 0 := mul_ne_zero (div_ne_zero hy hn1.ne') hn0
    simp only [Option.bind_some, quot, if_neg hne, Option.map_some, resid_loss]
    rw [← hb]
    unfold rSquared
    congr 1
    field_simp
    ring
  refine ⟨h1, fun hl => ⟨_, h1, ?_⟩⟩
  have hq : 0 < 1 - rSquared x y R.beta := by
    have : 1 - rSquared x y R.beta = loss all x y R.beta / sst y := by unfold rSquared; ring
    rw [this]
    exact div_pos hl hsst
  have hlt : ((n : ℝ) - 1) / n < 1 := by
    rw [div_lt_one (by positivity)]
    linarith
  nlinarith

/-- **C113i.** `adj_r2` on complete data takes one degree of freedom too many; together with the wrong `r2` it is below the
adjusted R² of the `d` coefficients whenever the fit is not perfect, and not a number for `n = d + 1`. -/
theorem report_adj_r2 (S : Solver ℝ) (E : BetaEnv) (ppf : ℝ → ℝ) (kind : StdErr) (x : Matrix (Fin n) (Fin d) ℝ)
    (y : Fin n → ℝ) (R : Report d) (hR : linRegReport S E ppf kind (full y) x y = some R) (hn : 2 ≤ n) (hd : 1 ≤ d)
    (hy : sst y ≠ 0) :
    (n = d + 1 → R.adjR2 = none) ∧
    (d + 1 < n → 0 < loss all x y R.beta → ∃ q, R.adjR2 = some q ∧ q < adjRSquared x y R.beta) := by
  obtain ⟨-, hb, -, -, -, -, -, -, ha⟩ := assemble_some hR
  have hn0 : (0 : ℝ) < n := by positivity
  have hn1 : (0 : ℝ) < (n : ℝ) - 1 := by
    have : (2 : ℝ) ≤ n := by exact_mod_cast hn
    linarith
  have hsst : 0 < sst y := lt_of_le_of_ne (Finset.sum_nonneg fun r _ => sq_nonneg _) (Ne.symm hy)
  have hne : sst y / ((n : ℝ) - 1) * n ≠ 0 := mul_ne_zero (div_ne_zero hy hn1.ne') hn0.ne'
  have hratio : ratio (full y) (resid x y (betas S x y)) = some (loss all x y R.beta / (sst y / ((n : ℝ) - 1) * n)) := by
    unfold ratio
    rw [var1_full y hn]
    simp only [Option.bind_some, quot, if_neg hne, resid_loss, hb]
  rw [ha, hratio]
  simp only [Option.bind_some]
  constructor
  · rintro rfl
    have : dof (d + 1) d - 1 = 0 := by unfold dof; push_cast; ring
    simp [quot, this]
  · intro hlt hl
    have hdof : 0 < dof n d - 1 := by
      unfold dof
      have : ((d + 1 : ℕ) : ℝ) < n := by exact_mod_cast hlt
      push_cast at this
      linarith
    refine ⟨1 - loss all x y R.beta / (sst y / ((n : ℝ) - 1) * n) * (((n : ℝ) - 1) / (dof n d - 1)),
      by simp only [quot, if_neg hdof.ne', Option.map_some], ?_⟩
    unfold adjRSquared
    unfold dof at hdof ⊢
    have hd1 : (1 : ℝ) ≤ d := by exact_mod_cast hd
    have hnd : 0 < (n : ℝ) - d := by linarith
    have key : loss all x y R.beta / ((n : ℝ) - d) / (sst y / ((n : ℝ) - 1)) <
        loss all x y R.beta / (sst y / ((n : ℝ) - 1) * n) * (((n : ℝ) - 1) / ((n : ℝ) - d - 1)) := by
      have e1 : loss all x y R.beta / ((n : ℝ) - d) / (sst y / ((n : ℝ) - 1)) =
          loss all x y R.beta / sst y * ((n : ℝ) - 1) * (1 / ((n : ℝ) - d)) := by field_simp
      have e2 : loss all x y R.beta / (sst y / ((n : ℝ) - 1) * n) * (((n : ℝ) - 1) / ((n : ℝ) - d - 1)) =
          loss all x y R.beta / sst y * ((n : ℝ) - 1) * (((n : ℝ) - 1) / (n * ((n : ℝ) - d - 1))) := by field_simp
      rw [e1, e2]
      refine mul_lt_mul_of_pos_left ?_ (mul_pos (div_pos hl hsst) hn1)
      rw [div_lt_div_iff₀ hnd (mul_pos hn0 hdof)]
      nlinarith
    linarith

/-! ## A model with the constant only -/

/-- The design matrix with the constant column only. -/
def ones (n : Nat) : Matrix (Fin n) (Fin 1) ℝ := fun _ _ => 1

theorem ones_determined (w : Fin n → ℝ) (r : Fin n) (hr : w r ≠ 0) : Determined w (ones n) := by
  intro c hc
  have := hc r hr
  simp only [pred, ones, one_mul, Fin.sum_univ_one] at this
  funext j
  rw [Fin.fin_one_eq_zero j]
  exact this

theorem ones_best {w : Fin n → ℝ} (hw : ∀ r, 0 ≤ w r) (y : Fin n → ℝ) (m : ℝ) (hm : (∑ r, w r) * m = ∑ r, w r * y r) :
    Best w (ones n) y fun _ => m := by
  refine best_of_normal hw fun j => ?_
  have : ∀ r, w r * ones n r j * (y r - pred (ones n) (fun _ => m) r) = w r * y r - w r * m := by
    intro r
    simp only [pred, ones, Fin.sum_univ_one]
    ring
  simp only [this, Finset.sum_sub_distrib, ← Finset.sum_mul, hm, sub_self]

theorem ones_mean (y : Fin n → ℝ) (hn : 0 < n) : Best all (ones n) y fun _ => mean y := by
  refine ones_best (fun _ => zero_le_one) y _ ?_
  have : (n : ℝ) ≠ 0 := by positivity
  simp only [Finset.sum_const, Finset.card_univ, Fintype.card_fin, nsmul_eq_mul, mul_one, one_mul, Spec.mean]
  field_simp

theorem ones_loss (y : Fin n → ℝ) : loss all (ones n) y (fun _ => mean y) = sst y := by
  unfold loss sst
  refine Finset.sum_congr rfl fun r _ => ?_
  simp [all, pred, ones]

theorem ones_inv (S : Solver ℝ) (hn : 0 < n) : xtxInv S (ones n) 0 0 = 1 / n := by
  have h := congrFun (congrFun (inv_right S (x := ones n) (ones_determined all ⟨0, hn⟩ one_ne_zero)) 0) 0
  rw [Matrix.mul_apply, Fin.sum_univ_one, Matrix.mul_apply] at h
  simp only [Matrix.transpose_apply, ones, mul_one, Finset.sum_const, Finset.card_univ, Fintype.card_fin, nsmul_eq_mul,
    Matrix.one_apply_eq] at h
  have : (n : ℝ) ≠ 0 := by positivity
  exact eq_div_of_mul_eq this (by rw [mul_comm]; exact h)

/-- **C113j.** The report of a model with the constant only is the one-sample t test against zero. -/
theorem report_constant_is_ttest (S : Solver ℝ) (E : BetaEnv) (ppf : ℝ → ℝ) (y : Fin n → ℝ) (R : Report 1)
    (hR : linRegReport S E ppf .se (full y) (ones n) y = some R) (hn : 2 ≤ n) (t p : ℝ) :
    R.beta 0 = mean y ∧ R.stdErr 0 = some √(sst y / ((n : ℝ) - 1) / n) ∧
    (ttestOneSample E (full y) 0 .twoSided = .ok t (some p) ↔ R.t 0 = some t ∧ R.p 0 = some p) := by
  have hn' : 0 < n := by omega
  have hdet : Determined all (ones n) := ones_determined all ⟨0, hn'⟩ one_ne_zero
  obtain ⟨hpos, hb, hse, ht, hp, -⟩ := assemble_some hR
  have hbeta : R.beta = fun _ => mean y := by
    rw [hb]; exact (betas_unique S hdet y (ones_mean y hn')).symm
  have hs : stdErrs S .se (ones n) (resid (ones n) y (betas S (ones n) y)) 0 = some √(sst y / ((n : ℝ) - 1) / n) := by
    simp only [stdErrs]
    rw [resid_loss, ← hb, hbeta, ones_loss, ones_inv S hn', mul_one_div]
    unfold dof
    norm_num
  refine ⟨by rw [hbeta], by rw [hse, hs], ?_⟩
  have hmean : Pl.mean (full y) = some (mean y) := by
    unfold Pl.mean Pl.sum Pl.count
    rw [vals_full, List.length_ofFn, if_neg (by omega), List.sum_ofFn]
    rfl
  have hcnt : (Pl.count (full y) : ℝ) = n := by
    unfold Pl.count
    rw [vals_full, List.length_ofFn]
  unfold ttestOneSample ttest1samp
  rw [hmean, var1_full y hn, hcnt]
  have hb0 : betas S (ones n) y 0 = Spec.mean y := by rw [← hb, hbeta]
  simp only [ht, hp, hs, hb0, Option.bind_some, sub_zero, quot, pOf]
  have hdof : dof n 1 = (n : ℝ) - 1 := by unfold dof; norm_num
  rw [hdof]
  by_cases h0 : √(sst y / ((n : ℝ) - 1) / n) = 0
  · simp [h0]
  · simp only [h0, if_false, Option.bind_some]
    cases studentSf E |mean y / √(sst y / ((n : ℝ) - 1) / n)| ((n : ℝ) - 1) with
    | none => simp
    | some q => simp

/-- **C113, disagreement.** A model that explains nothing (the constant only) has R² zero, but the report says `1 / n`. -/
theorem report_r2_constant (S : Solver ℝ) (E : BetaEnv) (ppf : ℝ → ℝ) (kind : StdErr) (y : Fin n → ℝ) (R : Report 1)
    (hR : linRegReport S E ppf kind (full y) (ones n) y = some R) (hn : 2 ≤ n) (hy : sst y ≠ 0) :
    rSquared (ones n) y R.beta = 0 ∧ R.r2 = some (1 / (n : ℝ)) := by
  have hn' : 0 < n := by omega
  have hdet : Determined all (ones n) := ones_determined all ⟨0, hn'⟩ one_ne_zero
  have hbeta : R.beta = fun _ => mean y := by
    rw [(assemble_some hR).2.1]; exact (betas_unique S hdet y (ones_mean y hn')).symm
  have h0 : rSquared (ones n) y R.beta = 0 := by
    unfold rSquared
    rw [hbeta, ones_loss, div_self hy, sub_self]
  refine ⟨h0, ?_⟩
  rw [(report_r2 S E ppf kind _ y R hR hn hy).1, h0]
  have : (n : ℝ) ≠ 0 := by positivity
  congr 1
  field_simp
  ring

/-- **C113, disagreement.** The struct that comes out for a heteroskedasticity-consistent error does not have the fields
that the plugin declares. -/
theorem report_fields (kind : StdErr) : actualFields kind = declaredFields ↔ kind = .se := by
  cases kind <;> decide

/-- **C113k.** The rows of the report carry the names of the features in order, the constant last; unknown kinds of
standard error mean the classical one. -/
theorem report_names (features : List String) (i : Nat) (h : i < features.length) (s : String)
    (hs : s ∉ ["hc0", "hc1", "hc2", "hc3"]) :
    (names features true)[i]? = features[i]? ∧ (names features false) = features ∧
    (names features true).getLast? = some "__bias__" ∧ (names features true).length = features.length + 1 ∧
    StdErr.ofString s = .se := by
  simp only [List.mem_cons, List.not_mem_nil, or_false, not_or] at hs
  refine ⟨?_, by simp [names], by simp [names], by simp [names], by simp [StdErr.ofString, hs]⟩
  rw [names, List.getElem?_append_left h]

/-- **C113k.** The kind of standard error is the one asked for by name, which also names its column. -/
theorem report_kind (s : String) :
    (StdErr.ofString s).column = if s ∈ ["hc0", "hc1", "hc2", "hc3"] then s ++ "_se" else "std_err" := by
  by_cases hs : s ∈ ["hc0", "hc1", "hc2", "hc3"]
  · rw [if_pos hs]
    simp only [List.mem_cons, List.not_mem_nil, or_false] at hs
    rcases hs with rfl | rfl | rfl | rfl <;> decide
  · rw [if_neg hs, (report_names ["x"] 0 (by decide) s hs).2.2.2.2]
    rfl

example : (StdErr.ofString "hc3").column = "hc3_se" := report_kind "hc3"

/-! ## Weights -/

/-- Rows multiplied by the root of their weight. -/
noncomputable def scaleX (w : Fin n → ℝ) (x : Matrix (Fin n) (Fin d) ℝ) : Matrix (Fin n) (Fin d) ℝ := fun r j => √(w r) * x r j

/-- Targets multiplied by the root of their weight. -/
noncomputable def scaleY (w y : Fin n → ℝ) : Fin n → ℝ := fun r => √(w r) * y r

/-- The weights without nulls, one for each row. -/
theorem wls_some {S : Solver ℝ} {E : BetaEnv} {ppf : ℝ → ℝ} {w : Fin n → ℝ} {target : Col ℝ}
    {x : Matrix (Fin n) (Fin d) ℝ} {y : Fin n → ℝ} :
    wlsReport S E ppf (full w) target x y =
      assemble E ppf target (wbetas S w x y) (resid x y (wbetas S w x y)) (wstdErrs S w x (resid x y (wbetas S w x y))) := by
  unfold wlsReport
  have hlen : (full w).length = n := by simp [full]
  have hnone : ¬ (full w).contains none = true := by simp [full]
  have hw : (fun r : Fin n => (((full w)[r.val]?).getD none).getD 0) = w := by
    funext r
    simp [full]
  rw [if_neg (by simp only [hnone, hlen]; simp)]
  simp only [hw]

theorem wbetas_gram (S : Solver ℝ) {w : Fin n → ℝ} (hw : ∀ r, 0 ≤ w r) {x : Matrix (Fin n) (Fin d) ℝ}
    (hd : Determined w x) (y : Fin n → ℝ) :
    (xᵀ * diagonal w * x) *ᵥ wbetas S w x y = xᵀ *ᵥ fun r => w r * y r := by
  have h := S.qr_spec (xᵀ * diagonal w * x) (xᵀ * diagonal w * (Matrix.of fun r (_ : Fin 1) => y r)) (wgram_unit hw hd)
  funext j
  have := congrFun (congrFun h j) 0
  refine Eq.trans (by rfl) (this.trans ?_)
  rw [Matrix.mul_assoc, Matrix.mul_apply, mulVecT]
  refine Finset.sum_congr rfl fun r _ => ?_
  rw [Matrix.transpose_apply, Matrix.diagonal_mul]
  rfl

/-- **C114a.** The coefficients of the weighted report are the unique weighted best fit. -/
theorem wls_coefficients (S : Solver ℝ) (E : BetaEnv) (ppf : ℝ → ℝ) (w : Fin n → ℝ) (hw : ∀ r, 0 ≤ w r) (target : Col ℝ)
    (x : Matrix (Fin n) (Fin d) ℝ) (y : Fin n → ℝ) (R : Report d)
    (hR : wlsReport S E ppf (full w) target x y = some R) (hx : Determined w x) :
    Best w x y R.beta ∧ ∀ c, Best w x y c → c = R.beta := by
  rw [wls_some] at hR
  rw [(assemble_some hR).2.1]
  have hn := normal_eq (wbetas_gram S hw hx y)
  exact ⟨best_of_normal hw hn, fun c hc => best_unique hw hx hn hc⟩

/-- **C114b.** Apart from the two R² columns, the weighted report is the ordinary report of the rows multiplied by the
roots of their weights. -/
theorem wls_is_scaled_ols (S : Solver ℝ) (E : BetaEnv) (ppf : ℝ → ℝ) (w : Fin n → ℝ) (hw : ∀ r, 0 ≤ w r)
    (target target' : Col ℝ) (x : Matrix (Fin n) (Fin d) ℝ) (y : Fin n → ℝ) (R R' : Report d) (hx : Determined w x)
    (hR : wlsReport S E ppf (full w) target x y = some R)
    (hR' : linRegReport S E ppf .se target' (scaleX w x) (scaleY w y) = some R') :
    R.beta = R'.beta ∧ R.stdErr = R'.stdErr ∧ R.t = R'.t ∧ R.p = R'.p ∧ R.lo = R'.lo ∧ R.hi = R'.hi := by
  rw [wls_some] at hR
  obtain ⟨-, hb, hse, ht, hp, hlo, hhi, -⟩ := assemble_some hR
  obtain ⟨-, hb', hse', ht', hp', hlo', hhi', -⟩ := assemble_some hR'
  have hsq : ∀ r, √(w r) * √(w r) = w r := fun r => Real.mul_self_sqrt (hw r)
  have hpred : ∀ c r, pred (scaleX w x) c r = √(w r) * pred x c r := by
    intro c r
    simp only [pred, scaleX]
    rw [Finset.mul_sum]
    exact Finset.sum_congr rfl fun j _ => by ring
  have hgram : (scaleX w x)ᵀ * scaleX w x = xᵀ * diagonal w * x := by
    funext i j
    rw [Matrix.mul_apply, Matrix.mul_assoc, Matrix.mul_apply]
    refine Finset.sum_congr rfl fun r _ => ?_
    rw [Matrix.transpose_apply, Matrix.transpose_apply, Matrix.diagonal_mul, scaleX, scaleX]
    linear_combination x r i * x r j * hsq r
  have hdet : Determined all (scaleX w x) := by
    intro c hc
    apply hx
    intro r hr
    have := hc r one_ne_zero
    rw [hpred] at this
    rcases mul_eq_zero.mp this with h | h
    · exact absurd ((Real.sqrt_eq_zero (hw r)).mp h) hr
    · exact h
  have hbeta : R.beta = R'.beta := by
    rw [hb, hb']
    refine betas_unique S hdet _ ?_
    have hbest := best_of_normal hw (normal_eq (wbetas_gram S hw hx y))
    have hloss : ∀ c, loss all (scaleX w x) (scaleY w y) c = loss w x y c := by
      intro c
      unfold loss
      refine Finset.sum_congr rfl fun r _ => ?_
      rw [hpred, scaleY, all]
      linear_combination (y r - pred x c r) ^ 2 * hsq r
    intro c
    rw [hloss, hloss]
    exact hbest c
  have hse2 : R.stdErr = R'.stdErr := by
    rw [hse, hse']
    funext i
    simp only [wstdErrs, stdErrs, xtxInv, hgram]
    congr 4
    refine Finset.sum_congr rfl fun r _ => ?_
    have : resid (scaleX w x) (scaleY w y) (betas S (scaleX w x) (scaleY w y)) r =
        √(w r) * resid x y (wbetas S w x y) r := by
      rw [← hb', ← hbeta, hb]
      have := hpred (wbetas S w x y) r
      simp only [resid, Pi.sub_apply, ← pred_eq, this, scaleY]
      ring
    rw [this]
    linear_combination -(resid x y (wbetas S w x y) r) ^ 2 * hsq r
  have hb2 : wbetas S w x y = betas S (scaleX w x) (scaleY w y) := by rw [← hb, ← hb', hbeta]
  have hs2 : wstdErrs S w x (resid x y (wbetas S w x y)) =
      stdErrs S .se (scaleX w x) (resid (scaleX w x) (scaleY w y) (betas S (scaleX w x) (scaleY w y))) := by
    rw [← hse, ← hse', hse2]
  refine ⟨hbeta, hse2, ?_, ?_, ?_, ?_⟩
  · rw [ht, ht', hs2, hb2]
  · rw [hp, hp', hs2, hb2]
  · rw [hlo, hlo', hs2, hb2]
  · rw [hhi, hhi', hs2, hb2]

/-- **C114, disagreement.** As soon as a row is dropped for a null in the data, or a weight is null, the weighted report
panics. -/
theorem wls_dropped_row_panics (S : Solver ℝ) (E : BetaEnv) (ppf : ℝ → ℝ) (weights target : Col ℝ)
    (x : Matrix (Fin n) (Fin d) ℝ) (y : Fin n → ℝ) (h : none ∈ weights ∨ n < weights.length) :
    wlsReport S E ppf weights target x y = none := by
  unfold wlsReport
  rw [if_pos]
  rcases h with h | h
  · left; simpa using h
  · right; omega

/-! ## Examples -/

/-- The inverse matrix: a solver meeting the contract. -/
noncomputable def invSolver : Solver ℝ where
  qr A B := A⁻¹ * B
  qrInverse A := A⁻¹
  svd A B := some (A⁻¹ * B)
  llt _ _ := none
  qr_spec A B h := by rw [← Matrix.mul_assoc, Matrix.mul_nonsing_inv A h, Matrix.one_mul]
  qrInverse_spec A h := Matrix.mul_nonsing_inv A h
  svd_spec A B M h e := by
    cases e
    rw [← Matrix.mul_assoc, Matrix.mul_nonsing_inv A h, Matrix.one_mul]
  llt_spec A B M h e := by cases e

/-- Three targets. -/
def exY : Fin 3 → ℝ := ![1, 2, 6]

theorem exY_mean : mean exY = 3 := by simp [Spec.mean, exY, Fin.sum_univ_three]; norm_num

theorem exY_sst : sst exY = 14 := by
  unfold sst
  rw [exY_mean]
  simp [exY, Fin.sum_univ_three]
  norm_num

theorem ex_some (E : BetaEnv) (ppf : ℝ → ℝ) (kind : StdErr) :
    ∃ R, linRegReport invSolver E ppf kind (full exY) (ones 3) exY = some R := by
  rw [← Option.isSome_iff_exists, Option.isSome_iff_ne_none, ne_eq, report_panics_iff]
  omega

/-- The hypotheses of the theorems on a model with a constant; the report says R² is a third. -/
example (E : BetaEnv) (ppf : ℝ → ℝ) : ∃ R, linRegReport invSolver E ppf .se (full exY) (ones 3) exY = some R ∧
    Determined all (ones 3) ∧ R.beta 0 = 3 ∧ R.stdErr 0 = some √(14 / 2 / 3) ∧ R.r2 = some (1 / 3) := by
  obtain ⟨R, hR⟩ := ex_some E ppf .se
  refine ⟨R, hR, ones_determined all 0 one_ne_zero, ?_, ?_, ?_⟩
  · rw [(report_constant_is_ttest invSolver E ppf exY R hR (by omega) 0 0).1, exY_mean]
  · rw [(report_constant_is_ttest invSolver E ppf exY R hR (by omega) 0 0).2.1, exY_sst]
    norm_num
  · rw [(report_r2_constant invSolver E ppf .se exY R hR (by omega) (by rw [exY_sst]; norm_num)).2]
    norm_num

/-- The jackknife on the same rows: leaving out one row gives the means 4, 3.5 and 1.5. -/
example (E : BetaEnv) (ppf : ℝ → ℝ) : ∃ R, linRegReport invSolver E ppf .hc3 (full exY) (ones 3) exY = some R ∧
    R.stdErr 0 = some √(7 / 2) := by
  obtain ⟨R2, h2⟩ := ex_some E ppf .hc2
  obtain ⟨R, hR⟩ := ex_some E ppf .hc3
  have hdet : Determined all (ones 3) := ones_determined all 0 one_ne_zero
  have hbeta : R.beta = fun _ => 3 := by
    rw [← exY_mean]
    exact ((report_coefficients invSolver E ppf .hc3 _ _ _ R hR hdet).2 _ (ones_mean exY (by omega))).symm
  have hdets : ∀ r : Fin 3, Determined (without r) (ones 3) := by
    intro r
    fin_cases r
    · exact ones_determined _ 1 (by simp [without])
    · exact ones_determined _ 0 (by simp [without])
    · exact ones_determined _ 0 (by simp [without])
  have hleft : ∀ r : Fin 3, Best (without r) (ones 3) exY fun _ => (![4, 7 / 2, 3 / 2] : Fin 3 → ℝ) r := by
    intro r
    refine ones_best (fun s => by unfold without; split <;> norm_num) _ _ ?_
    fin_cases r <;> simp [without, exY, Fin.sum_univ_three] <;> norm_num
  refine ⟨R, hR, ?_⟩
  rw [(report_hc3_hc2 invSolver E ppf (full exY) (ones 3) exY R2 R h2 hR hdet hdets _
    (fun r => betas invSolver (ones 3) (bump exY r (exY r - pred (ones 3) R.beta r))) hleft
    (fun r => betas_best invSolver hdet _) 0).1, hbeta]
  congr 2
  simp [Fin.sum_univ_three]
  norm_num

/-- HC0 and HC1 on the same rows: moving a target by its residual moves the mean by a third of it. -/
example (E : BetaEnv) (ppf : ℝ → ℝ) : ∃ R0 R1, linRegReport invSolver E ppf .hc0 (full exY) (ones 3) exY = some R0 ∧
    linRegReport invSolver E ppf .hc1 (full exY) (ones 3) exY = some R1 ∧
    R0.stdErr 0 = some √(14 / 9) ∧ R1.stdErr 0 = some √(14 / 9 * (3 / 2)) := by
  obtain ⟨R0, h0⟩ := ex_some E ppf .hc0
  obtain ⟨R1, h1⟩ := ex_some E ppf .hc1
  have hdet : Determined all (ones 3) := ones_determined all 0 one_ne_zero
  have hbeta : R0.beta = fun _ => 3 := by
    rw [← exY_mean]
    exact ((report_coefficients invSolver E ppf .hc0 _ _ _ R0 h0 hdet).2 _ (ones_mean exY (by omega))).symm
  obtain ⟨e0, e1⟩ := report_hc0_hc1 invSolver E ppf (full exY) (ones 3) exY R0 R1 h0 h1 hdet
    (fun r _ => Spec.mean (bump exY r (exY r - pred (ones 3) R0.beta r))) (fun r => ones_mean _ (by omega)) 0
  refine ⟨R0, R1, h0, h1, ?_, ?_⟩
  · rw [e0, hbeta]
    congr 2
    simp [Spec.mean, bump, pred, ones, exY, Fin.sum_univ_three]
    norm_num
  · rw [e1, hbeta]
    congr 2
    simp [Spec.mean, bump, pred, ones, exY, Fin.sum_univ_three]
    norm_num

/-- Two rows and a constant: the adjusted R² is lost, and the interval of the mean is centred on it. -/
example (E : BetaEnv) (ppf : ℝ → ℝ) : ∃ R, linRegReport invSolver E ppf .se (full ![1, 3]) (ones 2) ![1, 3] = some R ∧
    R.adjR2 = none ∧ R.lo 0 = some (2 - ppf 1 * √1) ∧ R.hi 0 = some (2 + ppf 1 * √1) := by
  obtain ⟨R, hR⟩ : ∃ R, linRegReport invSolver E ppf .se (full ![1, 3]) (ones 2) ![1, 3] = some R := by
    rw [← Option.isSome_iff_exists, Option.isSome_iff_ne_none, ne_eq, report_panics_iff]
    omega
  have hm : Spec.mean (![1, 3] : Fin 2 → ℝ) = 2 := by simp [Spec.mean, Fin.sum_univ_two]; norm_num
  have hss : sst (![1, 3] : Fin 2 → ℝ) = 2 := by unfold sst; rw [hm]; simp [Fin.sum_univ_two]; norm_num
  obtain ⟨hb, hse, -⟩ := report_constant_is_ttest invSolver E ppf _ R hR (by omega) 0 0
  have hs : R.stdErr 0 = some √1 := by rw [hse, hss]; norm_num
  obtain ⟨-, hlo, hhi⟩ := report_inference invSolver E ppf .se _ _ _ R hR 0 _ hs
  have hd : ((2 : ℕ) : ℝ) - ((1 : ℕ) : ℝ) = 1 := by norm_num
  rw [hb, hm, hd] at hlo hhi
  exact ⟨R, hR, (report_adj_r2 invSolver E ppf .se _ _ R hR (by omega) (by omega) (by rw [hss]; norm_num)).1 rfl, hlo, hhi⟩

example : names ["a", "b"] true = ["a", "b", "__bias__"] ∧ StdErr.ofString "hc7" = .se := by decide

/-- A dummy variable that is one in a single row: HC3 is lost for every coefficient. -/
example (E : BetaEnv) (ppf : ℝ → ℝ) (y : Fin 3 → ℝ) :
    ∃ R, linRegReport invSolver E ppf .hc3 (full y) !![1, 1; 1, 0; 1, 0] y = some R ∧ R.stdErr 0 = none := by
  obtain ⟨R, hR⟩ : ∃ R, linRegReport invSolver E ppf .hc3 (full y) !![1, 1; 1, 0; 1, 0] y = some R := by
    rw [← Option.isSome_iff_exists, Option.isSome_iff_ne_none, ne_eq, report_panics_iff]
    omega
  refine ⟨R, hR, (report_hc3_isolated invSolver E ppf .hc3 (Or.inr rfl) _ _ _ R hR ?_ 0 1 (by simp) ?_ 0).1⟩
  · intro c hc
    have h0 := hc 0 one_ne_zero
    have h1 := hc 1 one_ne_zero
    simp [pred, Fin.sum_univ_two] at h0 h1
    funext j
    fin_cases j
    · exact h1
    · simp only [Pi.zero_apply]
      have := h0
      rw [h1, zero_add] at this
      exact this
  · intro s hs
    fin_cases s
    · exact absurd rfl hs
    · simp
    · simp

/-- Weights 1, 1, 2. -/
example (E : BetaEnv) (ppf : ℝ → ℝ) : ∃ R, wlsReport invSolver E ppf (full ![1, 1, 2]) (full exY) (ones 3) exY = some R ∧
    R.beta 0 = 15 / 4 := by
  have hw : ∀ r : Fin 3, (0 : ℝ) ≤ (![1, 1, 2] : Fin 3 → ℝ) r := by intro r; fin_cases r <;> simp
  obtain ⟨R, hR⟩ : ∃ R, wlsReport invSolver E ppf (full ![1, 1, 2]) (full exY) (ones 3) exY = some R := by
    rw [wls_some]
    unfold assemble tAlpha dof
    rw [if_neg (by norm_num)]
    exact ⟨_, rfl⟩
  refine ⟨R, hR, ?_⟩
  rw [← (wls_coefficients invSolver E ppf _ hw _ _ _ R hR (ones_determined _ 0 (by simp))).2 (fun _ => 15 / 4)
    (ones_best hw _ _ ?_)]
  simp [exY, Fin.sum_univ_three]
  norm_num

/-- The two reports of `wls_is_scaled_ols` exist together. -/
example (E : BetaEnv) (ppf : ℝ → ℝ) : ∃ R R', wlsReport invSolver E ppf (full ![1, 1, 4]) (full exY) (ones 3) exY = some R ∧
    linRegReport invSolver E ppf .se (full exY) (scaleX ![1, 1, 4] (ones 3)) (scaleY ![1, 1, 4] exY) = some R' ∧
    R.t = R'.t := by
  have hw : ∀ r : Fin 3, (0 : ℝ) ≤ (![1, 1, 4] : Fin 3 → ℝ) r := by intro r; fin_cases r <;> simp
  obtain ⟨R, hR⟩ : ∃ R, wlsReport invSolver E ppf (full ![1, 1, 4]) (full exY) (ones 3) exY = some R := by
    rw [wls_some]
    unfold assemble tAlpha dof
    rw [if_neg (by norm_num)]
    exact ⟨_, rfl⟩
  obtain ⟨R', hR'⟩ : ∃ R', linRegReport invSolver E ppf .se (full exY) (scaleX ![1, 1, 4] (ones 3)) (scaleY ![1, 1, 4] exY) =
      some R' := by
    rw [← Option.isSome_iff_exists, Option.isSome_iff_ne_none, ne_eq, report_panics_iff]
    omega
  exact ⟨R, R', hR, hR',
    (wls_is_scaled_ols invSolver E ppf _ hw _ _ _ _ R R' (ones_determined _ 0 (by simp)) hR hR').2.2.1⟩

/-- Four rows of which one has a null target. -/
example (E : BetaEnv) (ppf : ℝ → ℝ) :
    wlsReport invSolver E ppf [some 1, some 1, some 2, some 1] [some 1, none, some 2, some 6] (ones 3) exY = none :=
  wls_dropped_row_panics _ _ _ _ _ _ _ (Or.inr (by simp))

end Verif.LrReport
