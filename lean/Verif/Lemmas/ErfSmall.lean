import Verif.Lemmas.Erf
import Mathlib.Analysis.Complex.Exponential
import Mathlib.Analysis.Calculus.MeanValue

/-!
# `erf_impl` below one half and the constants written in the source
-/

namespace Verif.Normal
open Set Filter Topology Real
open Verif.ListPoly Verif.GaussTail

/-- The first terms of the series of `exp (-z^2)`. -/
def taylor : List ℚ :=
  [1, 0, -1, 0, 1 / 2, 0, -1 / 6, 0, 1 / 24, 0, -1 / 120, 0, 1 / 720, 0, -1 / 5040, 0, 1 / 40320, 0, -1 / 362880, 0,
    1 / 3628800, 0, -1 / 39916800, 0, 1 / 479001600, 0, -1 / 6227020800]

theorem taylor_near (z : ℝ) (h0 : 0 ≤ z) (h1 : z ≤ 1 / 2) : |exp (-z ^ 2) - eval taylor z| ≤ 1e-19 := by
  have hz : z ^ 2 ≤ 1 / 4 := by nlinarith
  have habs : |(-z ^ 2 : ℝ)| ≤ 1 / 4 := by rw [abs_neg, abs_of_nonneg (sq_nonneg z)]; exact hz
  have := Real.exp_bound (x := -z ^ 2) (n := 14) (by linarith) (by norm_num)
  have e : ∑ m ∈ Finset.range 14, (-z ^ 2) ^ m / (m.factorial : ℝ) = eval taylor z := by
    simp only [Finset.sum_range_succ, Finset.sum_range_zero, taylor, eval_cons, eval_nil, Nat.factorial]
    push_cast
    ring
  rw [e] at this
  refine this.trans ?_
  have h14 : |(-z ^ 2 : ℝ)| ^ 14 ≤ (1 / 4) ^ 14 := pow_le_pow_left₀ (abs_nonneg _) habs 14
  refine (mul_le_mul_of_nonneg_right h14 (by positivity)).trans ?_
  norm_num [Nat.factorial]

/-- The branch `1e-10 <= z < 0.5`. -/
noncomputable def valA (z : ℝ) : ℝ := z * 1.125 + z * eval erfAN z / eval erfAD z

/-- The derivative of the branch minus that of `erf`, times the square of the denominator. -/
def rA : List ℚ :=
  add (add (smul (9 / 8) (mul erfAD erfAD)) (mul erfAN erfAD))
    (add (mul [0, 1] (add (mul (der erfAN) erfAD) (smul (-1) (mul erfAN (der erfAD)))))
      (smul (-q) (mul taylor (mul erfAD erfAD))))

theorem certA0 : check (1 / 2) (add erfAD [-1 / 2]) = true := by decide +kernel

theorem certA1 : check (1 / 2) (add (smul 1e-17 (mul erfAD erfAD)) rA) = true := by decide +kernel

theorem certA2 : check (1 / 2) (add (smul 1e-17 (mul erfAD erfAD)) (smul (-1) rA)) = true := by decide +kernel

theorem denA_pos {z : ℝ} (h0 : 0 ≤ z) (h1 : z ≤ 1 / 2) : 0 < eval erfAD z := by
  have := nonneg_of_check (by norm_num) certA0 z h0 (by push_cast; exact h1)
  rw [eval_add, eval_cons, eval_nil] at this
  push_cast at this
  linarith

theorem hasDerivAt_valA (z : ℝ) (hd : eval erfAD z ≠ 0) :
    HasDerivAt valA (eval rA z / (eval erfAD z * eval erfAD z) + q * eval taylor z) z := by
  have hn := ListPoly.hasDerivAt erfAN z
  have hden := ListPoly.hasDerivAt erfAD z
  have h1 : HasDerivAt (fun y : ℝ => y * 1.125 + y * eval erfAN y / eval erfAD y) _ z :=
    ((hasDerivAt_id z).mul_const 1.125).add (((hasDerivAt_id z).mul hn).div hden hd)
  refine HasDerivAt.congr_deriv h1 ?_
  simp only [rA, eval_add, eval_mul, eval_smul, eval_cons, eval_nil]
  push_cast
  generalize eval erfAD z = D at *
  generalize hN : eval erfAN z = N at *
  generalize eval (der erfAD) z = D' at *
  generalize eval (der erfAN) z = N' at *
  generalize eval taylor z = T at *
  rw [show ((id : ℝ → ℝ) * eval erfAN) z = z * N from by rw [Pi.mul_apply, id_eq, hN]]
  simp only [id_eq]
  field_simp
  ring

theorem derivA_near (z : ℝ) (h0 : 0 ≤ z) (h1 : z ≤ 1 / 2) :
    |eval rA z / (eval erfAD z * eval erfAD z) + q * eval taylor z - c * exp (-z ^ 2)| ≤ 1.2e-17 := by
  have hd := denA_pos h0 h1
  have hh : z ≤ ((1 / 2 : ℚ) : ℝ) := by push_cast; exact h1
  have e1 := nonneg_of_check (by norm_num) certA1 z h0 hh
  have e2 := nonneg_of_check (by norm_num) certA2 z h0 hh
  rw [eval_add, eval_smul, eval_mul] at e1
  rw [eval_add, eval_smul, eval_mul, eval_smul] at e2
  have hr : |eval rA z / (eval erfAD z * eval erfAD z)| ≤ 1e-17 := by
    have hp : 0 < eval erfAD z * eval erfAD z := mul_pos hd hd
    rw [abs_div, abs_of_pos hp, div_le_iff₀ hp, abs_le]
    push_cast at e1 e2
    norm_num at e1 e2 ⊢
    constructor <;> linarith
  have ht := taylor_near z h0 h1
  have hc := c_near
  have hexp : exp (-z ^ 2) ≤ 1 := by rw [exp_le_one_iff]; nlinarith
  have hexp0 := exp_pos (-z ^ 2)
  have hq : (0 : ℝ) ≤ q ∧ (q : ℝ) ≤ 2 := by norm_num [q]
  have hsplit : eval rA z / (eval erfAD z * eval erfAD z) + q * eval taylor z - c * exp (-z ^ 2) =
      eval rA z / (eval erfAD z * eval erfAD z) + (-(q * (exp (-z ^ 2) - eval taylor z))) +
        (-((c - q) * exp (-z ^ 2))) := by ring
  rw [hsplit]
  refine (abs_add_three _ _ _).trans ?_
  rw [abs_neg, abs_neg, abs_mul, abs_mul, abs_of_nonneg hq.1, abs_of_pos hexp0]
  have a1 : (q : ℝ) * |exp (-z ^ 2) - eval taylor z| ≤ 2 * 1e-19 :=
    mul_le_mul hq.2 ht (abs_nonneg _) (by norm_num)
  have a2 : |c - q| * exp (-z ^ 2) ≤ 1e-18 * 1 := mul_le_mul hc hexp hexp0.le (by norm_num)
  norm_num at a1 a2 hr ⊢
  linarith

/-- The error function: one minus the upper tail. -/
theorem hasDerivAt_erf (z : ℝ) : HasDerivAt (fun y => 1 - c * U y) (c * exp (-z ^ 2)) z := by
  refine (((hasDerivAt_U z).const_mul c).const_sub 1).congr_deriv ?_
  ring

theorem erf_zero : 1 - c * U 0 = 0 := by
  rw [U_zero, c]
  have : √π ≠ 0 := by positivity
  field_simp
  ring

/-- A function that starts like `erf` and has its derivative up to `K` is `erf` up to `K * z`. -/
theorem erf_of_deriv {f f' : ℝ → ℝ} {K b z : ℝ} (h0 : f 0 = 0) (hd : ∀ y ∈ Icc 0 b, HasDerivAt f (f' y) y)
    (hb : ∀ y ∈ Icc 0 b, |f' y - c * exp (-y ^ 2)| ≤ K) (hz : z ∈ Icc 0 b) : |f z - (1 - c * U z)| ≤ K * z := by
  have := (convex_Icc 0 b).norm_image_sub_le_of_norm_hasDerivWithin_le (f := fun y => f y - (1 - c * U y))
    (f' := fun y => f' y - c * exp (-y ^ 2)) (C := K) (x := 0) (y := z)
    (fun y hy => ((hd y hy).sub (hasDerivAt_erf y)).hasDerivWithinAt) (fun y hy => by
      rw [Real.norm_eq_abs]; exact hb y hy) ⟨le_refl _, hz.1.trans hz.2⟩ hz
  rw [h0, erf_zero] at this
  simpa [abs_of_nonneg hz.1] using this

/-- Below one half. -/
theorem result_small (z : ℝ) (h0 : 0 ≤ z) (h1 : z < 1 / 2) : |result z - (1 - c * U z)| ≤ 1.2e-17 * z := by
  rw [result, if_pos h1]
  by_cases ht : z < 1e-10
  · rw [if_pos ht]
    refine erf_of_deriv (f := fun z => z * 1.125 + z * 0.003379167095512573896158903121545171688)
      (f' := fun _ => 1.125 + 0.003379167095512573896158903121545171688) (b := 1e-10) (by norm_num) ?_ ?_
      ⟨h0, ht.le⟩
    · intro y _
      have := ((hasDerivAt_id y).mul_const (1.125 : ℝ)).add
        ((hasDerivAt_id y).mul_const (0.003379167095512573896158903121545171688 : ℝ))
      refine this.congr_deriv ?_
      ring
    · intro y hy
      have hc := c_near
      have hy2 : y ^ 2 ≤ 1e-20 := by
        have := pow_le_pow_left₀ hy.1 hy.2 2
        norm_num at this ⊢
        exact this
      have hl : 1 - y ^ 2 ≤ exp (-y ^ 2) := by linarith [Real.add_one_le_exp (-y ^ 2)]
      have hu : exp (-y ^ 2) ≤ 1 := by rw [exp_le_one_iff]; nlinarith
      have hc2 : c ≤ 2 := by
        rw [abs_le] at hc
        have : (q : ℝ) ≤ 1.9 := by norm_num [q]
        norm_num at hc this ⊢
        linarith [hc.2]
      have hs : (1.125 : ℝ) + 0.003379167095512573896158903121545171688 - c * exp (-y ^ 2) =
          (1.125 + 0.003379167095512573896158903121545171688 - q) + (-(c - q)) + c * (1 - exp (-y ^ 2)) := by ring
      rw [hs]
      refine (abs_add_three _ _ _).trans ?_
      rw [abs_neg, abs_mul, abs_of_pos c_pos, abs_of_nonneg (by linarith : 0 ≤ 1 - exp (-y ^ 2))]
      have a1 : |(1.125 : ℝ) + 0.003379167095512573896158903121545171688 - q| ≤ 1e-19 := by
        rw [abs_le]; norm_num [q]
      have a2 : c * (1 - exp (-y ^ 2)) ≤ 2 * 1e-20 :=
        mul_le_mul hc2 (by linarith) (by linarith) (by norm_num)
      norm_num at a1 a2 hc ⊢
      linarith
  · rw [if_neg ht, polynomial_eq, polynomial_eq]
    refine erf_of_deriv (f := valA) (b := 1 / 2)
      (f' := fun y => eval rA y / (eval erfAD y * eval erfAD y) + q * eval taylor y) (by simp [valA])
      (fun y hy => ?_) (fun y hy => ?_) ⟨h0, h1.le⟩
    · exact hasDerivAt_valA y (denA_pos hy.1 hy.2).ne'
    · exact derivA_near y hy.1 hy.2

/-- The certificate that replacing the constant changes the branch by at most the relative amount `κ`. -/
theorem value_near (p : Piece) (b w κ : ℚ) (hw : 0 < w) (hκ : 0 ≤ κ) (hlo : 0 < p.lo)
    (h0 : check w (add p.den [-1 / 2]) = true)
    (h1 : check w (add (smul κ (bnP p b)) (smul (-|p.b - b|) p.den)) = true) (ε z : ℝ) (hz1 : p.lo ≤ z)
    (hz2 : z ≤ p.lo + w) (hn : Near p b ε z) : |p.value z - c * U z| ≤ ((κ : ℝ) * (c + ε) + ε) * U z := by
  have hlo' : (0 : ℝ) < p.lo := by exact_mod_cast hlo
  have hz : 0 < z := by linarith
  have hd := den_pos hw h0 (u := z - p.lo) (by linarith) (by linarith)
  have h2 := nonneg_of_check hw h1 (z - p.lo) (by linarith) (by linarith)
  rw [eval_add, eval_smul, eval_smul, bnP, eval_add, eval_smul] at h2
  push_cast at h2
  have hg : 0 < exp (-z ^ 2) / z := by positivity
  have hdiff : |val p p.b z - val p b z| ≤ κ * val p b z := by
    have e1 : val p p.b z - val p b z = exp (-z ^ 2) / z * (p.b - b) := by unfold val; ring
    have e2 : |(p.b : ℝ) - b| ≤ κ * (b + eval p.num (z - p.lo) / eval p.den (z - p.lo)) := by
      have : (b : ℝ) + eval p.num (z - p.lo) / eval p.den (z - p.lo) =
          (b * eval p.den (z - p.lo) + eval p.num (z - p.lo)) / eval p.den (z - p.lo) := by field_simp
      rw [this, mul_div_assoc', le_div_iff₀ hd]
      linarith
    rw [e1, abs_mul, abs_of_pos hg, val]
    calc _ ≤ exp (-z ^ 2) / z * (κ * (b + eval p.num (z - p.lo) / eval p.den (z - p.lo))) :=
          mul_le_mul_of_nonneg_left e2 hg.le
      _ = _ := by ring
  rw [Near, abs_le] at hn
  have hκ' : 0 ≤ (κ : ℝ) := by exact_mod_cast hκ
  have hU := U_pos z
  rw [value_eq]
  have hsplit : val p p.b z - c * U z = (val p p.b z - val p b z) + (val p b z - c * U z) := by ring
  rw [hsplit]
  refine (abs_add_le _ _).trans ?_
  have a1 : |val p b z - c * U z| ≤ ε * U z := abs_le.2 hn
  have a2 : (κ : ℝ) * val p b z ≤ κ * ((c + ε) * U z) := mul_le_mul_of_nonneg_left (by linarith [hn.2]) hκ'
  calc _ ≤ κ * ((c + ε) * U z) + ε * U z := add_le_add (hdiff.trans a2) a1
    _ = _ := by ring

theorem c_bounds : 1.128 ≤ c ∧ c ≤ 1.129 := by
  have hc := c_near
  rw [abs_le] at hc
  have : (1.1281 : ℝ) ≤ q ∧ (q : ℝ) ≤ 1.1289 := by norm_num [q]
  norm_num at hc this ⊢
  constructor <;> linarith [hc.1, hc.2, this.1, this.2]

/-- `value_near` with the numbers of the source. -/
theorem value_err (p : Piece) (b w : ℚ) (hw : 0 < w) (hlo : 0 < p.lo) (h0 : check w (add p.den [-1 / 2]) = true)
    (h1 : check w (add (smul 1.031e-10 (bnP p b)) (smul (-|p.b - b|) p.den)) = true) (z : ℝ) (hz1 : p.lo ≤ z)
    (hz2 : z ≤ p.lo + w) (ε : ℝ) (hε : ε ≤ 1.8e-13) (hn : Near p b ε z) :
    |p.value z - c * U z| ≤ 1.04e-10 * (c * U z) := by
  refine (value_near p b w 1.031e-10 hw (by norm_num) hlo h0 h1 ε z hz1 hz2 hn).trans ?_
  rw [← mul_assoc]
  refine mul_le_mul_of_nonneg_right ?_ (U_pos z).le
  have := c_bounds
  push_cast
  norm_num at this hε ⊢
  nlinarith [this.1, this.2]

theorem valueB (z : ℝ) (h1 : 1 / 2 ≤ z) (h2 : z ≤ 3 / 4) :
    |pieceB.value z - c * U z| ≤ 1.04e-10 * (c * U z) :=
  value_err pieceB f32B (1 / 4) (by norm_num) (by norm_num [pieceB]) (by decide +kernel) (by decide +kernel) z
    (by norm_num [pieceB]; exact h1) (by norm_num [pieceB]; exact h2) _ (by norm_num) (nearB z h1 h2)

theorem valueC (z : ℝ) (h1 : 3 / 4 ≤ z) (h2 : z ≤ 5 / 4) :
    |pieceC.value z - c * U z| ≤ 1.04e-10 * (c * U z) :=
  value_err pieceC f32C (1 / 2) (by norm_num) (by norm_num [pieceC]) (by decide +kernel) (by decide +kernel) z
    (by norm_num [pieceC]; exact h1) (by norm_num [pieceC]; exact h2) _ (by norm_num) (nearC z h1 h2)

theorem valueD (z : ℝ) (h1 : 5 / 4 ≤ z) (h2 : z ≤ 9 / 4) :
    |pieceD.value z - c * U z| ≤ 1.04e-10 * (c * U z) :=
  value_err pieceD f32D (1) (by norm_num) (by norm_num [pieceD]) (by decide +kernel) (by decide +kernel) z
    (by norm_num [pieceD]; exact h1) (by norm_num [pieceD]; exact h2) _ (by norm_num) (nearD z h1 h2)

theorem valueE (z : ℝ) (h1 : 9 / 4 ≤ z) (h2 : z ≤ 7 / 2) :
    |pieceE.value z - c * U z| ≤ 1.04e-10 * (c * U z) :=
  value_err pieceE f32E (5 / 4) (by norm_num) (by norm_num [pieceE]) (by decide +kernel) (by decide +kernel) z
    (by norm_num [pieceE]; exact h1) (by norm_num [pieceE]; exact h2) _ (by norm_num) (nearE z h1 h2)

theorem valueF (z : ℝ) (h1 : 7 / 2 ≤ z) (h2 : z ≤ 21 / 4) :
    |pieceF.value z - c * U z| ≤ 1.04e-10 * (c * U z) :=
  value_err pieceF f32F (7 / 4) (by norm_num) (by norm_num [pieceF]) (by decide +kernel) (by decide +kernel) z
    (by norm_num [pieceF]; exact h1) (by norm_num [pieceF]; exact h2) _ (by norm_num) (nearF z h1 h2)

theorem valueG (z : ℝ) (h1 : 21 / 4 ≤ z) (h2 : z ≤ 8) :
    |pieceG.value z - c * U z| ≤ 1.04e-10 * (c * U z) :=
  value_err pieceG f32G (11 / 4) (by norm_num) (by norm_num [pieceG]) (by decide +kernel) (by decide +kernel) z
    (by norm_num [pieceG]; exact h1) (by norm_num [pieceG]; exact h2) _ (by norm_num) (nearG z h1 h2)

theorem valueH (z : ℝ) (h1 : 8 ≤ z) (h2 : z ≤ 23 / 2) :
    |pieceH.value z - c * U z| ≤ 1.04e-10 * (c * U z) :=
  value_err pieceH f32H (7 / 2) (by norm_num) (by norm_num [pieceH]) (by decide +kernel) (by decide +kernel) z
    (by norm_num [pieceH]; exact h1) (by norm_num [pieceH]; exact h2) _ (by norm_num) (nearH z h1 h2)

theorem valueI (z : ℝ) (h1 : 23 / 2 ≤ z) (h2 : z ≤ 17) :
    |pieceI.value z - c * U z| ≤ 1.04e-10 * (c * U z) :=
  value_err pieceI f32I (11 / 2) (by norm_num) (by norm_num [pieceI]) (by decide +kernel) (by decide +kernel) z
    (by norm_num [pieceI]; exact h1) (by norm_num [pieceI]; exact h2) _ (by norm_num) (nearI z h1 h2)

theorem valueJ (z : ℝ) (h1 : 17 ≤ z) (h2 : z ≤ 24) :
    |pieceJ.value z - c * U z| ≤ 1.04e-10 * (c * U z) :=
  value_err pieceJ f32J (7) (by norm_num) (by norm_num [pieceJ]) (by decide +kernel) (by decide +kernel) z
    (by norm_num [pieceJ]; exact h1) (by norm_num [pieceJ]; exact h2) _ (by norm_num) (nearJ z h1 h2)

theorem valueK (z : ℝ) (h1 : 24 ≤ z) (h2 : z ≤ 38) :
    |pieceK.value z - c * U z| ≤ 1.04e-10 * (c * U z) :=
  value_err pieceK f32K (14) (by norm_num) (by norm_num [pieceK]) (by decide +kernel) (by decide +kernel) z
    (by norm_num [pieceK]; exact h1) (by norm_num [pieceK]; exact h2) _ (by norm_num) (nearK z h1 h2)

theorem valueL (z : ℝ) (h1 : 38 ≤ z) (h2 : z ≤ 60) :
    |pieceL.value z - c * U z| ≤ 1.04e-10 * (c * U z) :=
  value_err pieceL f32L (22) (by norm_num) (by norm_num [pieceL]) (by decide +kernel) (by decide +kernel) z
    (by norm_num [pieceL]; exact h1) (by norm_num [pieceL]; exact h2) _ (by norm_num) (nearL z h1 h2)

theorem valueM (z : ℝ) (h1 : 60 ≤ z) (h2 : z ≤ 85) :
    |pieceM.value z - c * U z| ≤ 1.04e-10 * (c * U z) :=
  value_err pieceM f32M (25) (by norm_num) (by norm_num [pieceM]) (by decide +kernel) (by decide +kernel) z
    (by norm_num [pieceM]; exact h1) (by norm_num [pieceM]; exact h2) _ (by norm_num) (nearM z h1 h2)

theorem valueN (z : ℝ) (h1 : 85 ≤ z) (h2 : z ≤ 110) :
    |pieceN.value z - c * U z| ≤ 1.04e-10 * (c * U z) :=
  value_err pieceN f32N (25) (by norm_num) (by norm_num [pieceN]) (by decide +kernel) (by decide +kernel) z
    (by norm_num [pieceN]; exact h1) (by norm_num [pieceN]; exact h2) _ (by norm_num) (nearN z h1)

/-- From one half to 110. -/
theorem result_large (z : ℝ) (h0 : 1 / 2 ≤ z) (h1 : z < 110) : |result z - c * U z| ≤ 1.04e-10 * (c * U z) := by
  rw [result, if_neg (not_lt.2 h0), if_pos h1, pieceAt]
  rcases lt_or_ge z 0.75 with hB | hB
  · rw [if_pos hB]
    exact valueB z h0 (by norm_num at hB; exact hB.le)
  rw [if_neg (not_lt.2 hB)]
  norm_num at hB
  rcases lt_or_ge z 1.25 with hC | hC
  · rw [if_pos hC]
    exact valueC z hB (by norm_num at hC; exact hC.le)
  rw [if_neg (not_lt.2 hC)]
  norm_num at hC
  rcases lt_or_ge z 2.25 with hD | hD
  · rw [if_pos hD]
    exact valueD z hC (by norm_num at hD; exact hD.le)
  rw [if_neg (not_lt.2 hD)]
  norm_num at hD
  rcases lt_or_ge z 3.5 with hE | hE
  · rw [if_pos hE]
    exact valueE z hD (by norm_num at hE; exact hE.le)
  rw [if_neg (not_lt.2 hE)]
  norm_num at hE
  rcases lt_or_ge z 5.25 with hF | hF
  · rw [if_pos hF]
    exact valueF z hE (by norm_num at hF; exact hF.le)
  rw [if_neg (not_lt.2 hF)]
  norm_num at hF
  rcases lt_or_ge z 8 with hG | hG
  · rw [if_pos hG]
    exact valueG z hF hG.le
  rw [if_neg (not_lt.2 hG)]
  rcases lt_or_ge z 11.5 with hH | hH
  · rw [if_pos hH]
    exact valueH z hG (by norm_num at hH; exact hH.le)
  rw [if_neg (not_lt.2 hH)]
  norm_num at hH
  rcases lt_or_ge z 17 with hI | hI
  · rw [if_pos hI]
    exact valueI z hH hI.le
  rw [if_neg (not_lt.2 hI)]
  rcases lt_or_ge z 24 with hJ | hJ
  · rw [if_pos hJ]
    exact valueJ z hI hJ.le
  rw [if_neg (not_lt.2 hJ)]
  rcases lt_or_ge z 38 with hK | hK
  · rw [if_pos hK]
    exact valueK z hJ hK.le
  rw [if_neg (not_lt.2 hK)]
  rcases lt_or_ge z 60 with hL | hL
  · rw [if_pos hL]
    exact valueL z hK hL.le
  rw [if_neg (not_lt.2 hL)]
  rcases lt_or_ge z 85 with hM | hM
  · rw [if_pos hM]
    exact valueM z hL hM.le
  rw [if_neg (not_lt.2 hM)]
  exact valueN z hM h1.le

end Verif.Normal
