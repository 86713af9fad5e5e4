import Verif.Model.Rcond
import Verif.Props.LinReg
import Mathlib.Algebra.Order.Field.Rat
import Mathlib.Tactic.Linarith

/-!
# Cut-off of small singular values: theorems
-/
set_option linter.unusedSectionVars false

namespace Verif.Rcond.Spec
variable {K : Type} [Field K] [LinearOrder K] {d : Nat}

/-- `m` is the largest of the singular values. -/
def IsMax (sv : Fin d → K) (m : K) : Prop := (∃ i, sv i = m) ∧ ∀ i, sv i ≤ m

end Verif.Rcond.Spec

namespace Verif.Rcond
open Verif.LinReg Matrix Verif.Rcond.Spec
variable {K : Type} [Field K] [LinearOrder K] [IsStrictOrderedRing K] {d : Nat}

theorem foldl_max_spec (sv : Fin d → K) (l : List (Fin d)) : ∀ a : K,
    a ≤ l.foldl (fun m i => max m (sv i)) a ∧ (∀ i ∈ l, sv i ≤ l.foldl (fun m i => max m (sv i)) a) ∧
    (l.foldl (fun m i => max m (sv i)) a = a ∨ ∃ i ∈ l, sv i = l.foldl (fun m i => max m (sv i)) a) := by
  induction l with
  | nil => intro a; simp
  | cons x l ih =>
    intro a
    rw [List.foldl_cons]
    obtain ⟨h1, h2, h3⟩ := ih (max a (sv x))
    refine ⟨(le_max_left _ _).trans h1, ?_, ?_⟩
    · intro i hi
      rcases List.mem_cons.1 hi with rfl | hi
      · exact (le_max_right _ _).trans h1
      · exact h2 i hi
    · rcases h3 with h3 | ⟨i, hi, h3⟩
      · rcases max_choice a (sv x) with h | h
        · left; rw [h3, h]
        · right; exact ⟨x, by simp, by rw [h3, h]⟩
      · right; exact ⟨i, by simp [hi], h3⟩

theorem maxSv_eq (sv : Fin d → K) (h0 : ∀ i, 0 ≤ sv i) (m : K) (hm : IsMax sv m) : maxSv sv = m := by
  obtain ⟨h1, h2, h3⟩ := foldl_max_spec sv (List.finRange d) 0
  obtain ⟨i, hi⟩ := hm.1
  apply le_antisymm
  · rcases h3 with h3 | ⟨j, _, h3⟩
    · unfold maxSv; rw [h3, ← hi]; exact h0 i
    · unfold maxSv; rw [← h3]; exact hm.2 j
  · rw [← hi]; exact h2 i (List.mem_finRange i)

/-- A column of a matrix. -/
def col (A : Matrix (Fin d) (Fin d) K) (i : Fin d) : Fin d → K := fun k => A k i

theorem vT_w (V : Matrix (Fin d) (Fin d) K) (hV : Vᵀ * V = 1) (D : Fin d → K) (B : Matrix (Fin d) (Fin 1) K) (i : Fin d) :
    ∑ k, col V i k * (V * (diagonal D * B)) k 0 = D i * B i 0 := by
  have : (Vᵀ * (V * (diagonal D * B))) i 0 = D i * B i 0 := by
    rw [← Matrix.mul_assoc, hV, Matrix.one_mul, Matrix.diagonal_mul]
  rw [← this, Matrix.mul_apply]
  rfl

/-- What the code computes, direction by direction.  A direction whose *squared* singular value reaches `rcond`
times the largest singular value is solved for; along every other direction the coefficients vanish. -/
theorem rcond_directions (rows : List (Row d 1 K)) (lam : K) (hasBias : Bool)
    (svd : Svd (normalMatrix rows lam hasBias)) (rcond m : K) (hr : 0 < rcond) (hm : IsMax svd.sv m) (i : Fin d) :
    (solveRcond rows lam hasBias svd rcond).2 = svd.sv ∧
    (rcond * m ≤ svd.sv i ^ 2 → 0 < m →
      ∑ k, col svd.U i k * ((normalMatrix rows lam hasBias).mulVec (solveRcond rows lam hasBias svd rcond).1 k) =
        ∑ k, col svd.U i k * xty rows k 0) ∧
    (svd.sv i ^ 2 < rcond * m → ∑ k, col svd.V i k * (solveRcond rows lam hasBias svd rcond).1 k = 0) := by
  have hmax := maxSv_eq svd.sv svd.nonneg m hm
  have hv : ∀ i, ∑ k, col svd.V i k * (solveRcond rows lam hasBias svd rcond).1 k =
      sInv svd.sv rcond i * (svd.Uᵀ * xty rows) i 0 := by
    intro i
    rw [← vT_w svd.V svd.orthV (sInv svd.sv rcond) (svd.Uᵀ * xty rows) i]
    apply Finset.sum_congr rfl
    intro k _
    simp only [solveRcond, Matrix.mul_assoc]
  refine ⟨rfl, fun hk hpos => ?_, fun hk => ?_⟩
  · have e1 : ∑ k, col svd.U i k * ((normalMatrix rows lam hasBias).mulVec (solveRcond rows lam hasBias svd rcond).1 k) =
        svd.sv i ^ 2 * ∑ k, col svd.V i k * (solveRcond rows lam hasBias svd rcond).1 k := by
      have h1 : svd.Uᵀ * normalMatrix rows lam hasBias = diagonal (fun i => svd.sv i ^ 2) * svd.Vᵀ := by
        have h := congrArg (fun A => svd.Uᵀ * A) svd.eq
        simp only [← Matrix.mul_assoc, svd.orthU, Matrix.one_mul] at h
        exact h
      have h2 : ((svd.Uᵀ * normalMatrix rows lam hasBias).mulVec (solveRcond rows lam hasBias svd rcond).1) i =
          svd.sv i ^ 2 * (svd.Vᵀ.mulVec (solveRcond rows lam hasBias svd rcond).1) i := by
        rw [h1, ← Matrix.mulVec_mulVec, Matrix.mulVec_diagonal]
      rw [← Matrix.mulVec_mulVec] at h2
      exact h2
    rw [e1, hv i]
    have hpos2 : 0 < svd.sv i ^ 2 := lt_of_lt_of_le (mul_pos hr hpos) hk
    unfold sInv
    rw [hmax, if_pos hk, ← mul_assoc, mul_inv_cancel₀ hpos2.ne', one_mul, Matrix.mul_apply]
    rfl
  · rw [hv i]
    unfold sInv
    rw [hmax, if_neg (not_le.2 hk), zero_mul]

/-- The documented cut-off (drop exactly the singular values below `rcond` times the largest) is met for a kept
singular value of at least one and for a dropped singular value of at most one. -/
theorem rcond_cutoff_partial (rows : List (Row d 1 K)) (lam : K) (hasBias : Bool)
    (svd : Svd (normalMatrix rows lam hasBias)) (rcond m : K) (hr : 0 < rcond) (hm : IsMax svd.sv m) (hpos : 0 < m)
    (i : Fin d) :
    (rcond * m ≤ svd.sv i → 1 ≤ svd.sv i →
      ∑ k, col svd.U i k * ((normalMatrix rows lam hasBias).mulVec (solveRcond rows lam hasBias svd rcond).1 k) =
        ∑ k, col svd.U i k * xty rows k 0) ∧
    (svd.sv i < rcond * m → svd.sv i ≤ 1 → ∑ k, col svd.V i k * (solveRcond rows lam hasBias svd rcond).1 k = 0) := by
  obtain ⟨_, h1, h2⟩ := rcond_directions rows lam hasBias svd rcond m hr hm i
  constructor
  · intro h h3
    exact h1 (by nlinarith [svd.nonneg i]) hpos
  · intro h h3
    exact h2 (by nlinarith [svd.nonneg i])

/-- If no singular value is zero and all are kept by the code, the coefficients solve the normal equations, so they
are the ones of `lin_reg`. -/
theorem rcond_full (rows : List (Row d 1 K)) (lam : K) (hasBias : Bool) (svd : Svd (normalMatrix rows lam hasBias))
    (rcond m : K) (hr : 0 < rcond) (hm : IsMax svd.sv m) (hpos : 0 < m) (hall : ∀ i, rcond * m ≤ svd.sv i ^ 2)
    (k : Fin d) :
    (normalMatrix rows lam hasBias).mulVec (solveRcond rows lam hasBias svd rcond).1 k = xty rows k 0 := by
  have h : svd.Uᵀ.mulVec ((normalMatrix rows lam hasBias).mulVec (solveRcond rows lam hasBias svd rcond).1) =
      svd.Uᵀ.mulVec (fun k => xty rows k 0) := by
    funext i
    exact (rcond_directions rows lam hasBias svd rcond m hr hm i).2.1 (hall i) hpos
  have hU : svd.U * svd.Uᵀ = 1 := mul_eq_one_comm.1 svd.orthU
  have hid : ∀ v : Fin d → K, svd.U.mulVec (svd.Uᵀ.mulVec v) = v := by
    intro v
    rw [Matrix.mulVec_mulVec, hU, Matrix.one_mulVec]
  have h' := congrArg (svd.U.mulVec) h
  rw [hid, hid] at h'
  exact congrFun h' k

/-! ## The documented cut-off is not the one of the code -/

/-- Two features with singular values `a` and `b`. -/
def exRows (a b : ℚ) : List (Row 2 1 ℚ) := [(![a, 0], ![1]), (![0, b], ![1])]

theorem exRows_normal (a b : ℚ) : normalMatrix (exRows a b) 0 false = diagonal ![a ^ 2, b ^ 2] := by
  unfold normalMatrix
  rw [if_pos (by decide +kernel)]
  ext i j
  fin_cases i <;> fin_cases j <;> simp [addDiag, gram, exRows, absDiff, pow_two]

/-- Its decomposition. -/
def exSvd (a b : ℚ) (ha : 0 ≤ a) (hb : 0 ≤ b) : Svd (normalMatrix (exRows a b) 0 false) where
  U := 1
  V := 1
  sv := ![a, b]
  orthU := by simp
  orthV := by simp
  nonneg := by intro i; fin_cases i <;> simpa
  eq := by
    rw [exRows_normal, Matrix.transpose_one, Matrix.one_mul, Matrix.mul_one]
    congr 1
    funext i
    fin_cases i <;> rfl

/-- Singular values 1 and 1/2 with `rcond = 3/10`: 1/2 is not below 3/10, but the code drops it.  Singular values 100
and 5 with `rcond = 1/10`: 5 is below 10, but the code keeps it. -/
theorem rcond_cutoff_wrong :
    (solveRcond (exRows 1 (1 / 2)) 0 false (exSvd 1 (1 / 2) (by norm_num) (by norm_num)) (3 / 10)).1 1 = 0 ∧
    ((3 / 10 : ℚ) * 1 ≤ 1 / 2) ∧
    (solveRcond (exRows 100 5) 0 false (exSvd 100 5 (by norm_num) (by norm_num)) (1 / 10)).1 1 = 1 / 5 ∧
    ((5 : ℚ) < 1 / 10 * 100) := by
  refine ⟨?_, by norm_num, ?_, by norm_num⟩ <;> decide +kernel

/-! ## Examples -/

example : ∑ k, col (exSvd 4 2 (by norm_num) (by norm_num)).U 1 k *
    ((normalMatrix (exRows 4 2) 0 false).mulVec
      (solveRcond (exRows 4 2) 0 false (exSvd 4 2 (by norm_num) (by norm_num)) (1 / 3)).1 k) =
    ∑ k, col (exSvd 4 2 (by norm_num) (by norm_num)).U 1 k * xty (exRows 4 2) k 0 :=
  (rcond_cutoff_partial (exRows 4 2) 0 false (exSvd 4 2 (by norm_num) (by norm_num)) (1 / 3) 4 (by norm_num)
    ⟨⟨0, rfl⟩, by decide +kernel⟩ (by norm_num) 1).1 (by decide +kernel) (by decide +kernel)

example : ∑ k, col (exSvd 1 (1 / 4) (by norm_num) (by norm_num)).V 1 k *
    (solveRcond (exRows 1 (1 / 4)) 0 false (exSvd 1 (1 / 4) (by norm_num) (by norm_num)) (1 / 3)).1 k = 0 :=
  (rcond_cutoff_partial (exRows 1 (1 / 4)) 0 false (exSvd 1 (1 / 4) (by norm_num) (by norm_num)) (1 / 3) 1 (by norm_num)
    ⟨⟨0, rfl⟩, by decide +kernel⟩ (by norm_num) 1).2 (by decide +kernel) (by decide +kernel)

example (k : Fin 2) : (normalMatrix (exRows 4 2) 0 false).mulVec
    (solveRcond (exRows 4 2) 0 false (exSvd 4 2 (by norm_num) (by norm_num)) (1 / 3)).1 k = xty (exRows 4 2) k 0 :=
  rcond_full (exRows 4 2) 0 false (exSvd 4 2 (by norm_num) (by norm_num)) (1 / 3) 4 (by norm_num)
    ⟨⟨0, rfl⟩, by decide +kernel⟩ (by norm_num) (by decide +kernel) k

end Verif.Rcond
