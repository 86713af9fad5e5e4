import Verif.Model.LinReg
import Verif.Spec.LinReg
import Mathlib.LinearAlgebra.Matrix.ToLinearEquiv
import Mathlib.Algebra.Order.BigOperators.Ring.Finset
import Mathlib.Algebra.Order.BigOperators.Group.List
import Mathlib.Tactic.Linarith
import Mathlib.Tactic.Ring
import Mathlib.Tactic.Positivity

/-! # Lemmas: normal equations -/
set_option linter.unusedSectionVars false

namespace Verif.LinReg
open Verif.LinReg.Spec Matrix

section
variable {K : Type} [Field K] {d : Nat}

/-- Weighted rows with one target. -/
abbrev WRow (d : Nat) (K : Type) := K × (Fin d → K) × K

/-- Normal matrix of weighted rows with a diagonal penalty. -/
def normal (rows : List (WRow d K)) (p : Fin d → K) : Matrix (Fin d) (Fin d) K :=
  fun i j => (rows.map fun r => r.1 * r.2.1 i * r.2.1 j).sum + if i = j then p i else 0

/-- Right-hand side of the normal equations. -/
def rhs (rows : List (WRow d K)) : Fin d → K := fun i => (rows.map fun r => r.1 * r.2.1 i * r.2.2).sum

/-- Weighted objective with a diagonal penalty. -/
def obj (rows : List (WRow d K)) (p : Fin d → K) (b : Fin d → K) : K := wsse rows b + ∑ i, p i * b i ^ 2

theorem sum_swap (rows : List (WRow d K)) (f : WRow d K → K) (v : Fin d → K) :
    ∑ i, v i * (rows.map fun r => f r * r.2.1 i).sum = (rows.map fun r => f r * dot r.2.1 v).sum := by
  induction rows with
  | nil => simp
  | cons r rows ih =>
    simp only [List.map_cons, List.sum_cons, mul_add, Finset.sum_add_distrib, ih]
    congr 1
    unfold dot
    rw [Finset.mul_sum]
    apply Finset.sum_congr rfl
    intro i _
    ring

theorem normal_mulVec (rows : List (WRow d K)) (p w : Fin d → K) (i : Fin d) :
    (normal rows p *ᵥ w) i = (rows.map fun r => r.1 * dot r.2.1 w * r.2.1 i).sum + p i * w i := by
  unfold Matrix.mulVec dotProduct normal
  simp only [add_mul, Finset.sum_add_distrib, ite_mul, zero_mul, Finset.sum_ite_eq, Finset.mem_univ, if_true]
  congr 1
  induction rows with
  | nil => simp
  | cons r rows ih =>
    simp only [List.map_cons, List.sum_cons, add_mul, Finset.sum_add_distrib, ih]
    congr 1
    unfold dot
    rw [Finset.mul_sum, Finset.sum_mul]
    apply Finset.sum_congr rfl
    intro j _
    ring

theorem dot_add (x v w : Fin d → K) : dot x (v + w) = dot x v + dot x w := by
  unfold dot
  rw [← Finset.sum_add_distrib]
  exact Finset.sum_congr rfl fun i _ => by simp [mul_add]

theorem dot_sub (x v w : Fin d → K) : dot x (v - w) = dot x v - dot x w := by
  unfold dot
  rw [← Finset.sum_sub_distrib]
  exact Finset.sum_congr rfl fun i _ => by simp [mul_sub]

theorem wsse_add (rows : List (WRow d K)) (w v : Fin d → K) :
    wsse rows (w + v) = wsse rows w - 2 * (rows.map fun r => r.1 * (r.2.2 - dot r.2.1 w) * dot r.2.1 v).sum +
      (rows.map fun r => r.1 * dot r.2.1 v ^ 2).sum := by
  unfold wsse
  induction rows with
  | nil => simp
  | cons r rows ih =>
    simp only [List.map_cons, List.sum_cons]
    rw [ih, dot_add]
    ring

/-- At a solution of the normal equations the objective grows by the quadratic form. -/
theorem obj_add (rows : List (WRow d K)) (p w v : Fin d → K) (h : normal rows p *ᵥ w = rhs rows) :
    obj rows p (w + v) = obj rows p w + (rows.map fun r => r.1 * dot r.2.1 v ^ 2).sum + ∑ i, p i * v i ^ 2 := by
  have hc : (rows.map fun r => r.1 * (r.2.2 - dot r.2.1 w) * dot r.2.1 v).sum = ∑ i, p i * w i * v i := by
    rw [← sum_swap rows (fun r => r.1 * (r.2.2 - dot r.2.1 w)) v]
    apply Finset.sum_congr rfl
    intro i _
    have hi := congrFun h i
    rw [normal_mulVec] at hi
    have : (rows.map fun r => r.1 * (r.2.2 - dot r.2.1 w) * r.2.1 i).sum =
        rhs rows i - (rows.map fun r => r.1 * dot r.2.1 w * r.2.1 i).sum := by
      unfold rhs
      clear hi h
      induction rows with
      | nil => simp
      | cons r rows ih =>
        simp only [List.map_cons, List.sum_cons, ih]
        ring
    rw [this, ← hi]
    ring
  unfold obj
  rw [wsse_add, hc]
  have : ∑ i, p i * (w + v) i ^ 2 = ∑ i, p i * w i ^ 2 + 2 * ∑ i, p i * w i * v i + ∑ i, p i * v i ^ 2 := by
    rw [Finset.mul_sum, ← Finset.sum_add_distrib, ← Finset.sum_add_distrib]
    apply Finset.sum_congr rfl
    intro i _
    simp only [Pi.add_apply]
    ring
  rw [this]
  ring

theorem quad_form (rows : List (WRow d K)) (p v : Fin d → K) :
    ∑ i, v i * (normal rows p *ᵥ v) i = (rows.map fun r => r.1 * dot r.2.1 v ^ 2).sum + ∑ i, p i * v i ^ 2 := by
  have : ∀ i, v i * (normal rows p *ᵥ v) i =
      v i * (rows.map fun r => r.1 * dot r.2.1 v * r.2.1 i).sum + p i * v i ^ 2 := by
    intro i
    rw [normal_mulVec]; ring
  simp only [this, Finset.sum_add_distrib]
  rw [sum_swap rows (fun r => r.1 * dot r.2.1 v) v]
  congr 2
  apply List.map_congr_left
  intro r _
  ring

end

section
variable {K : Type} [Field K] [LinearOrder K] [IsStrictOrderedRing K] {d : Nat}

theorem sum_nonneg' (rows : List (WRow d K)) (hw : ∀ r ∈ rows, 0 ≤ r.1) (v : Fin d → K) :
    0 ≤ (rows.map fun r => r.1 * dot r.2.1 v ^ 2).sum := by
  apply List.sum_nonneg
  intro a ha
  obtain ⟨r, hr, rfl⟩ := List.mem_map.1 ha
  exact mul_nonneg (hw r hr) (sq_nonneg _)

theorem sum_eq_zero' (rows : List (WRow d K)) (hw : ∀ r ∈ rows, 0 ≤ r.1) (v : Fin d → K)
    (h : (rows.map fun r => r.1 * dot r.2.1 v ^ 2).sum = 0) : ∀ r ∈ rows, r.1 ≠ 0 → dot r.2.1 v = 0 := by
  induction rows with
  | nil => simp
  | cons r rows ih =>
    have h1 := sum_nonneg' rows (fun x hx => hw x (by simp [hx])) v
    have h2 : 0 ≤ r.1 * dot r.2.1 v ^ 2 := mul_nonneg (hw r (by simp)) (sq_nonneg _)
    rw [List.map_cons, List.sum_cons] at h
    intro x hx hx0
    rcases List.mem_cons.1 hx with rfl | hx
    · have : x.1 * dot x.2.1 v ^ 2 = 0 := by linarith
      rcases mul_eq_zero.1 this with h | h
      · exact absurd h hx0
      · exact pow_eq_zero_iff (two_ne_zero) |>.1 h
    · exact ih (fun x hx => hw x (by simp [hx])) (by linarith) x hx hx0

theorem pen_nonneg (p v : Fin d → K) (hp : ∀ i, 0 ≤ p i) : 0 ≤ ∑ i, p i * v i ^ 2 :=
  Finset.sum_nonneg fun i _ => mul_nonneg (hp i) (sq_nonneg _)

/-- Data and penalty together see every direction. -/
def Identifiable (rows : List (WRow d K)) (p : Fin d → K) : Prop :=
  ∀ v : Fin d → K, (∀ r ∈ rows, r.1 ≠ 0 → dot r.2.1 v = 0) → (∀ i, p i ≠ 0 → v i = 0) → v = 0

theorem identifiable_of_quad (rows : List (WRow d K)) (p : Fin d → K) (hw : ∀ r ∈ rows, 0 ≤ r.1)
    (hp : ∀ i, 0 ≤ p i) (hid : Identifiable rows p) (v : Fin d → K)
    (h : (rows.map fun r => r.1 * dot r.2.1 v ^ 2).sum + ∑ i, p i * v i ^ 2 = 0) : v = 0 := by
  have h1 := sum_nonneg' rows hw v
  have h2 := pen_nonneg p v hp
  apply hid v (sum_eq_zero' rows hw v (by linarith))
  intro i hi
  have h3 := (Finset.sum_eq_zero_iff_of_nonneg (fun i _ => mul_nonneg (hp i) (sq_nonneg (v i)))).1
    (by linarith : ∑ i, p i * v i ^ 2 = 0) i (Finset.mem_univ i)
  rcases mul_eq_zero.1 h3 with h | h
  · exact absurd h hi
  · exact pow_eq_zero_iff (two_ne_zero) |>.1 h

theorem normal_isUnit (rows : List (WRow d K)) (p : Fin d → K) (hw : ∀ r ∈ rows, 0 ≤ r.1)
    (hp : ∀ i, 0 ≤ p i) (hid : Identifiable rows p) : IsUnit (normal rows p).det := by
  rw [isUnit_iff_ne_zero]
  intro h
  obtain ⟨v, hv, hz⟩ := Matrix.exists_mulVec_eq_zero_iff.2 h
  apply hv
  apply identifiable_of_quad rows p hw hp hid
  rw [← quad_form, hz]
  simp

/-- Optimality and uniqueness at a solution of the normal equations. -/
theorem obj_optimal (rows : List (WRow d K)) (p w : Fin d → K) (hw : ∀ r ∈ rows, 0 ≤ r.1)
    (hp : ∀ i, 0 ≤ p i) (hid : Identifiable rows p) (h : normal rows p *ᵥ w = rhs rows) (b : Fin d → K) :
    obj rows p w ≤ obj rows p b ∧ (obj rows p b = obj rows p w → b = w) := by
  have e := obj_add rows p w (b - w) h
  rw [add_sub_cancel] at e
  have h1 := sum_nonneg' rows hw (b - w)
  have h2 := pen_nonneg p (b - w) hp
  refine ⟨by rw [e]; linarith, fun he => ?_⟩
  have := identifiable_of_quad rows p hw hp hid (b - w) (by linarith)
  exact sub_eq_zero.1 this

end

section
variable {K : Type} [Field K] [LinearOrder K] [IsStrictOrderedRing K] {d t : Nat}

/-- Rows for target `k` with weight 1. -/
def target (rows : List (Row d t K)) (k : Fin t) : List ((Fin d → K) × K) := rows.map fun r => (r.1, r.2 k)

def unit (rows : List ((Fin d → K) × K)) : List (WRow d K) := rows.map fun r => (1, r)

def pen (lam : K) (n1 : Nat) : Fin d → K := fun i => if i.val < n1 then lam else 0

theorem solve_mul (S : Solver K) (rows : List (Row d t K)) (lam : K) (hasBias : Bool) (how : Method)
    (A : Matrix (Fin d) (Fin d) K)
    (hA : A = if 0 ≤ lam ∧ 1 ≤ absDiff d hasBias.toNat then addDiag (gram rows) lam (absDiff d hasBias.toNat)
      else gram rows) (hu : IsUnit A.det) :
    A * solveLstsq S rows lam hasBias how = xty rows := by
  unfold solveLstsq
  simp only [← hA]
  cases how with
  | svd =>
    simp only
    cases h : S.svd A (xty rows) with
    | none => exact S.qr_spec _ _ hu
    | some m => exact S.svd_spec _ _ _ hu h
  | choleskey =>
    simp only
    cases h : S.llt A (xty rows) with
    | none => exact S.qr_spec _ _ hu
    | some m => exact S.llt_spec _ _ _ hu h
  | qr => exact S.qr_spec _ _ hu

theorem weighted_mul (S : Solver K) (rows : List (K × Row d t K)) (how : Method)
    (hu : IsUnit (wgram rows).det) : wgram rows * weightedLstsq S rows how = wxty rows := by
  unfold weightedLstsq
  cases how with
  | svd =>
    simp only
    cases h : S.svd (wgram rows) (wxty rows) with
    | none => exact S.qr_spec _ _ hu
    | some m => exact S.svd_spec _ _ _ hu h
  | choleskey =>
    simp only
    cases h : S.llt (wgram rows) (wxty rows) with
    | none => exact S.qr_spec _ _ hu
    | some m => exact S.llt_spec _ _ _ hu h
  | qr => exact S.qr_spec _ _ hu

theorem addDiag_gram (rows : List (Row d t K)) (lam : K) (n1 : Nat) (k : Fin t) :
    addDiag (gram rows) lam n1 = normal (unit (target rows k)) (pen lam n1) := by
  ext i j
  unfold addDiag gram normal unit target pen
  simp only [List.map_map, Function.comp_def, one_mul]
  by_cases h : i = j
  · subst h
    by_cases h2 : i.val < n1 <;> simp [h2]
  · simp [h]

theorem gram_eq (rows : List (Row d t K)) (k : Fin t) :
    gram rows = normal (unit (target rows k)) 0 := by
  ext i j
  unfold gram normal unit target
  simp [List.map_map, Function.comp_def]

theorem xty_col (rows : List (Row d t K)) (k : Fin t) :
    (fun i => xty rows i k) = rhs (unit (target rows k)) := by
  funext i
  unfold xty rhs unit target
  simp [List.map_map, Function.comp_def]

theorem col_of_mul {A : Matrix (Fin d) (Fin d) K} {M B : Matrix (Fin d) (Fin t) K} (h : A * M = B) (k : Fin t) :
    A *ᵥ (fun i => M i k) = fun i => B i k := by
  funext i
  have := congrFun (congrFun h i) k
  rw [← this]
  rfl

/-- The penalty actually used: none for a negative `lam`. -/
def effLam (lam : K) : K := if 0 ≤ lam then lam else 0

theorem effLam_nonneg (lam : K) : 0 ≤ effLam lam := by unfold effLam; split <;> simp_all

theorem eff_matrix (rows : List (Row d t K)) (lam : K) (n1 : Nat) (k : Fin t) :
    (if 0 ≤ lam ∧ 1 ≤ n1 then addDiag (gram rows) lam n1 else gram rows) =
      normal (unit (target rows k)) (pen (effLam lam) n1) := by
  split
  · rename_i h
    rw [addDiag_gram rows lam n1 k, effLam, if_pos h.1]
  · rename_i h
    rw [gram_eq rows k]
    congr 1
    funext i
    unfold pen effLam
    rw [not_and_or] at h
    rcases h with h | h
    · simp [h]
    · have : n1 = 0 := by omega
      simp [this]

theorem unit_nonneg (rows : List ((Fin d → K) × K)) : ∀ r ∈ unit rows, 0 ≤ r.1 := by
  intro r hr
  obtain ⟨x, _, rfl⟩ := List.mem_map.1 hr
  exact zero_le_one

theorem pen_nonneg' (lam : K) (n1 : Nat) (i : Fin d) : 0 ≤ pen (effLam lam) n1 i := by
  unfold pen
  split
  · exact effLam_nonneg lam
  · exact le_refl _

/-- Normal equations for one column of the solution. -/
theorem solve_normal (S : Solver K) (rows : List (Row d t K)) (lam : K) (hasBias : Bool) (how : Method) (k : Fin t)
    (hid : Identifiable (unit (target rows k)) (pen (effLam lam) (absDiff d hasBias.toNat))) :
    normal (unit (target rows k)) (pen (effLam lam) (absDiff d hasBias.toNat)) *ᵥ
      (fun i => solveLstsq S rows lam hasBias how i k) = rhs (unit (target rows k)) := by
  rw [← xty_col]
  apply col_of_mul
  apply solve_mul (hA := (eff_matrix rows lam _ k).symm)
  exact normal_isUnit _ _ (unit_nonneg _) (pen_nonneg' _ _) hid

theorem wsse_unit (rows : List ((Fin d → K) × K)) (b : Fin d → K) : wsse (unit rows) b = sse rows b := by
  unfold wsse sse unit
  simp [List.map_map, Function.comp_def]

end

end Verif.LinReg
