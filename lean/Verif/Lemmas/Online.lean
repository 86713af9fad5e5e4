import Verif.Lemmas.LinReg
import Verif.Props.LinReg
import Verif.Model.Online
import Verif.Spec.Online
import Mathlib.Tactic.FieldSimp
import Mathlib.Tactic.LinearCombination

/-! # Lemmas: rank one updates -/
set_option linter.unusedSectionVars false

namespace Verif.Online
open Matrix Verif.LinReg Verif.LinReg.Spec
variable {K : Type} [Field K] [LinearOrder K] [IsStrictOrderedRing K] {d : Nat}

/-- The state solves the normal equations with matrix `A` and right-hand side `b`. -/
structure Tracks (s : State d K) (A : Matrix (Fin d) (Fin d) K) (b : Fin d → K) : Prop where
  inv : A * s.inv = 1
  w : A *ᵥ s.w = b
  symm : Aᵀ = A

theorem Tracks.inv_symm {s : State d K} {A : Matrix (Fin d) (Fin d) K} {b : Fin d → K} (h : Tracks s A b) :
    s.invᵀ = s.inv := by
  have h1 : s.inv * A = 1 := mul_eq_one_comm.1 h.inv
  have h2 : s.invᵀ * A = 1 := by
    have := congrArg Matrix.transpose h.inv
    rwa [Matrix.transpose_mul, h.symm, Matrix.transpose_one] at this
  calc s.invᵀ = s.invᵀ * (A * s.inv) := by rw [h.inv, Matrix.mul_one]
    _ = s.inv := by rw [← Matrix.mul_assoc, h2, Matrix.one_mul]

theorem Tracks.unique {s s' : State d K} {A : Matrix (Fin d) (Fin d) K} {b : Fin d → K} (h : Tracks s A b)
    (h' : Tracks s' A b) : s = s' := by
  have h1 : s.inv * A = 1 := mul_eq_one_comm.1 h.inv
  have e1 : s.inv = s'.inv := by
    calc s.inv = s.inv * (A * s'.inv) := by rw [h'.inv, Matrix.mul_one]
      _ = s'.inv := by rw [← Matrix.mul_assoc, h1, Matrix.one_mul]
  have e2 : s.w = s'.w := by
    calc s.w = (s.inv * A) *ᵥ s.w := by rw [h1, Matrix.one_mulVec]
      _ = (s.inv * A) *ᵥ s'.w := by rw [← Matrix.mulVec_mulVec, ← Matrix.mulVec_mulVec, h.w, h'.w]
      _ = s'.w := by rw [h1, Matrix.one_mulVec]
  cases s; cases s'
  simp_all

theorem Tracks.isUnit {s : State d K} {A : Matrix (Fin d) (Fin d) K} {b : Fin d → K} (h : Tracks s A b) :
    IsUnit A.det := by
  have := congrArg Matrix.det h.inv
  rw [Matrix.det_mul, Matrix.det_one] at this
  exact IsUnit.of_mul_eq_one _ this

/-- The matrix after adding weight `e` times a row. -/
def bump (A : Matrix (Fin d) (Fin d) K) (e : K) (x : Fin d → K) : Matrix (Fin d) (Fin d) K :=
  A + e • vecMulVec x x

theorem bump_symm {A : Matrix (Fin d) (Fin d) K} (h : Aᵀ = A) (e : K) (x : Fin d → K) : (bump A e x)ᵀ = bump A e x := by
  unfold bump
  rw [Matrix.transpose_add, Matrix.transpose_smul, h]
  congr 2
  ext i j
  simp [vecMulVec_apply, mul_comm]

theorem mulVec_u {s : State d K} {A : Matrix (Fin d) (Fin d) K} {b : Fin d → K} (h : Tracks s A b) (x : Fin d → K) :
    A *ᵥ (s.inv *ᵥ x) = x := by rw [Matrix.mulVec_mulVec, h.inv, Matrix.one_mulVec]

theorem bump_mulVec (A : Matrix (Fin d) (Fin d) K) (e : K) (x v : Fin d → K) :
    bump A e x *ᵥ v = A *ᵥ v + (e * (x ⬝ᵥ v)) • x := by
  unfold bump
  rw [Matrix.add_mulVec, Matrix.smul_mulVec, Matrix.vecMulVec_mulVec]
  congr 1
  funext i
  simp [mul_comm, mul_assoc, mul_left_comm]

/-- The Woodbury step is exact whenever the new normal matrix is invertible. -/
theorem woodbury_tracks {s : State d K} {A : Matrix (Fin d) (Fin d) K} {b : Fin d → K} (h : Tracks s A b)
    (x : Fin d → K) (y c : K) (hc : c ≠ 0) (hu : IsUnit (bump A c⁻¹ x).det) :
    ∃ s', woodburyStep s x y c = some s' ∧ Tracks s' (bump A c⁻¹ x) (b + (c⁻¹ * y) • x) := by
  have hden : c + x ⬝ᵥ (s.inv *ᵥ x) ≠ 0 := by
    intro hz
    have hAu := mulVec_u h x
    have hker : bump A c⁻¹ x *ᵥ (s.inv *ᵥ x) = 0 := by
      rw [bump_mulVec, hAu]
      have : c⁻¹ * (x ⬝ᵥ (s.inv *ᵥ x)) = -1 := by
        have : x ⬝ᵥ (s.inv *ᵥ x) = -c := by linear_combination hz
        rw [this]; field_simp
      rw [this]; simp
    have hu0 : s.inv *ᵥ x ≠ 0 := by
      intro h0
      rw [h0, dotProduct_zero, add_zero] at hz
      exact hc hz
    have := Matrix.exists_mulVec_eq_zero_iff.1 ⟨_, hu0, hker⟩
    rw [this] at hu
    exact not_isUnit_zero hu
  refine ⟨_, by unfold woodburyStep; simp only; rw [if_neg hden], ?_⟩
  have hsy := h.inv_symm
  have hAu := mulVec_u h x
  set u := s.inv *ᵥ x with hudef
  set q := x ⬝ᵥ u with hq
  refine ⟨?_, ?_, bump_symm h.symm _ _⟩
  · -- inverse
    have hxinv : vecMulVec x x * s.inv = vecMulVec x u := by
      rw [Matrix.vecMulVec_mul]
      congr 1
      rw [hudef, ← Matrix.vecMul_transpose, hsy]
    have hAuu : A * vecMulVec u u = vecMulVec x u := by
      rw [Matrix.mul_vecMulVec, hAu]
    have hxuu : vecMulVec x x * vecMulVec u u = q • vecMulVec x u := by
      ext i j
      simp only [Matrix.mul_apply, vecMulVec_apply, Matrix.smul_apply, smul_eq_mul, hq, dotProduct]
      rw [Finset.sum_mul]
      apply Finset.sum_congr rfl
      intro k _
      ring
    unfold bump
    simp only [Matrix.add_mul, Matrix.mul_sub, Matrix.mul_smul, Matrix.smul_mul, h.inv, hxinv, hAuu, hxuu]
    ext i j
    simp only [Matrix.add_apply, Matrix.sub_apply, Matrix.smul_apply, smul_eq_mul]
    field_simp
    ring
  · rw [Matrix.mulVec_add, Matrix.mulVec_smul, bump_mulVec, bump_mulVec, h.w, hAu, ← hq]
    funext i
    simp only [Pi.add_apply, Pi.smul_apply, smul_eq_mul]
    field_simp
    ring

/-- The step fails exactly when the new normal matrix is singular. -/
theorem woodbury_none_iff {s : State d K} {A : Matrix (Fin d) (Fin d) K} {b : Fin d → K} (h : Tracks s A b)
    (x : Fin d → K) (y c : K) (hc : c ≠ 0) :
    woodburyStep s x y c = none ↔ ¬ IsUnit (bump A c⁻¹ x).det := by
  constructor
  · intro hn hu
    obtain ⟨s', hs, _⟩ := woodbury_tracks h x y c hc hu
    rw [hn] at hs
    cases hs
  · intro hu
    unfold woodburyStep
    simp only
    by_cases hden : c + x ⬝ᵥ (s.inv *ᵥ x) = 0
    · rw [if_pos hden]
    · exfalso
      apply hu
      have hsy := h.inv_symm
      have hAu := mulVec_u h x
      rw [isUnit_iff_ne_zero]
      intro h0
      obtain ⟨v, hv, hz⟩ := Matrix.exists_mulVec_eq_zero_iff.2 h0
      rw [bump_mulVec] at hz
      have h1 : s.inv *ᵥ (A *ᵥ v + (c⁻¹ * (x ⬝ᵥ v)) • x) = 0 := by rw [hz, Matrix.mulVec_zero]
      rw [Matrix.mulVec_add, Matrix.mulVec_mulVec, mul_eq_one_comm.1 h.inv, Matrix.one_mulVec, Matrix.mulVec_smul] at h1
      have h2 : x ⬝ᵥ v + (c⁻¹ * (x ⬝ᵥ v)) * (x ⬝ᵥ (s.inv *ᵥ x)) = 0 := by
        have := congrArg (fun t => x ⬝ᵥ t) h1
        simp only [dotProduct_add, dotProduct_smul, dotProduct_zero, smul_eq_mul] at this
        exact this
      have h3 : (x ⬝ᵥ v) * (c + x ⬝ᵥ (s.inv *ᵥ x)) = 0 := by
        have := congrArg (fun t => c * t) h2
        simp only [mul_zero] at this
        rw [← this]
        field_simp
      have h4 : x ⬝ᵥ v = 0 := (mul_eq_zero.1 h3).resolve_right hden
      rw [h4] at h1
      simp at h1
      exact hv h1

theorem normal_apply (rows : List (WRow d K)) (p : Fin d → K) (i j : Fin d) :
    normal rows p i j = (rows.map fun r => r.1 * r.2.1 i * r.2.1 j).sum + if i = j then p i else 0 := rfl

theorem normal_symm (rows : List (WRow d K)) (p : Fin d → K) : (normal rows p)ᵀ = normal rows p := by
  ext i j
  rw [Matrix.transpose_apply, normal_apply, normal_apply]
  congr 1
  · congr 1
    apply List.map_congr_left
    intro r _
    ring
  · by_cases h : i = j
    · subst h; rfl
    · rw [if_neg h, if_neg (Ne.symm h)]

theorem normal_cons (e : K) (x : Fin d → K) (y : K) (rows : List (WRow d K)) (p : Fin d → K) :
    normal ((e, x, y) :: rows) p = bump (normal rows p) e x := by
  ext i j
  unfold bump
  simp only [Matrix.add_apply, normal_apply, List.map_cons, List.sum_cons, Matrix.smul_apply, vecMulVec_apply, smul_eq_mul]
  ring

theorem rhs_cons (e : K) (x : Fin d → K) (y : K) (rows : List (WRow d K)) :
    rhs ((e, x, y) :: rows) = rhs rows + (e * y) • x := by
  funext i
  unfold rhs
  simp only [List.map_cons, List.sum_cons, Pi.add_apply, Pi.smul_apply, smul_eq_mul]
  ring

theorem normal_perm {rows rows' : List (WRow d K)} (h : rows.Perm rows') (p : Fin d → K) :
    normal rows p = normal rows' p := by
  ext i j
  unfold normal
  rw [(h.map _).sum_eq]

theorem rhs_perm {rows rows' : List (WRow d K)} (h : rows.Perm rows') : rhs rows = rhs rows' := by
  funext i
  unfold rhs
  rw [(h.map _).sum_eq]

/-- The state is that of the fit on `rows`. -/
def Fits (s : State d K) (rows : List ((Fin d → K) × K)) (p : Fin d → K) : Prop :=
  Tracks s (normal (unit rows) p) (rhs (unit rows))

theorem unit_cons (r : (Fin d → K) × K) (rows : List ((Fin d → K) × K)) : unit (r :: rows) = (1, r) :: unit rows := rfl

theorem Fits.perm {s : State d K} {rows rows' : List ((Fin d → K) × K)} {p : Fin d → K} (h : Fits s rows p)
    (hp : rows.Perm rows') : Fits s rows' p := by
  unfold Fits at *
  have : (unit rows).Perm (unit rows') := hp.map _
  rw [← normal_perm this, ← rhs_perm this]
  exact h

theorem Fits.add {s : State d K} {rows : List ((Fin d → K) × K)} {p : Fin d → K} (h : Fits s rows p)
    (x : Fin d → K) (y : K) (hu : IsUnit (normal (unit ((x, y) :: rows)) p).det) :
    ∃ s', woodburyStep s x y 1 = some s' ∧ Fits s' ((x, y) :: rows) p := by
  unfold Fits
  rw [unit_cons, normal_cons, rhs_cons]
  rw [unit_cons, normal_cons] at hu
  have := woodbury_tracks h x y 1 one_ne_zero (by rwa [inv_one])
  rwa [inv_one] at this

theorem Fits.remove {s : State d K} {rows : List ((Fin d → K) × K)} {p : Fin d → K}
    (x : Fin d → K) (y : K) (h : Fits s ((x, y) :: rows) p) (hu : IsUnit (normal (unit rows) p).det) :
    ∃ s', woodburyStep s x y (-1) = some s' ∧ Fits s' rows p := by
  unfold Fits at h
  rw [unit_cons, normal_cons, rhs_cons] at h
  have e1 : bump (bump (normal (unit rows) p) 1 x) (-1) x = normal (unit rows) p := by
    ext i j
    simp [bump]
  have e2 : rhs (unit rows) + (1 * y) • x + (-1 * y) • x = rhs (unit rows) := by
    funext i
    simp
  have hi : (-1 : K)⁻¹ = -1 := by rw [inv_neg, inv_one]
  have := woodbury_tracks h x y (-1) (by simp) (by rw [hi, e1]; exact hu)
  rw [hi, e1, e2] at this
  exact this

/-- What the penalty must do for the matrix to be invertible. -/
theorem fits_unit (rows : List ((Fin d → K) × K)) (p : Fin d → K) (hp : ∀ i, 0 ≤ p i)
    (hid : Identifiable (unit rows) p) : IsUnit (normal (unit rows) p).det :=
  normal_isUnit _ _ (unit_nonneg _) hp hid

theorem qr_fits (S : Solver K) (rows : List ((Fin d → K) × K)) (lam : K) (hl : 0 ≤ lam) (hasBias : Bool)
    (hu : IsUnit (normal (unit rows) (pen lam (absDiff d hasBias.toNat))).det) :
    Fits (qrLstsqWithInv S rows lam hasBias) rows (pen lam (absDiff d hasBias.toNat)) := by
  set rs : List (Row d 1 K) := rows.map fun r => (r.1, fun _ => r.2) with hrs
  have ht : target rs 0 = rows := by simp [hrs, target, List.map_map, Function.comp_def]
  have hm : (if 0 < lam ∧ 1 ≤ absDiff d hasBias.toNat then addDiag (gram rs) lam (absDiff d hasBias.toNat) else gram rs)
      = normal (unit rows) (pen lam (absDiff d hasBias.toNat)) := by
    have := eff_matrix rs lam (absDiff d hasBias.toNat) 0
    rw [ht] at this
    rw [show effLam lam = lam by simp [effLam, hl]] at this
    rw [← this]
    rcases hl.lt_or_eq with h | h
    · simp [h, h.le]
    · subst h
      simp only [lt_irrefl, false_and, if_false, le_refl, true_and]
      split
      · ext i j; simp [addDiag]
      · rfl
  unfold Fits qrLstsqWithInv
  simp only
  rw [← hrs, hm]
  refine ⟨S.qrInverse_spec _ hu, ?_, normal_symm _ _⟩
  rw [col_of_mul (S.qr_spec _ (xty rs) hu) 0, xty_col, ht]

/-- The coefficients of a tracked state minimise the objective. -/
theorem Fits.optimal {s : State d K} {rows : List ((Fin d → K) × K)} {p : Fin d → K} (h : Fits s rows p)
    (hp : ∀ i, 0 ≤ p i) (hid : Identifiable (unit rows) p) (b : Fin d → K) :
    obj (unit rows) p s.w ≤ obj (unit rows) p b ∧ (obj (unit rows) p b = obj (unit rows) p s.w → b = s.w) :=
  obj_optimal _ _ _ (unit_nonneg _) hp hid h.w b

/-- An invertible normal matrix sees every direction. -/
theorem identifiable_of_unit (rows : List ((Fin d → K) × K)) (p : Fin d → K)
    (hu : IsUnit (normal (unit rows) p).det) : Identifiable (unit rows) p := by
  intro v h1 h2
  by_contra hv
  have : normal (unit rows) p *ᵥ v = 0 := by
    funext i
    rw [normal_mulVec]
    have hz : ∀ r ∈ unit rows, r.1 * dot r.2.1 v * r.2.1 i = 0 := by
      intro r hr
      by_cases h0 : r.1 = 0
      · simp [h0]
      · simp [h1 r hr h0]
    have hp : p i * v i = 0 := by
      by_cases h0 : p i = 0
      · simp [h0]
      · simp [h2 i h0]
    rw [hp, List.map_congr_left hz]
    simp
  have := Matrix.exists_mulVec_eq_zero_iff.1 ⟨v, hv, this⟩
  rw [this] at hu
  exact not_isUnit_zero hu

end Verif.Online
