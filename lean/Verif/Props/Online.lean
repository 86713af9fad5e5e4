import Verif.Lemmas.Online

/-!
# Online, recursive and rolling regression: theorems
-/
set_option linter.unusedSectionVars false

namespace Verif.Online
open Matrix Verif.LinReg Verif.LinReg.Spec Verif.Online.Spec
variable {K : Type} [Field K] [LinearOrder K] [IsStrictOrderedRing K] {d : Nat}

/-! ## Clean rows -/

theorem hasNan_iff (r : XRow d K) : hasNan r = true ↔ (∃ i, r.1 i = none) ∨ r.2 = none := by
  unfold hasNan
  rw [Bool.or_eq_true, List.any_eq_true]
  simp

theorem clean_complete (r : (Fin d → K) × K) : clean (complete r) = some r := by
  have : ¬ hasNan (complete r) = true := by
    rw [hasNan_iff]
    simp [complete]
  unfold clean
  rw [if_neg this]
  simp [complete]

theorem clean_none {r : XRow d K} (h : (∃ i, r.1 i = none) ∨ r.2 = none) : clean r = none := by
  unfold clean
  rw [if_pos ((hasNan_iff r).2 h)]

theorem cleanAll_complete (rows : List ((Fin d → K) × K)) : cleanAll (rows.map complete) = some rows := by
  induction rows with
  | nil => rfl
  | cons r rows ih =>
    rw [List.map_cons, cleanAll, clean_complete, ih]

theorem fit_complete (S : Solver K) (rows : List ((Fin d → K) × K)) (lam : K) :
    fit S (rows.map complete) lam = some (qrLstsqWithInv S rows lam false) := by
  unfold fit
  rw [cleanAll_complete]

theorem valid_eq (rows : List (XRow d K)) : valid rows = rows.filterMap clean := by
  unfold valid
  apply List.filterMap_congr
  intro r _
  split
  · rename_i h
    unfold clean
    rw [if_neg]
    · congr 1
      apply Prod.ext
      · funext i
        exact Option.get_eq_getD _
      · exact Option.get_eq_getD _
    · rw [hasNan_iff]
      rintro (⟨i, hi⟩ | hi)
      · have := h.1 i; rw [hi] at this; cases this
      · have := h.2; rw [hi] at this; cases this
  · rename_i h
    symm
    apply clean_none
    by_contra hc
    push Not at hc
    apply h
    exact ⟨fun i => Option.isSome_iff_ne_none.2 (hc.1 i), Option.isSome_iff_ne_none.2 hc.2⟩

/-! ## From the normal equations to the specification -/

theorem absDiff_zero : absDiff d false.toNat = d := by simp [absDiff]
theorem absDiff_one : absDiff (d + 1) true.toNat = d := by simp [absDiff]

theorem ridge_unit (rows : List ((Fin d → K) × K)) (lam : K) (hl : 0 ≤ lam) (h : 0 < lam ∨ FullRank rows) :
    IsUnit (normal (unit rows) (pen lam d)).det := by
  have he : effLam lam = lam := by simp [effLam, hl]
  have := identifiable_unit rows lam h d (le_refl _)
  rw [he] at this
  apply fits_unit _ _ _ this
  intro i
  have := pen_nonneg' (d := d) lam d i
  rwa [he] at this

theorem bias_unit (rows : List ((Fin d → K) × K)) (lam : K) (hl : 0 ≤ lam)
    (h : (0 < lam ∧ rows ≠ []) ∨ FullRankBias rows) :
    IsUnit (normal (unit (rows.map rowOne)) (pen lam d)).det := by
  have he : effLam lam = lam := by simp [effLam, hl]
  have := identifiable_bias rows lam h
  rw [he] at this
  apply fits_unit _ _ _ this
  intro i
  have := pen_nonneg' (d := d + 1) lam d i
  rwa [he] at this

theorem Fits.isRidge {s : State d K} {rows : List ((Fin d → K) × K)} {lam : K} (hl : 0 ≤ lam)
    (h : Fits s rows (pen lam d)) : IsRidge rows lam s.w := by
  intro b
  have he : effLam lam = lam := by simp [effLam, hl]
  have hp : ∀ i : Fin d, 0 ≤ pen lam d i := by
    intro i
    have := pen_nonneg' (d := d) lam d i
    rwa [he] at this
  have := h.optimal hp (identifiable_of_unit _ _ h.isUnit) b
  have ho := obj_pen rows lam hl d (le_refl _)
  rw [he] at ho
  rwa [ho, ho] at this

theorem Fits.isRidgeBias {s : State (d + 1) K} {rows : List ((Fin d → K) × K)} {lam : K} (hl : 0 ≤ lam)
    (h : Fits s (rows.map rowOne) (pen lam d)) :
    IsRidgeBias rows lam (fun i => s.w i.castSucc) (s.w (Fin.last d)) := by
  intro b e
  have he : effLam lam = lam := by simp [effLam, hl]
  have hp : ∀ i : Fin (d + 1), 0 ≤ pen lam d i := by
    intro i
    have := pen_nonneg' (d := d + 1) lam d i
    rwa [he] at this
  have := h.optimal hp (identifiable_of_unit _ _ h.isUnit) (Fin.snoc b e)
  have ho := obj_bias rows lam hl
  rw [he] at ho
  rw [snoc_split s.w] at this
  rw [show rows.map rowOne = rows.map fun r => ((Fin.snoc r.1 1 : Fin (d + 1) → K), r.2) from rfl, ho, ho] at this
  refine ⟨this.1, fun hh => ?_⟩
  have := this.2 hh
  constructor
  · funext i
    have := congrFun this i.castSucc
    rwa [Fin.snoc_castSucc, Fin.snoc_castSucc] at this
  · have := congrFun this (Fin.last d)
    rwa [Fin.snoc_last, Fin.snoc_last] at this

theorem ridgeMatrix_eq (rows : List ((Fin d → K) × K)) (lam : K) :
    ridgeMatrix rows lam = normal (unit rows) (pen lam d) := by
  ext i j
  rw [normal_apply]
  unfold ridgeMatrix unit pen
  simp [List.map_map, Function.comp_def]

/-! ## Histories of updates -/

/-- Both kinds of update, with `f` adding the constant or not. -/
def coreUpdate {e : Nat} (f : (Fin d → K) × K → (Fin e → K) × K) (s : Option (State e K)) (r : XRow d K) (c : K) :
    Option (State e K) :=
  match clean r with
  | none => s
  | some a => s.bind fun s => woodburyStep s (f a).1 (f a).2 c

theorem core_step {e : Nat} (f : (Fin d → K) × K → (Fin e → K) × K) {s : State e K} {rows rows' : List ((Fin d → K) × K)}
    {p : Fin e → K} (hf : Fits s (rows.map f) p) (call : XRow d K × K) (he : Effect rows call rows')
    (hu : IsUnit (normal (unit (rows'.map f)) p).det) :
    ∃ s', coreUpdate f (some s) call.1 call.2 = some s' ∧ Fits s' (rows'.map f) p := by
  cases he with
  | add r =>
    unfold coreUpdate
    simp only
    rw [clean_complete]
    exact hf.add _ _ hu
  | remove r _ _ h =>
    unfold coreUpdate
    simp only
    rw [clean_complete]
    exact Fits.remove _ _ (hf.perm (h.map f)) hu
  | ignored x y c _ h =>
    unfold coreUpdate
    simp only
    rw [clean_none h]
    exact ⟨s, rfl, hf⟩

theorem run_fits (P : List ((Fin d → K) × K) → Prop) (p : Fin d → K)
    (hP : ∀ rows, P rows → IsUnit (normal (unit rows) p).det) {rows rows' : List ((Fin d → K) × K)}
    {calls : List (XRow d K × K)} (hh : History P rows calls rows') (s : State d K) (hf : Fits s rows p) :
    ∃ s', runUpdates (some s) calls = some s' ∧ Fits s' rows' p := by
  induction hh generalizing s with
  | nil => exact ⟨s, rfl, hf⟩
  | cons rows rows' rows'' e es h hp _ ih =>
    obtain ⟨s', hs, hf'⟩ := core_step id (by simpa using hf) e h (by simpa using hP _ hp)
    have hs : update (some s) e.1 e.2 = some s' := hs
    rw [runUpdates, hs]
    exact ih s' (by simpa using hf')

theorem run_fits_bias (P : List ((Fin d → K) × K) → Prop) (p : Fin (d + 1) → K)
    (hP : ∀ rows, P rows → IsUnit (normal (unit (rows.map rowOne)) p).det) {rows rows' : List ((Fin d → K) × K)}
    {calls : List (XRow d K × K)} (hh : History P rows calls rows') (s : State (d + 1) K)
    (hf : Fits s (rows.map rowOne) p) :
    ∃ s', runUpdatesBias (some s) calls = some s' ∧ Fits s' (rows'.map rowOne) p := by
  induction hh generalizing s with
  | nil => exact ⟨s, rfl, hf⟩
  | cons rows rows' rows'' e es h hp _ ih =>
    obtain ⟨s', hs, hf'⟩ := core_step rowOne hf e h (hP _ hp)
    have hs : updateBias (some s) e.1 e.2 = some s' := hs
    rw [runUpdatesBias, hs]
    exact ih s' hf'

theorem History.last {P : List ((Fin d → K) × K) → Prop} {rows rows' : List ((Fin d → K) × K)}
    {calls : List (XRow d K × K)} (hh : History P rows calls rows') (h0 : P rows) : P rows' := by
  induction hh with
  | nil => exact h0
  | cons _ _ _ _ _ _ hp _ ih => exact ih hp

/-- Fitting and then adding and removing rows one at a time, in any order and number, ends in exactly the state
(coefficients and inverse) of fitting the resulting data set at once; the coefficients are its ridge solution and
the inverse is that of its normal matrix.  Every data set on the way must determine its solution. -/
theorem online_refit (S S' : Solver K) (rows rows' : List ((Fin d → K) × K)) (lam : K) (hl : 0 ≤ lam)
    (calls : List (XRow d K × K)) (h0 : 0 < lam ∨ FullRank rows)
    (hh : History (fun rs => 0 < lam ∨ FullRank rs) rows calls rows') :
    ∃ s, runUpdates (fit S (rows.map complete) lam) calls = some s ∧ fit S' (rows'.map complete) lam = some s ∧
      IsRidge rows' lam s.w ∧ ridgeMatrix rows' lam * s.inv = 1 := by
  have hu : ∀ rs : List ((Fin d → K) × K), (0 < lam ∨ FullRank rs) → IsUnit (normal (unit rs) (pen lam d)).det :=
    fun rs h => ridge_unit rs lam hl h
  have hf := qr_fits S rows lam hl false (by rw [absDiff_zero]; exact hu _ h0)
  rw [absDiff_zero] at hf
  obtain ⟨s, hs, hfs⟩ := run_fits _ _ hu hh _ hf
  have hf' := qr_fits S' rows' lam hl false (by rw [absDiff_zero]; exact hu _ (History.last hh h0))
  rw [absDiff_zero] at hf'
  refine ⟨s, by rw [fit_complete]; exact hs, ?_, hfs.isRidge hl, ?_⟩
  · rw [fit_complete, Tracks.unique hf' hfs]
  · rw [ridgeMatrix_eq]; exact hfs.inv

/-- The same for a model with bias. -/
theorem online_refit_bias (S S' : Solver K) (rows rows' : List ((Fin d → K) × K)) (lam : K) (hl : 0 ≤ lam)
    (calls : List (XRow d K × K)) (h0 : (0 < lam ∧ rows ≠ []) ∨ FullRankBias rows)
    (hh : History (fun rs => (0 < lam ∧ rs ≠ []) ∨ FullRankBias rs) rows calls rows') :
    ∃ s, runUpdatesBias (fitBias S (rows.map complete) lam) calls = some s ∧
      fitBias S' (rows'.map complete) lam = some s ∧
      IsRidgeBias rows' lam (fun i => s.w i.castSucc) (s.w (Fin.last d)) := by
  have hu : ∀ rs : List ((Fin d → K) × K), ((0 < lam ∧ rs ≠ []) ∨ FullRankBias rs) →
      IsUnit (normal (unit (rs.map rowOne)) (pen lam d)).det := fun rs h => bias_unit rs lam hl h
  have hfc : ∀ (S : Solver K) (rs : List ((Fin d → K) × K)), fitBias S (rs.map complete) lam =
      some (qrLstsqWithInv S (rs.map rowOne) lam true) := by
    intro S rs
    unfold fitBias
    rw [cleanAll_complete]
  have hf := qr_fits S (rows.map rowOne) lam hl true (by rw [absDiff_one]; exact hu _ h0)
  rw [absDiff_one] at hf
  obtain ⟨s, hs, hfs⟩ := run_fits_bias _ _ hu hh _ hf
  have hf' := qr_fits S' (rows'.map rowOne) lam hl true (by rw [absDiff_one]; exact hu _ (History.last hh h0))
  rw [absDiff_one] at hf'
  refine ⟨s, by rw [hfc]; exact hs, ?_, hfs.isRidgeBias hl⟩
  rw [hfc, Tracks.unique hf' hfs]

/-- Undoing an update restores the state exactly, whatever the state and the scale `c`. -/
theorem online_add_remove (s s' : State d K) (x : Fin d → K) (y c : K) (hc : c ≠ 0)
    (h : woodburyStep s x y c = some s') : woodburyStep s' x y (-c) = some s := by
  unfold woodburyStep at h
  simp only at h
  by_cases hden : c + x ⬝ᵥ (s.inv *ᵥ x) = 0
  · rw [if_pos hden] at h; cases h
  rw [if_neg hden] at h
  injection h with h
  subst h
  set u := s.inv *ᵥ x with hu
  set q := x ⬝ᵥ u with hq
  have hu' : (s.inv - (c + q)⁻¹ • vecMulVec u u) *ᵥ x = (c * (c + q)⁻¹) • u := by
    rw [Matrix.sub_mulVec, Matrix.smul_mulVec, Matrix.vecMulVec_mulVec, ← hu]
    funext i
    simp only [Pi.sub_apply, Pi.smul_apply, smul_eq_mul, MulOpposite.smul_eq_mul_unop, MulOpposite.unop_op]
    rw [dotProduct_comm u x, ← hq]
    field_simp
    ring
  have hd' : -c + x ⬝ᵥ ((c * (c + q)⁻¹) • u) = -(c * c * (c + q)⁻¹) := by
    rw [dotProduct_smul, ← hq, smul_eq_mul]
    field_simp
    ring
  have hd0 : -(c * c * (c + q)⁻¹) ≠ 0 := by
    rw [neg_ne_zero]
    exact mul_ne_zero (mul_ne_zero hc hc) (inv_ne_zero hden)
  unfold woodburyStep
  simp only
  rw [hu', hd', if_neg hd0]
  congr 1
  cases s with
  | mk inv w =>
    simp only [State.mk.injEq]
    simp only at hu hq hu' hden
    constructor
    · ext i j
      simp only [Matrix.sub_apply, Matrix.smul_apply, vecMulVec_apply, Pi.smul_apply, smul_eq_mul]
      field_simp
      ring
    · rw [dotProduct_add, dotProduct_smul, ← hq]
      funext i
      simp only [Pi.add_apply, Pi.smul_apply, smul_eq_mul]
      field_simp
      ring

end Verif.Online
