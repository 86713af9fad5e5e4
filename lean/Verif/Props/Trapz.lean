import Verif.Lemmas.Trapz
import Mathlib.Algebra.Field.Rat
import Mathlib.Algebra.Order.Field.Rat

/-!
# Property C30: trapezoid integration

The code treats a single point specially and returns `-y*x/2` instead of 0, so every statement below needs at
least two points (`_partial`); `trapz_single_point_wrong` is the witness.
-/

namespace Verif.Trapz
variable {K : Type} [Field K]

/-- The column of the expression for a list of points `(x, y)`. -/
def onPoints (pts : List (K × K)) : Res K := plTrapz (pts.map fun p => some p.2) (pts.map fun p => some p.1)

theorem zip_fst_snd : ∀ pts : List (K × K), (pts.map Prod.fst).zip (pts.map Prod.snd) = pts
  | [] => rfl
  | a :: l => by simp [zip_fst_snd l]

theorem onPoints_area (pts : List (K × K)) (h : 2 ≤ pts.length) : onPoints pts = .val (Spec.area pts) := by
  have h1 := mapM_id_some (pts.map Prod.fst)
  have h2 := mapM_id_some (pts.map Prod.snd)
  rw [List.map_map] at h1 h2
  have h1' : (pts.map fun p => some p.1).mapM id = some (pts.map Prod.fst) := h1
  have h2' : (pts.map fun p => some p.2).mapM id = some (pts.map Prod.snd) := h2
  unfold onPoints plTrapz
  rw [if_neg (by rw [List.length_map]; omega), h1', h2']
  match pts, h with
  | p :: q :: rest, _ =>
    simp only [List.map_cons, List.length_cons, List.length_map, if_true]
    rw [trapz_eq_area _ _ (by simp) (by simp), ← List.map_cons, ← List.map_cons, ← List.map_cons,
      ← List.map_cons, zip_fst_snd]

/-- **C30, partial (at least two points).**  The expression is the sum of the trapezoid areas, and it is
additive when two curves are joined at a shared point. -/
theorem trapz_additive_partial (a b : List (K × K)) (p : K × K) (ha : a ≠ []) (hb : b ≠ []) :
    ∃ u v, onPoints (a ++ [p]) = .val u ∧ onPoints (p :: b) = .val v ∧
      onPoints (a ++ p :: b) = .val (u + v) ∧ u = Spec.area (a ++ [p]) ∧ v = Spec.area (p :: b) := by
  have la : 1 ≤ a.length := List.length_pos_of_ne_nil ha
  have lb : 1 ≤ b.length := List.length_pos_of_ne_nil hb
  refine ⟨_, _, onPoints_area _ (by simp; omega), onPoints_area _ (by simp; omega), ?_, rfl, rfl⟩
  rw [onPoints_area _ (by simp; omega), area_append]

/-- **C30, partial (at least two points).**  On an affine function the result is the exact integral. -/
theorem trapz_affine_partial (h2 : (2 : K) ≠ 0) (c m x0 : K) (xs : List K) (hx : xs ≠ []) :
    onPoints ((x0 :: xs).map fun x => (x, c + m * x)) =
      .val ((c * ((x0 :: xs).getLast (by simp)) + m * ((x0 :: xs).getLast (by simp)) ^ 2 / 2) -
        (c * x0 + m * x0 ^ 2 / 2)) := by
  have l : 1 ≤ xs.length := List.length_pos_of_ne_nil hx
  rw [onPoints_area _ (by simp; omega), area_affine c m x0 xs h2]

/-- **C30, partial (at least two points).**  A scalar step gives the same value as the explicit grid, wherever
the grid starts. -/
theorem trapz_uniform_partial (h2 : (2 : K) ≠ 0) (y : List K) (dx x0 : K) (hy : 2 ≤ y.length) :
    plTrapz (y.map some) [some dx] =
      onPoints (((List.range y.length).map fun (i : Nat) => x0 + i * dx).zip y) := by
  rw [onPoints_area _ (by simp; omega), ← trapzDx_area dx h2 y x0 hy]
  unfold plTrapz
  rw [if_neg (by rw [List.length_map]; omega), mapM_id_some]
  simp [show 1 < y.length by omega]

/-- **C30 fails for one point**: the area over a single point is 0, the expression gives `-3` for the point
`(2, 3)`, so joining `[(2,3)]` with `[(2,3),(4,5)]` is not additive. -/
theorem trapz_single_point_wrong :
    onPoints ([(2, 3)] : List (ℚ × ℚ)) = .val (-3) ∧ Spec.area ([(2, 3)] : List (ℚ × ℚ)) = 0 ∧
    onPoints ([(2, 3), (4, 5)] : List (ℚ × ℚ)) = .val 8 := by decide +kernel

/-- Nulls and empty input give NaN, other length mismatches an error. -/
theorem trapz_rejects (y x : List (Option K)) :
    (y = [] ∨ none ∈ y ∨ none ∈ x → plTrapz y x = .nan) ∧
    (y ≠ [] → none ∉ y → none ∉ x → x.length ≠ y.length → x.length ≠ 1 →
      plTrapz y x = .err "Input must have the same length or x must be a scalar.") := by
  have hnone : ∀ l : List (Option K), none ∈ l → l.mapM id = none := by
    intro l
    induction l with
    | nil => simp
    | cons a l ih =>
      intro h
      cases a with
      | none => simp
      | some a =>
        have := ih (by simpa using h)
        simp [this]
  have hsome : ∀ l : List (Option K), none ∉ l → ∃ k, l.mapM id = some k ∧ k.length = l.length := by
    intro l
    induction l with
    | nil => intro _; exact ⟨[], rfl, rfl⟩
    | cons a l ih =>
      intro h
      cases a with
      | none => simp at h
      | some a =>
        obtain ⟨k, h1, h2⟩ := ih (by simpa using h)
        exact ⟨a :: k, by simp [h1], by simp [h2]⟩
  refine ⟨fun h => ?_, fun h1 h2 h3 h4 h5 => ?_⟩
  · unfold plTrapz
    split
    · rfl
    · rename_i hl
      rcases h with rfl | h | h
      · simp at hl
      · rw [hnone y h]
      · rw [hnone x h]; cases y.mapM id <;> rfl
  · obtain ⟨k, hk, lk⟩ := hsome y h2
    obtain ⟨j, hj, lj⟩ := hsome x h3
    have := List.length_pos_of_ne_nil h1
    unfold plTrapz
    rw [if_neg (by omega), hk, hj]
    match j, lj with
    | [], lj => simp only; rw [if_neg (by omega)]
    | [d], lj => exact absurd lj.symm h5
    | d :: e :: j, lj => simp only; rw [if_neg (by omega)]

example : onPoints ([(0, 1), (1, 3), (3, 7)] : List (ℚ × ℚ)) = .val 12 := by decide +kernel
example : plTrapz ([some 1, some 3, some 5] : List (Option ℚ)) [some 2] = .val 12 := by decide +kernel
example : plTrapz ([some 1, none] : List (Option ℚ)) [some 2] = .nan := by decide +kernel

end Verif.Trapz
