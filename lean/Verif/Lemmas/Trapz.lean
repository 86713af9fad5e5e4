import Verif.Model.Trapz
import Verif.Spec.Trapz
import Mathlib.Tactic.Ring
import Mathlib.Tactic.FieldSimp
import Mathlib.Algebra.BigOperators.Group.List.Basic

/-! # Lemmas: trapezoid integration -/

namespace Verif.Trapz
variable {K : Type} [Field K]

theorem area_zip : ∀ (y x : List K), y.length = x.length →
    1 / 2 * (List.zipWith (· * ·) (List.zipWith (· + ·) y.tail y) (List.zipWith (· - ·) x.tail x)).sum =
      Spec.area (x.zip y)
  | [], [], _ => by simp [Spec.area]
  | [y0], [x0], _ => by simp [Spec.area]
  | y0 :: y1 :: y, x0 :: x1 :: x, h => by
    have ih := area_zip (y1 :: y) (x1 :: x) (by simpa using h)
    simp only [List.tail_cons, List.zipWith_cons_cons, List.sum_cons, List.zip_cons_cons, Spec.area] at ih ⊢
    rw [mul_add, ih]
    ring
  | [], x0 :: x, h => by simp at h
  | y0 :: y, [], h => by simp at h
  | [y0], x0 :: x1 :: x, h => by simp at h
  | y0 :: y1 :: y, [x0], h => by simp at h

/-- For at least two points the code computes the area. -/
theorem trapz_eq_area (y x : List K) (h : y.length = x.length) (h2 : 2 ≤ y.length) :
    trapz y x = Spec.area (x.zip y) := by
  match y, x, h, h2 with
  | y0 :: y1 :: y, x0 :: x1 :: x, h, _ => exact area_zip (y0 :: y1 :: y) (x0 :: x1 :: x) h
  | [_], _, _, h2 => simp at h2
  | [], _, _, h2 => simp at h2
  | _ :: _ :: _, [_], h, _ => simp at h
  | _ :: _ :: _, [], h, _ => simp at h

theorem area_append (a b : List (K × K)) (p : K × K) :
    Spec.area (a ++ p :: b) = Spec.area (a ++ [p]) + Spec.area (p :: b) := by
  induction a with
  | nil => simp [Spec.area]
  | cons q a ih =>
    cases a with
    | nil => simp [Spec.area]
    | cons r a =>
      simp only [List.cons_append, Spec.area] at ih ⊢
      rw [ih, add_assoc]

theorem mapM_id_some (l : List K) : (l.map some).mapM id = some l := by
  induction l with
  | nil => rfl
  | cons a l ih => simp [ih]

theorem area_affine (c m : K) : ∀ (x0 : K) (xs : List K) (h2 : (2 : K) ≠ 0),
    Spec.area ((x0 :: xs).map fun x => (x, c + m * x)) =
      (c * ((x0 :: xs).getLast (by simp)) + m * ((x0 :: xs).getLast (by simp)) ^ 2 / 2) -
        (c * x0 + m * x0 ^ 2 / 2) := by
  intro x0 xs h2
  induction xs generalizing x0 with
  | nil => simp [Spec.area]
  | cons x1 xs ih =>
    have := ih x1
    simp only [List.map_cons, Spec.area] at this ⊢
    rw [this, List.getLast_cons (a := x0) (l := x1 :: xs) (by simp)]
    field_simp
    ring

theorem trapzDx_area (dx : K) (h2 : (2 : K) ≠ 0) : ∀ (y : List K) (x0 : K), 2 ≤ y.length →
    trapzDx y dx = Spec.area (((List.range y.length).map fun (i : Nat) => x0 + i * dx).zip y) := by
  have key : ∀ (y : List K) (a b : K) (s : Nat) (x0 : K),
      Spec.area (((List.range' s (y.length + 2)).map fun (i : Nat) => x0 + i * dx).zip (a :: (y ++ [b]))) =
      dx * (y.sum + 1 / 2 * (a + b)) := by
    intro y
    induction y with
    | nil =>
      intro a b s x0
      simp [List.range'_succ, Spec.area]
      field_simp
      ring
    | cons c y ih =>
      intro a b s x0
      have := ih c b (s + 1) x0
      rw [List.length_cons, List.range'_succ, List.map_cons, List.cons_append, List.zip_cons_cons]
      rw [List.range'_succ, List.map_cons, List.zip_cons_cons] at this ⊢
      rw [Spec.area, this]
      simp only [List.sum_cons]
      push_cast
      field_simp
      ring
  intro y x0 h
  match y, h with
  | a :: y, h =>
    obtain ⟨y', b, rfl⟩ : ∃ y' b, y = y' ++ [b] := by
      have hne : y ≠ [] := by intro hh; subst hh; simp at h
      exact ⟨y.dropLast, y.getLast hne, (List.dropLast_append_getLast hne).symm⟩
    have := key y' a b 0 x0
    rw [List.range_eq_range', show (a :: (y' ++ [b])).length = y'.length + 2 by simp, this]
    have e : (a :: (y' ++ [b])).getLast? = some b := by
      rw [← List.cons_append, List.getLast?_append]; simp
    simp [trapzDx, e]

end Verif.Trapz
