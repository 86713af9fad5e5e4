import Mathlib.Analysis.Calculus.Deriv.Mul
import Mathlib.Analysis.Calculus.Deriv.Add
import Mathlib.Data.Rat.Cast.Order
import Mathlib.Data.Real.Basic

/-!
# Polynomials as lists of rational coefficients, and a check for non-negativity on an interval
-/

namespace Verif.ListPoly

/-- The value at a real number; the head is the constant coefficient. -/
noncomputable def eval : List ℚ → ℝ → ℝ
  | [], _ => 0
  | a :: l, u => a + u * eval l u

/-- Sum. -/
def add : List ℚ → List ℚ → List ℚ
  | [], l => l
  | l, [] => l
  | a :: l, b :: m => (a + b) :: add l m

/-- Multiple. -/
def smul (c : ℚ) (l : List ℚ) : List ℚ := l.map (c * ·)

/-- Product. -/
def mul : List ℚ → List ℚ → List ℚ
  | [], _ => []
  | a :: l, m => add (smul a m) (0 :: mul l m)

/-- Derivative of `u * p`. -/
def der1 : List ℚ → List ℚ
  | [] => []
  | a :: l => add (a :: l) (0 :: der1 l)

/-- Derivative. -/
def der : List ℚ → List ℚ
  | [] => []
  | _ :: l => der1 l

@[simp] theorem eval_nil (u : ℝ) : eval [] u = 0 := rfl
theorem eval_cons (a : ℚ) (l : List ℚ) (u : ℝ) : eval (a :: l) u = a + u * eval l u := rfl

theorem eval_add (l m : List ℚ) (u : ℝ) : eval (add l m) u = eval l u + eval m u := by
  induction l generalizing m with
  | nil => simp [add]
  | cons a l ih =>
    cases m with
    | nil => simp [add]
    | cons b m => simp only [add, eval_cons, ih]; push_cast; ring

theorem eval_smul (c : ℚ) (l : List ℚ) (u : ℝ) : eval (smul c l) u = c * eval l u := by
  induction l with
  | nil => simp [smul]
  | cons a l ih =>
    have : smul c (a :: l) = (c * a) :: smul c l := rfl
    rw [this, eval_cons, eval_cons, ih]; push_cast; ring

theorem eval_mul (l m : List ℚ) (u : ℝ) : eval (mul l m) u = eval l u * eval m u := by
  induction l with
  | nil => simp [mul]
  | cons a l ih => simp only [mul, eval_add, eval_smul, eval_cons, ih]; push_cast; ring

theorem hasDerivAt_aux (l : List ℚ) : ∀ u : ℝ, HasDerivAt (eval l) (eval (der l) u) u ∧
    HasDerivAt (fun u => u * eval l u) (eval (der1 l) u) u := by
  induction l with
  | nil =>
    intro u
    refine ⟨hasDerivAt_const u (0 : ℝ), ?_⟩
    have : (fun u : ℝ => u * eval [] u) = fun _ => 0 := by funext u; simp
    rw [this]
    exact hasDerivAt_const u 0
  | cons a l ih =>
    intro u
    have h1 : HasDerivAt (eval (a :: l)) (eval (der (a :: l)) u) u := by
      have := (ih u).2.const_add (a : ℝ)
      exact this
    refine ⟨h1, ?_⟩
    have h2 := (hasDerivAt_id u).mul h1
    refine h2.congr_deriv ?_
    simp only [der1, der, eval_add, eval_cons, id_eq]
    push_cast
    ring

theorem hasDerivAt (l : List ℚ) (u : ℝ) : HasDerivAt (eval l) (eval (der l) u) u := (hasDerivAt_aux l u).1

/-! ## Non-negativity on `[0, w]` -/

/-- The value of a form in two variables; the coefficient of `v ^ k * s ^ (n - k)` is at position `k`. -/
noncomputable def evalH : List ℚ → ℝ → ℝ → ℝ
  | [], _, _ => 0
  | a :: l, v, s => a * s ^ l.length + v * evalH l v s

/-- Sum of two forms of the same degree. -/
def addH (l m : List ℚ) : List ℚ := List.zipWith (· + ·) l m

/-- The form times `v + s`. -/
def mulVS (l : List ℚ) : List ℚ := addH (l ++ [0]) (0 :: l)

/-- The form `(v + s) ^ n`. -/
def pas : Nat → List ℚ
  | 0 => [1]
  | n + 1 => mulVS (pas n)

/-- The polynomial at `w * v` as a form, using `v + s = 1`. -/
def hom (w : ℚ) : List ℚ → List ℚ
  | [] => []
  | a :: l => addH (smul a (pas l.length)) (0 :: smul w (hom w l))

theorem evalH_add (l m : List ℚ) (h : l.length = m.length) (v s : ℝ) :
    evalH (addH l m) v s = evalH l v s + evalH m v s := by
  induction l generalizing m with
  | nil =>
    cases m with
    | nil => simp [addH, evalH]
    | cons b m => simp at h
  | cons a l ih =>
    cases m with
    | nil => simp at h
    | cons b m =>
      have hl : l.length = m.length := by simpa using h
      have h2 : addH (a :: l) (b :: m) = (a + b) :: addH l m := rfl
      have h3 : (addH l m).length = m.length := by simp [addH, hl]
      rw [h2, evalH, evalH, evalH, ih m hl, h3, hl]
      push_cast; ring

theorem evalH_smul (c : ℚ) (l : List ℚ) (v s : ℝ) : evalH (smul c l) v s = c * evalH l v s := by
  induction l with
  | nil => simp [smul, evalH]
  | cons a l ih =>
    have h1 : smul c (a :: l) = (c * a) :: smul c l := rfl
    have h2 : (smul c l).length = l.length := by simp [smul]
    rw [h1, evalH, evalH, ih, h2]; push_cast; ring

theorem evalH_append_zero (l : List ℚ) (v s : ℝ) : evalH (l ++ [0]) v s = s * evalH l v s := by
  induction l with
  | nil => simp [evalH]
  | cons a l ih =>
    rw [List.cons_append, evalH, evalH, ih]
    simp only [List.length_append, List.length_cons, List.length_nil]
    ring

theorem length_pas (n : Nat) : (pas n).length = n + 1 := by
  induction n with
  | zero => rfl
  | succ n ih => simp [pas, mulVS, addH, ih]

theorem evalH_pas (n : Nat) (v s : ℝ) : evalH (pas n) v s = (v + s) ^ n := by
  induction n with
  | zero => simp [pas, evalH]
  | succ n ih =>
    rw [pas, mulVS, evalH_add _ _ (by simp), evalH_append_zero, evalH, ih]
    push_cast; ring

theorem length_hom (w : ℚ) (l : List ℚ) : (hom w l).length = l.length := by
  induction l with
  | nil => rfl
  | cons a l ih => simp [hom, addH, smul, length_pas, ih]

theorem evalH_hom (w : ℚ) (l : List ℚ) (v s : ℝ) (h : v + s = 1) : evalH (hom w l) v s = eval l (w * v) := by
  induction l with
  | nil => rfl
  | cons a l ih =>
    rw [hom, evalH_add _ _ (by simp [smul, length_pas, length_hom]), evalH_smul, evalH_pas, h, evalH, evalH_smul, ih,
      eval_cons]
    push_cast; ring

theorem evalH_nonneg (l : List ℚ) (h : l.all (fun c => decide (0 ≤ c)) = true) (v s : ℝ) (hv : 0 ≤ v) (hs : 0 ≤ s) :
    0 ≤ evalH l v s := by
  induction l with
  | nil => exact le_refl _
  | cons a l ih =>
    rw [List.all_cons, Bool.and_eq_true] at h
    have ha : (0 : ℝ) ≤ a := by exact_mod_cast of_decide_eq_true h.1
    exact add_nonneg (mul_nonneg ha (pow_nonneg hs _)) (mul_nonneg hv (ih h.2))

/-- All Bernstein coefficients on `[0, w]` are non-negative. -/
def check (w : ℚ) (l : List ℚ) : Bool := (hom w l).all fun c => decide (0 ≤ c)

theorem nonneg_of_check {w : ℚ} (hw : 0 < w) {l : List ℚ} (h : check w l = true) (u : ℝ) (h0 : 0 ≤ u) (h1 : u ≤ w) :
    0 ≤ eval l u := by
  have hw' : (0 : ℝ) < w := by exact_mod_cast hw
  have e := evalH_hom w l (u / w) (1 - u / w) (by ring)
  rw [mul_div_cancel₀ _ hw'.ne'] at e
  rw [← e]
  refine evalH_nonneg _ h _ _ (div_nonneg h0 hw'.le) ?_
  rw [sub_nonneg, div_le_one hw']
  exact h1

/-- All coefficients are non-negative. -/
def checkInf (l : List ℚ) : Bool := l.all fun c => decide (0 ≤ c)

theorem nonneg_of_checkInf {l : List ℚ} (h : checkInf l = true) (u : ℝ) (h0 : 0 ≤ u) : 0 ≤ eval l u := by
  induction l with
  | nil => exact le_refl _
  | cons a l ih =>
    rw [checkInf, List.all_cons, Bool.and_eq_true] at h
    have ha : (0 : ℝ) ≤ a := by exact_mod_cast of_decide_eq_true h.1
    exact add_nonneg ha (mul_nonneg h0 (ih h.2))

end Verif.ListPoly
