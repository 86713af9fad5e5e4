import Mathlib.Tactic.FieldSimp
import Verif.Lemmas.ListPoly
import Verif.Model.LnGamma

/-!
# The polynomials of the Lanczos approximation
-/

namespace Verif.LnGamma
open ListPoly

/-! ## The polynomials -/

/-- The linear factor `t + h + j`. -/
def fac (h : ℚ) (j : ℕ) : List ℚ := [h + j, 1]

/-- The product of the linear factors of a list of indices. -/
def facs (h : ℚ) (js : List ℕ) : List ℚ := js.foldr (fun j p => mul (fac h j) p) [1]

/-- The numerator of the series at `t + h`. -/
def poly (h : ℚ) : List ℚ :=
  add (smul (dk.headD 0) (facs h (List.range 10)))
    ((List.range 10).foldr (fun k p => add (smul (dk.getD (k + 1) 0) (facs h ((List.range 10).erase k))) p) [])

def P0 : List ℚ := poly (1 / 2)
def P1 : List ℚ := poly (3 / 2)

/-- `p p'' - p' ^ 2` -/
def curv (p : List ℚ) : List ℚ := add (mul p (der (der p))) (smul (-1) (mul (der p) (der p)))

def w : List ℚ := [21 / 2, 1]
def u : List ℚ := [1 + gammaR, 1]
def v : List ℚ := [gammaR, 1]
def sq (p : List ℚ) : List ℚ := mul p p

def den : List ℚ := mul (mul (sq P0) (sq P1)) (mul (sq w) (mul (sq u) (sq v)))
def num : List ℚ :=
  add (mul (mul (curv P1) (sq P0)) (mul (sq w) (mul (sq u) (sq v))))
  (add (smul (-1) (mul (mul (curv P0) (sq P1)) (mul (sq w) (mul (sq u) (sq v)))))
  (add (mul (mul (sq P0) (sq P1)) (mul (sq u) (sq v)))
  (add (mul (mul (sq P0) (sq P1)) (mul (sq w) (mul (add u [gammaR]) (sq v))))
    (smul (-1) (mul (mul (sq P0) (sq P1)) (mul (sq w) (mul (sq u) (add v [gammaR]))))))))

def shift4 : List ℚ := sq (sq [20, 1])

def nonneg (l : List ℚ) : Bool := l.all fun a => decide (0 ≤ a)

theorem eval_nonneg {l : List ℚ} (h : nonneg l = true) {t : ℝ} (ht : 0 ≤ t) : 0 ≤ eval l t := by
  induction l with
  | nil => simp
  | cons a l ih =>
    simp only [nonneg, List.all_cons, Bool.and_eq_true, decide_eq_true_eq] at h
    rw [eval_cons]
    have := ih (by simpa [nonneg] using h.2)
    have ha : (0 : ℝ) ≤ a := by exact_mod_cast h.1
    positivity

theorem cert : nonneg P0 = true ∧ nonneg P1 = true ∧ 0 < P0.headD 0 ∧ 0 < P1.headD 0 ∧
    nonneg (add (smul (1 / 10 ^ 14) den) (mul num shift4)) = true ∧
    nonneg (add (smul (1 / 10 ^ 14) den) (smul (-1) (mul num shift4))) = true := by
  decide +kernel

/-! ## The series -/

/-- The sum of the series at `x`. -/
noncomputable def S (x : ℝ) : ℝ := series fun k => x + k - 1

/-- The product `x (x + 1) ... (x + 9)`. -/
noncomputable def Q (x : ℝ) : ℝ := x * (x+1) * (x+2) * (x+3) * (x+4) * (x+5) * (x+6) * (x+7) * (x+8) * (x+9)

theorem S_eq (x : ℝ) : S x = ((dk.getD 0 0 : ℚ) : ℝ) + (dk.getD 1 0 : ℚ) / x + (dk.getD 2 0 : ℚ) / (x + 1) + (dk.getD 3 0 : ℚ) / (x + 2) +
    (dk.getD 4 0 : ℚ) / (x + 3) + (dk.getD 5 0 : ℚ) / (x + 4) + (dk.getD 6 0 : ℚ) / (x + 5) + (dk.getD 7 0 : ℚ) / (x + 6) +
    (dk.getD 8 0 : ℚ) / (x + 7) + (dk.getD 9 0 : ℚ) / (x + 8) + (dk.getD 10 0 : ℚ) / (x + 9) := by
  have e : ∀ k : ℕ, x + ((k + 1 : ℕ) : ℝ) - 1 = x + k := by intro k; push_cast; ring
  unfold S series dk
  simp only [List.zipIdx_cons, List.zipIdx_nil, List.drop_succ_cons, List.drop_zero, List.foldl_cons, List.foldl_nil,
    List.headD_cons, List.getD_cons_zero, List.getD_cons_succ, Nat.zero_add]
  norm_num only [e]
  ring_nf

theorem eval_fac (h : ℚ) (j : ℕ) (t : ℝ) : eval (fac h j) t = t + h + j := by
  simp only [fac, eval_cons, eval_nil]
  push_cast
  ring

theorem eval_facs (h : ℚ) (js : List ℕ) (t : ℝ) : eval (facs h js) t = (js.map fun j : ℕ => t + (h : ℝ) + (j : ℝ)).prod := by
  induction js with
  | nil => simp [facs, eval_cons]
  | cons j js ih =>
    have : facs h (j :: js) = mul (fac h j) (facs h js) := rfl
    rw [this, eval_mul, ih, eval_fac, List.map_cons, List.prod_cons]

theorem eval_poly (h : ℚ) (t : ℝ) (ht : 0 < t + h) : eval (poly h) t = S (t + h) * Q (t + h) := by
  have e0 : [0, 1, 2, 3, 4, 5, 6, 7, 8, 9].erase 0 = [1, 2, 3, 4, 5, 6, 7, 8, 9] := by decide
  have e1 : [0, 1, 2, 3, 4, 5, 6, 7, 8, 9].erase 1 = [0, 2, 3, 4, 5, 6, 7, 8, 9] := by decide
  have e2 : [0, 1, 2, 3, 4, 5, 6, 7, 8, 9].erase 2 = [0, 1, 3, 4, 5, 6, 7, 8, 9] := by decide
  have e3 : [0, 1, 2, 3, 4, 5, 6, 7, 8, 9].erase 3 = [0, 1, 2, 4, 5, 6, 7, 8, 9] := by decide
  have e4 : [0, 1, 2, 3, 4, 5, 6, 7, 8, 9].erase 4 = [0, 1, 2, 3, 5, 6, 7, 8, 9] := by decide
  have e5 : [0, 1, 2, 3, 4, 5, 6, 7, 8, 9].erase 5 = [0, 1, 2, 3, 4, 6, 7, 8, 9] := by decide
  have e6 : [0, 1, 2, 3, 4, 5, 6, 7, 8, 9].erase 6 = [0, 1, 2, 3, 4, 5, 7, 8, 9] := by decide
  have e7 : [0, 1, 2, 3, 4, 5, 6, 7, 8, 9].erase 7 = [0, 1, 2, 3, 4, 5, 6, 8, 9] := by decide
  have e8 : [0, 1, 2, 3, 4, 5, 6, 7, 8, 9].erase 8 = [0, 1, 2, 3, 4, 5, 6, 7, 9] := by decide
  have e9 : [0, 1, 2, 3, 4, 5, 6, 7, 8, 9].erase 9 = [0, 1, 2, 3, 4, 5, 6, 7, 8] := by decide
  rw [S_eq]
  unfold poly Q
  have hr : List.range 10 = [0, 1, 2, 3, 4, 5, 6, 7, 8, 9] := rfl
  have hd : dk.headD 0 = dk.getD 0 0 := rfl
  simp only [eval_add, eval_smul, hr, List.foldr_cons, List.foldr_nil, eval_nil, eval_facs, hd, e0, e1, e2, e3, e4, e5, e6, e7, e8, e9,
    List.map_cons, List.map_nil, List.prod_cons, List.prod_nil, Nat.zero_add, Nat.reduceAdd]
  generalize dk.getD 0 0 = d0
  generalize dk.getD 1 0 = d1
  generalize dk.getD 2 0 = d2
  generalize dk.getD 3 0 = d3
  generalize dk.getD 4 0 = d4
  generalize dk.getD 5 0 = d5
  generalize dk.getD 6 0 = d6
  generalize dk.getD 7 0 = d7
  generalize dk.getD 8 0 = d8
  generalize dk.getD 9 0 = d9
  generalize dk.getD 10 0 = d10
  generalize t + (h : ℝ) = x at ht ⊢
  push_cast
  have h1 : x + 1 ≠ 0 := by positivity
  have h2 : x + 2 ≠ 0 := by positivity
  have h3 : x + 3 ≠ 0 := by positivity
  have h4 : x + 4 ≠ 0 := by positivity
  have h5 : x + 5 ≠ 0 := by positivity
  have h6 : x + 6 ≠ 0 := by positivity
  have h7 : x + 7 ≠ 0 := by positivity
  have h8 : x + 8 ≠ 0 := by positivity
  have h9 : x + 9 ≠ 0 := by positivity
  have h0 : x ≠ 0 := ht.ne'
  set q := x * (x + 1) * (x + 2) * (x + 3) * (x + 4) * (x + 5) * (x + 6) * (x + 7) * (x + 8) * (x + 9) with hq
  have q0 : (d1 : ℝ) / x * q = d1 * ((x + 1) * (x + 2) * (x + 3) * (x + 4) * (x + 5) * (x + 6) * (x + 7) * (x + 8) * (x + 9)) := by rw [hq]; field_simp
  have q1 : (d2 : ℝ) / (x + 1) * q = d2 * (x * (x + 2) * (x + 3) * (x + 4) * (x + 5) * (x + 6) * (x + 7) * (x + 8) * (x + 9)) := by rw [hq]; field_simp
  have q2 : (d3 : ℝ) / (x + 2) * q = d3 * (x * (x + 1) * (x + 3) * (x + 4) * (x + 5) * (x + 6) * (x + 7) * (x + 8) * (x + 9)) := by rw [hq]; field_simp
  have q3 : (d4 : ℝ) / (x + 3) * q = d4 * (x * (x + 1) * (x + 2) * (x + 4) * (x + 5) * (x + 6) * (x + 7) * (x + 8) * (x + 9)) := by rw [hq]; field_simp
  have q4 : (d5 : ℝ) / (x + 4) * q = d5 * (x * (x + 1) * (x + 2) * (x + 3) * (x + 5) * (x + 6) * (x + 7) * (x + 8) * (x + 9)) := by rw [hq]; field_simp
  have q5 : (d6 : ℝ) / (x + 5) * q = d6 * (x * (x + 1) * (x + 2) * (x + 3) * (x + 4) * (x + 6) * (x + 7) * (x + 8) * (x + 9)) := by rw [hq]; field_simp
  have q6 : (d7 : ℝ) / (x + 6) * q = d7 * (x * (x + 1) * (x + 2) * (x + 3) * (x + 4) * (x + 5) * (x + 7) * (x + 8) * (x + 9)) := by rw [hq]; field_simp
  have q7 : (d8 : ℝ) / (x + 7) * q = d8 * (x * (x + 1) * (x + 2) * (x + 3) * (x + 4) * (x + 5) * (x + 6) * (x + 8) * (x + 9)) := by rw [hq]; field_simp
  have q8 : (d9 : ℝ) / (x + 8) * q = d9 * (x * (x + 1) * (x + 2) * (x + 3) * (x + 4) * (x + 5) * (x + 6) * (x + 7) * (x + 9)) := by rw [hq]; field_simp
  have q9 : (d10 : ℝ) / (x + 9) * q = d10 * (x * (x + 1) * (x + 2) * (x + 3) * (x + 4) * (x + 5) * (x + 6) * (x + 7) * (x + 8)) := by rw [hq]; field_simp
  simp only [add_mul, q0, q1, q2, q3, q4, q5, q6, q7, q8, q9]
  rw [hq]
  ring

end Verif.LnGamma
