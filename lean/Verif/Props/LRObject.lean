import Verif.Model.LRObject
import Mathlib.Algebra.Order.Field.Rat
import Mathlib.Tactic.Linarith
import Mathlib.Tactic.NormNum

/-!
# Model objects: theorems
-/
set_option linter.unusedSectionVars false

namespace Verif.LRObject.Spec
variable {K : Type} [Field K]

/-- The linear prediction for one row. -/
def linear : List K → List K → K → K
  | x :: xs, c :: cs, b => x * c + linear xs cs b
  | _, _, b => b

end Verif.LRObject.Spec

namespace Verif.LRObject
open Verif.LRObject.Spec
variable {K : Type} [Field K] [LinearOrder K] [IsStrictOrderedRing K]

theorem rowDot_linear (x c : List K) (b : K) : rowDot x c + b = linear x c b := by
  induction x generalizing c with
  | nil => simp [rowDot, linear]
  | cons a x ih =>
    cases c with
    | nil => simp [rowDot, linear]
    | cons e c =>
      have := ih c
      simp only [rowDot, List.zipWith_cons_cons, List.sum_cons, linear] at this ⊢
      rw [← this]; exact add_assoc _ _ _

/-- Reading back what was set, for a bias that is zero or larger than machine epsilon; the prediction is the linear
form; a matrix of the wrong width is an error. -/
theorem set_get_predict_partial (eps : K) (coeffs : List K) (b : K) (hb : b = 0 ∨ eps < |b|)
    (o : Obj K) :
    let s := setCoeffsAndBias eps coeffs b o
    isFit s = .ok true ∧ coeffsAsVec s = .ok coeffs ∧ bias s = .ok b ∧
    (∀ x, predict eps s coeffs.length x = .ok (x.map fun r => linear r coeffs b)) ∧
    ∀ n x, n ≠ coeffs.length → predict eps s n x = .error .dimension := by
  intro s
  have key : coefficients s = .ok (some coeffs) ∧ bias s = .ok b ∧
      (s.hasBias = true ∧ eps < |b| ∨ ¬(s.hasBias = true ∧ eps < |b|) ∧ b = 0) := by
    by_cases h : eps < |b|
    · have hs : s = { coefs := some (coeffs ++ [b]), hasBias := true } := if_pos h
      refine ⟨?_, ?_, Or.inl ⟨by rw [hs], h⟩⟩
      · rw [hs]
        unfold coefficients
        cases hc : coeffs ++ [b] with
        | nil => simp at hc
        | cons a l => simp [← hc]
      · rw [hs]; simp [bias]
    · have hs : s = { coefs := some coeffs, hasBias := false } := if_neg h
      have hb0 : b = 0 := hb.resolve_right h
      refine ⟨by rw [hs]; rfl, by rw [hs, hb0]; rfl, Or.inr ⟨fun h' => h h'.2, hb0⟩⟩
  obtain ⟨h1, h2, h3⟩ := key
  refine ⟨by simp [isFit, h1], by simp [coeffsAsVec, h1], h2, fun x => ?_, fun n x hn => ?_⟩
  · unfold predict
    simp only [h1, h2, Option.getD_some, ne_eq, not_true_eq_false, if_false]
    rcases h3 with h3 | ⟨h3, h4⟩
    · rw [if_pos h3]
      simp only [rowDot_linear]
    · rw [if_neg h3]
      congr 1
      apply List.map_congr_left
      intro r _
      rw [← rowDot_linear, h4, add_zero]
  · unfold predict
    simp [h1, hn]

/-- A bias that is not zero but at most machine epsilon is lost. -/
theorem set_bias_lost (eps : K) (coeffs : List K) (b : K) (hb : b ≠ 0) (hle : |b| ≤ eps) (o : Obj K) :
    bias (setCoeffsAndBias eps coeffs b o) = .ok 0 ∧ (0 : K) ≠ b := by
  constructor
  · unfold setCoeffsAndBias
    rw [if_neg (not_lt.2 hle)]
    rfl
  · exact hb.symm

/-- The Python methods `LR.bias()` and `OnlineLR.bias()` never return a number. -/
theorem py_bias_none (o : Obj K) (b : K) : pyBias o ≠ .ok (some b) := by
  unfold pyBias
  cases bias o <;> simp

/-- `ElasticNet.bias()` gives back the bias. -/
theorem py_bias_en (eps : K) (coeffs : List K) (b : K) (hb : b = 0 ∨ eps < |b|) (o : Obj K) :
    pyBiasEN (setCoeffsAndBias eps coeffs b o) = .ok (some b) := by
  have := (set_get_predict_partial eps coeffs b hb o).2.2.1
  unfold pyBiasEN
  rw [show bias (setCoeffsAndBias eps coeffs b o) = .ok b from this]

/-- An object created with a bias and not fitted yet crashes on every read, even `is_fit()`. -/
theorem unfitted_bias_panics (eps : K) (n : Nat) (x : List (List K)) :
    isFit (new true : Obj K) = .error .panic ∧ coeffsAsVec (new true : Obj K) = .error .panic ∧
    bias (new true : Obj K) = .error .panic ∧ predict eps (new true) n x = .error .panic := ⟨rfl, rfl, rfl, rfl⟩

/-- Without a bias an unfitted object reports so. -/
theorem unfitted_no_bias (eps : K) (n : Nat) (x : List (List K)) :
    isFit (new false : Obj K) = .ok false ∧ coeffsAsVec (new false : Obj K) = .error .notFit ∧
    bias (new false : Obj K) = .ok 0 ∧
    predict eps (new false) n x = .error (if n = 0 then .notFit else .dimension) := by
  refine ⟨rfl, rfl, rfl, ?_⟩
  by_cases h : n = 0
  · subst h; rfl
  · simp [predict, coefficients, new, h]

/-- The calls that change an object. -/
inductive Call (K : Type)
  | set (coeffs : List K) (bias : K)
  | fit (ncols : Nat) (x : List (List K)) (y : List K)

/-- Run one call; a failed fit leaves the object as it was. -/
def step (eps : K) (solve : List (List K) → List K → Bool → List K) (wide : Bool) (o : Obj K) : Call K → Obj K
  | .set c b => setCoeffsAndBias eps c b o
  | .fit n x y => match fit solve wide n x y o with
    | .ok o' => o'
    | .error _ => o

theorem step_inv (eps : K) (solve : List (List K) → List K → Bool → List K) (hsolve : ∀ x y, solve x y true ≠ [])
    (wide : Bool) (calls : List (Call K)) : ∀ o : Obj K,
    (o = new true ∨ (o.hasBias = true → ∃ l, o.coefs = some l ∧ l ≠ [])) →
    (calls.foldl (step eps solve wide) o = new true ∨
      ((calls.foldl (step eps solve wide) o).hasBias = true →
        ∃ l, (calls.foldl (step eps solve wide) o).coefs = some l ∧ l ≠ [])) := by
  induction calls with
  | nil => intro o h; exact h
  | cons c calls ih =>
    intro o h
    rw [List.foldl_cons]
    apply ih
    cases c with
    | set c b =>
      right
      simp only [step, setCoeffsAndBias]
      split
      · intro _; exact ⟨_, rfl, by simp⟩
      · intro h; cases h
    | fit n x y =>
      simp only [step]
      cases hq : fit solve wide n x y o with
      | error e => exact h
      | ok o' =>
        right
        unfold fit at hq
        split at hq
        · cases hq
        · split at hq
          · cases hq
          · cases hq
            intro hb
            simp only at hb ⊢
            refine ⟨_, rfl, ?_⟩
            rw [hb]
            exact hsolve _ _

/-- Over every history of calls on a new object: either no call has succeeded yet on an object with a bias (see
`unfitted_bias_panics`), or no read crashes, and a prediction is the linear form in the coefficients and bias that
the getters report, as long as the bias is not a non-zero number of size at most machine epsilon.  The solver returns
at least the bias when there is one. -/
theorem history_no_panic_partial (eps : K) (solve : List (List K) → List K → Bool → List K)
    (hsolve : ∀ x y, solve x y true ≠ []) (wide hb : Bool) (calls : List (Call K)) :
    let s := calls.foldl (step eps solve wide) (new hb)
    s = new true ∨
    ((∃ b, isFit s = .ok b) ∧ (∃ b, bias s = .ok b) ∧
      ∀ n x, predict eps s n x ≠ .error .panic ∧
        ∀ c b, coeffsAsVec s = .ok c → bias s = .ok b → (b = 0 ∨ eps < |b|) →
          (n = c.length → predict eps s n x = .ok (x.map fun r => linear r c b)) ∧
          (n ≠ c.length → predict eps s n x = .error .dimension)) := by
  intro s
  have h0 : (new hb : Obj K) = new true ∨ ((new hb : Obj K).hasBias = true → ∃ l, (new hb : Obj K).coefs = some l ∧ l ≠ []) := by
    cases hb
    · right; intro h; cases h
    · left; rfl
  rcases step_inv eps solve hsolve wide calls (new hb) h0 with h | h
  · left; exact h
  right
  have hc : ∃ c, coefficients s = .ok c := by
    unfold coefficients
    split
    · rename_i hbs
      obtain ⟨l, hl, hne⟩ := h hbs
      rw [show s.coefs = some l from hl]
      cases l with
      | nil => exact absurd rfl hne
      | cons a l => exact ⟨_, rfl⟩
    · exact ⟨_, rfl⟩
  have hbi : ∃ b, bias s = .ok b := by
    unfold bias
    split
    · rename_i hbs
      obtain ⟨l, hl, hne⟩ := h hbs
      rw [show s.coefs = some l from hl]
      cases hq : l.getLast? with
      | none => exact absurd (List.getLast?_eq_none_iff.1 hq) hne
      | some b => exact ⟨b, by simp [hq]⟩
    · exact ⟨_, rfl⟩
  obtain ⟨c, hc⟩ := hc
  obtain ⟨b, hbi⟩ := hbi
  have hb0 : s.hasBias = false → b = 0 := by
    intro h
    unfold bias at hbi
    rw [h] at hbi
    simpa using hbi.symm
  refine ⟨⟨c.isSome, by simp [isFit, hc]⟩, ⟨b, hbi⟩, fun n x => ⟨?_, ?_⟩⟩
  · unfold predict
    simp only [hc, hbi]
    split
    · simp
    · cases c with
      | none => simp
      | some c => simp only; split <;> simp
  · intro c' b' h1 h2 h3
    rw [hbi] at h2
    cases h2
    unfold coeffsAsVec at h1
    rw [hc] at h1
    cases c with
    | none => cases h1
    | some c =>
      cases h1
      constructor
      · rintro rfl
        unfold predict
        simp only [hc, hbi, Option.getD_some, ne_eq, not_true_eq_false, if_false]
        split
        · simp only [rowDot_linear]
        · rename_i hno
          have hz : b = 0 := by
            cases hs : s.hasBias with
            | false => exact hb0 hs
            | true => exact h3.resolve_right fun h => hno ⟨hs, h⟩
          congr 1
          apply List.map_congr_left
          intro r _
          rw [← rowDot_linear, hz, add_zero]
      · intro hn
        unfold predict
        simp [hc, hn]

/-- Rebuilding an `OnlineLR` from coefficients and inverse gives back the same object when there is no bias. -/
theorem online_rebuild_partial (eps : K) (heps : 0 < eps) (coeffs : List K) (inv : List (List K)) :
    fromCoeffsBiasInverse eps coeffs 0 coeffs.length inv =
      .ok { obj := { coefs := some coeffs, hasBias := false }, inv := inv } := by
  unfold fromCoeffsBiasInverse setCoeffsBiasInverse setCoeffsAndBias
  rw [if_neg (by simp), if_neg (by simpa using heps.le)]

/-- The state of an `OnlineLR` with a bias cannot be restored: its inverse has one more column than there are
coefficients, and that is rejected. -/
theorem online_rebuild_bias_rejected (eps : K) (coeffs : List K) (b : K) (inv : List (List K)) :
    fromCoeffsBiasInverse eps coeffs b (coeffs.length + 1) inv = .error .dimension := by
  unfold fromCoeffsBiasInverse setCoeffsBiasInverse
  rw [if_pos (by omega)]

/-- The Rust constructor `LR::from_values` takes the last coefficient for the bias (the Python class does not use
it). -/
theorem rust_from_values_wrong :
    coeffsAsVec (rustFromValues (1 / 1000 : ℚ) [2, 3] 5) = .ok [2] ∧
    bias (rustFromValues (1 / 1000 : ℚ) [2, 3] 5) = .ok 3 := by decide +kernel

/-! ## Examples -/

example : predict (1 / 1000 : ℚ) (fromValues (1 / 1000) [2, 3] 5) 2 [[1, 1], [0, 2]] = .ok [10, 11] := by
  have := (set_get_predict_partial (1 / 1000 : ℚ) [2, 3] 5 (Or.inr (by decide +kernel)) (new true)).2.2.2.1
    [[1, 1], [0, 2]]
  unfold fromValues
  have h : (decide ((5 : ℚ) ≠ 0)) = true := by decide +kernel
  rw [h]
  refine this.trans ?_
  decide +kernel

example : bias (setCoeffsAndBias (1 / 1000) [2] (1 / 2000 : ℚ) (new false)) = .ok 0 :=
  (set_bias_lost (1 / 1000 : ℚ) [2] (1 / 2000) (by norm_num) (by decide +kernel) _).1

/-- A solver for the examples. -/
def exSolver (x : List (List ℚ)) (_ : List ℚ) (b : Bool) : List ℚ := (x.headD []) ++ (if b then [7] else [])

example : predict (1 / 1000) ([Call.fit 1 [[2]] [3], Call.fit 1 [] []].foldl (step (1 / 1000) exSolver false) (new true)) 1 [[10]]
    = .ok [27] := by
  have h := history_no_panic_partial (1 / 1000) exSolver (by intro x y; simp [exSolver]) false true
    [Call.fit 1 [[2]] [3], Call.fit 1 [] []]
  rcases h with h | h
  · revert h; decide +kernel
  · exact ((h.2.2 1 [[10]]).2 [2] 7 (by decide +kernel) (by decide +kernel) (Or.inr (by decide +kernel))).1 rfl |>.trans
      (by decide +kernel)

example : fromCoeffsBiasInverse (1 / 1000 : ℚ) [1, 2] 0 2 [[1, 0], [0, 1]] =
    .ok { obj := { coefs := some [1, 2], hasBias := false }, inv := [[1, 0], [0, 1]] } :=
  online_rebuild_partial _ (by norm_num) _ _

example : fromCoeffsBiasInverse (1 / 1000 : ℚ) [1] 4 2 [[1, 0], [0, 1]] = .error .dimension :=
  online_rebuild_bias_rejected _ [1] 4 _

end Verif.LRObject
