import Verif.Props.TsChange
import Verif.Props.LinReg
import Mathlib.Analysis.SpecialFunctions.Sqrt

/-!
# Complexity estimate and autoregressive coefficients
-/

namespace Verif.TsFeat
open Verif.Pl Verif.Confusion
open Spec
set_option linter.unusedSectionVars false

/-! ## Complexity estimate -/

theorem cid_vals (c : Col ℝ) :
    vals (map2 (· - ·) c (lead 1 c)) =
      vals ((List.range c.length).map fun i => opt2 (· - ·) (get c i) (get c (i + 1))) := by
  have hA := map2_length (· - ·) c (lead 1 c) (lead_length 1 c)
  rw [col_range (map2 (· - ·) c (lead 1 c)), hA]
  congr 1
  apply List.map_congr_left
  intro i _
  rw [get_map2 _ _ _ (lead_length 1 c), get_lead]

theorem cid_sq (c : Col ℝ) : cidCe c = √(((vals (map2 (· - ·) c (lead 1 c))).map fun v => v ^ 2).sum) := by
  unfold cidCe
  rw [← (abs_energy (map2 (· - ·) c (lead 1 c))).1]
  rfl

/-- On a complete series the estimate is the root of the sum of the squared steps. -/
theorem cid_value (x : List ℝ) :
    cidCe (x.map some) = √((tab (x.length - 1) fun i => (at' x (i + 1) - at' x i) ^ 2).sum) := by
  rw [cid_sq, cid_vals, List.length_map]
  rw [vals_range_some x.length (x.length - 1) (by omega) _ (fun i => at' x i - at' x (i + 1)) ?_ ?_]
  · congr 2
    unfold tab
    rw [List.map_map]
    apply List.map_congr_left
    intro i _
    simp only [Function.comp_apply]; ring
  · intro i hi
    rw [get_some x _ (by omega), get_some x _ (by omega)]
    rfl
  · intro i h1 _
    rw [get_ge (x.map some) (i + 1) (by simp; omega)]
    cases get (x.map some) i <;> rfl

example : cidCe ([0, 3, 7].map some) = 5 := by
  rw [cid_value]
  have : (tab ([(0 : ℝ), 3, 7].length - 1) fun i => (at' [0, 3, 7] (i + 1) - at' [(0 : ℝ), 3, 7] i) ^ 2).sum =
      5 ^ 2 := by
    norm_num [tab, at', List.range_succ]
  rw [this, Real.sqrt_sq (by norm_num)]

/-- The estimate of a complete series is 0 exactly if the series is constant. -/
theorem cid_zero_iff (x : List ℝ) : cidCe (x.map some) = 0 ↔ Const x := by
  rw [cid_value]
  have hnn : ∀ v ∈ tab (x.length - 1) fun i => (at' x (i + 1) - at' x i) ^ 2, (0 : ℝ) ≤ v := by
    intro v hv
    obtain ⟨i, _, rfl⟩ := List.mem_map.1 hv
    positivity
  rw [Real.sqrt_eq_zero (List.sum_nonneg hnn)]
  constructor
  · intro h0
    have hall : ∀ i, i + 1 < x.length → at' x (i + 1) = at' x i := by
      intro i hi
      have hle := List.single_le_sum hnn _ (List.mem_map.2 ⟨i, List.mem_range.2 (show i < x.length - 1 by omega), rfl⟩)
      rw [h0] at hle
      have := pow_eq_zero_iff (two_ne_zero) |>.1 (le_antisymm hle (by positivity))
      linarith
    have h0' : ∀ n, n < x.length → at' x n = at' x 0 := by
      intro n
      induction n with
      | zero => intro _; rfl
      | succ n ih => intro hn; rw [hall n hn, ih (by omega)]
    intro a ha b hb
    obtain ⟨i, hi, rfl⟩ := List.getElem_of_mem ha
    obtain ⟨j, hj, rfl⟩ := List.getElem_of_mem hb
    have h1 := h0' i hi
    have h2 := h0' j hj
    simp only [at', List.getD_eq_getElem?_getD, List.getElem?_eq_getElem hi, List.getElem?_eq_getElem hj,
      Option.getD_some] at h1 h2
    rw [h1, h2]
  · intro hc
    apply List.sum_eq_zero
    intro v hv
    obtain ⟨i, hi, rfl⟩ := List.mem_map.1 hv
    rw [List.mem_range] at hi
    have h1 : i + 1 < x.length := by omega
    have h2 : i < x.length := by omega
    have : at' x (i + 1) = at' x i := by
      simp only [at', List.getD_eq_getElem?_getD, List.getElem?_eq_getElem h1, List.getElem?_eq_getElem h2,
        Option.getD_some]
      exact hc _ (List.getElem_mem h1) _ (List.getElem_mem h2)
    rw [this]; ring

example : Const [(2 : ℝ), 2, 2] := by intro a ha b hb; simp at ha hb; rw [ha, hb]

theorem cid_steps_affine (c : Col ℝ) (a b : ℝ) :
    vals (map2 (· - ·) (map1 (fun v => a * v + b) c) (lead 1 (map1 (fun v => a * v + b) c))) =
      (vals (map2 (· - ·) c (lead 1 c))).map fun v => a * v := by
  rw [cid_vals, cid_vals, ← vals_map1']
  have hlen : (map1 (fun v => a * v + b) c).length = c.length := by simp [map1]
  rw [hlen]
  unfold map1
  rw [List.map_map]
  congr 1
  apply List.map_congr_left
  intro i _
  rw [get_map _ c i rfl, get_map _ c (i + 1) rfl]
  simp only [Function.comp_apply]
  cases get c i <;> cases get c (i + 1) <;> simp [opt2]
  ring

/-- Adding a constant changes nothing, a change of unit scales the estimate; nulls included. -/
theorem cid_affine (c : Col ℝ) (a b : ℝ) : cidCe (map1 (fun v => a * v + b) c) = |a| * cidCe c := by
  rw [cid_sq, cid_sq, cid_steps_affine, List.map_map]
  have : (List.map ((fun v => v ^ 2) ∘ fun v => a * v) (vals (map2 (· - ·) c (lead 1 c)))).sum =
      a ^ 2 * ((vals (map2 (· - ·) c (lead 1 c))).map fun v => v ^ 2).sum := by
    generalize vals (map2 (· - ·) c (lead 1 c)) = l
    induction l with
    | nil => simp
    | cons x l ih =>
      simp only [List.map_cons, List.sum_cons, ih, Function.comp_apply]; ring
  rw [this, Real.sqrt_mul (by positivity), Real.sqrt_sq_eq_abs]

example : cidCe (map1 (fun v => -2 * v + 7) [some 1, none, some 3]) = 2 * cidCe [some 1, none, some 3] := by
  rw [cid_affine]; norm_num

/-- Reversing time changes nothing. -/
theorem cid_reverse (c : Col ℝ) : cidCe c.reverse = cidCe c := by
  rw [cid_sq, cid_sq, cid_vals, cid_vals, List.length_reverse]
  have := window2_reverse c 1 (opt2 (· - ·)) (by intro a; cases a <;> rfl) (by intro b; cases b <;> rfl)
  rw [this, List.map_reverse, List.sum_reverse]
  have h2 : (fun i => opt2 (· - ·) (get c (i + 1)) (get c i)) =
      fun i => (opt2 (· - ·) (get c i) (get c (i + 1))).map fun v => -v := by
    funext i
    cases get c i <;> cases get c (i + 1) <;> simp [opt2]
  rw [h2]
  have h3 : ((List.range c.length).map fun i => (opt2 (· - ·) (get c i) (get c (i + 1))).map fun v => -v) =
      map1 (fun v => -v) ((List.range c.length).map fun i => opt2 (· - ·) (get c i) (get c (i + 1))) := by
    rw [map1, List.map_map]; rfl
  rw [h3, vals_map1', List.map_map]
  congr 2
  apply List.map_congr_left
  intro v _
  simp

example : cidCe [some 1, none, some 3, some 4] = cidCe [some 4, some 3, none, some 1] :=
  (cid_reverse [some 4, some 3, none, some 1])

theorem var1_affine (c : Col ℝ) (a b : ℝ) :
    TTest.var1 (map1 (fun v => a * v + b) c) = (TTest.var1 c).map fun v => a ^ 2 * v := by
  have hcnt : Pl.count (map1 (fun v => a * v + b) c) = Pl.count c := by simp [Pl.count, vals_map1']
  unfold TTest.var1
  rw [hcnt]
  by_cases h : Pl.count c < 2
  · simp [h]
  · rw [if_neg h, if_neg h, Option.map_some]
    have hne : (Pl.count c : ℝ) ≠ 0 := by
      rw [Nat.cast_ne_zero]; omega
    have hs : Pl.sum (map1 (fun v => a * v + b) c) = a * Pl.sum c + Pl.count c * b := by
      unfold Pl.sum Pl.count
      rw [vals_map1', sum_affine]
    have hm : Pl.sum (map1 (fun v => a * v + b) c) / (Pl.count c : ℝ) = a * (Pl.sum c / Pl.count c) + b := by
      rw [hs]; field_simp
    simp only [hm, vals_map1', List.map_map]
    congr 1
    rw [← mul_div_assoc (a ^ 2)]
    refine congrArg (· / ((Pl.count c : ℝ) - 1)) ?_
    generalize Pl.sum c / (Pl.count c : ℝ) = m
    generalize vals c = l
    induction l with
    | nil => simp
    | cons x l ih => simp only [List.map_cons, List.sum_cons, ih, Function.comp_apply]; ring

/-- With normalization the estimate depends neither on the origin nor on the unit of the measurements. -/
theorem cid_norm_affine (c : Col ℝ) (a b : ℝ) (ha : a ≠ 0) :
    cidCeNorm (map1 (fun v => a * v + b) c) = cidCeNorm c := by
  unfold cidCeNorm
  rw [var1_affine, cid_steps_affine, centered_affine]
  cases TTest.var1 c with
  | none => rfl
  | some v =>
    simp only [Option.map_some, Option.getD_some, List.isEmpty_map]
    by_cases hv : v = 0
    · simp [hv]
    · rw [if_neg hv, if_neg (by positivity)]
      congr 1
      rw [Real.sqrt_mul (by positivity), Real.sqrt_sq_eq_abs]
      have h1 : map1 (fun d => d / (|a| * √v)) (map1 (fun v => a * v) (centered c)) =
          map1 (fun d => (a / |a|) * d + 0) (map1 (fun d => d / √v) (centered c)) := by
        simp only [map1, List.map_map]
        apply List.map_congr_left
        intro x _
        cases x with
        | none => rfl
        | some x =>
          simp only [Function.comp_apply, Option.map_some, add_zero, Option.some.injEq]
          rw [div_mul_div_comm]
      rw [h1, cid_affine, abs_div, abs_abs, div_self (by positivity), one_mul]

example : cidCeNorm (map1 (fun v => 3 * v + 1) [some 1, none, some 3]) = cidCeNorm [some 1, none, some 3] :=
  cid_norm_affine _ 3 1 (by norm_num)

/-! ## Autoregressive coefficients -/

section ar
variable {K : Type} [Field K] [LinearOrder K]

/-- The regression rows of a complete series: for every position `i` from `l` on, the `l` previous values, most
recent first, with the value itself as target. -/
theorem ar_rows (x : List K) (l : ℕ) :
    arRows (x.map some) l = (List.range (x.length - l)).map fun i =>
      ((fun j : Fin l => at' x (i + l - 1 - j)), fun _ => at' x (i + l)) := by
  unfold arRows
  rw [List.length_map]
  apply List.map_congr_left
  intro i hi
  rw [List.mem_range] at hi
  have hdrop : ∀ (c : Col K), (c.drop l).getD i none = get c (l + i) := by
    intro c; simp [get]
  have hlen : (List.map (fun i => List.drop l (lag (i + 1) (x.map some))) (List.range l)).length = l := by simp
  unfold toRow frameRow arColumns
  ext j
  · simp only [List.map_append, List.map_map, List.map_cons, List.map_nil]
    rw [List.getD_eq_getElem?_getD, List.getElem?_append_left (by simp), ← List.getD_eq_getElem?_getD]
    have : (List.map ((fun c : Col K => c.getD i none) ∘ fun i => List.drop l (lag (i + 1) (x.map some)))
        (List.range l)).getD (j : ℕ) none = get (lag (j + 1) (x.map some)) (l + i) := by
      rw [List.getD_eq_getElem?_getD, List.getElem?_map, List.getElem?_range j.2]
      simp only [Option.map_some, Function.comp_apply, Option.getD_some]
      exact hdrop _
    rw [this, get_lag _ _ _ (by simp; omega), if_neg (by omega), get_some x _ (by omega)]
    simp only [Option.getD_some, at']
    congr 1; omega
  · simp only [List.map_append, List.map_map, List.map_cons, List.map_nil]
    rw [List.getD_eq_getElem?_getD, List.getElem?_append_right (by simp), ← List.getD_eq_getElem?_getD]
    simp only [List.length_map, List.length_range, Nat.sub_self, List.getD_cons_zero]
    rw [hdrop, get_some x _ (by omega)]
    simp [at', Nat.add_comm]

example : (arRows ([1, 2, 3, 5].map (some : ℚ → Option ℚ)) 2).map (fun r => (r.1 0, r.1 1, r.2 0)) =
    [(2, 1, 3), (3, 2, 5)] := by decide +kernel

/-- The rows with a plain target. -/
abbrev arData (x : List K) (l : ℕ) : List ((Fin l → K) × K) :=
  (List.range (x.length - l)).map fun i => ((fun j : Fin l => at' x (i + l - 1 - j)), at' x (i + l))

theorem arData_eq (x : List K) (l : ℕ) :
    (arRows (x.map some) l).map (fun r => (r.1, r.2 0)) = arData x l := by
  rw [ar_rows, List.map_map]; rfl

variable [IsStrictOrderedRing K]

/-- The coefficients minimise the sum of the squared one-step prediction errors
`x(i) - Σ b(j) x(i - 1 - j)`, and only they do, if the lagged values have full rank; a lag of 0 is an error. -/
theorem ar_optimal (S : LinReg.Solver K) (x : List K) (l : ℕ) (hl : 0 < l)
    (h : LinReg.Spec.FullRank (arData x l)) :
    ∃ B, arCoeffs S (x.map some) l = some B ∧ ∀ b : Fin l → K,
      LinReg.Spec.sse (arData x l) (fun j => B j 0) ≤ LinReg.Spec.sse (arData x l) b ∧
      (LinReg.Spec.sse (arData x l) b = LinReg.Spec.sse (arData x l) (fun j => B j 0) → b = fun j => B j 0) := by
  refine ⟨_, if_neg hl.ne', ?_⟩
  intro b
  have := LinReg.lin_reg_optimal S (arRows (x.map some) l) 0 le_rfl "qr" 0 (.inr (by rw [arData_eq]; exact h)) b
  rw [arData_eq] at this
  simpa [LinReg.Spec.ridge] using this

theorem ar_lag_zero (S : LinReg.Solver K) (c : Col K) : arCoeffs S c 0 = none ∧ arCoeffsBias S c 0 = none :=
  ⟨rfl, rfl⟩

/-- A series that follows an autoregression exactly gives back its coefficients: `b(0)` belongs to the previous
value, `b(1)` to the one before, and so on. -/
theorem ar_recovers (S : LinReg.Solver K) (x : List K) (l : ℕ) (hl : 0 < l) (b : Fin l → K)
    (hx : ∀ i, i + l < x.length → at' x (i + l) = ∑ j : Fin l, at' x (i + l - 1 - j) * b j)
    (h : LinReg.Spec.FullRank (arData x l)) :
    ∃ B, arCoeffs S (x.map some) l = some B ∧ ∀ j, B j 0 = b j := by
  obtain ⟨B, hB, hopt⟩ := ar_optimal S x l hl h
  refine ⟨B, hB, ?_⟩
  have hz : LinReg.Spec.sse (arData x l) b = 0 := by
    apply List.sum_eq_zero
    intro v hv
    simp only [arData, List.map_map, List.mem_map, List.mem_range, Function.comp_apply] at hv
    obtain ⟨i, hi, rfl⟩ := hv
    rw [hx i (by omega)]
    simp [LinReg.Spec.dot]
  have hnn : 0 ≤ LinReg.Spec.sse (arData x l) (fun j => B j 0) := by
    apply List.sum_nonneg
    intro v hv
    obtain ⟨r, _, rfl⟩ := List.mem_map.1 hv
    positivity
  have := (hopt b).2 (le_antisymm (by rw [hz]; exact hnn) (hopt b).1)
  intro j
  rw [this]

/-- The same with a bias, which is the last coefficient. -/
theorem ar_recovers_bias (S : LinReg.Solver K) (x : List K) (l : ℕ) (hl : 0 < l) (b : Fin l → K) (c : K)
    (hx : ∀ i, i + l < x.length → at' x (i + l) = (∑ j : Fin l, at' x (i + l - 1 - j) * b j) + c)
    (h : LinReg.Spec.FullRankBias (arData x l)) :
    ∃ B, arCoeffsBias S (x.map some) l = some B ∧ (∀ j : Fin l, B j.castSucc 0 = b j) ∧ B (Fin.last l) 0 = c := by
  refine ⟨_, if_neg hl.ne', ?_⟩
  have := LinReg.lin_reg_bias_optimal S (arRows (x.map some) l) 0 le_rfl "qr" 0
    (.inr (by rw [arData_eq]; exact h)) b c
  rw [arData_eq] at this
  simp only [LinReg.Spec.ridgeBias, zero_mul, add_zero] at this
  obtain ⟨h1, h2⟩ := this
  have hz : ((arData x l).map fun r => (r.2 - (LinReg.Spec.dot r.1 b + c)) ^ 2).sum = 0 := by
    apply List.sum_eq_zero
    intro v hv
    simp only [arData, List.map_map, List.mem_map, List.mem_range, Function.comp_apply] at hv
    obtain ⟨i, hi, rfl⟩ := hv
    rw [hx i (by omega)]
    simp [LinReg.Spec.dot]
  obtain ⟨e1, e2⟩ := h2 (le_antisymm (by
    rw [hz]
    apply List.sum_nonneg
    intro v hv
    obtain ⟨r, _, rfl⟩ := List.mem_map.1 hv
    positivity) h1)
  constructor
  · intro j; rw [e1]
  · rw [← e2]

/-- Fibonacci numbers: both coefficients are 1. -/
example : ∃ B, arCoeffs LinReg.cramerSolver ([1, 2, 3, 5].map (some : ℚ → Option ℚ)) 2 = some B ∧ ∀ j, B j 0 = 1 := by
  refine ar_recovers LinReg.cramerSolver [1, 2, 3, 5] 2 (by norm_num) (fun _ => 1) ?_ ?_
  · intro i hi
    have : i < 2 := by simp at hi; omega
    interval_cases i <;> norm_num [at', Fin.sum_univ_two]
  · intro v hv
    have h1 := hv (fun j : Fin 2 => at' [1, 2, 3, 5] (0 + 2 - 1 - j), at' [1, 2, 3, 5] (0 + 2))
      (List.mem_map.2 ⟨0, by simp, rfl⟩)
    have h2 := hv (fun j : Fin 2 => at' [1, 2, 3, 5] (1 + 2 - 1 - j), at' [1, 2, 3, 5] (1 + 2))
      (List.mem_map.2 ⟨1, by simp, rfl⟩)
    simp [LinReg.Spec.dot, at', Fin.sum_univ_two] at h1 h2
    funext j
    fin_cases j <;> simp <;> linarith

/-- The series 0, 1, 3, 7 doubles and adds one. -/
example : ∃ B, arCoeffsBias LinReg.cramerSolver ([0, 1, 3, 7].map (some : ℚ → Option ℚ)) 1 = some B ∧
    (∀ j : Fin 1, B j.castSucc 0 = 2) ∧ B (Fin.last 1) 0 = 1 := by
  refine ar_recovers_bias LinReg.cramerSolver [0, 1, 3, 7] 1 (by norm_num) (fun _ => 2) 1 ?_ ?_
  · intro i hi
    have : i < 3 := by simp at hi; omega
    interval_cases i <;> norm_num [at']
  · intro v c hv
    have h1 := hv (fun j : Fin 1 => at' [0, 1, 3, 7] (0 + 1 - 1 - j), at' [0, 1, 3, 7] (0 + 1))
      (List.mem_map.2 ⟨0, by simp, rfl⟩)
    have h2 := hv (fun j : Fin 1 => at' [0, 1, 3, 7] (1 + 1 - 1 - j), at' [0, 1, 3, 7] (1 + 1))
      (List.mem_map.2 ⟨1, by simp, rfl⟩)
    simp [LinReg.Spec.dot, at'] at h1 h2
    refine ⟨?_, h1⟩
    funext j
    fin_cases j
    simp
    linarith

end ar

end Verif.TsFeat
