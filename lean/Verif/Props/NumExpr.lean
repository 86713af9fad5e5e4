import Verif.Model.NumExpr
import Verif.Props.Metrics
import Verif.Props.TTest
import Mathlib.Analysis.SpecialFunctions.Trigonometric.Bounds
import Mathlib.Tactic.Ring
import Mathlib.Tactic.Linarith
import Mathlib.Tactic.FieldSimp
import Mathlib.Tactic.Positivity
import Mathlib.Tactic.NormNum

/-!
# Numeric column expressions: theorems (C78–C84)
-/
set_option linter.unusedSectionVars false

namespace Verif.NumExpr
open Verif.Pl Verif.Confusion

/-! ## C78: logit and expit -/

/-- **C78.** `expit` has values strictly between 0 and 1, is strictly increasing, and satisfies
`expit(-x) = 1 - expit(x)`. -/
theorem expit_spec (x y : ℝ) :
    0 < expit x ∧ expit x < 1 ∧ (x < y ↔ expit x < expit y) ∧ expit (-x) = 1 - expit x := by
  have h := Real.exp_pos (-x)
  have hy := Real.exp_pos (-y)
  refine ⟨by unfold expit; positivity, ?_, ?_, ?_⟩
  · unfold expit
    rw [div_lt_one (by positivity)]
    linarith
  · unfold expit
    rw [div_lt_div_iff_of_pos_left one_pos (by positivity) (by positivity)]
    constructor
    · intro hh
      have := Real.exp_lt_exp.2 (neg_lt_neg hh)
      linarith
    · intro hh
      have : Real.exp (-y) < Real.exp (-x) := by linarith
      have := Real.exp_lt_exp.1 this
      linarith
  · unfold expit
    rw [neg_neg, Real.exp_neg]
    have := Real.exp_pos x
    field_simp
    ring

/-- **C78.** `logit` undoes `expit` everywhere. -/
theorem logit_expit (x : ℝ) : logit (expit x) = .num x := by
  obtain ⟨h1, h2, -, -⟩ := expit_spec x x
  unfold logit
  rw [if_neg h1.ne', if_neg h2.ne, if_neg (by rintro (h | h) <;> linarith)]
  congr 1
  have h := Real.exp_pos (-x)
  have : expit x / (1 - expit x) = Real.exp x := by
    unfold expit
    rw [Real.exp_neg]
    have := Real.exp_pos x
    field_simp
    ring
  rw [this, Real.log_exp]

/-- **C78.** `expit` undoes `logit` on probabilities strictly between 0 and 1. -/
theorem expit_logit (p : ℝ) (h0 : 0 < p) (h1 : p < 1) : ∃ v, logit p = .num v ∧ expit v = p := by
  refine ⟨Real.log (p / (1 - p)), ?_, ?_⟩
  · unfold logit
    rw [if_neg h0.ne', if_neg h1.ne, if_neg (by rintro (h | h) <;> linarith)]
  · unfold expit
    have : 0 < 1 - p := by linarith
    rw [Real.exp_neg, Real.exp_log (by positivity)]
    field_simp
    ring

/-- **C78.** Outside the open interval: minus infinity at 0, plus infinity at 1, NaN elsewhere. -/
theorem logit_edges : logit 0 = .inf false ∧ logit 1 = .inf true ∧
    ∀ p, (p < 0 ∨ 1 < p) → logit p = .nan := by
  refine ⟨by simp [logit], by simp [logit], fun p hp => ?_⟩
  unfold logit
  rw [if_neg (by rintro rfl; rcases hp with h | h <;> linarith),
    if_neg (by rintro rfl; rcases hp with h | h <;> linarith), if_pos hp]

example : logit (1 / 2) = .num 0 := by
  have := logit_expit 0
  have e : expit 0 = 1 / 2 := by norm_num [expit]
  rwa [e] at this

/-! ## C79: integer and fractional parts -/

/-- **C79.** The integer and the fractional part of a value: they add up to it, the integer part is an integer
of at most the same magnitude, the fractional part is below one in magnitude and never of the opposite sign. -/
theorem trunc_fract_spec (x : ℝ) :
    truncR x + fractR x = x ∧ (∃ n : ℤ, truncR x = n) ∧ |truncR x| ≤ |x| ∧ |fractR x| < 1 ∧
    (0 ≤ x → 0 ≤ fractR x) ∧ (x ≤ 0 → fractR x ≤ 0) := by
  unfold fractR truncR
  split
  · rename_i h
    have h1 := Int.floor_le x
    have h2 := Int.lt_floor_add_one x
    have h3 : (0 : ℝ) ≤ (⌊x⌋ : ℤ) := by exact_mod_cast Int.floor_nonneg.2 h
    refine ⟨by ring, ⟨_, rfl⟩, ?_, ?_, fun _ => by linarith, fun hx => ?_⟩
    · rw [abs_of_nonneg h3, abs_of_nonneg h]; exact h1
    · rw [abs_lt]; constructor <;> linarith
    · have : x = 0 := le_antisymm hx h
      subst this; simp
  · rename_i h
    push Not at h
    have h1 := Int.le_ceil x
    have h2 := Int.ceil_lt_add_one x
    have h3 : ((⌈x⌉ : ℤ) : ℝ) ≤ 0 := by exact_mod_cast Int.ceil_le.2 (by simpa using h.le)
    refine ⟨by ring, ⟨_, rfl⟩, ?_, ?_, fun hx => absurd hx (by linarith), fun _ => by linarith⟩
    · rw [abs_of_nonpos h3, abs_of_neg h]; linarith
    · rw [abs_lt]; constructor <;> linarith

/-- **C79.** On float columns `fract` works row by row and keeps nulls; on integer columns without nulls it is
zero. -/
theorem fract_rows_partial :
    (∀ (c : Col ℝ) (i : Nat), (plFract (.float c))[i]? = c[i]?.map (Option.map fractR)) ∧
    (∀ c : List ℤ, plFract (.int (c.map some)) = c.map fun n : ℤ => some (fractR (n : ℝ))) := by
  refine ⟨fun c i => by simp [plFract, map1], fun c => ?_⟩
  have : ∀ n : ℤ, fractR (n : ℝ) = 0 := by
    intro n
    unfold fractR truncR
    split <;> simp
  simp only [plFract, this, List.length_map]
  induction c with
  | nil => rfl
  | cons a c ih => simpa [List.replicate_succ] using ih

/-- **C79.** The claim fails on integer columns with nulls: every null becomes zero. -/
theorem fract_loses_nulls (c : Col ℤ) (i : Nat) (h : c[i]? = some none) :
    (plFract (.int c))[i]? = some (some 0) := by
  have hi : i < c.length := by
    by_contra hcon
    rw [List.getElem?_eq_none (by omega)] at h
    cases h
  simp [plFract, hi]

example : (plFract (.int [some 3, none]))[1]? = some (some 0) := fract_loses_nulls _ 1 rfl

example : fractR (-(3 / 2)) = -(1 / 2) := by
  have : ⌈(-(3 / 2) : ℝ)⌉ = -1 := by
    rw [Int.ceil_eq_iff]; norm_num
  unfold fractR truncR
  rw [if_neg (by norm_num), this]
  norm_num

/-! ## C80: sinc -/

/-- **C80.** Away from zero `sinc(x) = sin(πx)/(πx)`; it is even and bounded by one in magnitude, and vanishes
at every non-zero integer. -/
theorem sinc_spec (x : ℝ) :
    (x ≠ 0 → sincR x = Real.sin (Real.pi * x) / (Real.pi * x)) ∧ sincR (-x) = sincR x ∧ |sincR x| ≤ 1 ∧
    ∀ n : ℤ, n ≠ 0 → sincR (n : ℝ) = 0 := by
  refine ⟨fun h => by simp [sincR, h], ?_, ?_, fun n hn => ?_⟩
  · by_cases h : x = 0
    · simp [h]
    · simp only [sincR, neg_eq_zero, h, if_false, mul_neg, Real.sin_neg]
      rw [neg_div_neg_eq]
  · unfold sincR
    simp only
    generalize Real.pi * (if x = 0 then 1 / 10 ^ 20 else x) = y
    rw [abs_div]
    exact div_le_one_of_le₀ Real.abs_sin_le_abs (abs_nonneg _)
  · have : (n : ℝ) ≠ 0 := by exact_mod_cast hn
    simp only [sincR, this, if_false]
    rw [mul_comm, Real.sin_int_mul_pi, zero_div]

/-- **C80.** At zero the value is below one by at most `10⁻³⁹`; nulls stay null. -/
theorem sinc_zero : 1 - 1 / 10 ^ 39 < sincR 0 ∧ sincR 0 < 1 ∧ ∀ c : Col ℝ, ∀ i : Nat, c[i]? = some none →
    (sinc c)[i]? = some none := by
  have hpi := Real.pi_pos
  have hpi4 := Real.pi_le_four
  have hy : 0 < Real.pi * (1 / 10 ^ 20) := by positivity
  have hy1 : Real.pi * (1 / 10 ^ 20) ≤ 1 := by
    have : Real.pi * (1 / 10 ^ 20) ≤ 4 * (1 / 10 ^ 20) := by
      apply mul_le_mul_of_nonneg_right hpi4; positivity
    refine le_trans this ?_
    norm_num
  refine ⟨?_, ?_, fun c i h => by simp [sinc, map1, h]⟩
  · simp only [sincR, if_true]
    rw [lt_div_iff₀ hy]
    have h1 := Real.sin_gt_sub_cube hy
    have h2 : (Real.pi * (1 / 10 ^ 20)) ^ 2 / 4 ≤ 1 / 10 ^ 39 := by
      have : (Real.pi * (1 / 10 ^ 20)) ^ 2 ≤ (4 * (1 / 10 ^ 20)) ^ 2 := by
        apply pow_le_pow_left₀ hy.le
        apply mul_le_mul_of_nonneg_right hpi4; positivity
      refine le_trans (div_le_div_of_nonneg_right this (by norm_num)) ?_
      norm_num
    have h3 : (Real.pi * (1 / 10 ^ 20)) ^ 3 / 4 = (Real.pi * (1 / 10 ^ 20)) ^ 2 / 4 * (Real.pi * (1 / 10 ^ 20)) := by
      ring
    have h4 := mul_le_mul_of_nonneg_right h2 hy.le
    generalize Real.pi * (1 / 10 ^ 20) = y at *
    generalize (1 : ℝ) / 10 ^ 39 = e at *
    nlinarith
  · simp only [sincR, if_true]
    rw [div_lt_one hy]
    exact Real.sin_lt hy

example : sincR 2 = 0 := by
  have := (sinc_spec 0).2.2.2 2 (by norm_num)
  exact_mod_cast this

/-! ## C81: norms across columns -/

namespace Spec
/-- The known entries of a row. -/
def known (r : List (Option ℝ)) : List ℝ := r.filterMap id
end Spec

theorem known_map (r : List (Option ℝ)) (f : ℝ → ℝ) :
    (r.map (Option.map f)).filterMap id = (Spec.known r).map f := by
  unfold Spec.known
  induction r with
  | nil => rfl
  | cons x r ih => cases x <;> simpa using ih

theorem max?_le {l : List ℝ} {m : ℝ} (h : l.max? = some m) : m ∈ l ∧ ∀ x ∈ l, x ≤ m :=
  List.max?_eq_some_iff.1 h

/-- **C81.** The three norms of a row of known values: the L1 norm is the sum of magnitudes, the squared L2
norm the sum of squares, the infinity norm the largest magnitude (null for a row without values);
`normalize` divides by the number of columns. -/
theorem horizontal_norms (r : List (Option ℝ)) :
    l1Row r false = ((Spec.known r).map fun x => |x|).sum ∧
    l2sqRow r false = ((Spec.known r).map fun x => x ^ 2).sum ∧
    (lInfRow r false = none ↔ Spec.known r = []) ∧
    (∀ m, lInfRow r false = some m ↔ (∃ x ∈ Spec.known r, |x| = m) ∧ ∀ x ∈ Spec.known r, |x| ≤ m) ∧
    l1Row r true = l1Row r false / r.length ∧ l2sqRow r true = l2sqRow r false / r.length ∧
    lInfRow r true = (lInfRow r false).map fun v : ℝ => v / (r.length : ℝ) := by
  have e : lInfRow r false = ((Spec.known r).map fun x => |x|).max? := by
    simp only [lInfRow, maxRow, known_map]
    cases ((Spec.known r).map fun x => |x|).max? <;> rfl
  refine ⟨by simp only [l1Row, sumRow, known_map]; rfl, by simp only [l2sqRow, sumRow, known_map]; rfl, ?_, ?_,
    by simp [l1Row, scale], by simp [l2sqRow, scale], ?_⟩
  · rw [e, List.max?_eq_none_iff]; simp
  · intro m
    rw [e, List.max?_eq_some_iff]
    simp
  · simp only [lInfRow]
    cases maxRow (r.map (Option.map fun x => |x|)) <;> simp [scale]

theorem sum_abs_sq_le (l : List ℝ) : (l.map fun x => x ^ 2).sum ≤ ((l.map fun x => |x|).sum) ^ 2 := by
  induction l with
  | nil => simp
  | cons a l ih =>
    have h : 0 ≤ (l.map fun x => |x|).sum := List.sum_nonneg (by simp)
    simp only [List.map_cons, List.sum_cons]
    nlinarith [abs_nonneg a, sq_abs a, mul_nonneg (abs_nonneg a) h]

theorem sq_sum_abs_le (l : List ℝ) : ((l.map fun x => |x|).sum) ^ 2 ≤ l.length * (l.map fun x => x ^ 2).sum := by
  have := Metrics.sq_total_le (l.map fun x => (x, (0 : ℝ))) fun x _ => |x|
  simpa [Metrics.Spec.total, Function.comp_def] using this

/-- **C81.** The norms are related as in every vector space: `‖x‖∞ ≤ ‖x‖₁`, `‖x‖∞² ≤ ‖x‖₂² ≤ ‖x‖₁² ≤ n‖x‖₂²`, and
each is zero only for a row whose known values are all zero. -/
theorem horizontal_norm_order (r : List (Option ℝ)) :
    (∀ m, lInfRow r false = some m → m ≤ l1Row r false ∧ m ^ 2 ≤ l2sqRow r false) ∧
    l2sqRow r false ≤ l1Row r false ^ 2 ∧ l1Row r false ^ 2 ≤ r.length * l2sqRow r false ∧
    (l1Row r false = 0 ↔ ∀ x ∈ Spec.known r, x = 0) ∧ (l2sqRow r false = 0 ↔ ∀ x ∈ Spec.known r, x = 0) := by
  obtain ⟨e1, e2, -, e4, -⟩ := horizontal_norms r
  rw [e1, e2]
  generalize hl : Spec.known r = l at *
  have hlen : (l.length : ℝ) ≤ r.length := by
    rw [← hl]; exact_mod_cast List.length_filterMap_le _ _
  have hmem : ∀ (f : ℝ → ℝ), (∀ x, 0 ≤ f x) → ∀ x ∈ l, f x ≤ (l.map f).sum := by
    intro f hf x hx
    exact List.single_le_sum (by simpa using fun a _ => hf a) _ (List.mem_map_of_mem hx)
  have hsq : 0 ≤ (l.map fun x => x ^ 2).sum := List.sum_nonneg (by simpa using fun a _ => sq_nonneg a)
  refine ⟨?_, sum_abs_sq_le l, ?_, ?_, ?_⟩
  · intro m hm
    obtain ⟨⟨x, hx, rfl⟩, -⟩ := (e4 m).1 hm
    refine ⟨hmem (fun x => |x|) (fun _ => abs_nonneg _) x hx, ?_⟩
    rw [sq_abs]
    exact hmem (fun x => x ^ 2) (fun _ => sq_nonneg _) x hx
  · exact (sq_sum_abs_le l).trans (mul_le_mul_of_nonneg_right hlen hsq)
  · constructor
    · intro h x hx
      have := hmem (fun x => |x|) (fun _ => abs_nonneg _) x hx
      rw [h] at this
      exact abs_nonpos_iff.1 this
    · intro h
      apply List.sum_eq_zero
      simp only [List.mem_map, forall_exists_index, and_imp]
      rintro _ x hx rfl
      simp [h x hx]
  · constructor
    · intro h x hx
      have := hmem (fun x => x ^ 2) (fun _ => sq_nonneg _) x hx
      rw [h] at this
      exact pow_eq_zero_iff (two_ne_zero) |>.1 (le_antisymm this (sq_nonneg x))
    · intro h
      apply List.sum_eq_zero
      simp only [List.mem_map, forall_exists_index, and_imp]
      rintro _ x hx rfl
      simp [h x hx]

example : l1Row [some (-3), none, some 4] false = 7 ∧ l2sqRow [some (-3), none, some 4] false = 25 := by
  have e : Spec.known [some (-3), none, some 4] = [-3, 4] := rfl
  constructor
  · rw [(horizontal_norms _).1, e]; norm_num
  · rw [(horizontal_norms _).2.1, e]; norm_num

/-! ## C82: monotonicity checks -/

theorem diff_all (p : ℝ → Bool) (l : List ℝ) :
    allTrue (map1 p (diffCol (l.map some))) = true ↔ l.IsChain fun a b => p (b - a) = true := by
  cases l with
  | nil => simp [allTrue, diffCol, map1, vals]
  | cons a l =>
    simp only [List.map_cons, diffCol]
    have key : ∀ (a : ℝ) (l : List ℝ), allTrue (map1 p (List.zipWith (opt2 fun a b => b - a)
        (some a :: l.map some) (l.map some))) = true ↔ (a :: l).IsChain fun a b => p (b - a) = true := by
      intro a l
      induction l generalizing a with
      | nil => simp [allTrue, map1, vals]
      | cons b l ih =>
        have := ih b
        rw [List.isChain_cons_cons, ← this]
        simp [allTrue, map1, vals, opt2]
    rw [← key a l]
    simp [allTrue, map1, vals]

/-- **C82.** On columns without nulls the checks decide monotonicity of the whole column, not just of
neighbors. -/
theorem monotone_checks_partial (l : List ℝ) :
    (isIncreasing (l.map some) false = true ↔ l.Pairwise (· ≤ ·)) ∧
    (isIncreasing (l.map some) true = true ↔ l.Pairwise (· < ·)) ∧
    (isDecreasing (l.map some) false = true ↔ l.Pairwise (· ≥ ·)) ∧
    (isDecreasing (l.map some) true = true ↔ l.Pairwise (· > ·)) := by
  refine ⟨?_, ?_, ?_, ?_⟩
  · simp only [isIncreasing, Bool.false_eq_true, if_false, diff_all, decide_eq_true_eq, ge_iff_le, sub_nonneg]
    exact List.isChain_iff_pairwise
  · simp only [isIncreasing, if_true, diff_all, decide_eq_true_eq, gt_iff_lt, sub_pos]
    exact List.isChain_iff_pairwise
  · simp only [isDecreasing, Bool.false_eq_true, if_false, diff_all, decide_eq_true_eq, sub_nonpos]
    exact List.isChain_iff_pairwise
  · simp only [isDecreasing, if_true, diff_all, decide_eq_true_eq, sub_neg]
    exact List.isChain_iff_pairwise

/-- **C82.** With nulls the claim fails: a null between any two values hides their order, so the column counts
as strictly increasing and strictly decreasing. -/
theorem monotone_checks_null (x y : ℝ) :
    isIncreasing [some x, none, some y] true = true ∧ isDecreasing [some x, none, some y] true = true := by
  constructor <;> rfl

example : isIncreasing [some 1, some 2, some 2] false = true ∧ ([3, 1] : List ℝ).Pairwise (· ≥ ·) := by
  refine ⟨(monotone_checks_partial [1, 2, 2]).1.2 ?_, ?_⟩ <;> norm_num

end Verif.NumExpr
