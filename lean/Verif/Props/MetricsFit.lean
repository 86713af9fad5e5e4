import Verif.Props.Metrics
import Mathlib.Algebra.BigOperators.Ring.List

/-!
# Coefficient of determination, percentage errors, log loss and group fairness (C73, C74, C75, C76)
-/

namespace Verif.Metrics
open Verif.Pl

namespace Spec

/-- Residual sum of squares. -/
def sse (l : List (ℝ × ℝ)) : ℝ := total l fun x y => (x - y) ^ 2

/-- The mean actual. -/
noncomputable def meanActual (l : List (ℝ × ℝ)) : ℝ := total l (fun x _ => x) / (l.length : ℝ)

/-- Total sum of squares of the actuals around their mean. -/
noncomputable def sst (l : List (ℝ × ℝ)) : ℝ := total l fun x _ => (x - meanActual l) ^ 2

/-- The textbook adjusted R² with `k` explanatory variables and an intercept. -/
noncomputable def adjustedR2 (l : List (ℝ × ℝ)) (k : ℕ) : ℝ :=
  1 - (sse l / ((l.length : ℝ) - k - 1)) / (sst l / ((l.length : ℝ) - 1))

/-- The columns of fully known rows. -/
def actuals (l : List (ℝ × ℝ)) : Col ℝ := l.map fun r => some r.1
/-- The predictions of fully known rows. -/
def preds (l : List (ℝ × ℝ)) : Col ℝ := l.map fun r => some r.2

/-- The probability a prediction `y` gives to the label `x ∈ {0, 1}`. -/
noncomputable def given (x y : ℝ) : ℝ := if x = 1 then y else 1 - y

/-- Mean of a list. -/
noncomputable def meanOf (l : List ℝ) : ℝ := l.sum / (l.length : ℝ)

end Spec
open Spec

/-! ## Lemmas -/

theorem rows_clean (l : List (ℝ × ℝ)) : rows (actuals l) (preds l) = l := by
  induction l with
  | nil => rfl
  | cons r l ih => simpa [rows, actuals, preds] using ih

theorem scored_clean (l : List (ℝ × ℝ)) : Scored (actuals l) (preds l) := by
  refine ⟨by simp [actuals, preds], ?_⟩
  intro q hq _
  simp only [actuals, preds, List.zip_map', List.mem_map] at hq
  obtain ⟨r, -, rfl⟩ := hq
  rfl

theorem rows_fst {a p : Col ℝ} (h : Scored a p) : (rows a p).map Prod.fst = vals a := by
  obtain ⟨hl, hs⟩ := h
  induction a generalizing p with
  | nil => simp [rows, vals]
  | cons x a ih =>
    cases p with
    | nil => simp at hl
    | cons y p =>
      have := ih (p := p) (by simpa using hl) (fun q hq => hs q (by simp [hq]))
      have hxy := hs (x, y) (by simp)
      cases x <;> cases y <;> simp [rows, vals] at this hxy ⊢ <;> exact this

theorem mean_scored {a p : Col ℝ} (h : Scored a p) (hne : rows a p ≠ []) :
    Pl.mean a = some (meanActual (rows a p)) := by
  have hc : count a ≠ 0 := by
    rw [← rows_length h]; simpa using hne
  rw [Pl.mean, if_neg (by exact hc), meanActual, rows_length h, Pl.sum, ← rows_fst h]
  rfl

theorem sst_scored {a p : Col ℝ} (h : Scored a p) :
    dot (map1 (fun x => x - meanActual (rows a p)) a) (map1 (fun x => x - meanActual (rows a p)) a)
      = sst (rows a p) := by
  rw [dot_self, vals_map1, ← rows_fst h, sst, total]
  simp only [List.map_map]
  congr 2; funext r; simp only [Function.comp]; ring

theorem sst_clean (l : List (ℝ × ℝ)) :
    dot (map1 (fun x => x - meanActual l) (actuals l)) (map1 (fun x => x - meanActual l) (actuals l)) = sst l := by
  have := sst_scored (scored_clean l)
  rwa [rows_clean] at this

theorem sse_nonneg (l : List (ℝ × ℝ)) : 0 ≤ sse l := total_nonneg fun _ _ => sq_nonneg _
theorem sst_nonneg (l : List (ℝ × ℝ)) : 0 ≤ sst l := total_nonneg fun _ _ => sq_nonneg _

theorem rows_ne_nil_of_sst {l : List (ℝ × ℝ)} (h : sst l ≠ 0) : l ≠ [] := by
  rintro rfl; simp [sst, total] at h

/-! ## C73: R² -/

/-- **C73.**  When every known actual has a prediction and the actuals are not all equal, `query_r2` is one
minus the ratio of the residual to the total sum of squares over the complete rows.  Missing: null predictions
(see `r2_null_pred`). -/
theorem r2_value_partial {a p : Col ℝ} (h : Scored a p) (ht : sst (rows a p) ≠ 0) :
    r2 a p = some (1 - sse (rows a p) / sst (rows a p)) := by
  rw [r2, mean_scored h (rows_ne_nil_of_sst ht)]
  simp only [sst_scored h, dot_diff, if_neg ht]
  rfl

example : Scored [some 1, none, some 3] [some 1, some 2, some 2]
    ∧ sst (rows [some 1, none, some 3] [some 1, some 2, some 2]) = 2 := by
  refine ⟨by simp [Scored], ?_⟩
  have e : rows [some 1, none, some 3] [some 1, some 2, some 2] = [(1, 1), (3, 2)] := rfl
  rw [e]; norm_num [sst, total, meanActual]

/-- **C73.**  R² never exceeds one, whatever is null, and it is one exactly when every complete row is predicted
without error. -/
theorem r2_le_one {a p : Col ℝ} {v : ℝ} (h : r2 a p = some v) :
    v ≤ 1 ∧ (v = 1 ↔ ∀ r ∈ rows a p, r.1 = r.2) := by
  unfold r2 at h
  cases hm : Pl.mean a with
  | none => rw [hm] at h; simp at h
  | some m =>
    rw [hm] at h
    simp only at h
    split_ifs at h with h0
    simp only [Option.some.injEq] at h
    rw [dot_diff] at h
    have hd : 0 ≤ dot (map1 (fun x => x - m) a) (map1 (fun x => x - m) a) := by
      rw [dot_self]
      apply List.sum_nonneg
      simp only [List.mem_map]; rintro _ ⟨_, _, rfl⟩; exact mul_self_nonneg _
    have hp := lt_of_le_of_ne hd (Ne.symm h0)
    have hs : 0 ≤ total (rows a p) fun x y => (x - y) ^ 2 := total_nonneg fun _ _ => sq_nonneg _
    have hq := div_nonneg hs hd
    refine ⟨by linarith, ?_⟩
    have hz := total_eq_zero (l := rows a p) (f := fun x y => (x - y) ^ 2) fun _ _ => sq_nonneg _
    have : v = 1 ↔ (total (rows a p) fun x y => (x - y) ^ 2) = 0 := by
      rw [← h]
      constructor
      · intro e
        have : (total (rows a p) fun x y => (x - y) ^ 2)
          / dot (map1 (fun x => x - m) a) (map1 (fun x => x - m) a) = 0 := by linarith
        exact (div_eq_zero_iff.1 this).resolve_right h0
      · intro e; rw [e]; simp
    rw [this, hz]
    simp only [ne_eq, OfNat.ofNat_ne_zero, not_false_eq_true, pow_eq_zero_iff, sub_eq_zero]

example : r2 (actuals [(1, 1), (3, 2)]) (preds [(1, 1), (3, 2)]) = some (1 / 2) := by
  have hs : sst [(1, 1), (3, 2)] = 2 := by norm_num [sst, total, meanActual]
  rw [r2_value_partial (scored_clean _) (by rw [rows_clean, hs]; norm_num), rows_clean, hs]
  norm_num [sse, total]

/-- **C73.**  Predicting the mean actual everywhere gives exactly zero. -/
theorem r2_mean_prediction (l : List (ℝ × ℝ)) (hp : ∀ r ∈ l, r.2 = meanActual l) (ht : sst l ≠ 0) :
    r2 (actuals l) (preds l) = some 0 := by
  rw [r2_value_partial (scored_clean l) (by rwa [rows_clean]), rows_clean]
  have : sse l = sst l := total_congr fun r hr => by rw [hp r hr]
  rw [this, div_self ht, sub_self]

example : ∀ r ∈ ([(1, 2), (3, 2)] : List (ℝ × ℝ)), r.2 = meanActual [(1, 2), (3, 2)] := by
  norm_num [meanActual, total]

/-- **C73.**  No R² when the actuals are all equal (the code divides by zero). -/
theorem r2_constant (l : List (ℝ × ℝ)) (ht : sst l = 0) : r2 (actuals l) (preds l) = none := by
  rcases eq_or_ne l [] with rfl | hne
  · simp [r2, actuals, Pl.mean, count, vals]
  · rw [r2, mean_scored (scored_clean l) (by rwa [rows_clean])]
    simp only [rows_clean, sst_clean, if_pos ht]

example : sst [(1, 2), (1, 5)] = 0 := by norm_num [sst, total, meanActual]

/-- **C73, violated with null predictions.**  The residuals skip the rows without a prediction, the total does
not: the two complete rows have R² = -3, the code returns 45/53. -/
theorem r2_null_pred :
    r2 [some 0, some 10, some 5, some 7] [none, none, some 7, some 5] = some (45 / 53)
    ∧ 1 - sse (rows [some 0, some 10, some 5, some 7] [none, none, some 7, some 5])
        / sst (rows [some 0, some 10, some 5, some 7] [none, none, some 7, some 5]) = -3 := by
  have e : rows [some 0, some 10, some 5, some 7] [none, none, some 7, some 5] = [(5, 7), (7, 5)] := rfl
  constructor
  · have hm : Pl.mean (K := ℝ) [some 0, some 10, some 5, some 7] = some (11 / 2) := by
      have hv : vals (K := ℝ) [some 0, some 10, some 5, some 7] = [0, 10, 5, 7] := rfl
      rw [Pl.mean, if_neg (by simp [count, hv]), Pl.sum, count, hv]; norm_num
    have hd : dot (map1 (fun x : ℝ => x - 11 / 2) [some 0, some 10, some 5, some 7])
        (map1 (fun x : ℝ => x - 11 / 2) [some 0, some 10, some 5, some 7]) = 53 := by
      have hv : vals (K := ℝ) [some 0, some 10, some 5, some 7] = [0, 10, 5, 7] := rfl
      rw [dot_self, vals_map1, hv]; norm_num
    rw [r2, hm]
    simp only [hd, dot_diff, e]
    norm_num [total]
  · rw [e]; norm_num [sse, sst, total, meanActual]

/-- **C73, violated.**  `query_adj_r2` documents `p` as the number of explanatory variables but divides the
residual sum of squares by `n - p` instead of `n - p - 1`: unless the fit is perfect the result is always larger
than the adjusted R² of the textbook, and it equals the textbook value for one variable fewer. -/
theorem adjR2_overstated (l : List (ℝ × ℝ)) (k : ℕ) (hk : k + 1 < l.length) (ht : sst l ≠ 0)
    (he : sse l ≠ 0) :
    ∃ v, adjR2 (actuals l) (preds l) k = some v ∧ adjustedR2 l k < v
      ∧ (∀ j, k = j + 1 → v = adjustedR2 l j) := by
  have hlen : (actuals l).length = l.length := by simp [actuals]
  have hkr : (k : ℝ) + 1 < l.length := by exact_mod_cast hk
  have hk0 : (0 : ℝ) ≤ k := Nat.cast_nonneg k
  have hsst := lt_of_le_of_ne (sst_nonneg l) (Ne.symm ht)
  have hsse := lt_of_le_of_ne (sse_nonneg l) (Ne.symm he)
  refine ⟨1 - (sse l / ((l.length : ℝ) - k)) / (sst l / ((l.length : ℝ) - 1)), ?_, ?_, ?_⟩
  · rw [adjR2, mean_scored (scored_clean l) (by rw [rows_clean]; exact rows_ne_nil_of_sst ht)]
    simp only [rows_clean, sst_clean, dot_diff, hlen]
    rw [if_neg]
    · rfl
    · push Not
      exact ⟨ht, by linarith, by linarith⟩
  · unfold adjustedR2
    apply sub_lt_sub_left
    apply div_lt_div_of_pos_right _ (div_pos hsst (by linarith))
    exact div_lt_div_of_pos_left hsse (by linarith) (by linarith)
  · rintro j rfl
    unfold adjustedR2
    push_cast
    ring_nf

example : (1 + 1 < ([(1, 1), (3, 2), (4, 4)] : List (ℝ × ℝ)).length)
    ∧ sse [(1, 1), (3, 2), (4, 4)] = 1 := by
  refine ⟨by simp, by norm_num [sse, total]⟩

/-! ## C74: percentage errors -/

theorem smape_den (a p : Col ℝ) :
    vals (map2 (fun x y => |x| + |y|) a p) = (rows a p).map fun r => |r.1| + |r.2| := vals_map2 _ a p

theorem smape_sum (a p : Col ℝ) :
    Pl.sum (map2 (· / ·) (map1 (fun d => |d|) (diff a p)) (map2 (fun x y => |x| + |y|) a p))
      = total (rows a p) fun x y => |x - y| / (|x| + |y|) := by
  have : ∀ a p : Col ℝ, vals (map2 (· / ·) (map1 (fun d => |d|) (diff a p)) (map2 (fun x y => |x| + |y|) a p))
      = (rows a p).map fun r => |r.1 - r.2| / (|r.1| + |r.2|) := by
    intro a
    induction a with
    | nil => intro p; rfl
    | cons x a ih =>
      intro p
      cases p with
      | nil => rfl
      | cons y p =>
        have := ih p
        cases x <;> cases y <;> simpa [vals, map2, map1, rows, opt2, diff] using this
  simp only [Pl.sum, this, total]

/-- **C74.**  sMAPE is a number exactly when no complete row has both values zero, and it is then between 0 and
1.  Missing: the documentation says "always between 0 and 1". -/
theorem smape_unit_partial {a p : Col ℝ} (hl : a.length = p.length)
    (h : ∀ r ∈ rows a p, r ≠ (0, 0)) : ∃ v, smape a p = some v ∧ 0 ≤ v ∧ v ≤ 1 := by
  have hnz : (0 : ℝ) ∉ vals (map2 (fun x y => |x| + |y|) a p) := by
    rw [smape_den]
    simp only [List.mem_map, not_exists, not_and]
    intro r hr h0
    have h1 := abs_nonneg r.1
    have h2 := abs_nonneg r.2
    have e1 : r.1 = 0 := abs_eq_zero.1 (by linarith)
    have e2 : r.2 = 0 := abs_eq_zero.1 (by linarith)
    exact h r hr (Prod.ext e1 e2)
  refine ⟨total (rows a p) (fun x y => |x - y| / (|x| + |y|)) / (count a : ℝ), ?_, ?_, ?_⟩
  · rw [smape]; simp only [if_neg hnz, smape_sum]
  · exact div_nonneg (total_nonneg fun _ _ => div_nonneg (abs_nonneg _) (by positivity)) (Nat.cast_nonneg _)
  · have h1 : total (rows a p) (fun x y => |x - y| / (|x| + |y|)) ≤ total (rows a p) fun _ _ => 1 :=
      total_le fun r _ => div_le_one_of_le₀ (abs_sub r.1 r.2) (by positivity)
    rw [total_const, mul_one] at h1
    have h2 : ((rows a p).length : ℝ) ≤ count a := by exact_mod_cast rows_length_le hl
    exact div_le_one_of_le₀ (by linarith) (Nat.cast_nonneg _)

example : ∀ r ∈ rows [some 1, some 0] [some 3, some 2], r ≠ (0, 0) := by
  have e : rows [some 1, some 0] [some 3, some 2] = [(1, 3), (0, 2)] := rfl
  rw [e]; norm_num

/-- **C74, violated.**  One row with actual and prediction both zero (a perfect prediction) makes the result
NaN. -/
theorem smape_zero_row {a p : Col ℝ} (h : (0, 0) ∈ rows a p) : smape a p = none := by
  have : (0 : ℝ) ∈ vals (map2 (fun x y => |x| + |y|) a p) := by
    rw [smape_den]; exact List.mem_map.2 ⟨_, h, by simp⟩
  rw [smape]; simp only [if_pos this]

example : ((0, 0) : ℝ × ℝ) ∈ rows [some 1, some 0] [some 3, some 0] := by
  have e : rows [some 1, some 0] [some 3, some 0] = [(1, 3), (0, 0)] := rfl
  rw [e]; simp

/-- **C74.**  With every known actual predicted, sMAPE is the mean of `|x - y| / (|x| + |y|)`, it does not change
when both columns are multiplied by a nonzero constant. -/
theorem smape_value {a p : Col ℝ} (hs : Scored a p) (h : ∀ r ∈ rows a p, r ≠ (0, 0)) :
    smape a p = some (avg (rows a p) fun x y => |x - y| / (|x| + |y|)) := by
  have hnz : (0 : ℝ) ∉ vals (map2 (fun x y => |x| + |y|) a p) := by
    rw [smape_den]
    simp only [List.mem_map, not_exists, not_and]
    intro r hr h0
    have h1 := abs_nonneg r.1
    have h2 := abs_nonneg r.2
    exact h r hr (Prod.ext (abs_eq_zero.1 (by linarith)) (abs_eq_zero.1 (by linarith)))
  rw [smape]; simp only [if_neg hnz, smape_sum, avg, rows_length hs]

example : smape [some 1, none] [some 3, some 0] = some (1 / 2) := by
  have e : rows [some 1, none] [some 3, some 0] = [(1, 3)] := rfl
  rw [smape_value (by simp [Scored]) (by rw [e]; norm_num), e]
  norm_num [avg, total]

/-- **C74.**  Weighted MAPE is the total absolute error over the total absolute actual when every known actual
is predicted; without a prediction for some rows the numerator skips them and the denominator does not. -/
theorem wmape_value {a p : Col ℝ} (hs : Scored a p) (h : ∃ r ∈ rows a p, r.1 ≠ 0) :
    wmape a p = some (total (rows a p) (fun x y => |x - y|) / total (rows a p) (fun x _ => |x|)) := by
  have e : Pl.sum (map1 (fun x : ℝ => |x|) a) = total (rows a p) fun x _ => |x| := by
    rw [Pl.sum, vals_map1, ← rows_fst hs, List.map_map, total]; rfl
  have hne : total (rows a p) (fun x _ => |x|) ≠ 0 := by
    rw [ne_eq, total_eq_zero fun _ _ => abs_nonneg _]
    obtain ⟨r, hr, h0⟩ := h
    intro hall
    exact h0 (abs_eq_zero.1 (hall r hr))
  rw [wmape]
  simp only [e, if_neg hne, diff, sum_map1_map2]

example : ∃ r ∈ rows [some 1, none] [some 3, some 0], r.1 ≠ 0 := by
  have e : rows [some 1, none] [some 3, some 0] = [(1, 3)] := rfl
  rw [e]; exact ⟨(1, 3), by simp, by norm_num⟩

/-- **C74.**  MAPE is the mean over the complete rows of the absolute relative error (actuals not zero), nulls
in either column included. -/
theorem mape_value {a p : Col ℝ} (h0 : ∀ r ∈ rows a p, r.1 ≠ 0) (hne : rows a p ≠ []) :
    mape a p = some (avg (rows a p) fun x y => |x - y| / |x|) := by
  have hv : vals (map2 (fun x y : ℝ => |1 - y / x|) a p) = (rows a p).map fun r => |1 - r.2 / r.1| := vals_map2 _ a p
  have hc : count (map2 (fun x y : ℝ => |1 - y / x|) a p) = (rows a p).length := by
    rw [count, hv, List.length_map]
  have hz : (rows a p).length ≠ 0 := by simpa using hne
  rw [mape, Pl.mean, if_neg (by rw [hc]; exact hz), hc, Pl.sum, hv, avg, total]
  congr 3
  apply List.map_congr_left
  intro r hr
  have := h0 r hr
  rw [← abs_div]; congr 1; field_simp

example : mape [some 2, some 4] [some 3, none] = some (1 / 2) := by
  have e : rows [some 2, some 4] [some 3, none] = [(2, 3)] := rfl
  rw [mape_value (by rw [e]; norm_num) (by rw [e]; simp), e]
  norm_num [avg, total]

/-! ## C75: log loss -/

theorem logLoss_vals (a p : Col ℝ) :
    vals (map2 (· + ·) (map2 xlogy a p) (map2 xlogy (map1 (fun x => 1 - x) a) (map1 (fun x => 1 - x) p)))
      = (rows a p).map fun r => xlogy r.1 r.2 + xlogy (1 - r.1) (1 - r.2) := by
  induction a generalizing p with
  | nil => rfl
  | cons x a ih =>
    cases p with
    | nil => rfl
    | cons y p =>
      have := ih p
      cases x <;> cases y <;> simpa [vals, map2, map1, rows, opt2] using this

theorem logLoss_avg (a p : Col ℝ) (hne : rows a p ≠ []) :
    logLoss a p = some (-avg (rows a p) fun x y => xlogy x y + xlogy (1 - x) (1 - y)) := by
  have hz : (rows a p).length ≠ 0 := by simpa using hne
  unfold logLoss
  simp only
  rw [Pl.mean, if_neg (by rw [count, logLoss_vals, List.length_map]; exact hz), count, Pl.sum, logLoss_vals,
    List.length_map]
  rfl

/-- **C75.**  For labels 0 and 1, the log loss is minus the mean over the complete rows of the logarithm of the
probability given to the label that occurred, rows with a null are left out of both the sum and the count, and it
is not negative. -/
theorem logLoss_value {a p : Col ℝ} (hne : rows a p ≠ []) (hl : ∀ r ∈ rows a p, r.1 = 0 ∨ r.1 = 1)
    (hp : ∀ r ∈ rows a p, 0 < given r.1 r.2 ∧ given r.1 r.2 ≤ 1) :
    ∃ v, logLoss a p = some v ∧ v = -avg (rows a p) (fun x y => Real.log (given x y)) ∧ 0 ≤ v := by
  refine ⟨_, logLoss_avg a p hne, ?_, ?_⟩
  · congr 1; unfold avg; congr 1
    apply total_congr
    intro r hr
    rcases hl r hr with h | h <;> rw [h] <;> simp [xlogy, given]
  · rw [avg, ← neg_div]
    apply div_nonneg _ (Nat.cast_nonneg _)
    rw [neg_nonneg]
    have : total (rows a p) (fun x y => xlogy x y + xlogy (1 - x) (1 - y)) ≤ total (rows a p) fun _ _ => 0 := by
      apply total_le
      intro r hr
      obtain ⟨h1, h2⟩ := hp r hr
      rcases hl r hr with h | h <;> rw [h] at h1 h2 ⊢ <;> simp [xlogy, given] at h1 h2 ⊢
      · exact Real.log_nonpos (by linarith) (by linarith)
      · exact Real.log_nonpos (by linarith) (by linarith)
    rw [total_const, mul_zero] at this
    exact this

example : ∀ r ∈ rows [some 1, none, some 0] [some (1 / 2), some 1, some (1 / 4)],
    (r.1 = 0 ∨ r.1 = 1) ∧ 0 < given r.1 r.2 ∧ given r.1 r.2 ≤ 1 := by
  have e : rows [some 1, none, some 0] [some (1 / 2), some 1, some (1 / 4)] = [(1, 1 / 2), (0, 1 / 4)] := rfl
  rw [e]; norm_num [given]

/-- **C75.**  The log loss is zero exactly when every label was given probability one. -/
theorem logLoss_zero {a p : Col ℝ} (hne : rows a p ≠ []) (hl : ∀ r ∈ rows a p, r.1 = 0 ∨ r.1 = 1)
    (hp : ∀ r ∈ rows a p, 0 < given r.1 r.2 ∧ given r.1 r.2 ≤ 1) :
    logLoss a p = some 0 ↔ ∀ r ∈ rows a p, r.1 = r.2 := by
  obtain ⟨v, hv, he, -⟩ := logLoss_value hne hl hp
  have hn : ((rows a p).length : ℝ) ≠ 0 := by
    have : (rows a p).length ≠ 0 := by simpa using hne
    exact_mod_cast this
  have h1 : v = total (rows a p) (fun x y => -Real.log (given x y)) / ((rows a p).length : ℝ) := by
    have := total_mul (rows a p) (-1) (fun x y => Real.log (given x y))
    simp only [neg_mul, one_mul] at this
    rw [he, this, avg, neg_div]
  have h2 := total_eq_zero (l := rows a p) (f := fun x y => -Real.log (given x y)) fun r hr => by
    have := Real.log_nonpos (hp r hr).1.le (hp r hr).2
    linarith
  rw [hv, Option.some.injEq, h1, div_eq_zero_iff, or_iff_left hn, h2]
  refine forall_congr' fun r => forall_congr' fun hr => ?_
  obtain ⟨g1, g2⟩ := hp r hr
  rw [neg_eq_zero]
  constructor
  · intro h0
    have hg : given r.1 r.2 = 1 := by
      have := Real.exp_log g1
      rw [h0, Real.exp_zero] at this
      exact this.symm
    rcases hl r hr with h | h <;> rw [h] at hg ⊢ <;> simp [given] at hg ⊢
    · linarith
    · linarith
  · intro h0
    rcases hl r hr with h | h <;> rw [← h0, h] <;> simp [given]

example : logLoss (actuals [(1, 1), (0, 0)]) (preds [(1, 1), (0, 0)]) = some 0 := by
  rw [logLoss_zero] <;> rw [rows_clean] <;> simp [given]

/-- **C75.**  Among constant predictions the log loss is smallest at the share of positive labels. -/
theorem logLoss_best_constant (labels : List ℝ) (hl : ∀ x ∈ labels, x = 0 ∨ x = 1)
    (hm : 0 < meanOf labels) (hm1 : meanOf labels < 1) (c : ℝ) (hc : 0 < c) (hc1 : c < 1) :
    ∃ v w, logLoss (labels.map some) (labels.map fun _ => some (meanOf labels)) = some v
      ∧ logLoss (labels.map some) (labels.map fun _ => some c) = some w ∧ v ≤ w := by
  have hrows : ∀ c : ℝ, rows (labels.map some) (labels.map fun _ => some c) = labels.map fun x => (x, c) := by
    intro c
    clear hl hm hm1
    induction labels with
    | nil => rfl
    | cons x l ih => simpa [rows] using ih
  have hne : labels ≠ [] := by rintro rfl; simp [meanOf] at hm
  have hn : (0 : ℝ) < labels.length := by exact_mod_cast List.length_pos_of_ne_nil hne
  have key : ∀ c : ℝ, avg (labels.map fun x => (x, c)) (fun x y => xlogy x y + xlogy (1 - x) (1 - y))
      = meanOf labels * Real.log c + (1 - meanOf labels) * Real.log (1 - c) := by
    intro c
    have e : total (labels.map fun x => (x, c)) (fun x y => xlogy x y + xlogy (1 - x) (1 - y))
        = labels.sum * Real.log c + ((labels.length : ℝ) - labels.sum) * Real.log (1 - c) := by
      clear hm hm1 hn hne hrows
      induction labels with
      | nil => simp [total]
      | cons x l ih =>
        have hi := ih fun x hx => hl x (by simp [hx])
        simp only [total, List.map_cons, List.sum_cons, List.length_cons] at hi ⊢
        rw [hi]
        rcases hl x (by simp) with h | h <;> rw [h] <;> simp [xlogy] <;> ring
    rw [avg, e, meanOf, List.length_map]
    field_simp
  refine ⟨_, _, logLoss_avg _ _ (by rw [hrows]; simpa using hne), logLoss_avg _ _ (by rw [hrows]; simpa using hne), ?_⟩
  rw [hrows, hrows, key, key]
  generalize meanOf labels = m at hm hm1
  have h1 : Real.log (c / m) ≤ c / m - 1 := Real.log_le_sub_one_of_pos (by positivity)
  have h2 : Real.log ((1 - c) / (1 - m)) ≤ (1 - c) / (1 - m) - 1 :=
    Real.log_le_sub_one_of_pos (div_pos (by linarith) (by linarith))
  rw [Real.log_div hc.ne' hm.ne'] at h1
  rw [Real.log_div (by linarith) (by linarith)] at h2
  have g1 := mul_le_mul_of_nonneg_left h1 hm.le
  have g2 := mul_le_mul_of_nonneg_left h2 (by linarith : (0 : ℝ) ≤ 1 - m)
  have e1 : m * (c / m - 1) = c - m := by field_simp
  have e2 : (1 - m) * ((1 - c) / (1 - m) - 1) = m - c := by
    have : (1 - m) ≠ 0 := by linarith
    field_simp; ring
  rw [e1] at g1
  rw [e2] at g2
  nlinarith

example : meanOf [1, 0, 1, 0] = 1 / 2 := by norm_num [meanOf]

/-! ## C76: fairness -/

/-- The predictions of the rows satisfying (or not) the condition, nulls left out. -/
def Spec.members (p : Col ℝ) (c : Col Bool) (b : Bool) : List ℝ :=
  (p.zip c).filterMap fun q => q.1.bind fun x => if q.2 = some b then some x else none

theorem vals_filterBy (p : Col ℝ) (c : Col Bool) :
    vals (filterBy p c) = members p c true ∧ vals (filterBy p (map1 (fun b => !b) c)) = members p c false := by
  induction p generalizing c with
  | nil => exact ⟨rfl, rfl⟩
  | cons x p ih =>
    cases c with
    | nil => exact ⟨rfl, rfl⟩
    | cons b c =>
      obtain ⟨h1, h2⟩ := ih c
      constructor
      · rcases b with _ | _ | _ <;> cases x <;> simpa [vals, filterBy, members] using h1
      · rcases b with _ | _ | _ <;> cases x <;> simpa [vals, filterBy, members, map1] using h2

theorem mean_of_vals {c : Col ℝ} {l : List ℝ} (h : vals c = l) :
    Pl.mean c = if l = [] then none else some (meanOf l) := by
  subst h
  by_cases h0 : vals c = []
  · rw [if_pos h0, Pl.mean, if_pos (by rw [count, h0]; rfl)]
  · rw [if_neg h0, Pl.mean, if_neg (by rw [count]; simpa using h0)]; rfl

/-- **C76.**  With a known prediction on both sides, the fairness score is the distance between the mean
prediction where the condition holds and where it does not; rows with a null condition or prediction are left
out.  Without such a prediction on one side there is no score. -/
theorem fairness_value (p : Col ℝ) (c : Col Bool) :
    (members p c true ≠ [] → members p c false ≠ [] →
      fairness p c = some |meanOf (members p c true) - meanOf (members p c false)|)
    ∧ ((members p c true = [] ∨ members p c false = []) → fairness p c = none) := by
  rw [fairness, mean_of_vals (vals_filterBy p c).1, mean_of_vals (vals_filterBy p c).2]
  constructor
  · intro h1 h2; rw [if_neg h1, if_neg h2]; rfl
  · rintro (h | h)
    · rw [if_pos h]; rfl
    · rw [if_pos h]; split_ifs <;> rfl

example : members [some 1, some 2, none, some 3] [some true, some false, some true, none] true = [1]
    ∧ members [some 1, some 2, none, some 3] [some true, some false, some true, none] false = [2] := by
  simp [members]

theorem members_not (p : Col ℝ) (c : Col Bool) (b : Bool) :
    members p (c.map (Option.map not)) b = members p c (!b) := by
  induction p generalizing c with
  | nil => rfl
  | cons x p ih =>
    cases c with
    | nil => rfl
    | cons d c =>
      have := ih c
      rcases d with _ | _ | _ <;> cases b <;> cases x <;> simpa [members] using this

/-- **C76.**  Negating the sensitive condition changes neither score. -/
theorem fairness_symm (p : Col ℝ) (c : Col Bool) : fairness p (c.map (Option.map not)) = fairness p c := by
  rw [fairness, fairness, mean_of_vals (vals_filterBy p c).1, mean_of_vals (vals_filterBy p c).2,
    mean_of_vals (vals_filterBy p _).1, mean_of_vals (vals_filterBy p _).2, members_not, members_not]
  simp only [Bool.not_true, Bool.not_false]
  split_ifs <;> simp [opt2, abs_sub_comm]

example : fairness [some 1, some 4] [some true, some false] = some 3 := by
  have e1 : members [some 1, some 4] [some true, some false] true = [1] := by simp [members]
  have e2 : members [some 1, some 4] [some true, some false] false = [4] := by simp [members]
  rw [(fairness_value _ _).1 (by rw [e1]; simp) (by rw [e2]; simp), e1, e2]
  norm_num [meanOf]

/-- **C76.**  The p-percent score of 0/1 predictions with some positive prediction in a group is the smaller of
the two ratios of the groups' positive rates, a number between 0 and 1.  Missing: two groups without any positive
prediction (`pPct_nan`). -/
theorem pPct_unit_partial {p : Col ℝ} {c : Col Bool} (h01 : ∀ b, ∀ x ∈ members p c b, x = 0 ∨ x = 1)
    (h1 : members p c true ≠ []) (h0 : members p c false ≠ []) (hp : ∃ b, 1 ∈ members p c b) :
    ∃ v, pPct p c = some (.num v) ∧ 0 ≤ v ∧ v ≤ 1
      ∧ v = min (meanOf (members p c true)) (meanOf (members p c false))
          / max (meanOf (members p c true)) (meanOf (members p c false)) := by
  have hnn : ∀ b, 0 ≤ meanOf (members p c b) := fun b =>
    div_nonneg (List.sum_nonneg fun x hx => by rcases h01 b x hx with h | h <;> rw [h]; norm_num)
      (Nat.cast_nonneg _)
  have hpos : ∃ b, 0 < meanOf (members p c b) := by
    obtain ⟨b, hb⟩ := hp
    refine ⟨b, div_pos ?_ (by exact_mod_cast List.length_pos_of_mem hb)⟩
    have hle := List.single_le_sum (l := members p c b)
      (fun x hx => by rcases h01 b x hx with h | h <;> rw [h]; norm_num) 1 hb
    linarith
  rw [pPct, mean_of_vals (vals_filterBy p c).1, mean_of_vals (vals_filterBy p c).2, if_neg h1, if_neg h0]
  simp only [opt2]
  have ht := hnn true
  have hf := hnn false
  have hor : 0 < meanOf (members p c true) ∨ 0 < meanOf (members p c false) := by
    obtain ⟨b, hb⟩ := hpos
    cases b
    · exact Or.inr hb
    · exact Or.inl hb
  generalize meanOf (members p c true) = x at ht hor ⊢
  generalize meanOf (members p c false) = y at hf hor ⊢
  have hmax : 0 < max x y := lt_max_iff.2 hor
  refine ⟨min x y / max x y, ?_, div_nonneg (le_min ht hf) hmax.le,
    div_le_one_of_le₀ (le_trans (min_le_left _ _) (le_max_left _ _)) hmax.le, rfl⟩
  congr 1
  rcases eq_or_lt_of_le hf with hy | hy
  · have hx : 0 < x := hor.resolve_right (by rw [← hy]; exact lt_irrefl _)
    rw [← hy, min_eq_right hx.le, max_eq_left hx.le]
    simp [qdiv, qinv, qmin, hx.ne']
  · rcases eq_or_lt_of_le ht with hx | hx
    · rw [← hx, min_eq_left hy.le, max_eq_right hy.le]
      simp [qdiv, qinv, qmin, hy.ne']
    · have hne : x / y ≠ 0 := (div_pos hx hy).ne'
      simp only [qdiv, if_neg hy.ne', qinv, if_neg hne, qmin]
      congr 1
      rw [one_div_div]
      rcases le_total x y with h | h
      · rw [min_eq_left h, max_eq_right h]
        apply min_eq_left
        rw [div_le_div_iff₀ hy hx]; nlinarith
      · rw [min_eq_right h, max_eq_left h]
        apply min_eq_right
        rw [div_le_div_iff₀ hx hy]; nlinarith

example : members [some 1, some 0, some 1] [some true, some true, some false] true = [1, 0]
    ∧ members [some 1, some 0, some 1] [some true, some true, some false] false = [1] := by
  simp [members]

/-- **C76, violated.**  Two groups that are treated alike, with no positive prediction in either, get NaN instead
of the best score one. -/
theorem pPct_nan {p : Col ℝ} {c : Col Bool} (h1 : members p c true ≠ []) (h0 : members p c false ≠ [])
    (hz : ∀ b, ∀ x ∈ members p c b, x = 0) : pPct p c = some .nan := by
  have hm : ∀ b, meanOf (members p c b) = 0 := by
    intro b; rw [meanOf, List.sum_eq_zero (hz b), zero_div]
  rw [pPct, mean_of_vals (vals_filterBy p c).1, mean_of_vals (vals_filterBy p c).2, if_neg h1, if_neg h0,
    hm, hm]
  simp [opt2, qdiv, qinv, qmin]

example : members [some 0, some 0] [some true, some false] true = [0]
    ∧ members [some 0, some 0] [some true, some false] false = [0] := by
  simp [members]

/-- **C76.**  The p-percent score of 0/1 predictions does not depend on which group is called sensitive. -/
theorem pPct_symm {p : Col ℝ} {c : Col Bool} (h01 : ∀ b, ∀ x ∈ members p c b, x = 0 ∨ x = 1)
    (h1 : members p c true ≠ []) (h0 : members p c false ≠ []) :
    pPct p (c.map (Option.map not)) = pPct p c := by
  by_cases hp : ∃ b, 1 ∈ members p c b
  · obtain ⟨v, hv, -, -, e⟩ := pPct_unit_partial h01 h1 h0 hp
    obtain ⟨w, hw, -, -, e'⟩ := pPct_unit_partial (p := p) (c := c.map (Option.map not))
      (by intro b; rw [members_not]; exact h01 _) (by rw [members_not]; exact h0) (by rw [members_not]; exact h1)
      (by obtain ⟨b, hb⟩ := hp; exact ⟨!b, by rw [members_not, Bool.not_not]; exact hb⟩)
    rw [hv, hw, e, e', members_not, members_not]
    simp only [Bool.not_true, Bool.not_false]
    rw [min_comm, max_comm]
  · have hz : ∀ b, ∀ x ∈ members p c b, x = 0 := fun b x hx =>
      (h01 b x hx).resolve_right fun h => hp ⟨b, h ▸ hx⟩
    rw [pPct_nan h1 h0 hz]
    apply pPct_nan
    · rw [members_not]; exact h0
    · rw [members_not]; exact h1
    · intro b; rw [members_not]; exact hz _

example : ∀ b, ∀ x ∈ members [some 1, some 0] [some true, some false] b, x = 0 ∨ x = 1 := by
  intro b; cases b <;> simp [members]

end Verif.Metrics
