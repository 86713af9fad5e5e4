import Verif.Model.Metrics
import Mathlib.Algebra.Order.BigOperators.Group.List
import Mathlib.Analysis.SpecialFunctions.Arcosh
import Mathlib.Tactic.Ring
import Mathlib.Tactic.Linarith
import Mathlib.Tactic.FieldSimp
import Mathlib.Tactic.Positivity
import Mathlib.Tactic.NormNum

/-!
# Regression losses (C71, C72, C73, C74)
-/

namespace Verif.Metrics
open Verif.Pl

namespace Spec

/-- The rows where both the actual and the prediction are known. -/
def rows (a p : Col ℝ) : List (ℝ × ℝ) :=
  (a.zip p).filterMap fun q => q.1.bind fun x => q.2.map fun y => (x, y)

/-- Every known actual has a prediction. -/
def Scored (a p : Col ℝ) : Prop := a.length = p.length ∧ ∀ q ∈ a.zip p, q.1.isSome → q.2.isSome

/-- Sum of `f` over rows. -/
def total (l : List (ℝ × ℝ)) (f : ℝ → ℝ → ℝ) : ℝ := (l.map fun r => f r.1 r.2).sum

/-- Mean of `f` over rows. -/
noncomputable def avg (l : List (ℝ × ℝ)) (f : ℝ → ℝ → ℝ) : ℝ := total l f / (l.length : ℝ)

/-- The textbook Huber loss of one error. -/
noncomputable def huberOf (delta e : ℝ) : ℝ :=
  if |e| ≤ delta then e ^ 2 / 2 else delta * |e| - delta ^ 2 / 2

end Spec
open Spec

/-! ## Lemmas -/

theorem vals_map1 {K L : Type} (f : K → L) (c : Col K) : vals (map1 f c) = (vals c).map f := by
  induction c with
  | nil => rfl
  | cons x c ih => cases x <;> simpa [vals, map1] using ih

theorem vals_map2 (g : ℝ → ℝ → ℝ) (a p : Col ℝ) :
    vals (map2 g a p) = (rows a p).map fun r => g r.1 r.2 := by
  induction a generalizing p with
  | nil => rfl
  | cons x a ih =>
    cases p with
    | nil => rfl
    | cons y p =>
      have := ih p
      cases x <;> cases y <;> simpa [vals, map2, rows, opt2] using this

theorem vals_sq (c : Col ℝ) : vals (map2 (· * ·) c c) = (vals c).map fun x => x * x := by
  induction c with
  | nil => rfl
  | cons x c ih => cases x <;> simpa [vals, map2, opt2] using ih

theorem sum_map1_map2 (f : ℝ → ℝ) (g : ℝ → ℝ → ℝ) (a p : Col ℝ) :
    Pl.sum (map1 f (map2 g a p)) = total (rows a p) fun x y => f (g x y) := by
  simp only [Pl.sum, vals_map1, vals_map2, List.map_map, total]; rfl

theorem dot_self (c : Col ℝ) : dot c c = ((vals c).map fun x => x * x).sum := by
  simp only [dot, Pl.sum, vals_sq]

theorem dot_diff (a p : Col ℝ) :
    dot (diff a p) (diff a p) = total (rows a p) fun x y => (x - y) ^ 2 := by
  rw [dot_self, diff, vals_map2, List.map_map, total]
  congr 2; funext r; simp only [Function.comp]; ring

theorem rows_length_le {a p : Col ℝ} (h : a.length = p.length) : (rows a p).length ≤ count a := by
  induction a generalizing p with
  | nil => simp [rows]
  | cons x a ih =>
    cases p with
    | nil => simp at h
    | cons y p =>
      have := ih (p := p) (by simpa using h)
      cases x <;> cases y <;> simp [rows, count, vals] at this ⊢ <;> omega

theorem rows_length {a p : Col ℝ} (h : Scored a p) : (rows a p).length = count a := by
  obtain ⟨hl, hs⟩ := h
  induction a generalizing p with
  | nil => simp [rows, count, vals]
  | cons x a ih =>
    cases p with
    | nil => simp at hl
    | cons y p =>
      have := ih (p := p) (by simpa using hl) (fun q hq => hs q (by simp [hq]))
      have hxy := hs (x, y) (by simp)
      cases x <;> cases y <;> simp [rows, count, vals] at this hxy ⊢ <;> omega

theorem total_le {l : List (ℝ × ℝ)} {f g : ℝ → ℝ → ℝ} (h : ∀ r ∈ l, f r.1 r.2 ≤ g r.1 r.2) :
    total l f ≤ total l g := List.sum_le_sum h

theorem total_nonneg {l : List (ℝ × ℝ)} {f : ℝ → ℝ → ℝ} (h : ∀ r ∈ l, 0 ≤ f r.1 r.2) :
    0 ≤ total l f := by
  apply List.sum_nonneg; simp only [List.mem_map]; rintro _ ⟨r, hr, rfl⟩; exact h r hr

theorem total_const (l : List (ℝ × ℝ)) (c : ℝ) : total l (fun _ _ => c) = l.length * c := by
  simp [total]

theorem total_mul (l : List (ℝ × ℝ)) (c : ℝ) (f : ℝ → ℝ → ℝ) :
    total l (fun x y => c * f x y) = c * total l f := by
  simp [total, List.sum_map_mul_left]

theorem total_add (l : List (ℝ × ℝ)) (f g : ℝ → ℝ → ℝ) :
    total l (fun x y => f x y + g x y) = total l f + total l g := by
  simp [total, List.sum_map_add]

theorem total_congr {l : List (ℝ × ℝ)} {f g : ℝ → ℝ → ℝ} (h : ∀ r ∈ l, f r.1 r.2 = g r.1 r.2) :
    total l f = total l g := by
  unfold total; congr 1; exact List.map_congr_left h

theorem total_eq_zero {l : List (ℝ × ℝ)} {f : ℝ → ℝ → ℝ} (h : ∀ r ∈ l, 0 ≤ f r.1 r.2) :
    total l f = 0 ↔ ∀ r ∈ l, f r.1 r.2 = 0 := by
  induction l with
  | nil => simp [total]
  | cons r l ih =>
    have h1 := h r (by simp)
    have h2 : 0 ≤ total l f := total_nonneg fun q hq => h q (by simp [hq])
    have h3 := ih fun q hq => h q (by simp [hq])
    have : total (r :: l) f = f r.1 r.2 + total l f := by simp [total]
    rw [this]
    constructor
    · intro h0
      have e1 : f r.1 r.2 = 0 := by linarith
      have e2 : total l f = 0 := by linarith
      intro q hq
      rcases List.mem_cons.1 hq with rfl | hq
      · exact e1
      · exact h3.1 e2 q hq
    · intro h0
      rw [h0 r (by simp), h3.2 fun q hq => h0 q (by simp [hq])]; ring

/-- Quadratic mean: `(Σ|e|)² ≤ n Σ e²`. -/
theorem sq_total_le (l : List (ℝ × ℝ)) (f : ℝ → ℝ → ℝ) :
    (total l f) ^ 2 ≤ l.length * total l fun x y => f x y ^ 2 := by
  rcases Nat.eq_zero_or_pos l.length with h0 | h0
  · simp [List.length_eq_zero_iff.1 h0, total]
  have hn : (0 : ℝ) < l.length := by exact_mod_cast h0
  have : 0 ≤ total l fun x y => (l.length * f x y - total l f) ^ 2 := total_nonneg fun _ _ => sq_nonneg _
  have e : (total l fun x y => (l.length * f x y - total l f) ^ 2)
      = l.length * (l.length * (total l fun x y => f x y ^ 2) - (total l f) ^ 2) := by
    have : (fun x y => ((l.length : ℝ) * f x y - total l f) ^ 2)
        = fun x y => ((l.length : ℝ) ^ 2 * f x y ^ 2 + (-2 * l.length * total l f) * f x y) + total l f ^ 2 := by
      funext x y; ring
    rw [this, total_add, total_add, total_mul, total_mul, total_const]; ring
  rw [e] at this
  nlinarith [(mul_nonneg_iff_of_pos_left hn).1 this]

theorem huberTerm_eq (delta d : ℝ) : huberTerm delta d = huberOf delta d := by
  simp only [huberTerm, huberOf]
  split_ifs
  · rw [sq_abs]; ring
  · ring

theorem huberOf_nonneg {delta : ℝ} (hd : 0 ≤ delta) (e : ℝ) : 0 ≤ huberOf delta e := by
  unfold huberOf
  split_ifs with h
  · positivity
  · have : delta < |e| := lt_of_not_ge h
    nlinarith

theorem huberOf_le_sq (delta e : ℝ) : huberOf delta e ≤ e ^ 2 / 2 := by
  unfold huberOf
  split_ifs
  · exact le_refl _
  · have := sq_nonneg (|e| - delta); rw [← sq_abs e]; nlinarith

theorem huberOf_le_abs {delta : ℝ} (hd : 0 ≤ delta) (e : ℝ) : huberOf delta e ≤ delta * |e| := by
  unfold huberOf
  split_ifs with h
  · rw [← sq_abs e]; nlinarith [abs_nonneg e]
  · nlinarith

theorem logCosh_nonneg (d : ℝ) : 0 ≤ Real.log (Real.cosh d) := Real.log_nonneg (Real.one_le_cosh d)

theorem logCosh_le (d : ℝ) : Real.log (Real.cosh d) ≤ |d| := by
  rw [← Real.cosh_abs, Real.log_le_iff_le_exp (Real.cosh_pos _), Real.cosh_eq]
  have : Real.exp (-|d|) ≤ Real.exp |d| := Real.exp_le_exp.2 (by linarith [abs_nonneg d])
  linarith

theorem le_logCosh (d : ℝ) : |d| - Real.log 2 ≤ Real.log (Real.cosh d) := by
  rw [← Real.cosh_abs, Real.le_log_iff_exp_le (Real.cosh_pos _), Real.exp_sub,
    Real.exp_log (by norm_num), Real.cosh_eq]
  have := Real.exp_pos (-|d|)
  linarith

theorem lInf_spec (a p : Col ℝ) : lInf a p = ((rows a p).map fun r => |r.1 - r.2|).max? := by
  simp only [lInf, diff, vals_map1, vals_map2, List.map_map]; rfl

/-! ## C71: losses are means over the complete rows -/

/-- The code's losses over an arbitrary per-row loss. -/
theorem lossOver_eq (f : ℝ → ℝ) (a p : Col ℝ) :
    lossOver f a p true = total (rows a p) (fun x y => f (x - y)) / (count a : ℝ) := by
  simp only [lossOver, diff, sum_map1_map2, if_true]

theorem logCosh_eq (a p : Col ℝ) (b : Bool) :
    logCosh a p b = lossOver (fun d => Real.log (Real.cosh d)) a p b := by
  simp only [logCosh, lossOver, diff, sum_map1_map2]
  have : (fun x y : ℝ => Real.log (Real.cosh (y - x))) = fun x y => Real.log (Real.cosh (x - y)) := by
    funext x y; rw [← Real.cosh_neg]; congr 2; ring
  rw [this]

theorem l2_eq (a p : Col ℝ) (b : Bool) : l2 a p b = lossOver (fun d => d ^ 2) a p b := by
  simp only [l2, lossOver, dot_diff]
  simp only [diff, sum_map1_map2]

theorem msle_total (a p : Col ℝ) :
    msle a p false = total (rows a p) fun x y => (Real.log (1 + x) - Real.log (1 + y)) ^ 2 := by
  have : ∀ a p : Col ℝ, vals (map2 (· - ·) (map1 (fun x => Real.log (1 + x)) a)
      (map1 (fun x => Real.log (1 + x)) p))
      = (rows a p).map fun r => Real.log (1 + r.1) - Real.log (1 + r.2) := by
    intro a
    induction a with
    | nil => intro p; rfl
    | cons x a ih =>
      intro p
      cases p with
      | nil => rfl
      | cons y p =>
        have := ih p
        cases x <;> cases y <;> simpa [vals, map2, map1, rows, opt2] using this
  simp only [msle, dot_self, this, List.map_map, total]
  simp only [Bool.false_eq_true, if_false]
  congr 2; funext r; simp only [Function.comp]; ring

/-- **C71.**  Without normalisation each loss is the sum of its per-row loss over the rows where both the actual
and the prediction are known. -/
theorem loss_totals (a p : Col ℝ) :
    l1 a p false = total (rows a p) (fun x y => |x - y|)
    ∧ l2 a p false = total (rows a p) (fun x y => (x - y) ^ 2)
    ∧ logCosh a p false = total (rows a p) (fun x y => Real.log (Real.cosh (x - y)))
    ∧ msle a p false = total (rows a p) (fun x y => (Real.log (1 + x) - Real.log (1 + y)) ^ 2) := by
  refine ⟨?_, ?_, ?_, msle_total a p⟩
  · simp [l1, lossOver, diff, sum_map1_map2]
  · simp [l2, dot_diff]
  · rw [logCosh_eq]; simp [lossOver, diff, sum_map1_map2]

example : rows [some 1, none, some 5] [some 3, some 4, some 4] = [(1, 3), (5, 4)] := rfl
example : l1 [some 1, none, some 5] [some 3, some 4, some 4] false = 3 := by
  rw [(loss_totals _ _).1]
  have : rows [some 1, none, some 5] [some 3, some 4, some 4] = [(1, 3), (5, 4)] := rfl
  rw [this]; norm_num [total]

/-- **C71.**  With normalisation, if every known actual has a prediction, each loss is the mean of its per-row
loss over the complete rows.  Missing: predictions that are null where the actual is known (the claim is false
there, see `l1_counts_unscored`). -/
theorem loss_means_partial (delta : ℝ) {a p : Col ℝ} (h : Scored a p) :
    l1 a p true = avg (rows a p) (fun x y => |x - y|)
    ∧ l2 a p true = avg (rows a p) (fun x y => (x - y) ^ 2)
    ∧ huber delta a p = avg (rows a p) (fun x y => huberOf delta (x - y))
    ∧ logCosh a p true = avg (rows a p) (fun x y => Real.log (Real.cosh (x - y)))
    ∧ msle a p true = avg (rows a p) (fun x y => (Real.log (1 + x) - Real.log (1 + y)) ^ 2) := by
  have hn := rows_length h
  refine ⟨?_, ?_, ?_, ?_, ?_⟩
  · rw [l1, lossOver_eq, avg, hn]
  · rw [l2_eq, lossOver_eq, avg, hn]
  · rw [huber, lossOver_eq, avg, hn]; simp only [huberTerm_eq]
  · rw [logCosh_eq, lossOver_eq, avg, hn]
  · rw [avg, hn, ← msle_total]; simp [msle]

example : Scored [some 1, none, some 5] [some 3, some 4, some 4] := by simp [Scored]

/-- **C71, violated.**  A row whose prediction is null adds nothing to the numerator but is counted in the
denominator: the mean absolute error of the one complete row is 2, the code returns 1. -/
theorem l1_counts_unscored :
    l1 [some 0, some 0] [some 2, none] true = 1
    ∧ avg (rows [some 0, some 0] [some 2, none]) (fun x y => |x - y|) = 2 := by
  have e : rows [some 0, some 0] [some 2, none] = [(0, 2)] := rfl
  constructor
  · rw [l1, lossOver_eq, e]
    have : count (K := ℝ) [some 0, some 0] = 2 := rfl
    rw [this]; norm_num [total]
  · rw [e]; norm_num [avg, total]

/-- **C71.**  Whatever is null, a normalised loss never exceeds the mean over the complete rows, and with a
prediction missing for a known actual it is strictly smaller unless the loss is zero. -/
theorem loss_understated (f : ℝ → ℝ) (hf : ∀ d, 0 ≤ f d) {a p : Col ℝ} (h : a.length = p.length) :
    lossOver f a p true ≤ avg (rows a p) (fun x y => f (x - y))
    ∧ ((rows a p).length < count a → 0 < total (rows a p) (fun x y => f (x - y)) →
        lossOver f a p true < avg (rows a p) (fun x y => f (x - y))) := by
  have hle := rows_length_le h
  have h0 : 0 ≤ total (rows a p) (fun x y => f (x - y)) := total_nonneg fun _ _ => hf _
  rw [lossOver_eq, avg]
  constructor
  · rcases Nat.eq_zero_or_pos (rows a p).length with hz | hz
    · simp [List.length_eq_zero_iff.1 hz, total]
    · exact div_le_div_of_nonneg_left h0 (by exact_mod_cast hz) (by exact_mod_cast hle)
  · intro hlt hpos
    rcases Nat.eq_zero_or_pos (rows a p).length with hz | hz
    · simp [List.length_eq_zero_iff.1 hz, total] at hpos
    · exact div_lt_div_of_pos_left hpos (by exact_mod_cast hz) (by exact_mod_cast hlt)

example : (rows [some 0, some 0] [some 2, none]).length < count (K := ℝ) [some 0, some 0] := by
  decide

/-! ## C72: how the losses relate -/

theorem lossOver_mono {f g : ℝ → ℝ} {a p : Col ℝ}
    (h : ∀ r ∈ rows a p, f (r.1 - r.2) ≤ g (r.1 - r.2)) : lossOver f a p true ≤ lossOver g a p true := by
  rw [lossOver_eq, lossOver_eq]
  exact div_le_div_of_nonneg_right (total_le h) (Nat.cast_nonneg _)

/-- **C72.**  Mean absolute error is at most root mean squared error (whatever is null). -/
theorem l1_sq_le_l2 {a p : Col ℝ} (h : a.length = p.length) : l1 a p true ^ 2 ≤ l2 a p true := by
  rw [l2_eq, l1, lossOver_eq, lossOver_eq]
  rcases Nat.eq_zero_or_pos (count a) with hz | hz
  · simp [hz]
  have hn : (0 : ℝ) < count a := by exact_mod_cast hz
  have h1 := sq_total_le (rows a p) fun x y => |x - y|
  have h2 : ((rows a p).length : ℝ) ≤ count a := by exact_mod_cast rows_length_le h
  have h3 : 0 ≤ total (rows a p) fun x y => (x - y) ^ 2 := total_nonneg fun _ _ => sq_nonneg _
  simp only [sq_abs] at h1
  rw [div_pow, div_le_div_iff₀ (by positivity) hn]
  have h4 := mul_le_mul_of_nonneg_right h2 h3
  nlinarith

/-- **C72.**  The maximum error bounds every error, is attained, and bounds the mean absolute error; the mean
squared error is at most their product. -/
theorem lInf_bounds {a p : Col ℝ} (h : a.length = p.length) {m : ℝ} (hm : lInf a p = some m) :
    (∃ r ∈ rows a p, |r.1 - r.2| = m) ∧ (∀ r ∈ rows a p, |r.1 - r.2| ≤ m)
    ∧ l1 a p true ≤ m ∧ l2 a p true ≤ m * l1 a p true := by
  rw [lInf_spec, List.max?_eq_some_iff] at hm
  obtain ⟨h1, h2⟩ := hm
  obtain ⟨r, hr, hrm⟩ := List.mem_map.1 h1
  have hb : ∀ r ∈ rows a p, |r.1 - r.2| ≤ m := fun r hr => h2 _ (List.mem_map_of_mem hr)
  have hm0 : 0 ≤ m := by rw [← hrm]; exact abs_nonneg _
  refine ⟨⟨r, hr, hrm⟩, hb, ?_, ?_⟩
  · rw [l1, lossOver_eq]
    have h3 := total_le (f := fun x y => |x - y|) (g := fun _ _ => m) hb
    rw [total_const] at h3
    have hle : ((rows a p).length : ℝ) ≤ count a := by exact_mod_cast rows_length_le h
    have hpos : (0 : ℝ) < count a :=
      lt_of_lt_of_le (by exact_mod_cast List.length_pos_of_mem hr) hle
    rw [div_le_iff₀ hpos]
    nlinarith
  · rw [l2_eq, l1, lossOver_eq, lossOver_eq, ← mul_div_assoc, ← total_mul]
    apply div_le_div_of_nonneg_right _ (Nat.cast_nonneg _)
    apply total_le
    intro r hr
    rw [← sq_abs, sq]
    exact mul_le_mul_of_nonneg_right (hb r hr) (abs_nonneg _)

example : lInf [some 1, none, some 5] [some 3, some 4, some 4] = some 2 := by
  rw [lInf_spec]
  have : rows [some 1, none, some 5] [some 3, some 4, some 4] = [(1, 3), (5, 4)] := rfl
  rw [this, List.max?_eq_some_iff]; norm_num

/-- **C72.**  There is a maximum error exactly when some row is complete. -/
theorem lInf_none (a p : Col ℝ) : lInf a p = none ↔ rows a p = [] := by
  rw [lInf_spec]; simp

example : lInf [some 1, none] [none, some 4] = none := (lInf_none _ _).2 rfl

/-- **C72.**  The Huber loss lies between zero and both half the squared loss and `delta` times the absolute
loss, and it is half the squared loss when no error exceeds `delta`. -/
theorem huber_between {delta : ℝ} (hd : 0 ≤ delta) (a p : Col ℝ) :
    0 ≤ huber delta a p ∧ huber delta a p ≤ l2 a p true / 2 ∧ huber delta a p ≤ delta * l1 a p true
    ∧ ((∀ r ∈ rows a p, |r.1 - r.2| ≤ delta) → huber delta a p = l2 a p true / 2) := by
  have e : huber delta a p = total (rows a p) (fun x y => huberOf delta (x - y)) / (count a : ℝ) := by
    rw [huber, lossOver_eq]; simp only [huberTerm_eq]
  have e2 : l2 a p true / 2 = total (rows a p) (fun x y => (x - y) ^ 2 / 2) / (count a : ℝ) := by
    rw [l2_eq, lossOver_eq]
    have : (fun x y : ℝ => (x - y) ^ 2 / 2) = fun x y => (1 / 2) * (x - y) ^ 2 := by funext x y; ring
    rw [this, total_mul]; ring
  rw [e, e2, l1, lossOver_eq, ← mul_div_assoc, ← total_mul]
  refine ⟨div_nonneg (total_nonneg fun _ _ => huberOf_nonneg hd _) (Nat.cast_nonneg _), ?_, ?_, ?_⟩
  · exact div_le_div_of_nonneg_right (total_le fun _ _ => huberOf_le_sq _ _) (Nat.cast_nonneg _)
  · exact div_le_div_of_nonneg_right (total_le fun _ _ => huberOf_le_abs hd _) (Nat.cast_nonneg _)
  · intro h
    congr 1
    apply total_congr
    intro r hr
    simp only [huberOf, if_pos (h r hr)]

example : huber 1 [some 0, some 0] [some 3, some 1] = 3 / 2 := by
  have e : rows [some 0, some 0] [some 3, some 1] = [(0, 3), (0, 1)] := rfl
  rw [huber, lossOver_eq, e]
  have : count (K := ℝ) [some 0, some 0] = 2 := rfl
  rw [this]; norm_num [total, huberTerm]

/-- **C72.**  The log-cosh loss is within `log 2` below the absolute loss, and never negative. -/
theorem logCosh_between {a p : Col ℝ} (h : a.length = p.length) :
    0 ≤ logCosh a p true ∧ logCosh a p true ≤ l1 a p true
    ∧ l1 a p true - Real.log 2 ≤ logCosh a p true := by
  rw [logCosh_eq, l1]
  refine ⟨?_, lossOver_mono fun _ _ => logCosh_le _, ?_⟩
  · rw [lossOver_eq]; exact div_nonneg (total_nonneg fun _ _ => logCosh_nonneg _) (Nat.cast_nonneg _)
  · rcases Nat.eq_zero_or_pos (count a) with hz | hz
    · rw [lossOver_eq, lossOver_eq]; simp [hz]; exact Real.log_nonneg (by norm_num)
    have hn : (0 : ℝ) < count a := by exact_mod_cast hz
    have h2 : ((rows a p).length : ℝ) ≤ count a := by exact_mod_cast rows_length_le h
    have hl : 0 ≤ Real.log 2 := Real.log_nonneg (by norm_num)
    rw [lossOver_eq, lossOver_eq, sub_le_iff_le_add, div_add' _ _ _ hn.ne',
      div_le_div_iff_of_pos_right hn]
    have h3 : total (rows a p) (fun x y => |x - y|)
        ≤ total (rows a p) (fun x y => Real.log (Real.cosh (x - y)) + Real.log 2) :=
      total_le fun r _ => by linarith [le_logCosh (r.1 - r.2)]
    rw [total_add, total_const] at h3
    nlinarith

example : logCosh [some 1, some 2] [some 1, some 2] true = 0 := by
  have e : rows [some 1, some 2] [some 1, some 2] = [(1, 1), (2, 2)] := rfl
  rw [logCosh_eq, lossOver_eq, e]; simp [total]

/-- **C72.**  The absolute, squared and log-cosh losses vanish exactly when every complete row is predicted
without error. -/
theorem loss_zero_iff (a p : Col ℝ) :
    (l1 a p false = 0 ↔ ∀ r ∈ rows a p, r.1 = r.2) ∧ (l2 a p false = 0 ↔ ∀ r ∈ rows a p, r.1 = r.2)
    ∧ (logCosh a p false = 0 ↔ ∀ r ∈ rows a p, r.1 = r.2) := by
  obtain ⟨h1, h2, h3, -⟩ := loss_totals a p
  rw [h1, h2, h3, total_eq_zero fun _ _ => abs_nonneg _, total_eq_zero fun _ _ => sq_nonneg _,
    total_eq_zero fun _ _ => logCosh_nonneg _]
  refine ⟨?_, ?_, ?_⟩
  · simp only [abs_eq_zero, sub_eq_zero]
  · simp only [ne_eq, OfNat.ofNat_ne_zero, not_false_eq_true, pow_eq_zero_iff, sub_eq_zero]
  · refine forall_congr' fun r => forall_congr' fun _ => ?_
    constructor
    · intro h
      by_contra hne
      have : 1 < Real.cosh (r.1 - r.2) := Real.one_lt_cosh.2 (sub_ne_zero.2 hne)
      have := Real.log_pos this
      linarith
    · intro h; rw [h]; simp

theorem rows_swap (a p : Col ℝ) : rows p a = (rows a p).map Prod.swap := by
  induction a generalizing p with
  | nil => cases p <;> rfl
  | cons x a ih =>
    cases p with
    | nil => rfl
    | cons y p =>
      have := ih p
      cases x <;> cases y <;> simpa [rows] using this

/-- **C72.**  Swapping the two columns does not change the unnormalised losses nor the maximum error. -/
theorem loss_symm (a p : Col ℝ) :
    l1 a p false = l1 p a false ∧ l2 a p false = l2 p a false ∧ logCosh a p false = logCosh p a false
    ∧ msle a p false = msle p a false ∧ lInf a p = lInf p a := by
  obtain ⟨h1, h2, h3, h4⟩ := loss_totals a p
  obtain ⟨g1, g2, g3, g4⟩ := loss_totals p a
  rw [h1, h2, h3, h4, g1, g2, g3, g4, lInf_spec, lInf_spec, rows_swap a p]
  simp only [total, List.map_map]
  refine ⟨?_, ?_, ?_, ?_, ?_⟩ <;> congr 2 <;> funext r <;> simp only [Function.comp, Prod.swap]
  · rw [abs_sub_comm]
  · ring
  · rw [← Real.cosh_neg]; congr 2; ring
  · ring
  · rw [abs_sub_comm]

example : l2 [some 1, none] [some 3, some 9] false = l2 [some 3, some 9] [some 1, none] false :=
  (loss_symm _ _).2.1

end Verif.Metrics
