import Verif.Props.NumExpr
import Mathlib.Algebra.BigOperators.Intervals

/-!
# Centering, scaling, softmax and detrending: theorems (C83, C84)
-/
set_option linter.unusedSectionVars false

namespace Verif.NumExpr
open Verif.Pl Verif.Confusion

theorem vals_clean {K : Type} (l : List K) : vals (l.map some) = l := by
  induction l with
  | nil => rfl
  | cons a l ih => simpa [vals] using ih

/-! ## C83: centering and scaling -/

theorem vals_subScalar (c : Col ℝ) (m : ℝ) : vals (subScalar c (some m)) = (vals c).map fun x => x - m := by
  induction c with
  | nil => rfl
  | cons x c ih => cases x <;> simpa [vals, subScalar, opt2] using ih

theorem sum_sub_const (l : List ℝ) (m : ℝ) : (l.map fun x => x - m).sum = l.sum - l.length * m := by
  induction l with
  | nil => simp
  | cons a l ih => simp only [List.map_cons, List.sum_cons, ih, List.length_cons]; push_cast; ring

theorem sum_div (l : List ℝ) (s : ℝ) : (l.map fun z => z / s).sum = l.sum / s := by
  induction l with
  | nil => simp
  | cons a l ih => simp only [List.map_cons, List.sum_cons, ih]; ring

theorem mean_some {c : Col ℝ} (h : vals c ≠ []) : mean c = some ((vals c).sum / ((vals c).length : ℝ)) := by
  have : count c ≠ 0 := by unfold count; rw [Ne, List.length_eq_zero_iff]; exact h
  simp only [mean, if_neg this]; rfl

/-- **C83.** `center` subtracts one number from every known value, keeps nulls, and makes the known values sum
to zero. -/
theorem center_spec (c : Col ℝ) (h : vals c ≠ []) :
    (∃ m : ℝ, center c = map1 (fun x => x - m) c) ∧ (vals (center c)).sum = 0 := by
  have hm := mean_some h
  have e : center c = map1 (fun x => x - (vals c).sum / ((vals c).length : ℝ)) c := by
    unfold center subScalar map1
    rw [hm]
    apply List.map_congr_left
    rintro (_ | x) _ <;> rfl
  refine ⟨⟨_, e⟩, ?_⟩
  rw [e, Metrics.vals_map1, sum_sub_const]
  have : ((vals c).length : ℝ) ≠ 0 := by
    have := List.length_pos_iff.2 h
    positivity
  field_simp
  ring

/-- **C83.** The mean absolute deviation is the average distance of the known values to their mean: it is
non-negative, and zero exactly for constant columns. -/
theorem mad_spec (c : Col ℝ) (h : vals c ≠ []) :
    ∃ v m : ℝ, mad c = some v ∧ m * (vals c).length = (vals c).sum ∧
      v * (vals c).length = ((vals c).map fun x => |x - m|).sum ∧ 0 ≤ v ∧
      (v = 0 ↔ ∀ x ∈ vals c, ∀ y ∈ vals c, x = y) := by
  have hlen : (0 : ℝ) < (vals c).length := by
    have := List.length_pos_iff.2 h
    positivity
  generalize hmm : (vals c).sum / ((vals c).length : ℝ) = m
  have hms : m * (vals c).length = (vals c).sum := by rw [← hmm]; field_simp
  have e : vals (map1 (fun v => |v|) (center c)) = (vals c).map fun x => |x - m| := by
    rw [Metrics.vals_map1, center, mean_some h, hmm, vals_subScalar, List.map_map]
    rfl
  have hne : vals (map1 (fun v => |v|) (center c)) ≠ [] := by rw [e]; simpa using h
  have hnn : 0 ≤ ((vals c).map fun x => |x - m|).sum := List.sum_nonneg (by simp)
  refine ⟨_, m, mean_some hne, hms, ?_, ?_, ?_⟩
  · rw [e, List.length_map]; field_simp
  · rw [e]; positivity
  · rw [e, List.length_map, div_eq_zero_iff, or_iff_left hlen.ne']
    constructor
    · intro h0
      have key : ∀ x ∈ vals c, x = m := by
        intro x hx
        have := List.single_le_sum (l := (vals c).map fun x => |x - m|) (by simp) _ (List.mem_map_of_mem hx)
        rw [h0] at this
        exact sub_eq_zero.1 (abs_nonpos_iff.1 this)
      intro x hx y hy
      rw [key x hx, key y hy]
    · intro hc
      obtain ⟨a, l, hl⟩ := List.exists_cons_of_ne_nil h
      have hall : ∀ x ∈ vals c, x = a := fun x hx => hc x hx a (by rw [hl]; simp)
      have hs : (vals c).sum = (vals c).length * a := by
        rw [List.sum_eq_card_nsmul _ a hall, nsmul_eq_mul]
      have : m = a := by
        rw [← hmm, hs]; field_simp
      apply List.sum_eq_zero
      simp only [List.mem_map, forall_exists_index, and_imp]
      rintro _ x hx rfl
      simp [hall x hx, this]

/-- **C83.** `z_normalize` on a column with two different known values: nulls stay null, and the known results
have mean zero and sample variance one. -/
theorem z_normalize_spec (c : Col ℝ) (h : ∃ x ∈ vals c, ∃ y ∈ vals c, x ≠ y) :
    ∃ m s : ℝ, 0 < s ∧ zNormalize c = map1 (fun x => Val.num ((x - m) / s)) c ∧
      ((vals c).map fun x => (x - m) / s).sum = 0 ∧
      ((vals c).map fun x => ((x - m) / s) ^ 2).sum = ((vals c).length : ℝ) - 1 := by
  obtain ⟨x, hx, y, hy, hxy⟩ := h
  have hne : vals c ≠ [] := List.ne_nil_of_mem hx
  have h2 : 2 ≤ (vals c).length := by
    rcases hv : vals c with _ | ⟨a, _ | ⟨b, l⟩⟩
    · exact absurd hv hne
    · rw [hv] at hx hy; simp at hx hy; exact absurd (hx.trans hy.symm) hxy
    · simp
  have hlen : (2 : ℝ) ≤ (vals c).length := by exact_mod_cast h2
  have hlen0 : (0 : ℝ) < (vals c).length := by linarith
  generalize hmm : (vals c).sum / ((vals c).length : ℝ) = m
  have hSS : 0 < ((vals c).map fun v => (v - m) ^ 2).sum := by
    rcases eq_or_ne x m with rfl | hxm
    · have := List.single_le_sum (l := (vals c).map fun v => (v - x) ^ 2)
        (by simpa using fun a _ => sq_nonneg _) _ (List.mem_map_of_mem hy)
      have : 0 < (y - x) ^ 2 := by
        have : y - x ≠ 0 := sub_ne_zero.2 (Ne.symm hxy)
        positivity
      linarith
    · have := List.single_le_sum (l := (vals c).map fun v => (v - m) ^ 2)
        (by simpa using fun a _ => sq_nonneg _) _ (List.mem_map_of_mem hx)
      have : 0 < (x - m) ^ 2 := by
        have : x - m ≠ 0 := sub_ne_zero.2 hxm
        positivity
      linarith
  have hvar : TTest.var1 c = some (((vals c).map fun v => (v - m) ^ 2).sum / (((vals c).length : ℝ) - 1)) := by
    have : ¬ count c < 2 := by unfold count; omega
    simp only [TTest.var1, if_neg this, ← hmm]; rfl
  generalize hV : ((vals c).map fun v => (v - m) ^ 2).sum / (((vals c).length : ℝ) - 1) = V at hvar
  have hVp : 0 < V := by rw [← hV]; apply div_pos hSS; linarith
  have hs : 0 < Real.sqrt V := Real.sqrt_pos.2 hVp
  refine ⟨m, Real.sqrt V, hs, ?_, ?_, ?_⟩
  · unfold zNormalize center subScalar map1
    rw [mean_some hne, hmm, hvar, List.map_map]
    apply List.map_congr_left
    rintro (_ | x) _
    · rfl
    · simp [opt2, Val.fdiv, hs.ne']
  · have : ((vals c).map fun x => (x - m) / Real.sqrt V) =
        ((vals c).map fun x => x - m).map fun z => z / Real.sqrt V := by simp [Function.comp_def]
    rw [this, sum_div, sum_sub_const, ← hmm]
    field_simp
    ring
  · have : ((vals c).map fun x => ((x - m) / Real.sqrt V) ^ 2) =
        ((vals c).map fun x => (x - m) ^ 2).map fun z => z / V := by
      simp only [List.map_map]
      apply List.map_congr_left
      intro x _
      simp only [Function.comp_apply]
      rw [div_pow, Real.sq_sqrt hVp.le]
    rw [this, sum_div, ← hV]
    have : ((vals c).length : ℝ) - 1 ≠ 0 := by linarith
    field_simp

/-- **C83.** A constant column (two or more values) cannot be scaled: every known entry becomes NaN. -/
theorem z_normalize_constant (a : ℝ) (n : Nat) (hn : 2 ≤ n) :
    zNormalize (List.replicate n (some a)) = List.replicate n (some Val.nan) := by
  have hv : vals (List.replicate n (some a)) = List.replicate n a := by
    rw [← vals_clean (List.replicate n a), List.map_replicate]
  have hlen : (0 : ℝ) < n := by exact_mod_cast (by omega : 0 < n)
  have hm : mean (List.replicate n (some a)) = some a := by
    rw [mean_some (by rw [hv]; simp; omega), hv]
    simp [hlen.ne']
  have hvar : TTest.var1 (List.replicate n (some a)) = some 0 := by
    have : ¬ count (List.replicate n (some a)) < 2 := by unfold count; rw [hv, List.length_replicate]; omega
    simp only [TTest.var1, if_neg this]
    simp [hv, Pl.sum, count, hlen.ne']
  unfold zNormalize center subScalar
  rw [hm, hvar]
  simp [opt2, Val.fdiv]

example : ∃ x ∈ vals ([some 1, none, some 3] : Col ℝ), ∃ y ∈ vals ([some 1, none, some 3] : Col ℝ), x ≠ y := by
  have h : vals ([some 1, none, some 3] : Col ℝ) = [1, 3] := rfl
  rw [h]
  exact ⟨1, by simp, 3, by simp, by norm_num⟩

/-! ### Softmax -/

theorem softmax_eq (l : List ℝ) :
    softmax (l.map some) = l.map fun x => some (Real.exp x / (l.map Real.exp).sum) := by
  have : map1 Real.exp (l.map some) = (l.map Real.exp).map some := by simp [map1]
  unfold softmax
  rw [this]
  simp only [Pl.sum, vals_clean]
  simp [map1]

/-- **C83.** Softmax over exact reals turns the known values into probabilities: nulls stay null, every known
entry is positive and they add up to one, larger inputs get larger shares, and adding a constant to the column
changes nothing. -/
theorem softmax_partial (c : Col ℝ) (h : vals c ≠ []) :
    ∃ f : ℝ → ℝ, softmax c = map1 f c ∧ (∀ x, 0 < f x) ∧ ((vals c).map f).sum = 1 ∧ StrictMono f ∧
      ∀ t : ℝ, softmax (map1 (fun x => x + t) c) = softmax c := by
  have hpos : 0 < ((vals c).map Real.exp).sum :=
    List.sum_pos _ (by simpa using fun a _ => Real.exp_pos a) (by simpa using h)
  have hs : Pl.sum (map1 Real.exp c) = ((vals c).map Real.exp).sum := by rw [Pl.sum, Metrics.vals_map1]
  refine ⟨fun x => Real.exp x / ((vals c).map Real.exp).sum, ?_, fun x => div_pos (Real.exp_pos x) hpos, ?_, ?_, ?_⟩
  · simp only [softmax, hs]
    simp only [map1, List.map_map]
    apply List.map_congr_left
    rintro (_ | x) _ <;> rfl
  · have : ((vals c).map fun x => Real.exp x / ((vals c).map Real.exp).sum) =
        ((vals c).map Real.exp).map fun z => z / ((vals c).map Real.exp).sum := by simp [Function.comp_def]
    rw [this, sum_div, div_self hpos.ne']
  · intro x y hxy
    exact div_lt_div_of_pos_right (Real.exp_lt_exp.2 hxy) hpos
  · intro t
    have h1 : Pl.sum (map1 Real.exp (map1 (fun x => x + t) c)) = ((vals c).map Real.exp).sum * Real.exp t := by
      rw [Pl.sum, Metrics.vals_map1, Metrics.vals_map1, List.map_map, ← List.sum_map_mul_right]
      congr 1
      apply List.map_congr_left
      intro x _
      simp [Real.exp_add]
    simp only [softmax, h1, hs]
    simp only [map1, List.map_map]
    apply List.map_congr_left
    rintro (_ | x) _
    · rfl
    · simp only [Function.comp_apply, Option.map_some, Option.some.injEq, Real.exp_add]
      have := Real.exp_pos t
      field_simp

theorem foldl_addPos_inf (l : List (Val ℝ)) (h : ∀ v ∈ l, v = .inf true ∨ ∃ a, v = .num a) :
    l.foldl addPos (.inf true) = .inf true := by
  induction l with
  | nil => rfl
  | cons v l ih =>
    have := ih fun w hw => h w (by simp [hw])
    rcases h v (by simp) with rfl | ⟨a, rfl⟩ <;> simpa [addPos] using this

theorem foldl_addPos (T : ℝ) (l : List ℝ) (h : ∃ x ∈ l, T < x) (s : ℝ) :
    (l.map (expF T)).foldl addPos (.num s) = .inf true := by
  induction l generalizing s with
  | nil => simp at h
  | cons a l ih =>
    simp only [List.map_cons, List.foldl_cons]
    by_cases ha : T < a
    · rw [show addPos (.num s) (expF T a) = .inf true by simp [expF, ha, addPos]]
      apply foldl_addPos_inf
      simp only [List.mem_map]
      rintro _ ⟨x, _, rfl⟩
      unfold expF
      split
      · left; rfl
      · right; exact ⟨_, rfl⟩
    · rw [show addPos (.num s) (expF T a) = .num (s + Real.exp a) by simp [expF, ha, addPos]]
      apply ih
      obtain ⟨x, hx, hT⟩ := h
      rcases List.mem_cons.1 hx with rfl | hx
      · exact absurd hT ha
      · exact ⟨x, hx, hT⟩

/-- **C83.** In floating point the claim fails as soon as one value exceeds the overflow threshold of the
exponential (about 709.8): that entry is NaN and all entries below the threshold are zero. -/
theorem softmax_overflow (T : ℝ) (l : List ℝ) (h : ∃ x ∈ l, T < x) :
    softmaxF T l = l.map fun x => if T < x then Val.nan else Val.num 0 := by
  unfold softmaxF
  simp only [foldl_addPos T l h, List.map_map]
  apply List.map_congr_left
  intro x _
  simp only [Function.comp_apply, expF]
  split <;> rfl

example : softmaxF 709 [1000, 1] = [Val.nan, Val.num 0] := by
  rw [softmax_overflow 709 [1000, 1] ⟨1000, by simp, by norm_num⟩]
  norm_num

example : vals (center [some 1, none, some 3]) = [-1, 1] := by
  have h : vals ([some 1, none, some 3] : Col ℝ) = [1, 3] := rfl
  rw [center, mean_some (by rw [h]; simp), vals_subScalar, h]
  norm_num

/-! ## C84: detrending -/

namespace Spec
/-- The column with its row numbers. -/
def indexed (l : List ℝ) : List (ℝ × ℝ) := l.zip ((List.range l.length).map fun i : ℕ => (i : ℝ))

/-- Squared error of the line `a + b i`. -/
def sse (l : List ℝ) (a b : ℝ) : ℝ := ((indexed l).map fun r => (r.1 - (a + b * r.2)) ^ 2).sum
end Spec

open Metrics.Spec (total)

theorem indexed_length (l : List ℝ) : (Spec.indexed l).length = l.length := by simp [Spec.indexed]

theorem indexed_fst (l : List ℝ) : (Spec.indexed l).map Prod.fst = l := by
  unfold Spec.indexed
  rw [List.map_fst_zip]
  simp

theorem indexed_snd (l : List ℝ) : (Spec.indexed l).map Prod.snd = (List.range l.length).map fun i : ℕ => (i : ℝ) := by
  unfold Spec.indexed
  rw [List.map_snd_zip]
  simp

theorem range_sum (n : Nat) : ((List.range n).map fun i : ℕ => (i : ℝ)).sum = n * (n - 1) / 2 := by
  induction n with
  | zero => simp
  | succ n ih =>
    rw [List.range_succ, List.map_append, List.sum_append, ih]
    simp only [List.map_cons, List.map_nil, List.sum_cons, List.sum_nil]
    push_cast
    ring

theorem total_fst (l : List ℝ) : total (Spec.indexed l) (fun v _ => v) = l.sum := by
  have : total (Spec.indexed l) (fun v _ => v) = ((Spec.indexed l).map Prod.fst).sum := rfl
  rw [this, indexed_fst]

theorem total_snd (l : List ℝ) : total (Spec.indexed l) (fun _ i => i) = (l.length : ℝ) * (l.length - 1) / 2 := by
  have : total (Spec.indexed l) (fun _ i => i) = ((Spec.indexed l).map Prod.snd).sum := rfl
  rw [this, indexed_snd, range_sum]

theorem total_sub (l : List (ℝ × ℝ)) (f g : ℝ → ℝ → ℝ) :
    total l (fun x y => f x y - g x y) = total l f - total l g := by
  have := Metrics.total_add l f fun x y => -1 * g x y
  rw [Metrics.total_mul] at this
  rw [show (fun x y => f x y - g x y) = fun x y => f x y + -1 * g x y by funext x y; ring, this]
  ring

/-- The spread of the row numbers is positive from two rows on. -/
theorem index_spread (l : List ℝ) (h : 2 ≤ l.length) (m : ℝ) :
    0 < total (Spec.indexed l) fun _ i => (i - m) ^ 2 := by
  have hnn : 0 ≤ total (Spec.indexed l) fun _ i => (i - m) ^ 2 := Metrics.total_nonneg fun _ _ => sq_nonneg _
  refine lt_of_le_of_ne hnn fun h0 => ?_
  have := (Metrics.total_eq_zero (l := Spec.indexed l) (f := fun _ i => (i - m) ^ 2)
    fun _ _ => sq_nonneg _).1 h0.symm
  have key : ∀ k : ℕ, k < l.length → (k : ℝ) = m := by
    intro k hk
    have hmem : (l[k], (k : ℝ)) ∈ Spec.indexed l := by
      apply List.mem_iff_getElem.2
      refine ⟨k, by rw [indexed_length]; exact hk, ?_⟩
      simp [Spec.indexed]
    have := this _ hmem
    exact sub_eq_zero.1 (pow_eq_zero_iff two_ne_zero |>.1 this)
  have h0 := key 0 (by omega)
  have h1 := key 1 (by omega)
  rw [← h0] at h1
  norm_num at h1

theorem detrend_value (l : List ℝ) (h : 2 ≤ l.length) :
    ∃ a b : ℝ, detrendLinear (l.map some) = .ok ((Spec.indexed l).map fun r => some (r.1 - (a + b * r.2))) ∧
      total (Spec.indexed l) (fun v i => v - (a + b * i)) = 0 ∧
      total (Spec.indexed l) (fun v i => i * (v - (a + b * i))) = 0 := by
  have hn : (2 : ℝ) ≤ l.length := by exact_mod_cast h
  have hn0 : (l.length : ℝ) ≠ 0 := by linarith
  have hcount : count (l.map some) = l.length := by unfold count; rw [vals_clean]
  have hidx : ((List.range l.length).map fun i : ℕ => some (i : ℝ)) =
      ((List.range l.length).map fun i : ℕ => (i : ℝ)).map some := by simp
  generalize hmv : l.sum / (l.length : ℝ) = mv
  generalize hmi : ((l.length : ℝ) - 1) / 2 = mi
  have hpairs : vals (map2 Prod.mk (l.map some) (((List.range l.length).map fun i : ℕ => (i : ℝ)).map some)) =
      Spec.indexed l := by
    have : map2 Prod.mk (l.map some) (((List.range l.length).map fun i : ℕ => (i : ℝ)).map some) =
        (Spec.indexed l).map some := by
      unfold map2 Spec.indexed
      rw [List.zipWith_map]
      generalize ((List.range l.length).map fun i : ℕ => (i : ℝ)) = is
      clear * -
      induction l generalizing is with
      | nil => simp
      | cons a l ih => cases is <;> simp_all [opt2]
    rw [this, vals_clean]
  have hcov : cov1 (l.map some) (((List.range l.length).map fun i : ℕ => (i : ℝ)).map some) =
      some (total (Spec.indexed l) (fun v i => (v - mv) * (i - mi)) / ((l.length : ℝ) - 1)) := by
    unfold cov1
    simp only [hpairs, indexed_length, indexed_fst, indexed_snd, range_sum, if_neg (by omega : ¬ l.length < 2)]
    rw [hmv, show (l.length : ℝ) * (l.length - 1) / 2 / l.length = mi by rw [← hmi]; field_simp]
    rfl
  have hvar : TTest.var1 (((List.range l.length).map fun i : ℕ => (i : ℝ)).map some) =
      some (total (Spec.indexed l) (fun _ i => (i - mi) ^ 2) / ((l.length : ℝ) - 1)) := by
    unfold TTest.var1
    simp only [count, vals_clean, Pl.sum, List.length_map, List.length_range, range_sum,
      if_neg (by omega : ¬ l.length < 2)]
    rw [show (l.length : ℝ) * (l.length - 1) / 2 / l.length = mi by rw [← hmi]; field_simp]
    congr 2
    unfold total
    have := indexed_snd l
    rw [← this, List.map_map]
    rfl
  have hsp := index_spread l h mi
  generalize hC : total (Spec.indexed l) (fun v i => (v - mv) * (i - mi)) = C at hcov
  generalize hS : total (Spec.indexed l) (fun _ i => (i - mi) ^ 2) = S at hvar hsp
  have hcoeff : C / ((l.length : ℝ) - 1) / (S / ((l.length : ℝ) - 1)) = C / S := by
    have : (l.length : ℝ) - 1 ≠ 0 := by linarith
    field_simp
  have hmean : mean (l.map some) = some mv := by
    rw [mean_some (by rw [vals_clean]; intro h0; rw [h0] at h; simp at h), vals_clean, hmv]
  refine ⟨mv - C / S * mi, C / S, ?_, ?_, ?_⟩
  · unfold detrendLinear
    simp only [hcount, List.length_map, if_true, hidx, hcov, hvar, opt2, hcoeff, hmean]
    congr 1
    unfold subScalar map2 Spec.indexed
    rw [show mv - C / S * ((l.length : ℝ) - 1) / 2 = mv - C / S * mi by rw [← hmi]; ring]
    generalize mv - C / S * mi = a
    generalize C / S = b
    generalize ((List.range l.length).map fun i : ℕ => (i : ℝ)) = is
    clear * -
    induction l generalizing is with
    | nil => simp
    | cons v l ih =>
      cases is with
      | nil => simp
      | cons i is =>
        have := ih is
        simp only [List.map_cons, List.zipWith_cons_cons, List.zip_cons_cons, opt2, List.cons.injEq] at this ⊢
        refine ⟨by congr 1; ring, ?_⟩
        simpa using this
  · have e : (fun v i : ℝ => v - (mv - C / S * mi + C / S * i)) =
        fun v i => (v - mv) - (C / S * i - C / S * mi) := by funext v i; ring
    rw [e, total_sub, total_sub, total_sub, Metrics.total_mul, Metrics.total_const, Metrics.total_const,
      total_fst, total_snd, indexed_length, ← hmv, ← hmi]
    field_simp
    ring
  · have e : (fun v i : ℝ => i * (v - (mv - C / S * mi + C / S * i))) =
        fun v i => ((v - mv) * (i - mi) - C / S * (i - mi) ^ 2) +
          mi * ((v - mv) - C / S * (i - mi)) := by funext v i; ring
    rw [e, Metrics.total_add, total_sub, Metrics.total_mul, Metrics.total_mul, hC, hS, total_sub, total_sub,
      Metrics.total_mul, total_sub, Metrics.total_const, Metrics.total_const, total_fst, total_snd,
      indexed_length, ← hmv, ← hmi]
    have := hsp.ne'
    field_simp
    ring

/-- **C84.** On a column of at least two known values, linear detrending returns the residuals of the
least-squares line through `(row number, value)`: no line has a smaller squared error, the residuals sum to
zero and are uncorrelated with the row number, and a column that is a line becomes zero. -/
theorem detrend_linear_partial (l : List ℝ) (h : 2 ≤ l.length) :
    ∃ a b : ℝ, detrendLinear (l.map some) = .ok ((Spec.indexed l).map fun r => some (r.1 - (a + b * r.2))) ∧
      (∀ a' b', Spec.sse l a b ≤ Spec.sse l a' b') ∧
      ((Spec.indexed l).map fun r => r.1 - (a + b * r.2)).sum = 0 ∧
      ((Spec.indexed l).map fun r => r.2 * (r.1 - (a + b * r.2))).sum = 0 ∧
      (∀ a' b', (∀ r ∈ Spec.indexed l, r.1 = a' + b' * r.2) → ∀ r ∈ Spec.indexed l, r.1 - (a + b * r.2) = 0) := by
  obtain ⟨a, b, h1, h2, h3⟩ := detrend_value l h
  have hbest : ∀ a' b', Spec.sse l a b ≤ Spec.sse l a' b' := by
    intro a' b'
    have e : Spec.sse l a' b' = Spec.sse l a b +
        total (Spec.indexed l) (fun _ i => ((a - a') + (b - b') * i) ^ 2) := by
      have : Spec.sse l a' b' = total (Spec.indexed l) (fun v i => ((v - (a + b * i)) ^ 2 +
          ((a - a') + (b - b') * i) ^ 2) + (2 * (a - a') * (v - (a + b * i)) +
            2 * (b - b') * (i * (v - (a + b * i))))) := by
        unfold Spec.sse
        apply Metrics.total_congr (f := fun v i => (v - (a' + b' * i)) ^ 2)
        intro r _
        ring
      rw [this, Metrics.total_add, Metrics.total_add, Metrics.total_add, Metrics.total_mul, Metrics.total_mul,
        h2, h3]
      unfold Spec.sse total
      ring
    rw [e]
    have : 0 ≤ total (Spec.indexed l) (fun _ i => ((a - a') + (b - b') * i) ^ 2) :=
      Metrics.total_nonneg fun _ _ => sq_nonneg _
    linarith
  refine ⟨a, b, h1, hbest, h2, h3, ?_⟩
  intro a' b' hline r hr
  have z : Spec.sse l a' b' = 0 := by
    unfold Spec.sse
    apply List.sum_eq_zero
    simp only [List.mem_map, forall_exists_index, and_imp]
    rintro _ q hq rfl
    rw [hline q hq]; ring
  have hle := hbest a' b'
  rw [z] at hle
  have hz : total (Spec.indexed l) (fun v i => (v - (a + b * i)) ^ 2) = 0 :=
    le_antisymm hle (Metrics.total_nonneg fun _ _ => sq_nonneg _)
  have := (Metrics.total_eq_zero (fun _ _ => sq_nonneg _)).1 hz r hr
  exact pow_eq_zero_iff two_ne_zero |>.1 this

theorem count_lt {c : Col ℝ} (h : none ∈ c) : count c < c.length := by
  induction c with
  | nil => simp at h
  | cons x c ih =>
    have hle : count c ≤ c.length := List.length_filterMap_le id c
    cases x with
    | none =>
      have : count (none :: c) = count c := rfl
      rw [this, List.length_cons]; omega
    | some x =>
      have h1 := ih (by simpa using h)
      have : count (some x :: c) = count c + 1 := rfl
      rw [this, List.length_cons]; omega

/-- **C84.** With a null anywhere (and two or more known values, or none) linear detrending is a shape error:
the index column only has as many rows as there are known values. -/
theorem detrend_null_error (c : Col ℝ) (h : none ∈ c) (h1 : (vals c).length ≠ 1) :
    detrendLinear c = .shapeError := by
  have hlt : count c < c.length := count_lt h
  unfold detrendLinear
  simp only [if_neg hlt.ne]
  rw [if_neg (by exact h1)]

/-- **C84.** One row, or one known value among nulls, gives only nulls. -/
theorem detrend_single (c : Col ℝ) (h : (vals c).length = 1) :
    detrendLinear c = .ok (List.replicate c.length none) := by
  have hc : count c = 1 := h
  unfold detrendLinear
  simp only [hc]
  split
  · rename_i hl
    have hcov : cov1 c ((List.range 1).map fun i : ℕ => some (i : ℝ)) = none := by
      unfold cov1
      have : (vals (map2 Prod.mk c ((List.range 1).map fun i : ℕ => some (i : ℝ)))).length < 2 := by
        refine lt_of_le_of_lt (List.length_filterMap_le _ _) ?_
        simp [map2, ← hl]
      simp only [if_pos this]
    rw [hcov]
    obtain ⟨x, rfl⟩ := List.length_eq_one_iff.1 hl.symm
    cases x <;> simp [opt2, subScalar, map2, mean]
  · rfl

example : detrendLinear [some 1, none, some 4] = .shapeError :=
  detrend_null_error _ (by simp) (by show (2 : ℕ) ≠ 1; decide)

example : 2 ≤ ([1, 3, 5] : List ℝ).length ∧ ∀ r ∈ Spec.indexed [1, 3, 5], r.1 = 1 + 2 * r.2 := by
  refine ⟨by simp, ?_⟩
  have : Spec.indexed [1, 3, 5] = [(1, 0), (3, 1), (5, 2)] := by
    simp [Spec.indexed, List.range_succ]
  rw [this]
  norm_num

end Verif.NumExpr
