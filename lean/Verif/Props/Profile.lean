import Verif.Model.Profile
import Mathlib.Data.Multiset.Count
import Mathlib.Algebra.BigOperators.Group.Finset.Basic
import Mathlib.Algebra.Order.BigOperators.Group.Multiset
import Mathlib.Algebra.Order.BigOperators.Group.List
import Mathlib.Tactic.Linarith
import Mathlib.Tactic.FieldSimp
import Mathlib.Tactic.Positivity

/-!
# C172: `DIA.numeric_profile`
-/

namespace Verif.Profile
open Verif.Pl Verif.Confusion

namespace Spec

/-- The known values of a column. -/
def known {α : Type} (c : List (Option α)) : List α := c.filterMap id

/-- The finite values of a float column. -/
def numbers (c : List (Option (Val ℚ))) : List ℚ :=
  (known c).filterMap fun v => match v with | .num x => some x | _ => none

/-- How many values satisfy a condition. -/
def num (P : ℚ → Prop) [DecidablePred P] (l : List ℚ) : ℕ := (l.filter fun x => decide (P x)).length

/-- `m` is least in `l`. -/
def Least (l : List ℚ) (m : ℚ) : Prop := m ∈ l ∧ ∀ x ∈ l, m ≤ x

/-- `m` is greatest in `l`. -/
def Greatest (l : List ℚ) (m : ℚ) : Prop := m ∈ l ∧ ∀ x ∈ l, x ≤ m

/-- `q` has about the fraction `k / 4` of the values below it and the rest above it. -/
def Quartile (k : ℕ) (l : List ℚ) (q : ℚ) : Prop :=
  q ∈ l ∧ 4 * num (· < q) l ≤ k * (l.length - 1) + 2 ∧ 4 * num (q < ·) l ≤ (4 - k) * (l.length - 1) + 2

/-- `m` has at most half of the values on each side. -/
def Median (l : List ℚ) (m : ℚ) : Prop := 2 * num (· < m) l ≤ l.length ∧ 2 * num (m < ·) l ≤ l.length

/-- The left end of bin `i` out of `n` between `lo` and `hi` as the code draws them: the last one is moved right. -/
def edge (n : ℕ) (lo hi : ℚ) (i : ℕ) : ℚ :=
  lo + (hi - lo) * ((i : ℚ) / n + if i + 1 = n then 1 / 100000 else 0)

/-- The histogram with `n` bars, empty ones included. -/
def fullBars (n : ℕ) (lo hi : ℚ) (l : List ℚ) : List ℕ :=
  (List.range n).map fun i => num (fun x => edge n lo hi i ≤ x ∧ (i + 1 < n → x < edge n lo hi (i + 1))) l

/-- The histogram with `n` bars of equal width. -/
def equalBars (n : ℕ) (lo hi : ℚ) (l : List ℚ) : List ℕ :=
  (List.range n).map fun i => num (fun x => lo + (hi - lo) * i / n ≤ x ∧
    (i + 1 < n → x < lo + (hi - lo) * (i + 1) / n)) l

end Spec
open Spec

/-! ## Order statistics -/

theorem num_eq (P : ℚ → Prop) [DecidablePred P] (l : List ℚ) : num P l = l.countP fun x => decide (P x) := by
  rw [num, List.countP_eq_length_filter]

theorem num_perm (P : ℚ → Prop) [DecidablePred P] {l l' : List ℚ} (h : l.Perm l') : num P l = num P l' := by
  rw [num_eq, num_eq]; exact h.countP_eq _

theorem sorted_perm (c : Col ℚ) : (sorted c).Perm (known c) := List.perm_insertionSort _ _

theorem sorted_length (c : Col ℚ) : (sorted c).length = (known c).length := (sorted_perm c).length_eq

theorem sorted_mono (c : Col ℚ) (i j : ℕ) (hij : i ≤ j) (hj : j < (sorted c).length) :
    (sorted c)[i] ≤ (sorted c)[j] := by
  rcases hij.lt_or_eq with h | h
  · exact List.pairwise_iff_getElem.1 (List.pairwise_insertionSort (· ≤ ·) (vals c)) i j _ hj h
  · subst h; rfl

theorem below_le (c : Col ℚ) (i : ℕ) (hi : i < (sorted c).length) : num (· < (sorted c)[i]) (known c) ≤ i := by
  rw [← num_perm _ (sorted_perm c), num_eq]
  have hs := congrArg (List.countP fun x => decide (x < (sorted c)[i])) (List.take_append_drop i (sorted c))
  rw [List.countP_append] at hs
  have h1 : ((sorted c).take i).countP (fun x => decide (x < (sorted c)[i])) ≤ i :=
    (List.countP_le_length).trans (by simp)
  have h2 : ((sorted c).drop i).countP (fun x => decide (x < (sorted c)[i])) = 0 := by
    rw [List.countP_eq_zero]
    intro x hx
    obtain ⟨j, hj, rfl⟩ := List.mem_iff_getElem.1 hx
    rw [List.getElem_drop]
    rw [List.length_drop] at hj
    simpa using sorted_mono c i (i + j) (by omega) (by omega)
  omega

theorem above_le (c : Col ℚ) (i : ℕ) (hi : i < (sorted c).length) :
    num ((sorted c)[i] < ·) (known c) ≤ (known c).length - 1 - i := by
  rw [← num_perm _ (sorted_perm c), num_eq]
  have hs := congrArg (List.countP fun x => decide ((sorted c)[i] < x)) (List.take_append_drop (i + 1) (sorted c))
  rw [List.countP_append] at hs
  have h1 : ((sorted c).drop (i + 1)).countP (fun x => decide ((sorted c)[i] < x)) ≤ (known c).length - 1 - i :=
    (List.countP_le_length).trans (by rw [List.length_drop, sorted_length]; omega)
  have h2 : ((sorted c).take (i + 1)).countP (fun x => decide ((sorted c)[i] < x)) = 0 := by
    rw [List.countP_eq_zero]
    intro x hx
    obtain ⟨j, hj, rfl⟩ := List.mem_iff_getElem.1 hx
    rw [List.getElem_take]
    rw [List.length_take] at hj
    simpa using sorted_mono c j i (by omega) hi
  omega

/-- The numbers of the profile in terms of positions. -/
theorem quartile_get (k : ℕ) (hk : k ≤ 4) (c : Col ℚ) (h : known c ≠ []) :
    ∃ hi : (k * ((known c).length - 1) + 2) / 4 < (sorted c).length,
      quartile k c = some (sorted c)[(k * ((known c).length - 1) + 2) / 4] := by
  have hl : 0 < (known c).length := List.length_pos_of_ne_nil h
  have hi : (k * ((known c).length - 1) + 2) / 4 < (sorted c).length := by
    rw [sorted_length]
    have : k * ((known c).length - 1) ≤ 4 * ((known c).length - 1) := Nat.mul_le_mul_right _ hk
    omega
  exact ⟨hi, List.getElem?_eq_getElem hi⟩

theorem quartile_spec (k : ℕ) (hk : k ≤ 4) (c : Col ℚ) (h : known c ≠ []) :
    ∃ q, quartile k c = some q ∧ Quartile k (known c) q := by
  obtain ⟨hi, he⟩ := quartile_get k hk c h
  refine ⟨_, he, (sorted_perm c).mem_iff.1 (List.getElem_mem _), ?_, ?_⟩
  · have := below_le c _ hi
    omega
  · have := above_le c _ hi
    have h4 : k * ((known c).length - 1) + (4 - k) * ((known c).length - 1) = 4 * ((known c).length - 1) := by
      rw [← Nat.add_mul]; congr 1; omega
    omega

theorem round2_err (x : ℚ) : |round2 x - x| ≤ 1 / 200 := by
  unfold round2
  have h1 := Int.floor_le (100 * x + 1 / 2)
  have h2 := Int.lt_floor_add_one (100 * x + 1 / 2)
  rw [abs_le]
  constructor <;> linarith

/-! ## Theorems on the numbers -/

/-- **C172.** The five numbers of a column with values: minimum and maximum; quartiles that are values of the column
with a quarter of the values (up to half a value) beyond; the true median lies between the quartiles and the median
shown is within 0.005 of it; the interquartile range is not negative. -/
theorem five_numbers (mult : ℚ) (c : Col ℚ) (h : known c ≠ []) :
    ∃ mn q1 m q3 mx, (row mult c).min = some mn ∧ Least (known c) mn ∧
      (row mult c).q1 = some q1 ∧ Quartile 1 (known c) q1 ∧
      (row mult c).median = some (round2 m) ∧ Median (known c) m ∧ |round2 m - m| ≤ 1 / 200 ∧
      (row mult c).q3 = some q3 ∧ Quartile 3 (known c) q3 ∧
      (row mult c).max = some mx ∧ Greatest (known c) mx ∧
      mn ≤ q1 ∧ q1 ≤ m ∧ m ≤ q3 ∧ q3 ≤ mx ∧ (row mult c).iqr = some (q3 - q1) := by
  have hl : 0 < (known c).length := List.length_pos_of_ne_nil h
  have hs : 0 < (sorted c).length := by rw [sorted_length]; exact hl
  obtain ⟨i1, e1⟩ := quartile_get 1 (by omega) c h
  obtain ⟨i3, e3⟩ := quartile_get 3 (by omega) c h
  obtain ⟨q1, f1, g1⟩ := quartile_spec 1 (by omega) c h
  obtain ⟨q3, f3, g3⟩ := quartile_spec 3 (by omega) c h
  have d1 : q1 = _ := Option.some.inj (f1.symm.trans e1)
  have d3 : q3 = _ := Option.some.inj (f3.symm.trans e3)
  have j1 : ((known c).length - 1) / 2 < (sorted c).length := by rw [sorted_length]; omega
  have j2 : (known c).length / 2 < (sorted c).length := by rw [sorted_length]; omega
  have k1 := sorted_mono c (((known c).length - 1) / 2) ((known c).length / 2) (by omega) j2
  have k2 := sorted_mono c _ (((known c).length - 1) / 2) (by omega : (1 * ((known c).length - 1) + 2) / 4 ≤ _) j1
  have k3 := sorted_mono c ((known c).length / 2) _ (by omega : _ ≤ (3 * ((known c).length - 1) + 2) / 4) i3
  have hm : median c = some (((sorted c)[((known c).length - 1) / 2] + (sorted c)[(known c).length / 2]) / 2) := by
    unfold median
    change opt2 _ (sorted c)[((known c).length - 1) / 2]? (sorted c)[(known c).length / 2]? = _
    rw [List.getElem?_eq_getElem j1, List.getElem?_eq_getElem j2]; rfl
  rw [← d1] at k2
  rw [← d3] at k3
  have b1 := below_le c _ j2
  have b2 := above_le c _ j1
  refine ⟨(sorted c)[0], q1, _, q3, (sorted c)[(sorted c).length - 1], ?_, ?_, f1, g1, by rw [row, hm]; rfl, ?_,
    round2_err _, f3, g3, ?_, ?_, ?_, ?_, ?_, ?_, by rw [row, f1, f3]; rfl⟩
  · change (sorted c).head? = _
    rw [List.head?_eq_getElem?, List.getElem?_eq_getElem hs]
  · refine ⟨(sorted_perm c).mem_iff.1 (List.getElem_mem _), fun x hx => ?_⟩
    obtain ⟨j, hj, rfl⟩ := List.mem_iff_getElem.1 ((sorted_perm c).mem_iff.2 hx)
    exact sorted_mono c 0 j (by omega) hj
  · constructor
    · have : num (· < ((sorted c)[((known c).length - 1) / 2] + (sorted c)[(known c).length / 2]) / 2) (known c) ≤
          num (· < (sorted c)[(known c).length / 2]) (known c) := by
        rw [num_eq, num_eq]
        apply List.countP_mono_left
        intro x _ hx
        simp only [decide_eq_true_eq] at hx ⊢
        linarith
      omega
    · have : num (((sorted c)[((known c).length - 1) / 2] + (sorted c)[(known c).length / 2]) / 2 < ·) (known c) ≤
          num ((sorted c)[((known c).length - 1) / 2] < ·) (known c) := by
        rw [num_eq, num_eq]
        apply List.countP_mono_left
        intro x _ hx
        simp only [decide_eq_true_eq] at hx ⊢
        linarith
      omega
  · change (sorted c).getLast? = _
    rw [List.getLast?_eq_getElem?, List.getElem?_eq_getElem]
  · refine ⟨(sorted_perm c).mem_iff.1 (List.getElem_mem _), fun x hx => ?_⟩
    obtain ⟨j, hj, rfl⟩ := List.mem_iff_getElem.1 ((sorted_perm c).mem_iff.2 hx)
    exact sorted_mono c j _ (by omega) _
  · rw [d1]; exact sorted_mono c 0 _ (by omega) i1
  · linarith
  · linarith
  · rw [d3]; exact sorted_mono c _ _ (by omega) _

example : (row (3 / 2) [some 5, none, some 1, some 2, some 4]).q1 = some 2 ∧
    (row (3 / 2) [some 5, none, some 1, some 2, some 4]).median = some 3 := by
  constructor <;> decide +kernel

/-- **C172, disagreement.** The median shown is rounded to two decimals and nothing else is: a column of small equal
values has a median below its minimum. -/
theorem median_below_min (mult v : ℚ) (h0 : 0 < v) (h1 : v < 1 / 200) (n : ℕ) (hn : n ≠ 0) :
    (row mult (List.replicate n (some v))).median = some 0 ∧ (row mult (List.replicate n (some v))).min = some v ∧
    (row mult (List.replicate n (some v))).q1 = some v := by
  have hk : known (List.replicate n (some v)) = List.replicate n v := by
    unfold known; exact List.filterMap_replicate_of_some rfl
  have hne : known (List.replicate n (some v)) ≠ [] := by rw [hk]; simpa using hn
  obtain ⟨mn, q1, m, q3, mx, e1, l1, e2, l2, e3, -, -, -, l4, -, l5, o1, o2, o3, o4, -⟩ := five_numbers mult _ hne
  rw [hk] at l1 l2 l4 l5
  have hmn : mn = v := List.eq_of_mem_replicate l1.1
  have hq1 : q1 = v := List.eq_of_mem_replicate l2.1
  have hq3 : q3 = v := List.eq_of_mem_replicate l4.1
  have hm : m = v := le_antisymm (by rw [← hq3]; exact o3) (by rw [← hq1]; exact o2)
  have hr : round2 v = 0 := by
    unfold round2
    have : ⌊100 * v + 1 / 2⌋ = 0 := by
      rw [Int.floor_eq_iff]; constructor <;> push_cast <;> linarith
    rw [this]; simp
  exact ⟨by rw [e3, hm, hr], by rw [e1, hmn], by rw [e2, hq1]⟩

example : (row (3 / 2) [some (1 / 250), some (1 / 250)]).median = some 0 :=
  (median_below_min (3 / 2) (1 / 250) (by norm_num) (by norm_num) 2 (by simp)).1

/-- **C172.** Counts: values and nulls add up to the length of the column, and the null share is between 0 and 1. -/
theorem profile_counts (mult : ℚ) (c : Col ℚ) (h : c ≠ []) :
    (row mult c).nonNull = (known c).length ∧
    (row mult c).nullShare * (c.length : ℚ) = (c.length : ℚ) - (row mult c).nonNull ∧
    0 ≤ (row mult c).nullShare ∧ (row mult c).nullShare ≤ 1 := by
  have hl : (0 : ℚ) < (c.length : ℚ) := by exact_mod_cast List.length_pos_of_ne_nil h
  have hc : c.countP (fun o => o.isNone) + (known c).length = c.length := by
    clear h hl
    induction c with
    | nil => rfl
    | cons x c ih => cases x <;> simp [known] at ih ⊢ <;> omega
  have hc' : ((c.countP (fun o => o.isNone) : ℕ) : ℚ) + ((known c).length : ℚ) = (c.length : ℚ) := by exact_mod_cast hc
  have h0 : (0 : ℚ) ≤ ((known c).length : ℚ) := Nat.cast_nonneg _
  refine ⟨rfl, ?_, ?_, ?_⟩
  · change ((c.countP (fun o => o.isNone) : ℕ) : ℚ) / (c.length : ℚ) * (c.length : ℚ) =
      (c.length : ℚ) - ((known c).length : ℚ)
    rw [div_mul_cancel₀ _ hl.ne']; linarith
  · exact div_nonneg (Nat.cast_nonneg _) hl.le
  · change ((c.countP (fun o => o.isNone) : ℕ) : ℚ) / (c.length : ℚ) ≤ 1
    rw [div_le_one hl]; linarith

example : (row 1 [some 5, none]).nullShare = 1 / 2 := by decide +kernel

/-- **C172.** The outliers are the values beyond the fences; none of the values between the quartiles is one, at most
half of the values are, and a larger multiplier never gives more of them. -/
theorem outliers_spec (mult : ℚ) (hm : 0 ≤ mult) (c : Col ℚ) (h : known c ≠ []) :
    ∃ q1 q3, Quartile 1 (known c) q1 ∧ Quartile 3 (known c) q3 ∧
      (row mult c).outliers =
        num (fun x => x < q1 - mult * (q3 - q1) ∨ q3 + mult * (q3 - q1) < x) (known c) ∧
      (∀ x, q1 ≤ x → x ≤ q3 → ¬ (x < q1 - mult * (q3 - q1) ∨ q3 + mult * (q3 - q1) < x)) ∧
      2 * (row mult c).outliers ≤ (known c).length ∧
      ∀ mult', mult ≤ mult' → (row mult' c).outliers ≤ (row mult c).outliers := by
  have hl : 0 < (known c).length := List.length_pos_of_ne_nil h
  obtain ⟨i1, e1⟩ := quartile_get 1 (by omega) c h
  obtain ⟨i3, e3⟩ := quartile_get 3 (by omega) c h
  obtain ⟨q1, f1, g1⟩ := quartile_spec 1 (by omega) c h
  obtain ⟨q3, f3, g3⟩ := quartile_spec 3 (by omega) c h
  have d1 : q1 = _ := Option.some.inj (f1.symm.trans e1)
  have d3 : q3 = _ := Option.some.inj (f3.symm.trans e3)
  have hle : q1 ≤ q3 := by
    rw [d1, d3]; exact sorted_mono c _ _ (by omega) i3
  have out : ∀ k, (row k c).outliers = (known c).countP fun x =>
      decide (x < q1 - k * (q3 - q1) ∨ q3 + k * (q3 - q1) < x) := by
    intro k
    change outlierCnt k c = _
    unfold outlierCnt
    rw [f1, f3]
    apply List.countP_congr
    intro x _
    simp [outlier]
  have hw : 0 ≤ mult * (q3 - q1) := mul_nonneg hm (by linarith)
  refine ⟨q1, q3, g1, g3, by rw [out, num_eq], ?_, ?_, ?_⟩
  · rintro x hx1 hx2 (h | h) <;> linarith
  · have b1 := below_le c _ i1
    have b3 := above_le c _ i3
    rw [← d1] at b1
    rw [← d3] at b3
    have : (row mult c).outliers ≤ num (· < q1) (known c) + num (q3 < ·) (known c) := by
      rw [out, num_eq, num_eq]
      generalize known c = l
      induction l with
      | nil => simp
      | cons x l ih =>
        simp only [List.countP_cons]
        have : (if decide (x < q1 - mult * (q3 - q1) ∨ q3 + mult * (q3 - q1) < x) = true then 1 else 0) ≤
            (if decide (x < q1) = true then 1 else 0) + (if decide (q3 < x) = true then 1 else 0) := by
          simp only [decide_eq_true_eq]
          split_ifs with h1 h2 h3 h3 <;> first | omega | (exfalso; rcases h1 with h1 | h1 <;> linarith)
        omega
    omega
  · intro mult' hmm
    rw [out, out]
    apply List.countP_mono_left
    intro x _ hx
    simp only [decide_eq_true_eq] at hx ⊢
    have : mult * (q3 - q1) ≤ mult' * (q3 - q1) := mul_le_mul_of_nonneg_right hmm (by linarith)
    rcases hx with hx | hx
    · left; linarith
    · right; linarith

example : (row (3 / 2) [some 1, some 2, some 3, some 4, some 100]).outliers = 1 := by decide +kernel

/-! ## The histogram -/

theorem count_filter_single {α : Type} [DecidableEq α] (l : List α) (hl : l.Nodup) (b : α) (hb : b ∈ l) (k : ℕ)
    (hk : k ≠ 0) : (l.map fun x => if x = b then k else 0).filter (fun k => decide (k ≠ 0)) = [k] := by
  induction l with
  | nil => simp at hb
  | cons x l ih =>
    rw [List.nodup_cons] at hl
    rw [List.map_cons]
    by_cases hx : x = b
    · subst hx
      rw [if_pos rfl, List.filter_cons_of_pos (by simpa using hk)]
      congr 1
      rw [List.filter_eq_nil_iff]
      intro y hy
      obtain ⟨z, hz, rfl⟩ := List.mem_map.1 hy
      rw [if_neg (fun e : z = x => hl.1 (e ▸ hz))]; simp
    · rw [if_neg hx, List.filter_cons_of_neg (by simp)]
      exact ih hl.2 ((List.mem_cons.1 hb).resolve_left fun e => hx e.symm)

/-- The list of all bins. -/
theorem keys_nodup (n : ℕ) : (none :: (List.range (n + 1)).map some).Nodup := by
  rw [List.nodup_cons]
  refine ⟨by simp, ?_⟩
  exact (List.nodup_range).map (fun a b h => Option.some.inj h)

theorem bin_mem (n : ℕ) (v : Val ℚ) : bin n v ∈ (none :: (List.range (n + 1)).map some) := by
  rcases v with z | b | _
  · right
    have : (List.range n).countP (fun i => decide (cut n i ≤ z)) ≤ n := by
      simpa using List.countP_le_length (p := fun i => decide (cut n i ≤ z)) (l := List.range n)
    exact List.mem_map.2 ⟨_, List.mem_range.2 (by omega), rfl⟩
  · cases b <;> simp [bin]
  · simp [bin]

theorem sum_filter_ne (l : List ℕ) : (l.filter fun k => decide (k ≠ 0)).sum = l.sum := by
  induction l with
  | nil => rfl
  | cons x l ih =>
    by_cases h : x = 0
    · rw [List.filter_cons_of_neg (by simpa using h), ih, h]; simp
    · rw [List.filter_cons_of_pos (by simpa using h), List.sum_cons, List.sum_cons, ih]

theorem sum_countP {α : Type} [DecidableEq α] (l : List α) (hl : l.Nodup) (bs : List α) (h : ∀ b ∈ bs, b ∈ l) :
    (l.map fun b => bs.countP fun x => decide (x = b)).sum = bs.length := by
  induction bs with
  | nil => simp
  | cons a bs ih =>
    have e : (l.map fun b => (a :: bs).countP fun x => decide (x = b)) =
        l.map fun b => (bs.countP fun x => decide (x = b)) + if b = a then 1 else 0 := by
      apply List.map_congr_left
      intro b _
      rw [List.countP_cons]
      by_cases hab : a = b <;> simp [hab, eq_comm]
    have h1 := congrArg List.sum (count_filter_single l hl a (h a List.mem_cons_self) 1 one_ne_zero)
    rw [sum_filter_ne] at h1
    rw [e, List.sum_map_add, ih fun b hb => h b (List.mem_cons_of_mem _ hb), h1]
    simp

theorem bars_sum (n : ℕ) (zs : List (Val ℚ)) : (bars n zs).sum = zs.length := by
  unfold bars
  simp only
  rw [sum_filter_ne, sum_countP _ (keys_nodup n), List.length_map]
  intro b hb
  obtain ⟨v, -, rfl⟩ := List.mem_map.1 hb
  exact bin_mem n v

theorem bars_pos (n : ℕ) (zs : List (Val ℚ)) : ∀ k ∈ bars n zs, 0 < k := by
  intro k hk
  have := (List.mem_filter.1 hk).2
  simp only [ne_eq, decide_eq_true_eq] at this
  omega

theorem bars_replicate (n : ℕ) (zs : List (Val ℚ)) (v : Val ℚ) (h : ∀ z ∈ zs, z = v) (hne : zs ≠ []) :
    bars n zs = [zs.length] := by
  have hl : zs.length ≠ 0 := by simpa using hne
  unfold bars
  simp only
  rw [← count_filter_single _ (keys_nodup n) (bin n v) (bin_mem n v) _ hl]
  congr 1
  apply List.map_congr_left
  intro b _
  rw [List.countP_map]
  by_cases hb : b = bin n v
  · rw [if_pos hb, List.countP_eq_length]
    intro z hz
    rw [h z hz, hb]; simp
  · rw [if_neg hb, List.countP_eq_zero]
    intro z hz
    rw [h z hz]; simpa using fun e => hb e.symm

/-- **C172.** The bars of the histogram add up to the number of finite values, and none of them is zero; no bins is an
error. -/
theorem histogram_total (n : ℕ) (c : Col (Val ℚ)) :
    (n = 0 → histogram n c = none) ∧ (n ≠ 0 → ∃ l, histogram n c = some l ∧ l.sum = (numbers c).length ∧
      ∀ k ∈ l, 0 < k) := by
  refine ⟨fun h => by rw [histogram, if_pos h], fun h => ⟨_, by rw [histogram, if_neg h], ?_, bars_pos _ _⟩⟩
  rw [bars_sum, scaled, List.length_map]; rfl

example : histogram 3 [some (.num 1), none, some (.num 5), some .nan, some (.num 5)] = some [1, 2] := by
  decide +kernel

/-- **C172, disagreement.** One infinite value makes the whole histogram a single bar, although only finite values are
counted: the smallest and the largest value are taken of all values. -/
theorem histogram_infinite (n : ℕ) (hn : n ≠ 0) (c : Col (Val ℚ)) (b : Bool) (hb : some (.inf b) ∈ c)
    (hne : numbers c ≠ []) : histogram n c = some [(numbers c).length] := by
  have hmem : Val.inf b ∈ vals c := List.mem_filterMap.2 ⟨_, hb, rfl⟩
  have hf : finite (vals c) ≠ [] := hne
  have hlen : (scaled c).length = (numbers c).length := by rw [scaled, List.length_map]; rfl
  have hsne : scaled c ≠ [] := by
    rw [← List.length_pos_iff, hlen]; exact List.length_pos_of_ne_nil hne
  rw [histogram, if_neg hn]
  obtain ⟨lo, hlo⟩ : ∃ m, (finite (vals c)).min? = some m := by
    cases h : (finite (vals c)).min? with
    | none => exact absurd (List.min?_eq_none_iff.1 h) hf
    | some m => exact ⟨m, rfl⟩
  obtain ⟨hi, hhi⟩ : ∃ m, (finite (vals c)).max? = some m := by
    cases h : (finite (vals c)).max? with
    | none => exact absurd (List.max?_eq_none_iff.1 h) hf
    | some m => exact ⟨m, rfl⟩
  suffices h : ∃ v, ∀ z ∈ scaled c, z = v by
    obtain ⟨v, hv⟩ := h
    rw [bars_replicate n _ v hv hsne, hlen]
  by_cases hneg : Val.inf false ∈ vals c
  · refine ⟨.nan, fun z hz => ?_⟩
    unfold scaled at hz
    obtain ⟨x, -, rfl⟩ := List.mem_map.1 hz
    have h1 : vmin (vals c) = .inf false := by rw [vmin, if_pos hneg]
    have h2 : vmax (vals c) = .inf true ∨ vmax (vals c) = .num hi := by
      unfold vmax
      split_ifs
      · left; rfl
      · right; rw [hhi]
    rcases h2 with h2 | h2 <;> rw [h1, h2] <;> rfl
  · have hpos : Val.inf true ∈ vals c := by
      cases b with
      | true => exact hmem
      | false => exact absurd hmem hneg
    refine ⟨.num 0, fun z hz => ?_⟩
    unfold scaled at hz
    obtain ⟨x, -, rfl⟩ := List.mem_map.1 hz
    have h1 : vmin (vals c) = .num lo := by rw [vmin, if_neg hneg, hlo]
    have h2 : vmax (vals c) = .inf true := by rw [vmax, if_pos hpos]
    rw [h1, h2]; rfl

example : histogram 20 [some (.num 1), some (.num 2), some (.num 90), some (.inf true)] = some [3] :=
  histogram_infinite 20 (by simp) _ true (by simp) (by decide)

theorem cut_mono (n : ℕ) {i j : ℕ} (hij : i < j) (hj : j < n) : cut n i < cut n j := by
  have hn : (0 : ℚ) < n := by exact_mod_cast (by omega : 0 < n)
  have h1 : (i : ℚ) / n < (j : ℚ) / n := by
    apply div_lt_div_of_pos_right _ hn; exact_mod_cast hij
  unfold cut
  rw [if_neg (by omega : ¬ i + 1 = n), if_neg (by omega : ¬ j = 0)]
  split_ifs <;> linarith

/-- Which bin a number falls in. -/
theorem bin_eq (n i : ℕ) (hi : i < n) (z : ℚ) (h1 : cut n i ≤ z) (h2 : i + 1 < n → z < cut n (i + 1)) :
    bin n (.num z) = some (i + 1) := by
  change some ((List.range n).countP fun i => decide (cut n i ≤ z)) = some (i + 1)
  congr 1
  have e : List.range n = List.range (i + 1) ++ (List.range (n - (i + 1))).map (i + 1 + ·) := by
    rw [← List.range_add]; congr 1; omega
  rw [e, List.countP_append]
  have a1 : (List.range (i + 1)).countP (fun i => decide (cut n i ≤ z)) = i + 1 := by
    conv_rhs => rw [← List.length_range (n := i + 1)]
    rw [List.countP_eq_length]
    intro j hj
    rw [List.mem_range] at hj
    rcases Nat.lt_succ_iff_lt_or_eq.1 hj with h | h
    · simpa using ((cut_mono n h hi).trans_le h1).le
    · simpa [h] using h1
  have a2 : ((List.range (n - (i + 1))).map (i + 1 + ·)).countP (fun i => decide (cut n i ≤ z)) = 0 := by
    rw [List.countP_eq_zero]
    intro j hj
    obtain ⟨k, hk, rfl⟩ := List.mem_map.1 hj
    rw [List.mem_range] at hk
    have h3 := h2 (by omega)
    rcases Nat.eq_zero_or_pos k with h | h
    · subst h; simpa using h3
    · have := cut_mono n (by omega : i + 1 < i + 1 + k) (by omega)
      simpa using h3.trans this
  omega

theorem bin_exists (n : ℕ) (hn : 0 < n) (z : ℚ) (h0 : cut n 0 ≤ z) :
    ∃ i, i < n ∧ cut n i ≤ z ∧ (i + 1 < n → z < cut n (i + 1)) := by
  let P : ℕ → Prop := fun i => cut n i ≤ z
  have hd : DecidablePred P := fun i => inferInstanceAs (Decidable (cut n i ≤ z))
  refine ⟨Nat.findGreatest P (n - 1), ?_, ?_, ?_⟩
  · have := Nat.findGreatest_le (P := P) (n - 1); omega
  · exact Nat.findGreatest_spec (P := P) (Nat.zero_le _) h0
  · intro h
    by_contra hc
    have h' : Nat.findGreatest P (n - 1) + 1 ≤ n - 1 := by omega
    exact Nat.findGreatest_is_greatest (Nat.lt_succ_self _) h' (not_lt.1 hc)

theorem bin_iff (n i : ℕ) (hi : i < n) (z : ℚ) (h0 : cut n 0 ≤ z) :
    bin n (.num z) = some (i + 1) ↔ cut n i ≤ z ∧ (i + 1 < n → z < cut n (i + 1)) := by
  constructor
  · intro h
    obtain ⟨j, hj, h1, h2⟩ := bin_exists n (by omega) z h0
    have := bin_eq n j hj z h1 h2
    rw [h] at this
    have : i = j := by simpa using this
    subst this
    exact ⟨h1, h2⟩
  · rintro ⟨h1, h2⟩
    exact bin_eq n i hi z h1 h2

theorem numbers_eq (c : Col (Val ℚ)) : numbers c = finite (vals c) := rfl

/-- The scaled values of a column whose values are finite and not all equal. -/
theorem scaled_eq (c : Col (Val ℚ)) (lo hi : ℚ) (hf : ∀ b, some (.inf b) ∉ c) (hlo : Least (numbers c) lo)
    (hhi : Greatest (numbers c) hi) (hlt : lo < hi) :
    scaled c = (numbers c).map fun x => .num ((x - lo) / (hi - lo)) := by
  have hninf : ∀ b, Val.inf b ∉ vals c := by
    intro b hb
    obtain ⟨o, ho, he⟩ := List.mem_filterMap.1 hb
    simp only [id] at he
    subst he
    exact hf b ho
  have h1 : vmin (vals c) = .num lo := by
    have : (finite (vals c)).min? = some lo := List.min?_eq_some_iff.2 ⟨hlo.1, hlo.2⟩
    rw [vmin, if_neg (hninf false), this]
  have h2 : vmax (vals c) = .num hi := by
    have : (finite (vals c)).max? = some hi := List.max?_eq_some_iff.2 ⟨hhi.1, hhi.2⟩
    rw [vmax, if_neg (hninf true), this]
  unfold scaled
  simp only [h1, h2]
  apply List.map_congr_left
  intro x _
  simp only [sub, Val.fdiv]
  rw [if_neg (by linarith)]

/-- The bars of numbers between 0 and 1. -/
theorem bars_unit (n : ℕ) (hn : 0 < n) (zs : List ℚ) (h0 : ∀ z ∈ zs, cut n 0 ≤ z) :
    bars n (zs.map .num) = ((List.range n).map fun i =>
      num (fun z => cut n i ≤ z ∧ (i + 1 < n → z < cut n (i + 1))) zs).filter fun k => decide (k ≠ 0) := by
  have hz : ∀ b, b = none ∨ b = some 0 → (zs.map fun z => bin n (.num z)).countP (fun x => decide (x = b)) = 0 := by
    intro b hb
    rw [List.countP_eq_zero]
    intro x hx
    obtain ⟨z, hz, rfl⟩ := List.mem_map.1 hx
    obtain ⟨j, hj, h1, h2⟩ := bin_exists n hn z (h0 z hz)
    rw [bin_eq n j hj z h1 h2]
    rcases hb with rfl | rfl <;> simp
  unfold bars
  simp only
  rw [List.map_map, List.map_cons, List.range_succ_eq_map, List.map_cons, List.map_cons]
  rw [List.filter_cons_of_neg (by simpa using hz none (Or.inl rfl)),
    List.filter_cons_of_neg (by simpa using hz (some 0) (Or.inr rfl)), List.map_map, List.map_map]
  congr 1
  apply List.map_congr_left
  intro i hi
  rw [List.mem_range] at hi
  rw [num_eq]
  simp only [Function.comp]
  rw [List.countP_map]
  apply List.countP_congr
  intro z hz
  have := bin_iff n i hi z (h0 z hz)
  simp only [Function.comp, decide_eq_true_eq]
  exact this

/-- **C172.** The histogram of a column whose values are finite (nulls and NaN left out) and not all equal, with at
least two bins: the numbers of values in the intervals between the edges, in order and without the empty ones. -/
theorem histogram_bins_partial (n : ℕ) (hn : 2 ≤ n) (c : Col (Val ℚ)) (lo hi : ℚ) (hf : ∀ b, some (.inf b) ∉ c)
    (hlo : Least (numbers c) lo) (hhi : Greatest (numbers c) hi) (hlt : lo < hi) :
    histogram n c = some ((fullBars n lo hi (numbers c)).filter fun k => decide (k ≠ 0)) := by
  have hw : 0 < hi - lo := by linarith
  have hn0 : (0 : ℚ) < n := by exact_mod_cast (by omega : 0 < n)
  rw [histogram, if_neg (by omega), scaled_eq c lo hi hf hlo hhi hlt]
  have e : ((numbers c).map fun x => Val.num ((x - lo) / (hi - lo))) =
      ((numbers c).map fun x => (x - lo) / (hi - lo)).map .num := by rw [List.map_map]; rfl
  have hcut0 : cut n 0 = -(1 / 100000) := by
    unfold cut; rw [if_pos rfl, if_neg (by omega)]; simp
  have hz0 : ∀ x ∈ numbers c, 0 ≤ (x - lo) / (hi - lo) := fun x hx =>
    div_nonneg (by linarith [hlo.2 x hx]) hw.le
  rw [e, bars_unit n (by omega)]
  · congr 2
    apply List.map_congr_left
    intro i hi'
    rw [List.mem_range] at hi'
    rw [num_eq, num_eq, List.countP_map]
    apply List.countP_congr
    intro x hx
    simp only [Function.comp, decide_eq_true_eq]
    have hz := hz0 x hx
    have key : ∀ j, j ≠ 0 → (cut n j ≤ (x - lo) / (hi - lo) ↔ edge n lo hi j ≤ x) := by
      intro j hj
      unfold cut edge
      rw [if_neg hj, le_div_iff₀ hw]
      constructor <;> intro h <;> linarith
    have hlow : cut n i ≤ (x - lo) / (hi - lo) ↔ edge n lo hi i ≤ x := by
      rcases Nat.eq_zero_or_pos i with h | h
      · subst h
        have h1 : edge n lo hi 0 = lo := by
          unfold edge; rw [if_neg (by omega)]; simp
        rw [hcut0, h1]
        refine ⟨fun _ => hlo.2 x hx, fun _ => ?_⟩
        linarith
      · exact key i (by omega)
    have hup : (x - lo) / (hi - lo) < cut n (i + 1) ↔ x < edge n lo hi (i + 1) := by
      rw [← not_le, ← not_le, key (i + 1) (by omega)]
    rw [hlow, hup]
  · intro z hz
    obtain ⟨x, hx, rfl⟩ := List.mem_map.1 hz
    rw [hcut0]
    linarith [hz0 x hx]

example : Least (numbers [some (.num 1), some .nan, some (.num 4)]) 1 ∧
    Greatest (numbers [some (.num 1), some .nan, some (.num 4)]) 4 := by
  constructor <;> constructor <;> simp [numbers, known]

/-- **C172.** A column of equal finite values gives a single bar. -/
theorem histogram_constant (n : ℕ) (hn : n ≠ 0) (c : Col (Val ℚ)) (v : ℚ) (hf : ∀ b, some (.inf b) ∉ c)
    (hne : numbers c ≠ []) (hv : ∀ x ∈ numbers c, x = v) : histogram n c = some [(numbers c).length] := by
  have hninf : ∀ b, Val.inf b ∉ vals c := by
    intro b hb
    obtain ⟨o, ho, he⟩ := List.mem_filterMap.1 hb
    simp only [id] at he
    subst he
    exact hf b ho
  have hm : v ∈ finite (vals c) := by
    obtain ⟨x, hx⟩ := List.exists_mem_of_ne_nil _ hne
    exact hv x hx ▸ hx
  have h1 : vmin (vals c) = .num v := by
    have : (finite (vals c)).min? = some v := List.min?_eq_some_iff.2 ⟨hm, fun x hx => (hv x hx).ge⟩
    rw [vmin, if_neg (hninf false), this]
  have h2 : vmax (vals c) = .num v := by
    have : (finite (vals c)).max? = some v := List.max?_eq_some_iff.2 ⟨hm, fun x hx => (hv x hx).le⟩
    rw [vmax, if_neg (hninf true), this]
  have hlen : (scaled c).length = (numbers c).length := by rw [scaled, List.length_map]; rfl
  rw [histogram, if_neg hn, bars_replicate n _ .nan, hlen]
  · intro z hz
    unfold scaled at hz
    obtain ⟨x, hx, rfl⟩ := List.mem_map.1 hz
    rw [h1, h2, hv x hx]
    simp [sub, Val.fdiv]
  · rw [← List.length_pos_iff, hlen]; exact List.length_pos_of_ne_nil hne

example : histogram 5 [some (.num 2), none, some (.num 2)] = some [2] :=
  histogram_constant 5 (by simp) _ 2 (by simp) (by simp [numbers, known]) (by simp [numbers, known])

theorem num_append (P : ℚ → Prop) [DecidablePred P] (l l' : List ℚ) : num P (l ++ l') = num P l + num P l' := by
  simp [num_eq]

theorem num_replicate (P : ℚ → Prop) [DecidablePred P] (k : ℕ) (v : ℚ) :
    num P (List.replicate k v) = if P v then k else 0 := by
  rw [num_eq, List.countP_replicate]; simp

theorem filter_two (l : List ℕ) (b : ℕ) (hb : b ≠ 0) (h : ∀ k ∈ l, k = 0 ∨ k = b) (hs : l.sum = b) :
    l.filter (fun k => decide (k ≠ 0)) = [b] := by
  induction l with
  | nil => simp at hs; exact absurd hs.symm hb
  | cons x l ih =>
    rw [List.sum_cons] at hs
    rcases h x List.mem_cons_self with hx | hx
    · rw [List.filter_cons_of_neg (by simpa using hx)]
      exact ih (fun k hk => h k (List.mem_cons_of_mem _ hk)) (by omega)
    · rw [List.filter_cons_of_pos (by simpa [hx] using hb), hx]
      congr 1
      rw [List.filter_eq_nil_iff]
      intro y hy
      have h0 : l.sum = 0 := by omega
      have := List.sum_eq_zero_iff.1 h0 y hy
      simp [this]

/-- **C172, disagreement.** Empty bins are left out: whatever the number of bins, values at the two ends of the range
and none between are drawn as two neighbouring bars. -/
theorem gap_lost (n : ℕ) (hn : 2 ≤ n) (a b : ℕ) (ha : a ≠ 0) (hb : b ≠ 0) :
    histogram n (List.replicate a (some (.num 0)) ++ List.replicate b (some (.num 1))) = some [a, b] ∧
    (equalBars n 0 1 (List.replicate a 0 ++ List.replicate b 1)).length = n := by
  refine ⟨?_, by simp [equalBars]⟩
  have hk : numbers (List.replicate a (some (.num 0)) ++ List.replicate b (some (.num 1))) =
      List.replicate a 0 ++ List.replicate b 1 := by
    have h1 : ∀ (k : ℕ) (v : ℚ), numbers (List.replicate k (some (.num v))) = List.replicate k v := by
      intro k v
      unfold numbers known
      rw [show List.filterMap id (List.replicate k (some (Val.num v))) = List.replicate k (Val.num v) from
        List.filterMap_replicate_of_some rfl]
      exact List.filterMap_replicate_of_some rfl
    rw [← h1, ← h1]
    simp [numbers, known]
  have hmem : ∀ x ∈ (List.replicate a (0:ℚ) ++ List.replicate b 1), x = 0 ∨ x = 1 := by
    intro x hx
    rcases List.mem_append.1 hx with h | h
    · left; exact List.eq_of_mem_replicate h
    · right; exact List.eq_of_mem_replicate h
  rw [histogram_bins_partial n hn _ 0 1]
  · rw [hk]
    congr 1
    obtain ⟨m, rfl⟩ : ∃ m, n = m + 2 := ⟨n - 2, by omega⟩
    have hm : (0 : ℚ) < ((m + 2 : ℕ) : ℚ) := by positivity
    have hm' : (0:ℚ) ≤ (m : ℚ) := Nat.cast_nonneg _
    have ev : ∀ i, num (fun x => edge (m + 2) 0 1 i ≤ x ∧ (i + 1 < m + 2 → x < edge (m + 2) 0 1 (i + 1)))
        (List.replicate a 0 ++ List.replicate b 1) =
        (if edge (m + 2) 0 1 i ≤ 0 ∧ (i + 1 < m + 2 → 0 < edge (m + 2) 0 1 (i + 1)) then a else 0) +
        (if edge (m + 2) 0 1 i ≤ 1 ∧ (i + 1 < m + 2 → 1 < edge (m + 2) 0 1 (i + 1)) then b else 0) := by
      intro i
      rw [num_append, num_replicate, num_replicate]
    have epos : ∀ i, 0 < i → 0 < edge (m + 2) 0 1 i := by
      intro i hi
      have : (0:ℚ) < (i:ℚ) / ((m + 2 : ℕ) : ℚ) := div_pos (by exact_mod_cast hi) hm
      unfold edge
      split_ifs <;> linarith
    have e0 : edge (m + 2) 0 1 0 = 0 := by unfold edge; rw [if_neg (by omega)]; simp
    have e1 : edge (m + 2) 0 1 1 ≤ 1 := by
      unfold edge
      have h2 : (1:ℚ) / ((m + 2 : ℕ) : ℚ) ≤ 1 / 2 := by
        apply div_le_div_of_nonneg_left (by norm_num) (by norm_num)
        push_cast; linarith
      push_cast at h2 ⊢
      split_ifs <;> linarith
    have hsum : (fullBars (m + 2) 0 1 (List.replicate a 0 ++ List.replicate b 1)).sum = a + b := by
      obtain ⟨l, h1, h2, -⟩ := (histogram_total (m + 2)
        (List.replicate a (some (.num 0)) ++ List.replicate b (some (.num 1)))).2 (by omega)
      rw [histogram_bins_partial (m + 2) hn _ 0 1 (by simp)
        (by rw [hk]; exact ⟨by simp [ha], fun x hx => by rcases hmem x hx with h | h <;> rw [h]; norm_num⟩)
        (by rw [hk]; exact ⟨by simp [hb], fun x hx => by rcases hmem x hx with h | h <;> rw [h]; norm_num⟩)
        (by norm_num), hk] at h1
      rw [hk] at h2
      rw [← Option.some.inj h1, sum_filter_ne] at h2
      simpa using h2
    unfold fullBars at hsum ⊢
    rw [List.range_succ_eq_map, List.map_cons] at hsum ⊢
    have hhead : num (fun x => edge (m + 2) 0 1 0 ≤ x ∧ (0 + 1 < m + 2 → x < edge (m + 2) 0 1 (0 + 1)))
        (List.replicate a 0 ++ List.replicate b 1) = a := by
      rw [ev, if_pos ⟨e0.le, fun _ => epos 1 (by omega)⟩, if_neg]
      · simp
      · rintro ⟨-, h⟩
        exact absurd (h (by omega)) (not_lt.2 e1)
    rw [hhead] at hsum ⊢
    rw [List.filter_cons_of_pos (by simpa using ha)]
    congr 1
    apply filter_two _ b hb
    · intro k hk'
      rw [List.map_map] at hk'
      obtain ⟨i, -, rfl⟩ := List.mem_map.1 hk'
      simp only [Function.comp]
      rw [ev, if_neg (fun h => absurd h.1 (not_le.2 (epos _ (by omega))))]
      split_ifs <;> simp
    · rw [List.sum_cons] at hsum
      omega
  · simp
  · rw [hk]; exact ⟨by simp [ha], fun x hx => by rcases hmem x hx with h | h <;> rw [h]; norm_num⟩
  · rw [hk]; exact ⟨by simp [hb], fun x hx => by rcases hmem x hx with h | h <;> rw [h]; norm_num⟩
  · norm_num

example : histogram 20 [some (.num 0), some (.num 0), some (.num 0), some (.num 1)] = some [3, 1] :=
  (gap_lost 20 (by omega) 3 1 (by simp) (by simp)).1

/-- **C172, disagreement.** The bins are not of equal width: the last one starts too late.  The values 0, 1, …, 10 in
ten bins; and the value in the middle of two bins. -/
theorem last_bin_short :
    histogram 10 ((List.range 11).map fun i => some (.num (i : ℚ))) = some [1, 1, 1, 1, 1, 1, 1, 1, 2, 1] ∧
    equalBars 10 0 10 ((List.range 11).map fun i => (i : ℚ)) = [1, 1, 1, 1, 1, 1, 1, 1, 1, 2] ∧
    histogram 2 [some (.num 0), some (.num (1 / 2)), some (.num 1)] = some [2, 1] ∧
    equalBars 2 0 1 [0, 1 / 2, 1] = [1, 2] := by
  refine ⟨?_, ?_, ?_, ?_⟩ <;> decide +kernel

/-- **C172.** The histogram of an `Int8` column is that of the same numbers as floats if the range fits in the type. -/
theorem histogram_int8_partial (n : ℕ) (c : Col ℤ) (hr : ∀ x ∈ known c, ∀ y ∈ known c, x - y ≤ 127) :
    histogramInt8 n c = histogram n (c.map fun o => o.map fun x : ℤ => Val.num (x : ℚ)) := by
  have hk : vals (c.map fun o => o.map fun x : ℤ => Val.num (x : ℚ)) = (known c).map fun x : ℤ => Val.num (x : ℚ) := by
    unfold vals known
    rw [List.filterMap_map, List.map_filterMap]
    apply List.filterMap_congr
    intro o _
    cases o <;> rfl
  have hfin : finite ((known c).map fun x : ℤ => Val.num (x : ℚ)) = (known c).map fun x : ℤ => (x : ℚ) := by
    unfold finite
    rw [List.filterMap_map]
    exact congrFun (List.filterMap_eq_map (f := fun x : ℤ => (x : ℚ))) (known c)
  unfold histogramInt8 histogram
  by_cases hn : n = 0
  · rw [if_pos hn, if_pos hn]
  rw [if_neg hn, if_neg hn]
  have hv : vals c = known c := rfl
  rw [hv]
  by_cases hne : known c = []
  · rw [hne]
    have : scaled (c.map fun o => o.map fun x : ℤ => Val.num (x : ℚ)) = [] := by
      unfold scaled; simp only [hk, hne]; rfl
    rw [this]
    have : bars n [] = [] := by
      unfold bars
      rw [List.filter_eq_nil_iff]
      intro y hy
      obtain ⟨b, -, rfl⟩ := List.mem_map.1 hy
      simp
    rw [this]; rfl
  obtain ⟨lo, hlo⟩ : ∃ m, (known c).min? = some m := by
    cases h : (known c).min? with
    | none => exact absurd (List.min?_eq_none_iff.1 h) hne
    | some m => exact ⟨m, rfl⟩
  obtain ⟨hi, hhi⟩ : ∃ m, (known c).max? = some m := by
    cases h : (known c).max? with
    | none => exact absurd (List.max?_eq_none_iff.1 h) hne
    | some m => exact ⟨m, rfl⟩
  rw [hlo, hhi]
  obtain ⟨lo1, lo2⟩ := List.min?_eq_some_iff.1 hlo
  obtain ⟨hi1, hi2⟩ := List.max?_eq_some_iff.1 hhi
  have m1 : (finite ((known c).map fun x : ℤ => Val.num (x : ℚ))).min? = some (lo : ℚ) := by
    rw [hfin, List.min?_eq_some_iff]
    refine ⟨List.mem_map.2 ⟨lo, lo1, rfl⟩, fun y hy => ?_⟩
    obtain ⟨x, hx, rfl⟩ := List.mem_map.1 hy
    exact_mod_cast lo2 x hx
  have m2 : (finite ((known c).map fun x : ℤ => Val.num (x : ℚ))).max? = some (hi : ℚ) := by
    rw [hfin, List.max?_eq_some_iff]
    refine ⟨List.mem_map.2 ⟨hi, hi1, rfl⟩, fun y hy => ?_⟩
    obtain ⟨x, hx, rfl⟩ := List.mem_map.1 hy
    exact_mod_cast hi2 x hx
  have n1 : vmin ((known c).map fun x : ℤ => Val.num (x : ℚ)) = .num lo := by
    rw [vmin, if_neg (by simp), m1]
  have n2 : vmax ((known c).map fun x : ℤ => Val.num (x : ℚ)) = .num hi := by
    rw [vmax, if_neg (by simp), m2]
  have w : ∀ x : ℤ, 0 ≤ x → x ≤ 127 → wrap8 x = x := by
    intro x h1 h2; unfold wrap8; omega
  simp only
  congr 2
  unfold scaled
  simp only [hk, n1, n2, hfin, List.map_map]
  apply List.map_congr_left
  intro x hx
  simp only [Function.comp, sub]
  rw [w (x - lo) (by linarith [lo2 x hx]) (hr x hx lo lo1), w (hi - lo) (by linarith [hi2 lo lo1]) (hr hi hi1 lo lo1)]
  push_cast; rfl

example : ∀ x ∈ known [some (-100 : ℤ), none, some 20], ∀ y ∈ known [some (-100 : ℤ), none, some 20], x - y ≤ 127 := by
  decide

/-- **C172, disagreement.** In an `Int8` column of a wider range the differences wrap: three values spread over the
whole type are drawn as two bars, the larger one last. -/
theorem histogram_int8_wrong :
    histogramInt8 20 [some (-128), some 0, some 127] = some [1, 2] ∧
    histogram 20 [some (.num (-128)), some (.num 0), some (.num 127)] = some [1, 1, 1] := by
  constructor <;> decide +kernel

end Verif.Profile
