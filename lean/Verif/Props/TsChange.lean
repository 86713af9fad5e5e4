import Verif.Props.TsLag
import Mathlib.Algebra.BigOperators.Group.List.Basic
import Mathlib.Data.List.Count

/-!
# Size of the steps, energy, extremes and counts of a series
-/

namespace Verif.TsFeat
open Verif.Pl Verif.Confusion

namespace Spec

/-- A list whose neighbors are equal is constant. -/
def Const {K : Type} (x : List K) : Prop := ∀ a ∈ x, ∀ b ∈ x, a = b

end Spec

open Spec
set_option linter.unusedSectionVars false
variable {K : Type} [Field K] [LinearOrder K]

/-! ## Mean absolute change -/

theorem vals_steps (x : List K) :
    vals (map1 (fun v => |v|) (List.zipWith (opt2 fun a b => b - a) (x.map some) ((x.map some).drop 1))) =
      tab (x.length - 1) fun i => |at' x (i + 1) - at' x i| := by
  rw [vals_map1']
  have : List.zipWith (opt2 fun a b : K => b - a) (x.map some) ((x.map some).drop 1) =
      (List.zipWith (fun a b => b - a) x (x.drop 1)).map some := by
    rw [← List.map_drop, List.zipWith_map, List.map_zipWith]
    rfl
  rw [this, vals_some]
  apply List.ext_getElem
  · simp [tab]
  · intro i h1 h2
    have hi : i + 1 < x.length := by simp [tab] at h2; omega
    have h3 : i < x.length := by omega
    simp [tab, at', List.getElem?_eq_getElem hi, List.getElem?_eq_getElem h3, Nat.add_comm]

/-- The value on a complete series: the average of the `n - 1` absolute steps, null below two values. -/
theorem mean_abs_change_value (x : List K) :
    meanAbsChange (x.map some) = if x.length ≤ 1 then none else
      some (avg (tab (x.length - 1) fun i => |at' x (i + 1) - at' x i|)) := by
  unfold meanAbsChange
  rw [mean_vals _ _ (vals_steps x)]
  by_cases h : x.length ≤ 1
  · rw [if_pos h, if_pos]
    have : x.length - 1 = 0 := by omega
    simp [tab, this]
  · rw [if_neg h, if_neg]
    simp [tab]; omega

example : meanAbsChange [some 1, some 4, some (2 : ℚ)] = some (5 / 2) := by decide +kernel

theorem tab_succ (n : ℕ) (f : ℕ → K) : (tab (n + 1) f).sum = (tab n f).sum + f n := by
  simp [tab, List.range_succ]

theorem telescope [IsStrictOrderedRing K] (y : ℕ → K) (n : ℕ) :
    |y n - y 0| ≤ (tab n fun i => |y (i + 1) - y i|).sum := by
  induction n with
  | zero => simp [tab]
  | succ n ih =>
    rw [tab_succ]
    have := abs_add_le (y (n + 1) - y n) (y n - y 0)
    have e : y (n + 1) - y n + (y n - y 0) = y (n + 1) - y 0 := by ring
    rw [e] at this
    linarith

/-- The total change from the first to the last value is at most the mean absolute change times the number of
steps, and equal to it when the series never decreases. -/
theorem mean_abs_change_bound [IsStrictOrderedRing K] (x : List K) (m : K)
    (h : meanAbsChange (x.map some) = some m) :
    |at' x (x.length - 1) - at' x 0| ≤ m * ((x.length : K) - 1) ∧
    (x.IsChain (· ≤ ·) → m * ((x.length : K) - 1) = at' x (x.length - 1) - at' x 0) ∧
    (m = 0 ↔ Const x) := by
  rw [mean_abs_change_value] at h
  by_cases hl : x.length ≤ 1
  · rw [if_pos hl] at h; cases h
  rw [if_neg hl] at h
  have hm : m = avg (tab (x.length - 1) fun i => |at' x (i + 1) - at' x i|) := (Option.some.inj h).symm
  have hlen : (tab (x.length - 1) fun i => |at' x (i + 1) - at' x i|).length = x.length - 1 := by simp [tab]
  have hk : ((x.length - 1 : ℕ) : K) = (x.length : K) - 1 := by
    have : 1 ≤ x.length := by omega
    push_cast [this]; ring
  have hk0 : (0 : K) < ((x.length - 1 : ℕ) : K) := by rw [Nat.cast_pos]; omega
  have hms : m * ((x.length : K) - 1) = (tab (x.length - 1) fun i => |at' x (i + 1) - at' x i|).sum := by
    rw [hm, ← hk, avg, hlen, div_mul_cancel₀ _ hk0.ne']
  refine ⟨?_, ?_, ?_⟩
  · rw [hms]; exact telescope (at' x) (x.length - 1)
  · intro hc
    rw [hms]
    have hstep : ∀ i, i + 1 < x.length → at' x i ≤ at' x (i + 1) := by
      intro i hi
      have := List.isChain_iff_getElem.1 hc i (by omega)
      simpa [at', List.getElem?_eq_getElem hi, List.getElem?_eq_getElem (show i < x.length by omega)] using this
    have : ∀ n, n < x.length → (tab n fun i => |at' x (i + 1) - at' x i|).sum = at' x n - at' x 0 := by
      intro n
      induction n with
      | zero => intro _; simp [tab]
      | succ n ih =>
        intro hn
        rw [tab_succ, ih (by omega), abs_of_nonneg (by have := hstep n hn; linarith)]
        ring
    exact this (x.length - 1) (by omega)
  · constructor
    · intro h0
      have hz : (tab (x.length - 1) fun i => |at' x (i + 1) - at' x i|).sum = 0 := by rw [← hms, h0]; ring
      have hall : ∀ i, i + 1 < x.length → at' x (i + 1) = at' x i := by
        intro i hi
        have hle : |at' x (i + 1) - at' x i| ≤ (tab (x.length - 1) fun i => |at' x (i + 1) - at' x i|).sum := by
          refine List.single_le_sum ?_ _ (List.mem_map.2 ⟨i, List.mem_range.2 (by omega), rfl⟩)
          intro v hv
          obtain ⟨j, _, rfl⟩ := List.mem_map.1 hv
          exact abs_nonneg _
        rw [hz] at hle
        have := abs_eq_zero.1 (le_antisymm hle (abs_nonneg _))
        linarith
      have h0' : ∀ n, n < x.length → at' x n = at' x 0 := by
        intro n
        induction n with
        | zero => intro _; rfl
        | succ n ih => intro hn; rw [hall n hn, ih (by omega)]
      intro a ha b hb
      obtain ⟨i, hi, rfl⟩ := List.getElem_of_mem ha
      obtain ⟨j, hj, rfl⟩ := List.getElem_of_mem hb
      have h1 := h0' i hi
      have h2 := h0' j hj
      simp only [at', List.getD_eq_getElem?_getD, List.getElem?_eq_getElem hi, List.getElem?_eq_getElem hj,
        Option.getD_some] at h1 h2
      rw [h1, h2]
    · intro hc
      have hz : (tab (x.length - 1) fun i => |at' x (i + 1) - at' x i|).sum = 0 := by
        apply List.sum_eq_zero
        intro v hv
        obtain ⟨i, hi, rfl⟩ := List.mem_map.1 hv
        rw [List.mem_range] at hi
        have h1 : i + 1 < x.length := by omega
        have h2 : i < x.length := by omega
        have : at' x (i + 1) = at' x i := by
          simp only [at', List.getD_eq_getElem?_getD, List.getElem?_eq_getElem h1, List.getElem?_eq_getElem h2,
            Option.getD_some]
          exact hc _ (List.getElem_mem h1) _ (List.getElem_mem h2)
        rw [this]; simp
      rw [hz] at hms
      rcases mul_eq_zero.1 hms with h1 | h1
      · exact h1
      · rw [← hk] at h1; exact absurd h1 hk0.ne'

example : meanAbsChange ([1, 4, 2].map (some : ℚ → Option ℚ)) = some (5 / 2) ∧
    meanAbsChange ([1, 2, 6].map (some : ℚ → Option ℚ)) = some (5 / 2) ∧ [(1 : ℚ), 2, 6].IsChain (· ≤ ·) := by
  refine ⟨by decide +kernel, by decide +kernel, by norm_num⟩

/-! ## Energy -/

/-- The energy is the sum of the squares of the known values; it is 0 only if they are all 0. -/
theorem abs_energy [IsStrictOrderedRing K] (c : Col K) :
    absEnergy c = ((vals c).map fun v => v ^ 2).sum ∧ 0 ≤ absEnergy c ∧
    (absEnergy c = 0 ↔ ∀ v ∈ vals c, v = 0) := by
  have h1 : absEnergy c = ((vals c).map fun v => v ^ 2).sum := by
    unfold absEnergy dot Pl.sum
    congr 1
    unfold map2 vals
    induction c with
    | nil => rfl
    | cons a c ih =>
      cases a with
      | none => simpa [opt2] using ih
      | some v => simp [opt2, pow_two] at ih ⊢; exact ih
  have hnn : ∀ y ∈ (vals c).map fun v => v ^ 2, (0 : K) ≤ y := by
    intro y hy
    obtain ⟨v, _, rfl⟩ := List.mem_map.1 hy
    positivity
  refine ⟨h1, ?_, ?_⟩
  · rw [h1]; exact List.sum_nonneg hnn
  · rw [h1]
    constructor
    · intro h v hv
      have := List.single_le_sum hnn (v ^ 2) (List.mem_map.2 ⟨v, hv, rfl⟩)
      rw [h] at this
      exact pow_eq_zero_iff (two_ne_zero) |>.1 (le_antisymm this (by positivity))
    · intro h
      apply List.sum_eq_zero
      intro y hy
      obtain ⟨v, hv, rfl⟩ := List.mem_map.1 hy
      rw [h v hv]; ring

example : absEnergy [some (3 : ℚ), none, some 4] = 25 := by decide +kernel

/-! ## Extremes -/

theorem sum_le_of_sorted [IsStrictOrderedRing K] (k : ℕ) (s t : List K) (hs : s.Pairwise (fun a b => b ≤ a))
    (ht : List.Subperm t s) (hk : t.length = k) : t.sum ≤ (s.take k).sum := by
  induction s generalizing k t with
  | nil =>
    have : t = [] := List.subperm_nil.1 ht
    subst this; simp
  | cons a s ih =>
    cases k with
    | zero =>
      have : t = [] := List.length_eq_zero_iff.1 hk
      subst this; simp
    | succ k =>
      rw [List.pairwise_cons] at hs
      simp only [List.take_succ_cons, List.sum_cons]
      by_cases hat : a ∈ t
      · have hp : t.Perm (a :: t.erase a) := List.perm_cons_erase hat
        have h1 : List.Subperm (t.erase a) s := by
          have := ht.erase a
          simpa using this
        have := ih k (t.erase a) hs.2 h1 (by rw [List.length_erase_of_mem hat, hk]; rfl)
        rw [hp.sum_eq, List.sum_cons]
        linarith
      · have hts : List.Subperm t s := by
          obtain ⟨l, hl, hsub⟩ := ht
          cases hsub with
          | cons _ h => exact ⟨l, hl, h⟩
          | cons_cons _ h => exact absurd (hl.subset (by simp)) hat
        -- replace one element of t by a
        obtain ⟨b, t', rfl⟩ : ∃ b t', t = b :: t' := by
          cases t with
          | nil => simp at hk
          | cons b t' => exact ⟨b, t', rfl⟩
        have hb : b ≤ a := hs.1 b (hts.subset (by simp))
        have h2 : List.Subperm t' s := (List.sublist_cons_self b t').subperm.trans hts
        have := ih k t' hs.2 h2 (by simpa using hk)
        simp only [List.sum_cons]
        linarith

/-- `query_mean_n_abs_max` on a column with `N` known values and `1 ≤ n ≤ N`: the result is the average of the
absolute values of some `n` known rows, and no choice of `n` known rows has a larger one. -/
theorem mean_n_abs_max [IsStrictOrderedRing K] (c : Col K) (n : ℕ) (hn : 1 ≤ n) (hc : n ≤ (vals c).length) :
    ∃ m, meanNAbsMax c n = some (some m) ∧
      (∃ s : List K, List.Subperm s (vals c) ∧ s.length = n ∧ m = avg (s.map fun v => |v|)) ∧
      (∀ s : List K, List.Subperm s (vals c) → s.length = n → avg (s.map fun v => |v|) ≤ m) := by
  set A := (vals c).map fun v => |v| with hA
  set S := A.insertionSort (fun a b => b ≤ a) with hS
  have hperm : S.Perm A := List.perm_insertionSort _ _
  have hsort : S.Pairwise (fun a b => b ≤ a) := by
    haveI : Std.Total (fun a b : K => b ≤ a) := ⟨fun a b => le_total b a⟩
    haveI : IsTrans K (fun a b : K => b ≤ a) := ⟨fun a b c h1 h2 => h2.trans h1⟩
    exact List.pairwise_insertionSort (r := fun a b : K => b ≤ a) A
  have hlen : S.length = (vals c).length := by rw [hperm.length_eq, hA, List.length_map]
  have htl : (S.take n).length = n := by rw [List.length_take, hlen]; omega
  have hne : S.take n ≠ [] := by intro h; rw [h] at htl; simp at htl; omega
  have hnK : (0 : K) < (n : K) := by rw [Nat.cast_pos]; omega
  refine ⟨avg (S.take n), ?_, ?_, ?_⟩
  · unfold meanNAbsMax
    rw [if_neg (by omega), vals_map1']
    rw [show ((n : ℤ)).toNat = n from rfl]
    rw [mean_some_eq _ hne]
  · have hsub : List.Subperm (S.take n) A := (List.take_sublist n S).subperm.trans hperm.subperm
    obtain ⟨l, hl1, hl2⟩ := hsub
    rw [hA] at hl2
    obtain ⟨l', hl', rfl⟩ := List.sublist_map_iff.1 hl2
    refine ⟨l', hl'.subperm, ?_, ?_⟩
    · have := hl1.length_eq
      rw [htl] at this; simpa using this
    · unfold avg
      rw [hl1.sum_eq, hl1.length_eq]
  · intro s hs hsn
    have h1 : List.Subperm (s.map fun v => |v|) S := by
      obtain ⟨l, h1, h2⟩ := hs
      exact (List.Subperm.trans ⟨l.map _, h1.map _, h2.map _⟩ hperm.symm.subperm)
    have := sum_le_of_sorted n S (s.map fun v => |v|) hsort h1 (by simpa using hsn)
    unfold avg
    rw [htl, List.length_map, hsn]
    exact div_le_div_of_nonneg_right this hnK.le

example : meanNAbsMax [some (-5 : ℚ), none, some 3, some 4, some (-1)] 2 = some (some (9 / 2)) := by decide +kernel

/-- A request for no maximum at all is rejected; a request for more than there are averages all of them. -/
theorem mean_n_abs_max_edges (c : Col K) (n : ℤ) :
    (n ≤ 0 → meanNAbsMax c n = none) ∧
    ((vals c).length ≤ n → 0 < n → meanNAbsMax c n = some (mean (map1 (fun v => |v|) c))) := by
  constructor
  · intro h; unfold meanNAbsMax; rw [if_pos h]
  · intro h h0
    unfold meanNAbsMax
    rw [if_neg (by omega), vals_map1', List.take_of_length_le]
    · congr 1
      apply mean_perm
      rw [vals_some, vals_map1']
      exact List.perm_insertionSort _ _
    · rw [List.length_insertionSort, List.length_map]; omega

example : meanNAbsMax [some (-5 : ℚ), some 4] 0 = none ∧
    meanNAbsMax [some (-5 : ℚ), none, some 4] 7 = some (some (9 / 2)) := by
  constructor <;> decide +kernel

/-- `query_mid_range` is half the largest distance between two known values, null without values. -/
theorem mid_range [IsStrictOrderedRing K] (c : Col K) :
    (midRange c = none ↔ vals c = []) ∧
    (∀ m, midRange c = some m →
      (∃ a ∈ vals c, ∃ b ∈ vals c, a - b = 2 * m) ∧ ∀ a ∈ vals c, ∀ b ∈ vals c, |a - b| ≤ 2 * m) := by
  constructor
  · unfold midRange
    rcases h : vals c with _ | ⟨v, t⟩
    · simp [opt2]
    · obtain ⟨a, ha⟩ := Option.isSome_iff_exists.1 (List.isSome_max?_of_mem (l := v :: t) (a := v) (by simp))
      obtain ⟨b, hb⟩ := Option.isSome_iff_exists.1 (List.isSome_min?_of_mem (l := v :: t) (a := v) (by simp))
      rw [ha, hb]; simp [opt2]
  · intro m hm
    unfold midRange at hm
    rcases hmax : (vals c).max? with _ | M
    · rw [hmax] at hm; simp [opt2] at hm
    rcases hmin : (vals c).min? with _ | N
    · rw [hmax, hmin] at hm; simp [opt2] at hm
    rw [hmax, hmin] at hm
    simp only [opt2, Option.some.injEq] at hm
    obtain ⟨hM1, hM2⟩ := List.max?_eq_some_iff.1 hmax
    obtain ⟨hN1, hN2⟩ := List.min?_eq_some_iff.1 hmin
    have e : 2 * m = M - N := by rw [← hm]; ring
    refine ⟨⟨M, hM1, N, hN1, e.symm⟩, ?_⟩
    intro a ha b hb
    have h1 := hM2 a ha
    have h2 := hM2 b hb
    have h3 := hN2 a ha
    have h4 := hN2 b hb
    rw [e, abs_le]
    constructor <;> linarith

example : midRange [some (-5 : ℚ), none, some 3] = some 4 := by decide +kernel

/-! ## Counts -/

/-- The number of rows with a known value in the closed interval. -/
theorem range_count (c : Col K) (lo hi : K) :
    rangeCount c lo hi = ((vals c).filter fun v => decide (lo ≤ v) && decide (v ≤ hi)).length := by
  unfold rangeCount map1 vals
  induction c with
  | nil => rfl
  | cons a c ih =>
    cases a with
    | none => simpa using ih
    | some v =>
      by_cases h1 : lo ≤ v <;> by_cases h2 : v ≤ hi <;> simp [h1, h2] at ih ⊢ <;> omega

example : rangeCount [some (1 : ℚ), none, some 2, some 3, some 5] 1 3 = 3 := by decide +kernel

/-- Splitting the interval at a point that no row has splits the count. -/
theorem range_count_split [IsStrictOrderedRing K] (c : Col K) (lo mid hi : K) (h1 : lo ≤ mid) (h2 : mid ≤ hi)
    (hm : mid ∉ vals c) : rangeCount c lo hi = rangeCount c lo mid + rangeCount c mid hi := by
  simp only [range_count]
  generalize vals c = l at hm
  induction l with
  | nil => rfl
  | cons a l ih =>
    have ha : mid ≠ a := fun h => hm (by simp [h])
    have ih := ih fun h => hm (by simp [h])
    rcases lt_or_gt_of_ne ha with h | h
    · have e1 : ¬ a ≤ mid := not_le.2 h
      have e2 : lo ≤ a := h1.trans h.le
      by_cases e3 : a ≤ hi <;> simp [e1, e2, e3, h.le] at ih ⊢ <;> omega
    · have e1 : ¬ mid ≤ a := not_le.2 h
      have e2 : a ≤ hi := h.le.trans h2
      by_cases e3 : lo ≤ a <;> simp [e1, e2, e3, h.le] at ih ⊢ <;> omega

example : (5 / 2 : ℚ) ∉ vals [some (1 : ℚ), none, some 2, some 3] := by decide +kernel

/-- What `query_count_uniques` counts: the rows whose value (null included) occurs in no other row.  The number
of distinct values is this number plus the number of distinct values that occur more than once. -/
theorem count_uniques {α : Type} [DecidableEq α] (c : List α) :
    c.dedup.length = countUniques c + (c.dedup.filter fun v => decide (1 < c.count v)).length := by
  have h1 : countUniques c = (c.dedup.filter fun v => c.count v == 1).length := by
    unfold countUniques
    apply List.Perm.length_eq
    rw [List.perm_iff_count]
    intro a
    by_cases ha : c.count a = 1
    · rw [List.count_filter (by simp [ha]), List.count_filter (by simp [ha]), ha, List.count_dedup,
        if_pos (List.count_pos_iff.1 (by omega))]
    · rw [List.count_eq_zero.2, List.count_eq_zero.2] <;> simp [ha]
  rw [h1]
  have hpos : ∀ v ∈ c.dedup, 1 ≤ c.count v := fun v hv => List.count_pos_iff.2 (List.mem_dedup.1 hv)
  generalize c.dedup = d at hpos
  induction d with
  | nil => rfl
  | cons a d ih =>
    have := ih fun v hv => hpos v (by simp [hv])
    have ha := hpos a (by simp)
    by_cases h : c.count a = 1
    · simp [h] at this ⊢; omega
    · have : 1 < c.count a := by omega
      simp [h, this]; omega

example : countUniques [some 1, none, some 2, some (1 : ℤ)] = 2 := by decide +kernel

/-- The documented "count of unique values" is not the number of distinct values. -/
theorem count_uniques_not_distinct :
    countUniques [some 1, some (1 : ℤ)] = 0 ∧ ([some 1, some (1 : ℤ)].dedup).length = 1 := by
  constructor <;> decide +kernel

end Verif.TsFeat
