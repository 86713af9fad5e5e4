import Verif.Model.Dia
import Mathlib.Algebra.BigOperators.Group.List.Basic
import Mathlib.Data.List.Perm.Basic
import Mathlib.Data.List.Nodup
import Mathlib.Data.Nat.Cast.Order.Basic
import Mathlib.Tactic.Linarith
import Mathlib.Tactic.FieldSimp
import Mathlib.Tactic.NormNum

/-!
# C128: special values and the numeric profile
-/

namespace Verif.Dia

namespace Spec

/-- The value lies in the `j`-th of `n` equal parts of `[lo, hi]`; the last part is closed. -/
def InPart (n : Nat) (lo hi : ℚ) (j : Nat) (x : ℚ) : Prop :=
  lo + (hi - lo) * (j / n) ≤ x ∧ (x < lo + (hi - lo) * ((j + 1) / n) ∨ j + 1 = n)

instance (n : Nat) (lo hi : ℚ) (j : Nat) (x : ℚ) : Decidable (InPart n lo hi j x) :=
  inferInstanceAs (Decidable (_ ∧ _))

/-- The bars a reader expects: one for each part, empty or not. -/
def bars (n : Nat) (lo hi : ℚ) (xs : List ℚ) : List Nat :=
  (List.range n).map fun j => xs.countP fun x => decide (InPart n lo hi j x)

end Spec

open Spec

/-- C128: nulls, NaN, infinite and finite values add up to the rows. -/
theorem special_values_total (c : List (Option Num)) :
    (specialValues c).1 + (specialValues c).2.1 + (specialValues c).2.2 +
      (c.filter fun v => match v with | some (.fin _) => true | _ => false).length = c.length := by
  induction c with
  | nil => rfl
  | cons v t ih =>
    simp only [specialValues, List.length_cons] at ih ⊢
    rcases v with _ | (_ | (_ | _) | q) <;> simp_all <;> omega

example : specialValues [none, some .nan, some (.inf true), some (.fin 1), some (.inf false)] = (1, 1, 2) := by
  decide +kernel

theorem sum_counts (bs l : List Nat) (hn : l.Nodup) (hm : ∀ b ∈ bs, b ∈ l) :
    (l.map fun b => bs.count b).sum = bs.length := by
  induction bs with
  | nil => simp
  | cons a t ih =>
    have h1 := ih fun b hb => hm b (by simp [hb])
    have h2 : (l.map fun b => (a :: t).count b).sum =
        (l.map fun b => t.count b).sum + (l.map fun b => if b = a then 1 else 0).sum := by
      rw [← List.sum_map_add]
      congr 1
      refine List.map_congr_left fun b _ => ?_
      rw [List.count_cons]
      rw [beq_eq_decide]
      by_cases hb : a = b
      · simp [hb]
      · simp [hb, Ne.symm hb]
    have h3 : (l.map fun b => if b = a then 1 else 0).sum = l.count a := by
      clear h1 h2 ih hm hn
      induction l with
      | nil => rfl
      | cons b u ih =>
        rw [List.map_cons, List.sum_cons, ih, List.count_cons, beq_eq_decide]
        by_cases hb : b = a <;> simp [hb]; omega
    rw [h2, h1, h3, List.count_eq_one_of_mem hn (hm a (by simp))]
    simp

/-- C128: the bars add up to the number of (finite) values. -/
theorem histogram_total (n : Nat) (lo hi : ℚ) (xs : List ℚ) : (histogram n lo hi xs).sum = xs.length := by
  unfold histogram
  rw [sum_counts]
  · simp
  · exact (List.perm_insertionSort _ _).nodup_iff.2 (List.nodup_dedup _)
  · intro b hb
    rw [(List.perm_insertionSort _ _).mem_iff]
    exact List.mem_dedup.2 hb

/-- There is never an empty bar: an empty bin is left out. -/
theorem histogram_no_empty (n : Nat) (lo hi : ℚ) (xs : List ℚ) : ∀ k ∈ histogram n lo hi xs, 0 < k := by
  unfold histogram
  intro k hk
  simp only [List.mem_map] at hk
  obtain ⟨b, hb, rfl⟩ := hk
  rw [(List.perm_insertionSort _ _).mem_iff, List.mem_dedup] at hb
  exact List.count_pos_iff.2 hb

theorem countP_range (n m : Nat) (p : Nat → Bool) (h : ∀ i < n, p i = true ↔ i < m) :
    (List.range n).countP p = min n m := by
  induction n with
  | zero => simp
  | succ n ih =>
    rw [List.range_succ, List.countP_append, ih fun i hi => h i (by omega)]
    have := h n (by omega)
    by_cases hp : p n = true
    · simp [hp]; have := this.1 hp; omega
    · have h2 := mt this.2 hp
      simp [hp]; omega

/-- The value is not just above the last cut. -/
def AwayFromLastCut (n : Nat) (lo hi x : ℚ) : Prop :=
  ((n : ℚ) - 1) / n ≤ (x - lo) / (hi - lo) → ((n : ℚ) - 1) / n + 1 / 100000 ≤ (x - lo) / (hi - lo)

theorem bin_of_part (n : Nat) (hn : 1 < n) (lo hi x : ℚ) (hlo : lo < hi) (h2 : x ≤ hi) (j : Nat) (hj : j < n)
    (hp : InPart n lo hi j x) (ha : AwayFromLastCut n lo hi x) : bin (cuts n) ((x - lo) / (hi - lo)) = j + 1 := by
  have hn0 : (0 : ℚ) < n := by exact_mod_cast (by omega : 0 < n)
  have hd : 0 < hi - lo := sub_pos.2 hlo
  set u := (x - lo) / (hi - lo) with hu
  have hu1 : u ≤ 1 := by rw [hu, div_le_one hd]; linarith
  have hju : (j : ℚ) / n ≤ u := by
    rw [hu, le_div_iff₀ hd]; have := hp.1; linarith
  have hju' : u < (j + 1) / n ∨ j + 1 = n := by
    rcases hp.2 with h | h
    · left; rw [hu, div_lt_iff₀ hd]; linarith
    · exact Or.inr h
  unfold bin cuts
  rw [List.countP_map, countP_range n (j + 1)]
  · omega
  · intro i hi'
    simp only [Function.comp_apply, decide_eq_true_eq]
    have mono : ∀ a b : Nat, a ≤ b → (a : ℚ) / n ≤ b / n := fun a b hab =>
      div_le_div_of_nonneg_right (by exact_mod_cast hab) hn0.le
    by_cases hi0 : i = 0
    · subst hi0
      rw [if_pos rfl, if_neg (by omega)]
      have : (0 : ℚ) ≤ j / n := by positivity
      simp only [Nat.cast_zero, zero_div, add_zero]
      constructor
      · intro; omega
      · intro; linarith
    · rw [if_neg hi0]
      by_cases hil : i = n - 1
      · rw [if_pos hil]
        have hc : (i : ℚ) = n - 1 := by rw [hil]; rw [Nat.cast_sub (by omega)]; simp
        constructor
        · intro h
          rcases hju' with hlt | hlast
          · by_contra hcon
            have h1 : ((j + 1 : Nat) : ℚ) / n ≤ (i : ℚ) / n := mono _ _ (by omega)
            push_cast at h1
            linarith
          · omega
        · intro h
          have hij : j = i := by omega
          subst hij
          have := ha (by rw [← hc]; exact hju)
          rw [hc]; linarith
      · rw [if_neg hil]
        simp only [sub_zero, add_zero]
        constructor
        · intro h
          rcases hju' with hlt | hlast
          · by_contra hcon
            have h1 : ((j + 1 : Nat) : ℚ) / n ≤ (i : ℚ) / n := mono _ _ (by omega)
            push_cast at h1
            linarith
          · omega
        · intro h
          exact (mono i j (by omega)).trans hju

theorem part_unique (n : Nat) (lo hi x : ℚ) (hlo : lo < hi) (j k : Nat) (hj : j < n) (hk : k < n)
    (h1 : InPart n lo hi j x) (h2 : InPart n lo hi k x) : j = k := by
  have hn0 : (0 : ℚ) < n := by exact_mod_cast (by omega : 0 < n)
  have hd : 0 < hi - lo := sub_pos.2 hlo
  have key : ∀ a b : Nat, b < n → InPart n lo hi a x → InPart n lo hi b x → ¬ a < b := by
    intro a b hb ha hb' hlt
    rcases ha.2 with h | h
    · have h3 : ((a + 1 : Nat) : ℚ) / n ≤ (b : ℚ) / n :=
        div_le_div_of_nonneg_right (by exact_mod_cast (by omega : a + 1 ≤ b)) hn0.le
      push_cast at h3
      have := mul_le_mul_of_nonneg_left h3 hd.le
      linarith [hb'.1]
    · omega
  have := key j k hk h1 h2
  have := key k j hj h2 h1
  omega

theorem part_exists (n : Nat) (hn : 0 < n) (lo hi x : ℚ) (hlo : lo < hi) (h1 : lo ≤ x) :
    ∃ j < n, InPart n lo hi j x := by
  have hn0 : (0 : ℚ) < n := by exact_mod_cast hn
  have hd : 0 < hi - lo := sub_pos.2 hlo
  have key : ∀ m, m < n → (∃ j < n, InPart n lo hi j x) ∨ lo + (hi - lo) * (m / n) ≤ x := by
    intro m
    induction m with
    | zero => intro _; right; simpa using h1
    | succ m ih =>
      intro hm
      rcases ih (by omega) with h | h
      · exact Or.inl h
      · by_cases hx : x < lo + (hi - lo) * ((m + 1) / n)
        · exact Or.inl ⟨m, by omega, h, Or.inl hx⟩
        · right; push_cast; linarith
  rcases key (n - 1) (by omega) with h | h
  · exact h
  · exact ⟨n - 1, by omega, h, Or.inr (by omega)⟩

/-- C128, the part that holds: if no part is empty and no value lies just above the last cut, the histogram is what a
reader expects. -/
theorem histogram_partial (n : Nat) (hn : 1 < n) (lo hi : ℚ) (hlo : lo < hi) (xs : List ℚ)
    (hx : ∀ x ∈ xs, lo ≤ x ∧ x ≤ hi) (hfull : ∀ j < n, ∃ x ∈ xs, InPart n lo hi j x)
    (ha : ∀ x ∈ xs, AwayFromLastCut n lo hi x) : histogram n lo hi xs = bars n lo hi xs := by
  have hbin : ∀ x ∈ xs, ∀ j < n, (bin (cuts n) ((x - lo) / (hi - lo)) = j + 1 ↔ InPart n lo hi j x) := by
    intro x hx' j hj
    constructor
    · intro h
      obtain ⟨k, hk, hp⟩ := part_exists n (by omega) lo hi x hlo (hx x hx').1
      have := bin_of_part n hn lo hi x hlo (hx x hx').2 k hk hp (ha x hx')
      have : j = k := by omega
      exact this ▸ hp
    · exact fun hp => bin_of_part n hn lo hi x hlo (hx x hx').2 j hj hp (ha x hx')
  have hlevels : ((xs.map fun x => bin (cuts n) ((x - lo) / (hi - lo))).dedup).insertionSort (· ≤ ·) =
      (List.range n).map (· + 1) := by
    refine List.Perm.eq_of_pairwise (le := (· ≤ ·)) (fun a b _ _ h1 h2 => le_antisymm h1 h2)
      (List.pairwise_insertionSort _ _) ?_ ?_
    · rw [List.pairwise_map]
      exact List.pairwise_lt_range.imp fun h => by omega
    · refine (List.perm_insertionSort _ _).trans ?_
      refine (List.perm_ext_iff_of_nodup (List.nodup_dedup _) (List.nodup_range.map fun a b h => by simpa using h)).2 ?_
      intro b
      simp only [List.mem_dedup, List.mem_map, List.mem_range]
      constructor
      · rintro ⟨x, hx', rfl⟩
        obtain ⟨k, hk, hp⟩ := part_exists n (by omega) lo hi x hlo (hx x hx').1
        exact ⟨k, hk, ((hbin x hx' k hk).2 hp).symm⟩
      · rintro ⟨j, hj, rfl⟩
        obtain ⟨x, hx', hp⟩ := hfull j hj
        exact ⟨x, hx', (hbin x hx' j hj).2 hp⟩
  unfold histogram bars
  simp only [hlevels, List.map_map]
  refine List.map_congr_left fun j hj => ?_
  rw [List.mem_range] at hj
  simp only [Function.comp_apply, List.count, List.countP_map]
  refine List.countP_congr fun x hx' => ?_
  simp only [Function.comp_apply, beq_iff_eq, decide_eq_true_eq]
  exact hbin x hx' j hj

/-- The profile never shows more than `n_bins` bars. -/
theorem histogram_length (n : Nat) (hn : 0 < n) (lo hi : ℚ) (hlo : lo < hi) (xs : List ℚ)
    (hx : ∀ x ∈ xs, lo ≤ x) : (histogram n lo hi xs).length ≤ n := by
  unfold histogram
  rw [List.length_map, List.length_insertionSort]
  have hsub : ((xs.map fun x => bin (cuts n) ((x - lo) / (hi - lo))).dedup).Subperm ((List.range n).map (· + 1)) := by
    refine List.subperm_of_subset (List.nodup_dedup _) fun b hb => ?_
    rw [List.mem_dedup, List.mem_map] at hb
    obtain ⟨x, hx', rfl⟩ := hb
    have h0 : 0 ≤ (x - lo) / (hi - lo) := div_nonneg (sub_nonneg.2 (hx x hx')) (sub_pos.2 hlo).le
    have hle : bin (cuts n) ((x - lo) / (hi - lo)) ≤ n := by
      unfold bin
      refine List.countP_le_length.trans ?_
      simp [cuts]
    have hpos : 0 < bin (cuts n) ((x - lo) / (hi - lo)) := by
      unfold bin
      rw [List.countP_pos_iff]
      refine ⟨_, List.mem_map.2 ⟨0, List.mem_range.2 hn, rfl⟩, ?_⟩
      rw [decide_eq_true_eq]
      simp only [Nat.cast_zero, zero_div, if_true]
      split <;> linarith
    exact List.mem_map.2 ⟨bin (cuts n) ((x - lo) / (hi - lo)) - 1, List.mem_range.2 (by omega), by omega⟩
  simpa using hsub.length_le

example : (∀ x ∈ [(0 : ℚ), 2, 5], (0 : ℚ) ≤ x ∧ x ≤ 5) ∧ (∀ j < 2, ∃ x ∈ [(0 : ℚ), 2, 5], InPart 2 0 5 j x) ∧
    histogram 2 0 5 [0, 2, 5] = [2, 1] ∧ bars 2 0 5 [0, 2, 5] = [2, 1] := by decide +kernel

/-- Values in the first, second and last of ten parts: three bars side by side instead of two, a gap of seven and one;
and the value at 9/10 of the range is counted in the ninth part instead of the tenth. -/
theorem histogram_wrong :
    (histogram 10 0 10 [0, 1, 10] = [1, 1, 1] ∧ bars 10 0 10 [0, 1, 10] = [1, 1, 0, 0, 0, 0, 0, 0, 0, 1]) ∧
    (histogram 2 0 10 [0, 5, 10] = [2, 1] ∧ bars 2 0 10 [0, 5, 10] = [1, 2]) := by decide +kernel

/-- Outliers are outside the quartiles, and a larger multiplier gives fewer of them. -/
theorem outliers_mono (q1 q3 m m' : ℚ) (hq : q1 ≤ q3) (h0 : 0 ≤ m) (hm : m ≤ m') (xs : List ℚ) :
    outliers q1 q3 m' xs ≤ outliers q1 q3 m xs ∧
    outliers q1 q3 m xs ≤ (xs.filter fun x => decide (x < q1) || decide (q3 < x)).length := by
  have hd : 0 ≤ q3 - q1 := sub_nonneg.2 hq
  unfold outliers
  constructor
  · refine List.countP_mono_left fun x _ h => ?_
    simp only [Bool.or_eq_true, decide_eq_true_eq] at h ⊢
    have := mul_le_mul_of_nonneg_right hm hd
    rcases h with h | h
    · left; linarith
    · right; linarith
  · rw [← List.countP_eq_length_filter]
    refine List.countP_mono_left fun x _ h => ?_
    simp only [Bool.or_eq_true, decide_eq_true_eq] at h ⊢
    have := mul_nonneg h0 hd
    rcases h with h | h
    · left; linarith
    · right; linarith

example : outliers 1 3 (3 / 2) [-5, 0, 1, 2, 3, 7] = 2 := by decide +kernel

end Verif.Dia
