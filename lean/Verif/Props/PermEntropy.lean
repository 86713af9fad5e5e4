import Verif.Model.PermEntropy
import Verif.Props.CondEntropy
import Mathlib.Data.List.Sort
import Mathlib.Data.List.Permutation

/-!
# Discrete entropy, permutation entropy, rank features: theorems
-/

namespace Verif.PermEntropy
open Verif.Pl
open Verif.Chi2.Spec (Levels)
open Verif.CondEntropy.Spec (entropy)

set_option linter.unusedSectionVars false

/-! ## Entropy of a discrete column -/

section disc
variable {α : Type} [DecidableEq α]

theorem levels_dedup (s : List α) : Levels s s.dedup := ⟨List.nodup_dedup _, fun _ => List.mem_dedup⟩

theorem valueCounts_sum (s : List α) : (valueCounts s).sum = s.length :=
  Psi.sum_count_nodup s.dedup (List.nodup_dedup _) s fun _ hx => List.mem_dedup.2 hx

theorem queryEntropy_eq (base : ℝ) (s : List α) :
    queryEntropy base s = -(s.dedup.map fun v => (s.count v : ℝ) / s.length *
      Real.logb base ((s.count v : ℝ) / s.length)).sum := by
  unfold queryEntropy countsEntropy
  rw [valueCounts_sum]
  unfold valueCounts
  rw [List.map_map]
  rfl

theorem levels_sum (s us : List α) (h : Levels s us) (f : α → ℝ) : (us.map f).sum = (s.dedup.map f).sum := by
  apply List.Perm.sum_eq
  apply List.Perm.map
  rw [List.perm_ext_iff_of_nodup h.1 (List.nodup_dedup _)]
  intro a
  rw [h.2 a, List.mem_dedup]

/-- `query_entropy` is the Shannon entropy of the relative frequencies, in the given base; `us` lists the distinct
values in any order. -/
theorem query_entropy_value (base : ℝ) (s us : List α) (h : Levels s us) :
    queryEntropy base s = entropy s us / Real.log base := by
  rw [queryEntropy_eq]
  unfold entropy
  rw [levels_sum s us h, neg_div]
  congr 1
  have := CondEntropy.sum_mul s.dedup (Real.log base)⁻¹
    (fun u => (s.count u : ℝ) / s.length * Real.log ((s.count u : ℝ) / s.length))
  rw [div_eq_mul_inv, ← this]
  congr 1
  apply List.map_congr_left
  intro v _
  unfold Real.logb
  ring

example : Levels [some 1, none, some 1] [none, some 1] := by
  refine ⟨by decide, ?_⟩
  intro x; simp; tauto

theorem freq_pos (s : List α) (v : α) (h : v ∈ s.dedup) :
    0 < (s.count v : ℝ) / s.length ∧ (s.count v : ℝ) / s.length ≤ 1 ∧ (0 : ℝ) < s.length := by
  have hm := List.mem_dedup.1 h
  have h1 : 0 < s.count v := List.count_pos_iff.2 hm
  have h2 : s.count v ≤ s.length := List.count_le_length
  have hl : (0 : ℝ) < s.length := by exact_mod_cast (lt_of_lt_of_le h1 h2)
  refine ⟨by positivity, ?_, hl⟩
  rw [div_le_one hl]
  exact_mod_cast h2

theorem freq_sum (s : List α) (h : s ≠ []) : (s.dedup.map fun v => (s.count v : ℝ) / s.length).sum = 1 := by
  have hl : (0 : ℝ) < s.length := by exact_mod_cast List.length_pos_iff.2 h
  have h1 := CondEntropy.sum_mul s.dedup (s.length : ℝ)⁻¹ (fun v => (s.count v : ℝ))
  have h2 : (s.dedup.map fun v => (s.count v : ℝ)).sum = s.length := by
    have := valueCounts_sum s
    unfold valueCounts at this
    have h3 : ((s.dedup.map fun v => s.count v).sum : ℝ) = (s.length : ℝ) := by exact_mod_cast this
    rw [← h3, Nat.cast_list_sum, List.map_map]
    rfl
  simp only [div_eq_mul_inv]
  rw [h1, h2, mul_inv_cancel₀ hl.ne']

/-- The entropy is not negative, at most the logarithm of the number of distinct values, and 0 exactly if all
rows are equal. -/
theorem query_entropy_range (base : ℝ) (hb : 1 < base) (s : List α) (hs : s ≠ []) :
    0 ≤ queryEntropy base s ∧ queryEntropy base s ≤ Real.logb base s.dedup.length ∧
    (queryEntropy base s = 0 ↔ ∀ a ∈ s, ∀ b ∈ s, a = b) := by
  have hlb : 0 < Real.log base := Real.log_pos hb
  have hterm : ∀ v ∈ s.dedup, (s.count v : ℝ) / s.length * Real.logb base ((s.count v : ℝ) / s.length) ≤ 0 := by
    intro v hv
    obtain ⟨h1, h2, _⟩ := freq_pos s v hv
    exact mul_nonpos_of_nonneg_of_nonpos h1.le (Real.logb_nonpos hb h1.le h2)
  refine ⟨?_, ?_, ?_⟩
  · rw [queryEntropy_eq, neg_nonneg]
    have := CondEntropy.sum_le s.dedup _ (fun _ => (0 : ℝ)) hterm
    simpa using this
  · rw [queryEntropy_eq]
    set k : ℝ := (s.dedup.length : ℝ) with hk
    have hkpos : 0 < k := by
      rw [hk]
      have : s.dedup ≠ [] := by
        obtain ⟨a, t, rfl⟩ := List.exists_cons_of_ne_nil hs
        exact List.ne_nil_of_mem (List.mem_dedup.2 (List.mem_cons_self))
      exact_mod_cast List.length_pos_iff.2 this
    -- -p log p - p log k ≤ 1/k - p
    have key : ∀ v ∈ s.dedup, -((s.count v : ℝ) / s.length * Real.log ((s.count v : ℝ) / s.length)) ≤
        ((s.count v : ℝ) / s.length) * Real.log k + (1 / k - (s.count v : ℝ) / s.length) := by
      intro v hv
      obtain ⟨h1, _, _⟩ := freq_pos s v hv
      set p := (s.count v : ℝ) / s.length
      have := Real.log_le_sub_one_of_pos (show 0 < 1 / (p * k) by positivity)
      rw [Real.log_div one_ne_zero (by positivity), Real.log_one, Real.log_mul h1.ne' hkpos.ne', zero_sub] at this
      have h2 := mul_le_mul_of_nonneg_left this h1.le
      have h3 : p * (1 / (p * k) - 1) = 1 / k - p := by field_simp
      rw [h3] at h2
      nlinarith
    have hsum := CondEntropy.sum_le s.dedup _ _ key
    rw [CondEntropy.sum_add s.dedup, CondEntropy.sum_mul s.dedup] at hsum
    have hc : (s.dedup.map fun v => 1 / k - (s.count v : ℝ) / s.length).sum = 0 := by
      have h1 : ∀ l : List α, (l.map fun v => 1 / k - (s.count v : ℝ) / s.length).sum =
          l.length * (1 / k) - (l.map fun v => (s.count v : ℝ) / s.length).sum := by
        intro l
        induction l with
        | nil => simp
        | cons a l ih => simp only [List.map_cons, List.sum_cons, ih, List.length_cons, Nat.cast_succ]; ring
      rw [h1, freq_sum s hs, ← hk]
      field_simp
      norm_num
    rw [freq_sum s hs, hc, one_mul, add_zero] at hsum
    have hneg : ∀ l : List α, (l.map fun v => -((s.count v : ℝ) / s.length * Real.log ((s.count v : ℝ) / s.length))).sum =
        -((l.map fun v => (s.count v : ℝ) / s.length * Real.logb base ((s.count v : ℝ) / s.length)).sum * Real.log base) := by
      intro l
      induction l with
      | nil => simp
      | cons a l ih =>
        simp only [List.map_cons, List.sum_cons, ih]
        unfold Real.logb
        field_simp
        ring
    rw [hneg] at hsum
    unfold Real.logb at hsum ⊢
    rw [le_div_iff₀ hlb]
    linarith
  · rw [queryEntropy_eq, neg_eq_zero, CondEntropy.sum_zero_iff _ (by
      intro v hv
      obtain ⟨u, hu, rfl⟩ := List.mem_map.1 hv
      exact hterm u hu)]
    constructor
    · intro h a ha b hb'
      have hone : ∀ v ∈ s, s.count v = s.length := by
        intro v hv
        have hv' := List.mem_dedup.2 hv
        have := h _ (List.mem_map.2 ⟨v, hv', rfl⟩)
        obtain ⟨h1, h2, h3⟩ := freq_pos s v hv'
        rcases mul_eq_zero.1 this with h4 | h4
        · exact absurd h4 h1.ne'
        · rw [Real.logb_eq_zero] at h4
          have : (s.count v : ℝ) / s.length = 1 := by
            rcases h4 with h4 | h4 | h4 | h4 | h4 | h4
            · linarith
            · linarith
            · linarith
            · linarith
            · exact h4
            · linarith
          rw [div_eq_one_iff_eq h3.ne'] at this
          exact_mod_cast this
      have := List.count_eq_length.1 (hone a ha) b hb'
      exact this
    · intro h v hv
      obtain ⟨u, hu, rfl⟩ := List.mem_map.1 hv
      have : s.count u = s.length := List.count_eq_length.2 fun b hb' => h u (List.mem_dedup.1 hu) b hb'
      obtain ⟨_, _, h3⟩ := freq_pos s u hu
      rw [this, div_self h3.ne', Real.logb_one, mul_zero]

theorem entropy_const (base : ℝ) (s : List α) (h : ∀ p ∈ s, ∀ q ∈ s, p = q) : queryEntropy base s = 0 := by
  rw [queryEntropy_eq, neg_eq_zero]
  apply List.sum_eq_zero
  intro v hv
  obtain ⟨u, hu, rfl⟩ := List.mem_map.1 hv
  have : s.count u = s.length := List.count_eq_length.2 fun b hb' => h u (List.mem_dedup.1 hu) b hb'
  obtain ⟨_, _, h3⟩ := freq_pos s u hu
  rw [this, div_self h3.ne', Real.logb_one, mul_zero]

example : (1 : ℝ) < 2 ∧ [some 1, none, some 1] ≠ [] := ⟨by norm_num, by decide⟩

end disc

/-! ## Permutation entropy -/

section perm
variable {K : Type} [LinearOrder K]

theorem window_mem (c : Col K) (tau d : ℕ) (w : List (Option K)) (h : w ∈ windows c tau d) : w.length = d := by
  unfold windows at h
  split at h <;> (obtain ⟨i, _, rfl⟩ := List.mem_map.1 h; simp)

theorem nle_map (f : K → K) (hf : StrictMono f) (a b : Option K) :
    nle (a.map f) (b.map f) ↔ nle a b := by
  cases a <;> cases b <;> simp [nle, hf.le_iff_le]

theorem getD_map1 (f : K → K) (c : Col K) (i : ℕ) : (map1 f c).getD i none = (c.getD i none).map f := by
  simp only [map1, List.getD_eq_getElem?_getD, List.getElem?_map]
  cases c[i]? <;> rfl

theorem windows_map1 (f : K → K) (c : Col K) (tau d : ℕ) :
    windows (map1 f c) tau d = (windows c tau d).map (map1 f) := by
  have hlen : (map1 f c).length = c.length := by simp [map1]
  unfold windows
  rw [hlen]
  split <;>
  · rw [List.map_map]
    apply List.map_congr_left
    intro i _
    simp only [Function.comp_apply, map1, List.map_map]
    apply List.map_congr_left
    intro j _
    exact getD_map1 f c _

/-- Permutation entropy only sees the order of the values: a strictly increasing transformation of the series
changes nothing, for every delay and dimension, nulls and ties included. -/
theorem permute_entropy_monotone (A : ArgSort K) (base : ℝ) (c : Col K) (tau d : ℕ) (f : K → K)
    (hf : StrictMono f) : permuteEntropy A base (map1 f c) tau d = permuteEntropy A base c tau d := by
  unfold permuteEntropy
  have : (windows (map1 f c) tau d).map A.run = (windows c tau d).map A.run := by
    rw [windows_map1, List.map_map]
    apply List.map_congr_left
    intro w _
    apply A.order
    · simp [map1]
    · intro i j _ _
      rw [getD_map1, getD_map1]
      exact nle_map f hf _ _
  rw [this]

/-- An argument sort that meets the contract: insertion of the indices in order. -/
def insertionArgSort (w : List (Option K)) : List ℕ :=
  (List.range w.length).insertionSort fun i j => (w.getD i none).elim true fun a => (w.getD j none).elim false fun b =>
    decide (a ≤ b)

theorem nle_iff (a b : Option K) : (a.elim true fun a => b.elim false fun b => decide (a ≤ b)) = true ↔ nle a b := by
  cases a <;> cases b <;> simp [nle]

theorem nle_total (a b : Option K) : nle a b ∨ nle b a := by
  cases a <;> cases b <;> simp [nle]
  exact le_total _ _

theorem nle_trans (a b c : Option K) (h1 : nle a b) (h2 : nle b c) : nle a c := by
  cases a <;> cases b <;> cases c <;> simp_all [nle]
  exact h1.trans h2

theorem insertionSort_congr {α : Type} (r s : α → α → Prop) [DecidableRel r] [DecidableRel s] (l : List α)
    (h : ∀ a ∈ l, ∀ b ∈ l, (r a b ↔ s a b)) : l.insertionSort r = l.insertionSort s := by
  have hins : ∀ (a : α) (t : List α), (∀ b ∈ t, (r a b ↔ s a b)) → t.orderedInsert r a = t.orderedInsert s a := by
    intro a t
    induction t with
    | nil => intro _; rfl
    | cons b t ih =>
      intro hb
      simp only [List.orderedInsert]
      by_cases hr : r a b
      · rw [if_pos hr, if_pos ((hb b (by simp)).1 hr)]
      · rw [if_neg hr, if_neg (fun hs => hr ((hb b (by simp)).2 hs)), ih fun x hx => hb x (by simp [hx])]
  induction l with
  | nil => rfl
  | cons a t ih =>
    simp only [List.insertionSort_cons]
    rw [ih fun x hx y hy => h x (by simp [hx]) y (by simp [hy])]
    apply hins
    intro b hb
    exact h a (by simp) b (by simp [(List.mem_insertionSort s).1 hb])

def exSort : ArgSort K where
  run := insertionArgSort
  perm w := List.perm_insertionSort _ _
  sorted w := by
    haveI : Std.Total (fun i j : ℕ => ((w.getD i none).elim true fun a => (w.getD j none).elim false fun b =>
      decide (a ≤ b)) = true) := ⟨fun i j => by simp only [nle_iff]; exact nle_total _ _⟩
    haveI : IsTrans ℕ (fun i j : ℕ => ((w.getD i none).elim true fun a => (w.getD j none).elim false fun b =>
      decide (a ≤ b)) = true) := ⟨fun i j k h1 h2 => by
        simp only [nle_iff] at *; exact nle_trans _ _ _ h1 h2⟩
    have := List.pairwise_insertionSort (fun i j : ℕ => ((w.getD i none).elim true fun a => (w.getD j none).elim false fun b =>
      decide (a ≤ b)) = true) (List.range w.length)
    refine this.imp ?_
    intro i j h
    exact (nle_iff _ _).1 h
  order w w' hl h := by
    unfold insertionArgSort
    rw [hl]
    apply insertionSort_congr
    intro i hi j hj
    rw [List.mem_range] at hi hj
    rw [nle_iff, nle_iff]
    exact h i j (by omega) (by omega)

example : permuteEntropy exSort 2 (map1 (fun v : ℤ => v ^ 3) [some 1, some 3, none, some 2]) 1 2 =
    permuteEntropy exSort 2 [some 1, some 3, none, some 2] 1 2 :=
  permute_entropy_monotone _ _ _ _ _ _ (Odd.strictMono_pow (by decide))

/-- The parameters that are rejected. -/
theorem permute_entropy_args (A : ArgSort K) (base : ℝ) (c : Col K) (tau d : ℕ) :
    permuteEntropy A base c tau d = none ↔ d ≤ 1 ∨ tau = 0 := by
  unfold permuteEntropy
  by_cases h1 : d ≤ 1
  · simp [h1]
  · by_cases h2 : tau < 1
    · simp [h2]; omega
    · simp [h1, h2]; omega

/-- The entropy lies between 0 and the logarithm of the number of orders of `d` values. -/
theorem permute_entropy_range (A : ArgSort K) (base : ℝ) (hb : 1 < base) (c : Col K) (tau d : ℕ) (r : ℝ)
    (h : permuteEntropy A base c tau d = some r) : 0 ≤ r ∧ r ≤ Real.logb base (d.factorial : ℝ) := by
  unfold permuteEntropy at h
  by_cases h1 : d ≤ 1
  · rw [if_pos h1] at h; cases h
  rw [if_neg h1] at h
  by_cases h2 : tau < 1
  · rw [if_pos h2] at h; cases h
  rw [if_neg h2] at h
  have hr : r = queryEntropy base ((windows c tau d).map A.run) := (Option.some.inj h).symm
  have hfac : (1 : ℝ) ≤ (d.factorial : ℝ) := by exact_mod_cast Nat.one_le_iff_ne_zero.2 (Nat.factorial_ne_zero d)
  by_cases hw : (windows c tau d).map A.run = []
  · rw [hr, hw]
    have : queryEntropy base ([] : List (List ℕ)) = 0 := by simp [queryEntropy, countsEntropy, valueCounts]
    rw [this]
    exact ⟨le_rfl, Real.logb_nonneg hb hfac⟩
  obtain ⟨r1, r2, _⟩ := query_entropy_range base hb _ hw
  rw [hr]
  refine ⟨r1, r2.trans ?_⟩
  have hsub : ((windows c tau d).map A.run).dedup ⊆ (List.range d).permutations := by
    intro p hp
    rw [List.mem_dedup] at hp
    obtain ⟨w, hw', rfl⟩ := List.mem_map.1 hp
    rw [List.mem_permutations]
    have := A.perm w
    rwa [window_mem c tau d w hw'] at this
  have hlen : ((windows c tau d).map A.run).dedup.length ≤ d.factorial := by
    have := (List.subperm_of_subset (List.nodup_dedup _) hsub).length_le
    rwa [List.length_permutations, List.length_range] at this
  have hpos : 0 < ((windows c tau d).map A.run).dedup.length := by
    obtain ⟨a, t, ht⟩ := List.exists_cons_of_ne_nil hw
    exact List.length_pos_of_mem (List.mem_dedup.2 (by rw [ht]; exact List.mem_cons_self))
  apply Real.logb_le_logb_of_le hb (by exact_mod_cast hpos)
  exact_mod_cast hlen

example : (permuteEntropy exSort 2 [some (1 : ℤ), some 3, none, some 2] 1 2).isSome = true := by
  simp [permuteEntropy]

/-- With a delay of 1, a series that always increases (or always decreases) has entropy 0. -/
theorem permute_entropy_increasing_partial (A : ArgSort K) (base : ℝ) (x : ℕ → K) (n d : ℕ) (hd : 2 ≤ d)
    (hdn : d ≤ n) (hn : n < 2 ^ 32) (hx : StrictMono x ∨ StrictAnti x) :
    permuteEntropy A base ((List.range n).map fun i => some (x i)) 1 d = some 0 := by
  unfold permuteEntropy
  rw [if_neg (by omega), if_neg (by omega)]
  have hget : ∀ i, i < n → ((List.range n).map fun i => some (x i)).getD i none = some (x i) := by
    intro i hi
    simp [List.getElem?_range hi]
  have hcnt : min n ((n + 2 ^ 32 + 1 - d) % 2 ^ 32) = n + 1 - d := by omega
  have hall : ∀ p ∈ (windows ((List.range n).map fun i => some (x i)) 1 d).map A.run,
      ∀ q ∈ (windows ((List.range n).map fun i => some (x i)) 1 d).map A.run, p = q := by
    intro p hp q hq
    obtain ⟨w, hw, rfl⟩ := List.mem_map.1 hp
    obtain ⟨v, hv, rfl⟩ := List.mem_map.1 hq
    unfold windows at hw hv
    rw [if_pos rfl, List.length_map, List.length_range, hcnt] at hw hv
    obtain ⟨i, hi, rfl⟩ := List.mem_map.1 hw
    obtain ⟨j, hj, rfl⟩ := List.mem_map.1 hv
    rw [List.mem_range] at hi hj
    apply A.order
    · simp
    · intro a b ha hb
      simp only [List.length_map, List.length_range] at ha hb
      have e : ∀ k u, k < n + 1 - d → u < d → ((List.range d).map fun j =>
          ((List.range n).map fun i => some (x i)).getD (k + j) none).getD u none = some (x (k + u)) := by
        intro k u hk hu
        rw [List.getD_eq_getElem?_getD, List.getElem?_map, List.getElem?_range hu]
        simp only [Option.map_some, Option.getD_some]
        exact hget _ (by omega)
      rw [e i a hi ha, e i b hi hb, e j a hj ha, e j b hj hb]
      simp only [nle]
      rcases hx with hx | hx
      · rw [hx.le_iff_le, hx.le_iff_le]; omega
      · rw [hx.le_iff_ge, hx.le_iff_ge]; omega
  show some (queryEntropy base _) = some 0
  generalize (windows ((List.range n).map fun i => some (x i)) 1 d).map A.run = s at hall
  rw [entropy_const base s hall]

example : StrictMono (fun i : ℕ => (i : ℤ)) ∧ 2 ≤ 3 ∧ 3 ≤ 5 := ⟨fun _ _ h => by simpa using h, by norm_num⟩

theorem entropy_two (base : ℝ) {α : Type} [DecidableEq α] (p q : α) (h : p ≠ q) :
    queryEntropy base [p, q] = Real.logb base 2 := by
  rw [queryEntropy_eq]
  have hd : [p, q].dedup = [p, q] := List.dedup_eq_self.2 (by simp [h])
  rw [hd]
  have h1 : List.count p [p, q] = 1 := by simp [h.symm]
  have h2 : List.count q [p, q] = 1 := by simp [h]
  simp only [List.map_cons, List.map_nil, h1, h2, List.sum_cons, List.sum_nil, List.length_cons, List.length_nil]
  have : Real.logb base (((1 : ℕ) : ℝ) / ((0 + 1 + 1 : ℕ) : ℝ)) = -Real.logb base 2 := by
    rw [show (((1 : ℕ) : ℝ) / ((0 + 1 + 1 : ℕ) : ℝ)) = (2 : ℝ)⁻¹ by norm_num, Real.logb_inv]
  rw [this]
  push_cast
  ring

/-- With a delay above 1 this fails: a null from beyond the end of the series enters the last window.  The
increasing series 1, 2, 3, 4 with delay 2 and dimension 3 has the windows (1, 2, 3) and (3, 4, null) and the
entropy of two equally frequent patterns. -/
theorem permute_entropy_delay_null (A : ArgSort ℤ) (base : ℝ) (hb : 1 < base) :
    permuteEntropy A base [some 1, some 2, some 3, some 4] 2 3 = some (Real.logb base 2) ∧
    Real.logb base 2 ≠ 0 := by
  refine ⟨?_, ?_⟩
  · have hw : windows [some (1 : ℤ), some 2, some 3, some 4] 2 3 =
        [[some 1, some 2, some 3], [some 3, some 4, none]] := by decide +kernel
    unfold permuteEntropy
    rw [if_neg (by norm_num), if_neg (by norm_num), hw]
    congr 1
    refine entropy_two base _ _ ?_
    intro he
    have p1 := A.perm [some 1, some 2, some 3]
    have s1 := A.sorted [some 1, some 2, some 3]
    have s2 := A.sorted [some 3, some 4, none]
    rw [← he] at s2
    have hmem : A.run [some 1, some 2, some 3] ∈ (List.range 3).permutations' := List.mem_permutations'.2 p1
    have hl : (List.range 3).permutations' =
        [[0, 1, 2], [1, 0, 2], [1, 2, 0], [0, 2, 1], [2, 0, 1], [2, 1, 0]] := by decide +kernel
    rw [hl] at hmem
    generalize A.run [some 1, some 2, some 3] = r at s1 s2 hmem
    simp only [List.mem_cons, List.not_mem_nil, or_false] at hmem
    rcases hmem with rfl | rfl | rfl | rfl | rfl | rfl <;> simp [nle] at s1 s2
  · exact (Real.logb_pos hb (by norm_num)).ne'

/-- Nor is the delay the documented distance between the entries of a window: in 1, 0, 3, 4, 5 every pair of
entries two apart increases, so that the entropy with delay 2 and dimension 2 should be 0; the windows used
consist of neighbors. -/
theorem permute_entropy_delay_ignored (A : ArgSort ℤ) (base : ℝ) :
    windows [some (1 : ℤ), some 0, some 3, some 4, some 5] 2 2 = [[some 1, some 0], [some 3, some 4]] ∧
    permuteEntropy A base [some 1, some 0, some 3, some 4, some 5] 2 2 = some (Real.logb base 2) := by
  have hw : windows [some (1 : ℤ), some 0, some 3, some 4, some 5] 2 2 =
      [[some 1, some 0], [some 3, some 4]] := by decide +kernel
  refine ⟨hw, ?_⟩
  unfold permuteEntropy
  rw [if_neg (by norm_num), if_neg (by norm_num), hw]
  congr 1
  refine entropy_two base _ _ ?_
  intro he
  have p1 := A.perm [some 1, some 0]
  have s1 := A.sorted [some 1, some 0]
  have s2 := A.sorted [some 3, some 4]
  rw [← he] at s2
  have hmem : A.run [some 1, some 0] ∈ (List.range 2).permutations' := List.mem_permutations'.2 p1
  have hl : (List.range 2).permutations' = [[0, 1], [1, 0]] := by decide +kernel
  rw [hl] at hmem
  generalize A.run [some 1, some 0] = r at s1 s2 hmem
  simp only [List.mem_cons, List.not_mem_nil, or_false] at hmem
  rcases hmem with rfl | rfl <;> simp [nle] at s1 s2

end perm

/-! ## Rank features -/

section rank
variable {K : Type} [LinearOrder K]

theorem vals_map1 {L : Type} (f : K → L) (c : Col K) : vals (map1 f c) = (vals c).map f := by
  simp only [vals, map1, List.map_filterMap, List.filterMap_map]
  rfl

/-- The rank features do not change under a strictly increasing transformation of the column. -/
theorem rank_feature_monotone (c : Col K) (f : K → K) (hf : StrictMono f) :
    rankFeature (map1 f c) = rankFeature c := by
  unfold rankFeature
  have hlen : (map1 f c).length = c.length := by simp [map1]
  rw [hlen, vals_map1]
  simp only [map1, List.map_map]
  apply List.map_congr_left
  intro x _
  cases x with
  | none => rfl
  | some v =>
    simp only [Function.comp_apply, Option.map_some, List.filter_map, List.length_map, Option.some.injEq]
    have h1 : ((fun u => decide (u < f v)) ∘ f) = fun u => decide (u < v) := by
      funext u; simp [hf.lt_iff_lt]
    have h2 : ((fun u => decide (u = f v)) ∘ f) = fun u => decide (u = v) := by
      funext u; simp [hf.injective.eq_iff]
    rw [h1, h2]

theorem rank_sum (l : List K) :
    2 * (l.map fun v => (((l.filter fun u => decide (u < v)).length : ℚ) +
      (((l.filter fun u => decide (u = v)).length : ℚ) + 1) / 2)).sum = (l.length : ℚ) * (l.length + 1) := by
  -- number of pairs below, above and equal
  have swap : ∀ (a b : List K) (R : K → K → Bool),
      (a.map fun v => ((b.filter fun u => R u v).length : ℚ)).sum =
      (b.map fun u => ((a.filter fun v => R u v).length : ℚ)).sum := by
    intro a b R
    induction a with
    | nil => simp
    | cons x a ih =>
      rw [List.map_cons, List.sum_cons, ih]
      clear ih
      induction b with
      | nil => simp
      | cons y b ihb =>
        by_cases h : R y x <;> simp [h] at ihb ⊢ <;> linarith
  have split : ∀ v, (l.length : ℚ) = ((l.filter fun u => decide (u < v)).length : ℚ) +
      ((l.filter fun u => decide (u = v)).length : ℚ) + ((l.filter fun u => decide (v < u)).length : ℚ) := by
    intro v
    have : ∀ l : List K, (l.length : ℚ) = ((l.filter fun u => decide (u < v)).length : ℚ) +
      ((l.filter fun u => decide (u = v)).length : ℚ) + ((l.filter fun u => decide (v < u)).length : ℚ) := by
      intro l
      induction l with
      | nil => simp
      | cons x l ih =>
        rcases lt_trichotomy x v with h | h | h
        · simp [h, h.ne, h.le.not_gt] at ih ⊢; linarith
        · subst h; simp at ih ⊢; linarith
        · simp [h, h.ne', h.le.not_gt] at ih ⊢; linarith
    exact this l
  have hsw := swap l l (fun u v => decide (u < v))
  have hadd : ∀ (a : List K) (f g : K → ℚ), (a.map fun v => f v + g v).sum = (a.map f).sum + (a.map g).sum := by
    intro a f g
    induction a with
    | nil => simp
    | cons x a ih => simp only [List.map_cons, List.sum_cons, ih]; ring
  have hconst : ∀ (a : List K) (q : ℚ), (a.map fun _ => q).sum = a.length * q := by
    intro a q
    induction a with
    | nil => simp
    | cons x a ih => simp only [List.map_cons, List.sum_cons, ih, List.length_cons, Nat.cast_succ]; ring
  have htot := hconst l (l.length : ℚ)
  rw [List.map_congr_left (fun v _ => split v), hadd, hadd] at htot
  have hhalf : ∀ (a : List K) (f : K → ℚ), (a.map fun v => (f v + 1) / 2).sum = ((a.map f).sum + a.length) / 2 := by
    intro a f
    induction a with
    | nil => simp
    | cons x a ih => simp only [List.map_cons, List.sum_cons, ih, List.length_cons, Nat.cast_succ]; ring
  rw [hadd, hhalf]
  linarith

/-- The rank features of a column without nulls lie in (0, 1] and add up to `(n + 1) / 2`, ties or not. -/
theorem rank_feature_range (x : List K) (hx : x ≠ []) :
    (∀ r ∈ vals (rankFeature (x.map some)), 0 < r ∧ r ≤ 1) ∧
    (vals (rankFeature (x.map some))).sum = ((x.length : ℚ) + 1) / 2 := by
  have hv : vals (x.map some) = x := by
    simp only [vals, List.filterMap_map]; exact List.filterMap_some
  have hn : (0 : ℚ) < x.length := by exact_mod_cast List.length_pos_iff.2 hx
  unfold rankFeature
  rw [vals_map1, hv, List.length_map]
  constructor
  · intro r hr
    obtain ⟨v, hm, rfl⟩ := List.mem_map.1 hr
    have h1 : 1 ≤ (x.filter fun u => decide (u = v)).length :=
      List.length_pos_of_mem (List.mem_filter.2 ⟨hm, by simp⟩)
    have h2 : (x.filter fun u => decide (u < v)).length + (x.filter fun u => decide (u = v)).length ≤ x.length := by
      clear hm h1 hr hv hx hn
      induction x with
      | nil => simp
      | cons a t ih =>
        rcases lt_trichotomy a v with h | h | h
        · simp [h, h.ne] at ih ⊢; omega
        · subst h; simp at ih ⊢; omega
        · simp [h.ne', h.le.not_gt] at ih ⊢; omega
    have h1' : (1 : ℚ) ≤ ((x.filter fun u => decide (u = v)).length : ℚ) := by exact_mod_cast h1
    have h2' : ((x.filter fun u => decide (u < v)).length : ℚ) + ((x.filter fun u => decide (u = v)).length : ℚ) ≤
        x.length := by exact_mod_cast h2
    have h3 : (0 : ℚ) ≤ ((x.filter fun u => decide (u < v)).length : ℚ) := by positivity
    constructor
    · positivity
    · rw [div_le_one hn]; linarith
  · have := rank_sum x
    have hdiv : ∀ (a : List K) (f : K → ℚ), (a.map fun v => f v / (x.length : ℚ)).sum = (a.map f).sum / x.length := by
      intro a f
      induction a with
      | nil => simp
      | cons y a ih => simp only [List.map_cons, List.sum_cons, ih]; ring
    rw [hdiv, div_eq_iff hn.ne']
    linarith

example : rankFeature [some (3 : ℤ), some 1, some 3, some 7] = [some (5 / 8), some (1 / 4), some (5 / 8), some 1] := by
  decide +kernel

/-- The average rank of a value over the number of rows: midway between the number of smaller values and the
number of values that are not larger, counted from one. -/
def Spec.rankShare (x : List K) (v : K) : ℚ :=
  ((x.countP (· < v) : ℚ) + (x.countP (· ≤ v) : ℚ) + 1) / 2 / x.length

theorem countP_le (x : List K) (v : K) : x.countP (· ≤ v) =
    (x.filter fun u => decide (u < v)).length + (x.filter fun u => decide (u = v)).length := by
  induction x with
  | nil => rfl
  | cons a t ih =>
    rcases lt_trichotomy a v with h | h | h
    · simp only [List.countP_cons, List.filter_cons, h, h.ne, h.le, decide_true, decide_false, if_true, ih,
        List.length_cons, Bool.false_eq_true, if_false]; omega
    · subst h
      simp only [List.countP_cons, List.filter_cons, le_refl, lt_irrefl, decide_true, decide_false, if_true, ih,
        List.length_cons, Bool.false_eq_true, if_false]; omega
    · simp only [List.countP_cons, List.filter_cons, h.ne', h.not_gt, h.not_ge, decide_false, ih,
        Bool.false_eq_true, if_false]; omega

/-- On a column without nulls the rank feature is the average rank over the number of rows. -/
theorem rank_feature_value (x : List K) :
    rankFeature (x.map some) = x.map fun v => some (Spec.rankShare x v) := by
  have hv : vals (x.map some) = x := by
    simp only [vals, List.filterMap_map]; exact List.filterMap_some
  unfold rankFeature map1 Spec.rankShare
  rw [hv, List.map_map, List.length_map]
  apply List.map_congr_left
  intro v _
  have key : (x.countP (· ≤ v) : ℚ) = ((x.filter fun u => decide (u < v)).length : ℚ) +
      ((x.filter fun u => decide (u = v)).length : ℚ) := by
    have := countP_le x v
    exact_mod_cast this
  simp only [Function.comp_apply, Option.map_some]
  rw [key, List.countP_eq_length_filter]
  congr 1
  ring

example : Spec.rankShare [3, 1, 3, (7 : ℤ)] 3 = 5 / 8 := by decide +kernel

/-- How the entropies are combined: copula entropy is the negated entropy of the rank features; conditional
independence of `x` and `y` given `z` is the copula entropy of all three minus those of `(y, z)` and `(x, z)`;
transfer entropy is the conditional independence of the later `x` and the source given the earlier `x`. -/
theorem transfer_entropy_value {R : Type} [AddCommGroup R] (E : List (Col ℚ) → R) (x s : List K) (lag : ℕ)
    (hs : s.length = x.length) (h1 : 1 ≤ lag) (hl : lag ≤ x.length) (hn : x.length < 2 ^ 32) :
    let n := x.length - lag
    let r : List K → Col ℚ := fun y => y.map fun v => some (Spec.rankShare y v)
    transferEntropy E (x.map some) (s.map some) lag =
      some (E [r (s.take n), r (x.take n)] + E [r (x.drop lag), r (x.take n)] -
        E [r (x.drop lag), r (s.take n), r (x.take n)]) ∧
    transferEntropy E (x.map some) (s.map some) 0 = none := by
  intro n r
  refine ⟨?_, by simp [transferEntropy]⟩
  have hm : (x.length + 2 ^ 32 - lag) % 2 ^ 32 = x.length - lag := by omega
  have hr : ∀ y : List K, rankFeature (y.map some) = r y := rank_feature_value
  unfold transferEntropy
  rw [if_neg (by omega)]
  simp only [transferCols, List.length_map, hm, ← List.map_take, ← List.map_drop, condIndep, copulaEntropy,
    List.map_cons, List.map_nil, hr]
  have : (x.drop lag).take (x.length - lag) = x.drop lag := List.take_of_length_le (by simp)
  rw [this]
  congr 1
  show -E [r (x.drop lag), r (s.take n), r (x.take n)] - -E [r (s.take n), r (x.take n)] -
    -E [r (x.drop lag), r (x.take n)] = _
  abel

example : ([7, 8, 9] : List ℤ).length = ([1, 2, 3] : List ℤ).length ∧ 1 ≤ 1 ∧ 1 ≤ ([1, 2, 3] : List ℤ).length := by decide

/-- Copula entropy, conditional independence and transfer entropy depend only on the order within each column:
strictly increasing transformations of the variables change nothing. -/
theorem copula_monotone {R : Type} [Neg R] [Sub R] (E : List (Col ℚ) → R) (x y z : Col K) (features : List (Col K))
    (f g h : K → K) (hf : StrictMono f) (hg : StrictMono g) (hh : StrictMono h) (lag : ℕ) :
    copulaEntropy E (features.map (map1 f)) = copulaEntropy E features ∧
    condIndep E (map1 f x) (map1 g y) (map1 h z) = condIndep E x y z ∧
    transferEntropy E (map1 f x) (map1 g y) lag = transferEntropy E x y lag := by
  have hc : ∀ (x y z : Col K) (f g h : K → K), StrictMono f → StrictMono g → StrictMono h →
      condIndep E (map1 f x) (map1 g y) (map1 h z) = condIndep E x y z := by
    intro x y z f g h hf hg hh
    simp only [condIndep, copulaEntropy, List.map_cons, List.map_nil, rank_feature_monotone _ _ hf,
      rank_feature_monotone _ _ hg, rank_feature_monotone _ _ hh]
  refine ⟨?_, hc x y z f g h hf hg hh, ?_⟩
  · unfold copulaEntropy
    rw [List.map_map]
    congr 2
    apply List.map_congr_left
    intro c _
    exact rank_feature_monotone c f hf
  · unfold transferEntropy
    split
    · rfl
    · congr 1
      have h1 : (transferCols (map1 f x) (map1 g y) lag) =
          (map1 f (transferCols x y lag).1, map1 g (transferCols x y lag).2.1, map1 f (transferCols x y lag).2.2) := by
        simp [transferCols, map1, List.map_take, List.map_drop]
      rw [h1]
      exact hc _ _ _ f g f hf hg hf

example : StrictMono (fun v : ℤ => 2 * v + 1) := fun a b h => by simp; omega

/-- The rows compared by the transfer entropy: the value of `x` after the lag, with the source and `x` at the
start of it; every pair of rows that many apart is used once. -/
theorem transfer_rows (x s : Col K) (lag : ℕ) (hs : s.length = x.length) (hl : lag ≤ x.length)
    (h1 : 1 ≤ lag) (hn : x.length < 2 ^ 32) :
    (transferCols x s lag).1.length = x.length - lag ∧ (transferCols x s lag).2.1.length = x.length - lag ∧
    (transferCols x s lag).2.2.length = x.length - lag ∧
    ∀ i, i < x.length - lag → (transferCols x s lag).1[i]? = x[i + lag]? ∧
      (transferCols x s lag).2.1[i]? = s[i]? ∧ (transferCols x s lag).2.2[i]? = x[i]? := by
  have hm : (x.length + 2 ^ 32 - lag) % 2 ^ 32 = x.length - lag := by omega
  simp only [transferCols, hm]
  refine ⟨by simp, by simp; omega, by simp, ?_⟩
  intro i hi
  refine ⟨?_, ?_, ?_⟩
  · rw [List.getElem?_take, if_pos hi, List.getElem?_drop, Nat.add_comm]
  · rw [List.getElem?_take, if_pos hi]
  · rw [List.getElem?_take, if_pos hi]

example : transferCols [some 1, some 2, some (3 : ℤ)] [some 7, none, some 9] 1 =
    ([some 2, some 3], [some 7, none], [some 1, some 2]) := by decide +kernel

end rank

end Verif.PermEntropy
