import Verif.Model.StrSim
import Mathlib.Data.Finset.Card
import Mathlib.Data.Finset.Basic
import Mathlib.Algebra.Order.Field.Basic
import Mathlib.Algebra.Order.Ring.Rat
import Mathlib.Algebra.Field.Rat
import Mathlib.Tactic.Linarith
import Mathlib.Tactic.FieldSimp
import Mathlib.Tactic.Positivity
import Mathlib.Tactic.Ring
import Mathlib.Tactic.NormNum

/-!
# N-gram set similarities: theorems
-/

namespace Verif.StrSim.Spec
variable {α : Type}

/-- `g` is an n-gram of `w`: a contiguous piece of length `n`, or `w` itself if it is shorter than `n`. -/
def IsGram (n : Nat) (w g : List α) : Prop :=
  if w.length < n then g = w else g.length = n ∧ g <:+: w

end Verif.StrSim.Spec

namespace Verif.StrSim
open Verif.StrSim.Spec
set_option linter.unusedSectionVars false
variable {α K : Type} [DecidableEq α] [Field K] [LinearOrder K] [IsStrictOrderedRing K]

theorem mem_windows (n : Nat) (w g : List α) (h : n ≤ w.length) : g ∈ windows n w ↔ g.length = n ∧ g <:+: w := by
  unfold windows
  simp only [List.mem_map, List.mem_range]
  constructor
  · rintro ⟨i, hi, rfl⟩
    refine ⟨by rw [List.length_take, List.length_drop]; omega, ?_⟩
    exact (List.take_prefix _ _).isInfix.trans (List.drop_suffix _ _).isInfix
  · rintro ⟨hl, s, t, he⟩
    refine ⟨s.length, ?_, ?_⟩
    · have := congrArg List.length he
      simp only [List.length_append] at this
      omega
    · rw [← he, List.append_assoc, List.drop_left, ← hl, List.take_left]

/-- The Finset of the n-grams of a word. -/
theorem gram_finset (w : List α) (n : Nat) (hn : 0 < n) :
    ∃ (l : List (List α)) (_ : l.Nodup), gramSet w n = some l ∧ ∀ g, g ∈ l ↔ IsGram n w g := by
  unfold gramSet IsGram
  by_cases h : w.length < n
  · refine ⟨[w], by simp, by rw [if_pos h], ?_⟩
    intro g; rw [if_pos h]; simp
  · refine ⟨(windows n w).dedup, List.nodup_dedup _, by rw [if_neg h, if_neg (by omega)], ?_⟩
    intro g
    rw [if_neg h, List.mem_dedup, mem_windows n w g (by omega)]

/-- What the helper returns: the sizes of the two n-gram sets and of their intersection. -/
theorem setSim_spec (w1 w2 : List α) (n : Nat) (hn : 0 < n) (h1 : w1 ≠ []) (h2 : w2 ≠ []) :
    ∃ A B : Finset (List α), (∀ g, g ∈ A ↔ IsGram n w1 g) ∧ (∀ g, g ∈ B ↔ IsGram n w2 g) ∧
      setSim w1 w2 n = some (A.card, B.card, (A ∩ B).card) ∧ A.Nonempty ∧ B.Nonempty := by
  obtain ⟨l1, d1, e1, m1⟩ := gram_finset w1 n hn
  obtain ⟨l2, d2, e2, m2⟩ := gram_finset w2 n hn
  have hne : ∀ w : List α, w ≠ [] → ∃ g, IsGram n w g := by
    intro w hw
    by_cases h : w.length < n
    · exact ⟨w, by unfold IsGram; rw [if_pos h]⟩
    · refine ⟨w.take n, ?_⟩
      unfold IsGram
      rw [if_neg h, List.length_take]
      exact ⟨by omega, (List.take_prefix _ _).isInfix⟩
  refine ⟨l1.toFinset, l2.toFinset, by simpa using m1, by simpa using m2, ?_, ?_, ?_⟩
  · unfold setSim
    rw [if_neg (by simp [h1, h2]), e1, e2]
    simp only [Option.some.injEq, Prod.mk.injEq]
    refine ⟨(List.toFinset_card_of_nodup d1).symm, (List.toFinset_card_of_nodup d2).symm, ?_⟩
    rw [← List.toFinset_card_of_nodup (d1.filter _)]
    congr 1
    ext g
    simp
  · obtain ⟨g, hg⟩ := hne w1 h1
    exact ⟨g, by simpa using (m1 g).2 hg⟩
  · obtain ⟨g, hg⟩ := hne w2 h2
    exact ⟨g, by simpa using (m2 g).2 hg⟩

/-- For non-empty strings and n-gram size at least one, each similarity is the textbook function of the two sets of
n-grams.  (Missing from the claim: an empty string, see `empty_string_nan`, and for `tversky` two disjoint sets with
a zero weight, where the denominator may vanish.) -/
theorem set_definitions_partial (w1 w2 : List α) (n : Nat) (hn : 0 < n) (h1 : w1 ≠ []) (h2 : w2 ≠ []) :
    ∃ A B : Finset (List α), (∀ g, g ∈ A ↔ IsGram n w1 g) ∧ (∀ g, g ∈ B ↔ IsGram n w2 g) ∧
      strJaccard w1 w2 n = some (some (((A ∩ B).card : K) / (A ∪ B).card)) ∧
      sorensenDice w1 w2 n = some (some (2 * ((A ∩ B).card : K) / (A.card + B.card))) ∧
      overlapCoeff w1 w2 n = some (some (((A ∩ B).card : K) / (min A.card B.card : Nat))) ∧
      ∀ alpha beta : K,
        ((A ∩ B).card : K) + alpha * (A \ B).card + beta * (B \ A).card ≠ 0 →
        tverskySim w1 w2 n alpha beta =
          some (some (((A ∩ B).card : K) / ((A ∩ B).card + alpha * (A \ B).card + beta * (B \ A).card))) := by
  obtain ⟨A, B, hA, hB, he, nA, nB⟩ := setSim_spec w1 w2 n hn h1 h2
  have cA := nA.card_pos
  have cB := nB.card_pos
  have cU : A.card + B.card - (A ∩ B).card = (A ∪ B).card := by rw [Finset.card_union]
  have cU0 : 0 < (A ∪ B).card := (nA.mono Finset.subset_union_left).card_pos
  refine ⟨A, B, hA, hB, ?_, ?_, ?_, ?_⟩
  · simp only [strJaccard, he, Option.map_some, fdiv, cU]
    rw [if_neg (by exact_mod_cast cU0.ne')]
  · simp only [sorensenDice, he, Option.map_some, fdiv]
    have : ((A.card + B.card : Nat) : K) ≠ 0 := by
      have : 0 < A.card + B.card := by omega
      exact_mod_cast this.ne'
    rw [if_neg this]
    push_cast
    rfl
  · simp only [overlapCoeff, he, Option.map_some, fdiv]
    have : ((min A.card B.card : Nat) : K) ≠ 0 := by
      have : 0 < min A.card B.card := by omega
      exact_mod_cast this.ne'
    rw [if_neg this]
  · intro alpha beta h
    have e1 : absDiff A.card (A ∩ B).card = (A \ B).card := by
      have := Finset.card_inter_add_card_sdiff A B
      unfold absDiff; omega
    have e2 : absDiff B.card (A ∩ B).card = (B \ A).card := by
      have := Finset.card_inter_add_card_sdiff B A
      rw [Finset.inter_comm] at this
      unfold absDiff; omega
    simp only [tverskySim, he, Option.map_some, fdiv, e1, e2]
    rw [if_neg h]

theorem card_inter_le_min (A B : Finset (List α)) : (A ∩ B).card ≤ A.card ∧ (A ∩ B).card ≤ B.card :=
  ⟨Finset.card_le_card Finset.inter_subset_left, Finset.card_le_card Finset.inter_subset_right⟩

/-- Whatever the strings: every result that is a number lies between 0 and 1. -/
theorem similarity_range (w1 w2 : List α) (n : Nat) (v : K) :
    (strJaccard w1 w2 n = some (some v) → 0 ≤ v ∧ v ≤ 1) ∧
    (sorensenDice w1 w2 n = some (some v) → 0 ≤ v ∧ v ≤ 1) ∧
    (overlapCoeff w1 w2 n = some (some v) → 0 ≤ v ∧ v ≤ 1) ∧
    (∀ alpha beta : K, 0 ≤ alpha → 0 ≤ beta → tverskySim w1 w2 n alpha beta = some (some v) → 0 ≤ v ∧ v ≤ 1) := by
  have hle : ∀ t, setSim w1 w2 n = some t → t.2.2 ≤ t.1 ∧ t.2.2 ≤ t.2.1 := by
    intro t ht
    by_cases hw : w1.length = 0 ∨ w2.length = 0
    · unfold setSim at ht
      rw [if_pos hw] at ht
      cases ht
      simp
    · by_cases hn : 0 < n
      · obtain ⟨A, B, _, _, he, _⟩ := setSim_spec w1 w2 n hn (by rintro rfl; simp at hw) (by rintro rfl; simp at hw)
        rw [he] at ht
        cases ht
        exact card_inter_le_min A B
      · have hn0 : n = 0 := by omega
        unfold setSim gramSet at ht
        rw [if_neg hw] at ht
        simp [hn0] at ht
  have key : ∀ a b : K, 0 ≤ a → a ≤ b → ∀ v, fdiv a b = some v → 0 ≤ v ∧ v ≤ 1 := by
    intro a b ha hab v hv
    unfold fdiv at hv
    split at hv
    · simp at hv
    · rename_i hb
      cases hv
      have hb' : 0 < b := lt_of_le_of_ne (le_trans ha hab) (Ne.symm hb)
      exact ⟨div_nonneg ha hb'.le, (div_le_one hb').2 hab⟩
  refine ⟨?_, ?_, ?_, ?_⟩
  · intro h
    unfold strJaccard at h
    obtain ⟨t, ht, he⟩ := Option.map_eq_some_iff.1 h
    obtain ⟨h1, h2⟩ := hle t ht
    exact key _ _ (Nat.cast_nonneg _) (Nat.cast_le.2 (by omega)) v he
  · intro h
    unfold sorensenDice at h
    obtain ⟨t, ht, he⟩ := Option.map_eq_some_iff.1 h
    obtain ⟨h1, h2⟩ := hle t ht
    exact key _ _ (Nat.cast_nonneg _) (Nat.cast_le.2 (by omega)) v he
  · intro h
    unfold overlapCoeff at h
    obtain ⟨t, ht, he⟩ := Option.map_eq_some_iff.1 h
    obtain ⟨h1, h2⟩ := hle t ht
    exact key _ _ (Nat.cast_nonneg _) (Nat.cast_le.2 (by omega)) v he
  · intro alpha beta ha hb h
    unfold tverskySim at h
    obtain ⟨t, ht, he⟩ := Option.map_eq_some_iff.1 h
    refine key _ _ (Nat.cast_nonneg _) ?_ v he
    have := mul_nonneg ha (Nat.cast_nonneg (α := K) (absDiff t.1 t.2.2))
    have := mul_nonneg hb (Nat.cast_nonneg (α := K) (absDiff t.2.1 t.2.2))
    linarith

theorem setSim_comm (w1 w2 : List α) (n : Nat) :
    setSim w2 w1 n = (setSim w1 w2 n).map fun t => (t.2.1, t.1, t.2.2) := by
  by_cases hw : w1.length = 0 ∨ w2.length = 0
  · unfold setSim
    rw [if_pos hw, if_pos (by tauto)]
    rfl
  · by_cases hn : 0 < n
    · have n1 : w1 ≠ [] := by rintro rfl; simp at hw
      have n2 : w2 ≠ [] := by rintro rfl; simp at hw
      obtain ⟨A, B, hA, hB, he, _⟩ := setSim_spec w1 w2 n hn n1 n2
      obtain ⟨B', A', hB', hA', he', _⟩ := setSim_spec w2 w1 n hn n2 n1
      have e1 : A' = A := by ext g; rw [hA, hA']
      have e2 : B' = B := by ext g; rw [hB, hB']
      rw [he, he', e1, e2, Finset.inter_comm]
      rfl
    · have hn0 : n = 0 := by omega
      unfold setSim gramSet
      rw [if_neg hw, if_neg (by tauto)]
      simp [hn0]

/-- Symmetry, also for empty strings and panics. -/
theorem similarity_symmetric (w1 w2 : List α) (n : Nat) :
    strJaccard (K := K) w2 w1 n = strJaccard w1 w2 n ∧ sorensenDice (K := K) w2 w1 n = sorensenDice w1 w2 n ∧
    overlapCoeff (K := K) w2 w1 n = overlapCoeff w1 w2 n ∧
    ∀ alpha beta : K, tverskySim w2 w1 n beta alpha = tverskySim w1 w2 n alpha beta := by
  refine ⟨?_, ?_, ?_, ?_⟩
  · unfold strJaccard
    rw [setSim_comm w1 w2, Option.map_map]
    congr 1
    funext t
    simp only [Function.comp_apply, Nat.add_comm]
  · unfold sorensenDice
    rw [setSim_comm w1 w2, Option.map_map]
    congr 1
    funext t
    simp only [Function.comp_apply, Nat.add_comm]
  · unfold overlapCoeff
    rw [setSim_comm w1 w2, Option.map_map]
    congr 1
    funext t
    simp only [Function.comp_apply, Nat.min_comm]
  · intro alpha beta
    unfold tverskySim
    rw [setSim_comm w1 w2, Option.map_map]
    congr 1
    funext t
    simp only [Function.comp_apply]
    congr 1
    ring

/-- Equal non-empty strings have similarity 1. -/
theorem similarity_self (w : List α) (n : Nat) (hn : 0 < n) (h : w ≠ []) :
    strJaccard (K := K) w w n = some (some 1) ∧ sorensenDice (K := K) w w n = some (some 1) ∧
    overlapCoeff (K := K) w w n = some (some 1) ∧
    ∀ alpha beta : K, tverskySim w w n alpha beta = some (some 1) := by
  obtain ⟨A, B, hA, hB, h1, h2, h3, h4⟩ := set_definitions_partial (K := K) w w n hn h h
  have e : B = A := by ext g; rw [hA, hB]
  subst e
  have hc : (B.card : K) ≠ 0 := by
    obtain ⟨A, B', hA', hB', he, nA, nB⟩ := setSim_spec w w n hn h h
    have : B' = B := by ext g; rw [hB, hB']
    subst this
    exact_mod_cast nB.card_pos.ne'
  have h2c : (B.card : K) + B.card ≠ 0 := by
    intro hz
    apply hc
    linarith
  simp only [Finset.inter_self, Finset.union_self, Finset.sdiff_self, Finset.card_empty, Nat.cast_zero, mul_zero,
    add_zero, Nat.min_self] at h1 h2 h3 h4
  refine ⟨?_, ?_, ?_, ?_⟩
  · rw [h1, div_self hc]
  · rw [h2, two_mul, div_self h2c]
  · rw [h3, div_self hc]
  · intro alpha beta
    rw [h4 alpha beta hc, div_self hc]

/-- `tversky` with both weights 1 is `jaccard`, with both weights 1/2 it is the Dice coefficient, for all strings. -/
theorem tversky_special (w1 w2 : List α) (n : Nat) :
    tverskySim (K := K) w1 w2 n 1 1 = strJaccard w1 w2 n ∧
    tverskySim (K := K) w1 w2 n (1 / 2) (1 / 2) = sorensenDice w1 w2 n := by
  have hle : ∀ t, setSim w1 w2 n = some t → t.2.2 ≤ t.1 ∧ t.2.2 ≤ t.2.1 := by
    intro t ht
    by_cases hw : w1.length = 0 ∨ w2.length = 0
    · unfold setSim at ht
      rw [if_pos hw] at ht
      cases ht
      simp
    · by_cases hn : 0 < n
      · obtain ⟨A, B, _, _, he, _⟩ := setSim_spec w1 w2 n hn (by rintro rfl; simp at hw) (by rintro rfl; simp at hw)
        rw [he] at ht
        cases ht
        exact card_inter_le_min A B
      · have hn0 : n = 0 := by omega
        unfold setSim gramSet at ht
        rw [if_neg hw] at ht
        simp [hn0] at ht
  unfold tverskySim strJaccard sorensenDice
  cases hs : setSim w1 w2 n with
  | none => simp
  | some t =>
    obtain ⟨a, b, c⟩ := t
    obtain ⟨h1, h2⟩ := hle _ hs
    simp only at h1 h2
    obtain ⟨p, rfl⟩ := Nat.exists_eq_add_of_le h1
    obtain ⟨q, rfl⟩ := Nat.exists_eq_add_of_le h2
    have e1 : absDiff (c + p) c = p := by unfold absDiff; omega
    have e2 : absDiff (c + q) c = q := by unfold absDiff; omega
    have e3 : c + p + (c + q) - c = c + p + q := by omega
    simp only [Option.map_some, e1, e2, e3]
    constructor
    · congr 3
      push_cast
      ring
    · unfold fdiv
      have hz : ((c : K) + 1 / 2 * p + 1 / 2 * q = 0) ↔ ((c + p + (c + q) : Nat) : K) = 0 := by
        push_cast
        constructor <;> intro h <;> linarith
      by_cases h0 : ((c + p + (c + q) : Nat) : K) = 0
      · rw [if_pos (hz.2 h0), if_pos h0]
      · rw [if_neg (fun h => h0 (hz.1 h)), if_neg h0]
        congr 2
        have h0' : (c : K) + 1 / 2 * p + 1 / 2 * q ≠ 0 := fun h => h0 (hz.1 h)
        rw [div_eq_div_iff h0' h0]
        push_cast
        ring

/-- If one string is empty every similarity is NaN, although the sets of n-grams have no common member; an n-gram
size of zero panics. -/
theorem empty_string_nan (w : List α) (n : Nat) (alpha beta : K) :
    strJaccard (K := K) [] w n = some none ∧ sorensenDice (K := K) [] w n = some none ∧
    overlapCoeff (K := K) [] w n = some none ∧ tverskySim [] w n alpha beta = some none ∧
    (w ≠ [] → strJaccard (K := K) w w 0 = none) := by
  refine ⟨?_, ?_, ?_, ?_, ?_⟩
  · simp [strJaccard, setSim, fdiv]
  · simp [sorensenDice, setSim, fdiv]
  · simp [overlapCoeff, setSim, fdiv]
  · simp [tverskySim, setSim, fdiv, absDiff]
  · intro h
    simp [strJaccard, setSim, gramSet, h]

example : setSim "apple".toList "applet".toList 2 = some (4, 5, 4) := by decide

example : strJaccard (K := ℚ) "apple".toList "applet".toList 2 = some (some (4 / 5)) := by
  have h : setSim "apple".toList "applet".toList 2 = some (4, 5, 4) := by decide
  simp only [strJaccard, h, Option.map_some, fdiv]
  norm_num

example : strJaccard (K := ℚ) "apple".toList "apple".toList 2 = some (some 1) :=
  (similarity_self "apple".toList 2 (by decide) (by decide)).1

example : ∃ A B : Finset (List Char), (∀ g, g ∈ A ↔ IsGram 2 "abc".toList g) ∧ (∀ g, g ∈ B ↔ IsGram 2 "bcd".toList g) ∧
    strJaccard "abc".toList "bcd".toList 2 = some (some (((A ∩ B).card : ℚ) / (A ∪ B).card)) :=
  have ⟨A, B, h1, h2, h3, _⟩ := set_definitions_partial (K := ℚ) "abc".toList "bcd".toList 2 (by decide) (by decide)
    (by decide)
  ⟨A, B, h1, h2, h3⟩

end Verif.StrSim
