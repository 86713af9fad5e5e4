import Verif.Model.MannWhitney
import Verif.Spec.MannWhitney
import Verif.Lemmas.Arith
import Mathlib.Algebra.Field.Rat
import Mathlib.Data.List.Basic
import Mathlib.Data.Finset.Dedup
import Mathlib.Tactic.Ring
import Mathlib.Tactic.FieldSimp
import Mathlib.Tactic.Linarith

/-!
# Properties C26 and C51: Mann-Whitney U
-/
set_option linter.unusedSectionVars false

namespace Verif.MWU
open Verif
variable {K : Type} [Field K] [LinearOrder K]

/-- Invariant of the tie loop on a sorted prefix `p` ending in the current group. -/
structure TieInv (p : List K) (r : K) (s : TieState K) : Prop where
  rank : s.rank = some r
  cnt : s.cnt = (p.count r : K)
  acc : s.acc = ∑ x ∈ p.toFinset.erase r, ((p.count x : K) ^ 3 - (p.count x : K))
  mem : r ∈ p
  last : ∀ x ∈ p, x ≤ r

theorem tieStep_inv {p : List K} {r : K} {s : TieState K} (h : TieInv p r s) {v : K} (hv : r ≤ v) :
    TieInv (p ++ [v]) v (tieStep s v) := by
  have hlast : ∀ x ∈ p ++ [v], x ≤ v := by
    intro x hx
    rcases List.mem_append.1 hx with hx | hx
    · exact le_trans (h.last x hx) hv
    · exact le_of_eq (List.mem_singleton.1 hx)
  unfold tieStep
  split
  · rename_i he
    rw [h.rank] at he
    cases he
    refine ⟨h.rank, ?_, ?_, by simp, hlast⟩
    · simp only [h.cnt]; rw [List.count_append]; simp
    · simp only [h.acc]
      have hset : (p ++ [r]).toFinset.erase r = p.toFinset.erase r := by
        ext x; simp
      rw [hset]
      apply Finset.sum_congr rfl
      intro x hx
      have hxr : x ≠ r := (Finset.mem_erase.1 hx).1
      rw [List.count_append, List.count_singleton]
      simp [Ne.symm hxr]
  · rename_i he
    rw [h.rank] at he
    have hne : r ≠ v := fun hh => he (by rw [hh])
    have hlt : r < v := lt_of_le_of_ne hv hne
    have hvp : v ∉ p := fun hm => absurd (h.last v hm) (not_le.2 hlt)
    have hcv : p.count v = 0 := List.count_eq_zero.2 hvp
    refine ⟨rfl, ?_, ?_, by simp, hlast⟩
    · rw [List.count_append, hcv]; simp
    · simp only [h.acc, h.cnt]
      have hset : (p ++ [v]).toFinset.erase v = p.toFinset := by
        ext x
        simp only [Finset.mem_erase, List.mem_toFinset, List.mem_append, List.mem_singleton]
        constructor
        · rintro ⟨h1, h2 | h2⟩
          · exact h2
          · exact absurd h2 h1
        · intro hx
          exact ⟨fun hh => hvp (hh ▸ hx), .inl hx⟩
      rw [hset]
      have hsum : ∑ x ∈ p.toFinset, (((p ++ [v]).count x : K) ^ 3 - ((p ++ [v]).count x : K)) =
          ∑ x ∈ p.toFinset, ((p.count x : K) ^ 3 - (p.count x : K)) := by
        apply Finset.sum_congr rfl
        intro x hx
        have hxv : x ≠ v := fun hh => hvp (hh ▸ List.mem_toFinset.1 hx)
        rw [List.count_append, List.count_singleton]
        simp [Ne.symm hxv]
      rw [hsum, ← Finset.add_sum_erase _ _ (List.mem_toFinset.2 h.mem)]
      ring

theorem tieFold_inv : ∀ (rest p : List K) (r : K) (s : TieState K), TieInv p r s →
    (r :: rest).Pairwise (· ≤ ·) →
    TieInv (p ++ rest) ((r :: rest).getLast (by simp)) (rest.foldl tieStep s) := by
  intro rest
  induction rest with
  | nil => intro p r s h _; simpa using h
  | cons v rest ih =>
    intro p r s h hp
    have h1 := List.pairwise_cons.1 hp
    have := ih (p ++ [v]) v (tieStep s v) (tieStep_inv h (h1.1 v (by simp))) h1.2
    simpa using this

/-- **C26, partial.**  On sorted ranks the accumulated term misses exactly the group of the largest rank:
it is the documented sum minus `t^3 - t` of the last group.  (Missing from the full claim: that group; the
claim fails whenever the largest value is tied, see `tie_sum_wrong`.) -/
theorem tie_sum_partial (ranks : List K) (hs : ranks.Pairwise (· ≤ ·)) (hne : ranks ≠ []) :
    tieSum ranks = Spec.tieTerm ranks -
      ((ranks.count (ranks.getLast hne) : K) ^ 3 - (ranks.count (ranks.getLast hne) : K)) := by
  cases ranks with
  | nil => exact absurd rfl hne
  | cons v rest =>
    have h0 : TieInv [v] v (tieStep ⟨none, 0, 0⟩ v) := by
      refine ⟨rfl, ?_, ?_, by simp, by simp⟩
      · simp [tieStep]
      · simp [tieStep]
    have h := tieFold_inv rest [v] v _ h0 hs
    have hmem : (v :: rest).getLast hne ∈ (v :: rest).toFinset :=
      List.mem_toFinset.2 (List.getLast_mem hne)
    unfold tieSum Spec.tieTerm
    rw [List.foldl_cons, h.acc, ← Finset.add_sum_erase _ _ hmem]
    simp only [List.singleton_append]
    ring

/-- **C26**, consequence: the tie term is right when the largest value is not tied. -/
theorem tie_sum_untied_max_partial (ranks : List K) (hs : ranks.Pairwise (· ≤ ·)) (hne : ranks ≠ [])
    (h1 : ranks.count (ranks.getLast hne) = 1) : tieSum ranks = Spec.tieTerm ranks := by
  rw [tie_sum_partial ranks hs hne, h1]; norm_num

/-- **C26 is false**: for the ranks of two equal values the tie term is 0 instead of 6. -/
theorem tie_sum_wrong : tieSum ([3 / 2, 3 / 2] : List ℚ) = 0 ∧ Spec.tieTerm ([3 / 2, 3 / 2] : List ℚ) = 6 := by
  decide +kernel

example : tieSum ([1, 5 / 2, 5 / 2, 4] : List ℚ) = Spec.tieTerm ([1, 5 / 2, 5 / 2, 4] : List ℚ) := by
  decide +kernel

/-! ### C51 -/

variable [IsStrictOrderedRing K]

theorem sum_score_eq (x : K) (l : List K) : (l.map fun y => Spec.score x y).sum =
    ((l.countP fun y => decide (y < x) : Nat) : K) + ((l.countP fun y => decide (y = x) : Nat) : K) / 2 := by
  induction l with
  | nil => simp
  | cons y l ih =>
    rw [List.map_cons, List.sum_cons, ih, List.countP_cons, List.countP_cons]
    unfold Spec.score
    by_cases h1 : y < x
    · have h2 : y ≠ x := ne_of_lt h1
      simp [h1, h2]; ring
    · by_cases h2 : y = x
      · subst h2; simp; ring
      · simp [h1, h2]

theorem score_comm (x y : K) : Spec.score x y + Spec.score y x = 1 := by
  unfold Spec.score
  rcases lt_trichotomy x y with h | h | h
  · simp [h, not_lt.2 (le_of_lt h), ne_of_gt h]
  · subst h; simp; norm_num
  · simp [h, not_lt.2 (le_of_lt h), ne_of_gt h]

theorem wins_cons_left (x : K) (xs ys : List K) :
    Spec.wins (x :: xs) ys = (ys.map fun y => Spec.score x y).sum + Spec.wins xs ys := by
  simp [Spec.wins]

theorem wins_cons_right (y : K) (xs ys : List K) :
    Spec.wins xs (y :: ys) = (xs.map fun x => Spec.score x y).sum + Spec.wins xs ys := by
  induction xs with
  | nil => simp [Spec.wins]
  | cons x xs ih =>
    rw [wins_cons_left, wins_cons_left, ih, List.map_cons, List.sum_cons, List.map_cons, List.sum_cons]
    ring

theorem wins_swap (xs ys : List K) :
    Spec.wins xs ys + Spec.wins ys xs = (xs.length : K) * (ys.length : K) := by
  induction xs with
  | nil =>
    have : Spec.wins ys ([] : List K) = 0 := by
      induction ys with
      | nil => rfl
      | cons y ys ih => rw [wins_cons_left, ih]; simp
    rw [this]; simp [Spec.wins]
  | cons x xs ih =>
    rw [wins_cons_left, wins_cons_right]
    have : (ys.map fun y => Spec.score x y).sum + (ys.map fun y => Spec.score y x).sum =
        (ys.length : K) := by
      clear ih
      induction ys with
      | nil => simp
      | cons y ys ih =>
        rw [List.map_cons, List.sum_cons, List.map_cons, List.sum_cons]
        have := score_comm x y
        simp only [List.length_cons, Nat.cast_add, Nat.cast_one]
        linarith
    simp only [List.length_cons, Nat.cast_add, Nat.cast_one]
    linarith

theorem foldl_add_eq_sum (l : List K) : ∀ c, l.foldl (· + ·) c = c + l.sum := by
  induction l with
  | nil => intro c; simp
  | cons a l ih => intro c; rw [List.foldl_cons, ih, List.sum_cons]; ring

/-- **C51.** The reported statistic is the number of pairs in which the first sample's value is larger, ties
counting one half; the complementary statistic counts the other direction; they add up to `n1 * n2`. -/
theorem mann_whitney_counts_pairs (us : USort) (xs ys : List K) :
    (mannWhitney us xs ys).u1 = Spec.wins xs ys ∧ (mannWhitney us xs ys).u2 = Spec.wins ys xs ∧
    (mannWhitney us xs ys).mean = (Spec.wins xs ys + Spec.wins ys xs) / 2 := by
  have h1 : (mannWhitney us xs ys).u1 = Spec.wins xs ys := by
    simp only [mannWhitney, rankAvg, foldl_add_eq_sum, zero_add]
    rw [List.map_append, List.take_append_of_le_length (by simp),
      List.take_of_length_le (by simp)]
    have hrow : ∀ x, ((((xs ++ ys).countP fun y => decide (y < x) : Nat) : K) +
        ((((xs ++ ys).countP fun y => decide (y = x) : Nat) : K) + 1) / 2) =
        (xs.map fun y => Spec.score x y).sum + (ys.map fun y => Spec.score x y).sum + 1 / 2 := by
      intro x
      rw [sum_score_eq, sum_score_eq, List.countP_append, List.countP_append]
      push_cast
      ring
    simp only [hrow]
    have hself := wins_swap xs xs
    have hsum : ∀ l : List K, (l.map fun x => (xs.map fun y => Spec.score x y).sum +
        (ys.map fun y => Spec.score x y).sum + 1 / 2).sum =
        Spec.wins l xs + Spec.wins l ys + (l.length : K) / 2 := by
      intro l
      induction l with
      | nil => simp [Spec.wins]
      | cons a l ih =>
        rw [List.map_cons, List.sum_cons, ih, wins_cons_left, wins_cons_left]
        simp only [List.length_cons, Nat.cast_add, Nat.cast_one]
        ring
    rw [hsum]
    linarith
  have hsw := wins_swap xs ys
  refine ⟨h1, ?_, ?_⟩
  · have : (mannWhitney us xs ys).u2 = (xs.length : K) * ys.length - (mannWhitney us xs ys).u1 := rfl
    rw [this, h1, ← hsw]; ring
  · have : (mannWhitney us xs ys).mean = (xs.length : K) * ys.length / 2 := rfl
    rw [this, ← hsw]

example : (mannWhitney insertionUSort ([3, 1, 2] : List ℚ) [2, 0]).u1 = 9 / 2 ∧
    Spec.wins ([3, 1, 2] : List ℚ) [2, 0] = 9 / 2 := by decide +kernel

/-- Consequence of the missing group: for two samples of equal constants the variance should be 0, but is
`1/4` for one value each. -/
theorem mann_whitney_constant_variance : (mannWhitney insertionUSort ([7] : List ℚ) [7]).var = 1 / 4 := by
  decide +kernel

end Verif.MWU
