import Verif.Model.TsFeat
import Mathlib.Tactic.Linarith
import Mathlib.Tactic.NormNum
import Mathlib.Tactic.Ring
import Mathlib.Data.List.Chain

/-!
# Streaks: run lengths, the longest and the average run of true
-/

namespace Verif.TsFeat
open Verif.Pl

namespace Spec

/-- The column contains `m` consecutive rows that are true. -/
def HasBlock (c : Col Bool) (m : ℕ) : Prop :=
  ∃ pre post, c = pre ++ List.replicate m (some true) ++ post

/-- The number of rows that are true while the row before (if any) is not: every streak starts once. -/
def starts (prev : Option Bool) : Col Bool → ℕ
  | [] => 0
  | a :: t => (if a = some true ∧ prev ≠ some true then 1 else 0) + starts a t

end Spec

open Spec

section rle
variable {α : Type} [DecidableEq α]

theorem rle_cons (a : α) (t : List α) :
    (rle t = [] ∧ rle (a :: t) = [(1, a)]) ∨
    (∃ n r, rle t = (n, a) :: r ∧ rle (a :: t) = (n + 1, a) :: r) ∨
    (∃ n b r, rle t = (n, b) :: r ∧ a ≠ b ∧ rle (a :: t) = (1, a) :: (n, b) :: r) := by
  rcases h : rle t with _ | ⟨⟨n, b⟩, r⟩
  · left; exact ⟨rfl, by simp [rle, h]⟩
  · by_cases hab : a = b
    · subst hab
      right; left; exact ⟨n, r, rfl, by simp [rle, h]⟩
    · right; right; exact ⟨n, b, r, rfl, hab, by simp [rle, h, hab]⟩

theorem rle_eq_nil (c : List α) (h : rle c = []) : c = [] := by
  cases c with
  | nil => rfl
  | cons a t =>
    rcases rle_cons a t with ⟨_, h2⟩ | ⟨_, _, _, h2⟩ | ⟨_, _, _, _, _, h2⟩ <;> simp [h2] at h

/-- Writing every run out again gives the column. -/
theorem rle_expand (c : List α) : (rle c).flatMap (fun r => List.replicate r.1 r.2) = c := by
  induction c with
  | nil => rfl
  | cons a t ih =>
    rcases rle_cons a t with ⟨h1, h2⟩ | ⟨n, r, h1, h2⟩ | ⟨n, b, r, h1, _, h2⟩
    · rw [h2]; rw [rle_eq_nil t h1]; simp
    · rw [h2]; rw [h1] at ih; rw [← ih]
      simp [List.replicate_succ]
    · rw [h2]; rw [h1] at ih; rw [← ih]
      simp [List.replicate_succ]

theorem rle_pos (c : List α) : ∀ r ∈ rle c, 1 ≤ r.1 := by
  induction c with
  | nil => simp [rle]
  | cons a t ih =>
    rcases rle_cons a t with ⟨h1, h2⟩ | ⟨n, r, h1, h2⟩ | ⟨n, b, r, h1, _, h2⟩
    · rw [h2]; simp
    · rw [h2]; rw [h1] at ih
      intro x hx
      rcases List.mem_cons.1 hx with rfl | hx
      · simp
      · exact ih x (by simp [hx])
    · rw [h2]; rw [h1] at ih
      intro x hx
      rcases List.mem_cons.1 hx with rfl | hx
      · simp
      · exact ih x hx

theorem rle_chain (c : List α) : (rle c).IsChain (fun r s => r.2 ≠ s.2) := by
  induction c with
  | nil => simp [rle]
  | cons a t ih =>
    rcases rle_cons a t with ⟨h1, h2⟩ | ⟨n, r, h1, h2⟩ | ⟨n, b, r, h1, hne, h2⟩
    · rw [h2]; simp
    · rw [h2]; rw [h1] at ih
      cases r with
      | nil => simp
      | cons x r => simp only [List.isChain_cons_cons] at ih ⊢; exact ih
    · rw [h2]; rw [h1] at ih
      simp only [List.isChain_cons_cons]
      exact ⟨hne, ih⟩

/-- The length of the first run is the number of leading rows equal to the first one. -/
theorem rle_head (b : α) (c : List α) :
    (∃ n r, rle c = (n, b) :: r ∧ n = (c.takeWhile (· = b)).length) ∨
    ((rle c).head?.map Prod.snd ≠ some b ∧ (c.takeWhile (· = b)).length = 0) := by
  induction c with
  | nil => right; simp [rle]
  | cons a t ih =>
    rcases rle_cons a t with ⟨h1, h2⟩ | ⟨n, r, h1, h2⟩ | ⟨n, x, r, h1, hne, h2⟩
    · rw [h2]
      have := rle_eq_nil t h1
      subst this
      by_cases hab : a = b
      · left; subst hab; exact ⟨1, [], rfl, by simp⟩
      · right; simp [hab]
    · rw [h2]
      by_cases hab : a = b
      · left; subst hab
        refine ⟨n + 1, r, rfl, ?_⟩
        rcases ih with ⟨n', r', h3, h4⟩ | ⟨h3, _⟩
        · rw [h1] at h3
          simp only [List.cons.injEq, Prod.mk.injEq] at h3
          simp [h3.1.1, h4]
        · rw [h1] at h3; simp at h3
      · right; simp [hab]
    · rw [h2]
      by_cases hab : a = b
      · left; subst hab
        refine ⟨1, _, rfl, ?_⟩
        rcases ih with ⟨n', r', h3, h4⟩ | ⟨h3, h4⟩
        · rw [h1] at h3
          simp only [List.cons.injEq, Prod.mk.injEq] at h3
          exact absurd h3.1.2.symm hne
        · simpa using h4
      · right; simp [hab]

end rle

theorem max_cons (a : ℕ) (l : List ℕ) : (a :: l).max?.getD 0 = max a (l.max?.getD 0) := by
  rw [List.max?_cons]
  cases l.max? <;> simp

/-- The number of leading true rows. -/
def leadTrue (c : Col Bool) : ℕ := (c.takeWhile (· = some true)).length

theorem trueRuns_cons (a : Option Bool) (t : Col Bool) :
    trueRuns (a :: t) = if a = some true then
      (if leadTrue t = 0 then 1 :: trueRuns t else (leadTrue t + 1) :: (trueRuns t).tail) else trueRuns t := by
  unfold trueRuns
  by_cases ha : a = some true
  · subst ha
    rw [if_pos rfl]
    rcases rle_cons (some true) t with ⟨h1, h2⟩ | ⟨n, r, h1, h2⟩ | ⟨n, b, r, h1, hne, h2⟩
    · rw [h2, h1, rle_eq_nil t h1]; simp [leadTrue]
    · rw [h2, h1]
      rcases rle_head (some true) t with ⟨n', r', h3, h4⟩ | ⟨h3, _⟩
      · rw [h1] at h3
        simp only [List.cons.injEq, Prod.mk.injEq] at h3
        have hn : leadTrue t = n := by rw [h3.1.1, h4]; rfl
        have hp := rle_pos t (n, some true) (by rw [h1]; simp)
        simp only at hp
        rw [hn, if_neg (by omega)]
        simp
      · rw [h1] at h3; simp at h3
    · rw [h2, h1]
      rcases rle_head (some true) t with ⟨n', r', h3, h4⟩ | ⟨h3, h4⟩
      · rw [h1] at h3
        simp only [List.cons.injEq, Prod.mk.injEq] at h3
        exact absurd h3.1.2.symm hne
      · rw [if_pos (show leadTrue t = 0 from h4)]; simp
  · rw [if_neg ha]
    rcases rle_cons a t with ⟨h1, h2⟩ | ⟨n, r, h1, h2⟩ | ⟨n, b, r, h1, hne, h2⟩
    · rw [h2, h1]; simp [ha]
    · rw [h2, h1]; simp [ha]
    · rw [h2, h1]; simp [ha]

theorem trueRuns_head (c : Col Bool) (h : leadTrue c ≠ 0) :
    ∃ r, trueRuns c = leadTrue c :: r := by
  rcases rle_head (some true) c with ⟨n', r', h3, h4⟩ | ⟨_, h4⟩
  · refine ⟨((r'.filter fun r => r.2 == some true).map Prod.fst), ?_⟩
    unfold trueRuns
    rw [h3]
    simp [leadTrue, h4]
  · exact absurd h4 h

theorem longest_cons (a : Option Bool) (t : Col Bool) :
    longestStreak (a :: t) = if a = some true then max (leadTrue t + 1) (longestStreak t) else longestStreak t := by
  unfold longestStreak
  rw [trueRuns_cons]
  by_cases ha : a = some true
  · rw [if_pos ha, if_pos ha]
    by_cases hl : leadTrue t = 0
    · rw [if_pos hl, max_cons, hl]
    · rw [if_neg hl]
      obtain ⟨r, hr⟩ := trueRuns_head t hl
      rw [hr, List.tail_cons, max_cons, max_cons]
      omega
  · rw [if_neg ha, if_neg ha]

theorem prefix_iff (c : Col Bool) (m : ℕ) :
    (∃ post, c = List.replicate m (some true) ++ post) ↔ m ≤ leadTrue c := by
  induction c generalizing m with
  | nil =>
    simp only [leadTrue, List.takeWhile_nil, List.length_nil, nonpos_iff_eq_zero]
    constructor
    · rintro ⟨post, h⟩
      cases m with
      | zero => rfl
      | succ m => simp [List.replicate_succ] at h
    · rintro rfl; exact ⟨[], rfl⟩
  | cons a t ih =>
    cases m with
    | zero => simp
    | succ m =>
      by_cases ha : a = some true
      · subst ha
        have := ih m
        simp only [leadTrue] at this ⊢
        simp only [List.replicate_succ, List.cons_append, List.cons.injEq, true_and, decide_true,
          List.takeWhile_cons_of_pos, List.length_cons, Nat.succ_le_succ_iff]
        rw [this]
      · simp [leadTrue, ha, List.replicate_succ]

theorem hasBlock_cons (a : Option Bool) (t : Col Bool) (m : ℕ) :
    HasBlock (a :: t) m ↔ m ≤ leadTrue (a :: t) ∨ HasBlock t m := by
  rw [← prefix_iff]
  constructor
  · rintro ⟨pre, post, h⟩
    cases pre with
    | nil => left; exact ⟨post, h⟩
    | cons x pre =>
      right
      simp only [List.cons_append, List.cons.injEq] at h
      exact ⟨pre, post, h.2⟩
  · rintro (⟨post, h⟩ | ⟨pre, post, h⟩)
    · exact ⟨[], post, by simpa using h⟩
    · exact ⟨a :: pre, post, by rw [h]; simp⟩

/-- The longest streak is at least `m` exactly if `m` consecutive rows are true; nulls interrupt a streak, and
without a true row the answer is 0. -/
theorem longest_streak (c : Col Bool) (m : ℕ) : m ≤ longestStreak c ↔ HasBlock c m := by
  induction c with
  | nil =>
    constructor
    · intro h
      have : m = 0 := by simpa [longestStreak, trueRuns, rle] using h
      exact ⟨[], [], by simp [this]⟩
    · rintro ⟨pre, post, h⟩
      have := congrArg List.length h
      simp at this
      omega
  | cons a t ih =>
    rw [hasBlock_cons, ← ih, longest_cons]
    by_cases ha : a = some true
    · subst ha
      have : leadTrue (some true :: t) = leadTrue t + 1 := by simp [leadTrue]
      rw [if_pos rfl, this, le_max_iff]
    · have : leadTrue (a :: t) = 0 := by simp [leadTrue, ha]
      rw [if_neg ha, this]
      constructor
      · exact Or.inr
      · rintro (h | h)
        · omega
        · exact h

example : longestStreak [some true, some true, none, some true, some false] = 2 ∧
    HasBlock [some true, some true, none, some true, some false] 2 :=
  ⟨by decide +kernel, [], [none, some true, some false], rfl⟩

theorem leadTrue_zero_iff (t : Col Bool) : leadTrue t = 0 ↔ t.head? ≠ some (some true) := by
  cases t with
  | nil => simp [leadTrue]
  | cons a t => by_cases ha : a = some true <;> simp [leadTrue, ha]

theorem trueRuns_sum (c : Col Bool) : (trueRuns c).sum = c.count (some true) := by
  induction c with
  | nil => simp [trueRuns, rle]
  | cons a t ih =>
    rw [trueRuns_cons]
    by_cases ha : a = some true
    · rw [if_pos ha]
      subst ha
      by_cases hl : leadTrue t = 0
      · rw [if_pos hl]; simp [ih]; omega
      · rw [if_neg hl]
        obtain ⟨r, hr⟩ := trueRuns_head t hl
        rw [hr] at ih ⊢
        simp only [List.sum_cons, List.tail_cons, List.count_cons_self] at ih ⊢
        omega
    · rw [if_neg ha, ih, List.count_cons_of_ne ha]

theorem starts_succ (c : Col Bool) : starts (some true) c + (if leadTrue c = 0 then 0 else 1) = starts none c := by
  cases c with
  | nil => simp [starts, leadTrue]
  | cons a t => by_cases ha : a = some true <;> simp [starts, leadTrue, ha]; omega

theorem starts_ne (p : Option Bool) (c : Col Bool) (h : p ≠ some true) : starts p c = starts none c := by
  cases c with
  | nil => rfl
  | cons a t => simp [starts, h]

theorem trueRuns_length (c : Col Bool) : (trueRuns c).length = starts none c := by
  induction c with
  | nil => simp [trueRuns, rle, starts]
  | cons a t ih =>
    rw [trueRuns_cons]
    by_cases ha : a = some true
    · rw [if_pos ha]
      subst ha
      have hs := starts_succ t
      simp only [starts]
      by_cases hl : leadTrue t = 0
      · rw [if_pos hl] at hs ⊢; simp [ih]; omega
      · rw [if_neg hl] at hs ⊢
        obtain ⟨r, hr⟩ := trueRuns_head t hl
        rw [hr] at ih ⊢
        simp only [List.length_cons, List.tail_cons] at ih ⊢
        simp; omega
    · rw [if_neg ha, ih]
      simp [starts, ha, starts_ne a t ha]

/-- The average streak is the number of true rows divided by the number of streaks, 0 without one. -/
theorem avg_streak (c : Col Bool) :
    avgStreak c = if starts none c = 0 then 0 else (c.count (some true) : ℚ) / (starts none c : ℚ) := by
  unfold avgStreak
  rw [trueRuns_sum, trueRuns_length]
  by_cases h : starts none c = 0
  · rw [if_pos h, if_pos]
    rw [List.isEmpty_iff, ← List.length_eq_zero_iff, trueRuns_length, h]
  · rw [if_neg h, if_neg]
    rw [List.isEmpty_iff, ← List.length_eq_zero_iff, trueRuns_length]
    exact h

example : avgStreak [some true, some true, none, some true, some false] = 3 / 2 := by decide +kernel

/-- The average is between 1 and the longest streak as soon as some row is true. -/
theorem avg_le_longest (c : Col Bool) (h : some true ∈ c) :
    1 ≤ avgStreak c ∧ avgStreak c ≤ longestStreak c := by
  have hpos : 0 < c.count (some true) := List.count_pos_iff.2 h
  have hne : trueRuns c ≠ [] := by
    intro h0
    have := trueRuns_sum c
    rw [h0] at this; simp at this; omega
  have hl : 0 < (trueRuns c).length := List.length_pos_iff.2 hne
  have h1 : ∀ r ∈ trueRuns c, 1 ≤ r := by
    intro r hr
    simp only [trueRuns, List.mem_map, List.mem_filter] at hr
    obtain ⟨x, ⟨hx, _⟩, rfl⟩ := hr
    exact rle_pos c x hx
  have h2 : ∀ r ∈ trueRuns c, r ≤ longestStreak c := by
    intro r hr
    unfold longestStreak
    obtain ⟨m, hm⟩ := Option.isSome_iff_exists.1 (List.isSome_max?_of_mem hr)
    rw [hm]
    exact (List.max?_eq_some_iff.1 hm).2 r hr
  have key : ∀ (l : List ℕ) (M : ℕ), (∀ r ∈ l, 1 ≤ r) → (∀ r ∈ l, r ≤ M) →
      l.length ≤ l.sum ∧ l.sum ≤ l.length * M := by
    intro l M
    induction l with
    | nil => intros; simp
    | cons a l ih =>
      intro h1 h2
      have h1' := h1 a (by simp)
      have h2' := h2 a (by simp)
      obtain ⟨i1, i2⟩ := ih (fun r hr => h1 r (by simp [hr])) (fun r hr => h2 r (by simp [hr]))
      simp only [List.length_cons, List.sum_cons]
      constructor
      · omega
      · rw [Nat.succ_mul]; omega
  obtain ⟨k1, k2⟩ := key _ _ h1 h2
  have hq : (0 : ℚ) < ((trueRuns c).length : ℚ) := by exact_mod_cast hl
  unfold avgStreak
  rw [if_neg (by simpa [List.isEmpty_iff] using hne), le_div_iff₀ hq, div_le_iff₀ hq]
  constructor
  · rw [one_mul]; exact_mod_cast k1
  · have : ((trueRuns c).sum : ℚ) ≤ ((trueRuns c).length * longestStreak c : ℕ) := by exact_mod_cast k2
    rw [mul_comm]; exact_mod_cast this

example : some true ∈ [some true, some true, none, some true, some false] := by simp

/-- What `query_streak` returns: positive lengths that cut the whole column into maximal pieces of equal values,
of which neighboring ones differ. -/
theorem streak_runs (c : Col Bool) :
    (streak c).sum = c.length ∧ (∀ n ∈ streak c, 1 ≤ n) ∧
    ∃ vs : List (Option Bool), vs.length = (streak c).length ∧ vs.IsChain (· ≠ ·) ∧
      (List.zipWith List.replicate (streak c) vs).flatten = c := by
  refine ⟨?_, ?_, (rle c).map Prod.snd, by simp [streak], ?_, ?_⟩
  · have := congrArg List.length (rle_expand c)
    rw [List.length_flatMap] at this
    simpa [streak] using this
  · intro n hn
    simp only [streak, List.mem_map] at hn
    obtain ⟨x, hx, rfl⟩ := hn
    exact rle_pos c x hx
  · rw [List.isChain_map]
    exact rle_chain c
  · have : ∀ l : List (ℕ × Option Bool),
        (List.zipWith List.replicate (l.map Prod.fst) (l.map Prod.snd)) = l.map fun r => List.replicate r.1 r.2 := by
      intro l
      induction l with
      | nil => rfl
      | cons a l ih => simp [ih]
    rw [streak, this, ← List.flatMap_def]
    exact rle_expand c

example : streak [some true, some true, none, some true, some false] = [2, 1, 1, 1] := by decide +kernel

/-- The documentation announces a full column of the lengths of the streaks where the condition is true.  The
result has one row per run, and the runs of false are among them. -/
theorem streak_not_full_column :
    (streak [some true, some false, some false]).length ≠ 3 ∧
    streak [some false, some false] = [2] := by
  constructor <;> decide +kernel

end Verif.TsFeat
