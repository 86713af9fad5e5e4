import Verif.Model.Xi
import Mathlib.Algebra.BigOperators.Intervals
import Mathlib.Algebra.Order.BigOperators.Group.List
import Mathlib.Data.List.Sort
import Mathlib.Tactic.Linarith
import Mathlib.Tactic.Ring
import Mathlib.Tactic.FieldSimp
import Mathlib.Tactic.NormNum
import Mathlib.Tactic.Positivity

/-!
# xi correlation: Chatterjee's formula, range, invariance, nulls
-/

namespace Verif.Xi
open Verif.Pl

namespace Spec
variable {β : Type} [LinearOrder β]

/-- How many entries of the sample are at most `v`. -/
def atMost (ys : List β) (v : β) : ℕ := ys.countP fun u => decide (u ≤ v)

/-- How many entries of the sample are at least `v`. -/
def atLeast (ys : List β) (v : β) : ℕ := ys.countP fun u => decide (v ≤ u)

/-- The total variation of a sequence of numbers. -/
def variation : List ℚ → ℚ
  | a :: b :: t => |b - a| + variation (b :: t)
  | _ => 0

/-- Chatterjee's coefficient of a sample already ordered by `x` (the definition in the paper). -/
def chatterjee (ys : List β) : ℚ :=
  1 - ys.length * variation (ys.map fun v => (atMost ys v : ℚ)) /
    (2 * (ys.map fun v => (atLeast ys v : ℚ) * (ys.length - atLeast ys v)).sum)

end Spec

open Spec
set_option linter.unusedSectionVars false
variable {α β : Type} [LinearOrder α] [LinearOrder β]

/-! ## Reading the columns -/

theorem vals_some {K : Type} (l : List K) : vals (l.map some) = l := by
  unfold vals
  induction l with
  | nil => rfl
  | cons a t ih => simp

theorem rankMax_some (ys : List β) : rankMax (ys.map some) = ys.map fun v => some (atMost ys v : ℚ) := by
  unfold rankMax
  rw [vals_some, List.map_map]
  apply List.map_congr_left
  intro v _
  simp [atMost, List.countP_eq_length_filter]

theorem rankMaxNeg_some (ys : List β) : rankMaxNeg (ys.map some) = ys.map fun v => some (atLeast ys v : ℚ) := by
  unfold rankMaxNeg
  rw [vals_some, List.map_map]
  apply List.map_congr_left
  intro v _
  simp [atLeast, List.countP_eq_length_filter]

theorem absDiff_some : ∀ r : List ℚ, sum (absDiff (r.map some)) = variation r
  | [] => rfl
  | [_] => rfl
  | a :: b :: t => by
    have ih := absDiff_some (b :: t)
    simp only [List.map_cons, absDiff, variation, opt2, sum, vals] at ih ⊢
    rw [List.filterMap_cons, ← ih]
    rfl

/-- The denominator of the model. -/
def den (ys : List β) : ℚ := (ys.map fun v => (atLeast ys v : ℚ) * (ys.length - atLeast ys v)).sum

theorem xiCorr_eq (rows : List (Option α × Option β)) (ys : List β) (h : rows.map Prod.snd = ys.map some) :
    xiCorr rows = if den ys = 0 then none else
      some (1 - (ys.length : ℚ) / 2 * variation (ys.map fun v => (atMost ys v : ℚ)) / den ys) := by
  unfold xiCorr xiSelect
  rw [h, rankMax_some, rankMaxNeg_some]
  have e1 : sum (absDiff (ys.map fun v => some (atMost ys v : ℚ))) =
      variation (ys.map fun v => (atMost ys v : ℚ)) := by
    rw [← absDiff_some, List.map_map]; rfl
  have e2 : sum ((ys.map fun v => some (atLeast ys v : ℚ)).map
      (Option.map fun v => v * ((ys.length : ℚ) - v))) = den ys := by
    unfold den sum
    rw [List.map_map]
    rw [← vals_some (ys.map fun v => (atLeast ys v : ℚ) * (ys.length - atLeast ys v)), List.map_map]
    rfl
  dsimp only
  rw [List.length_map, e1, e2]

theorem den_term_nonneg (ys : List β) (v : β) : 0 ≤ (atLeast ys v : ℚ) * (ys.length - atLeast ys v) := by
  have : atLeast ys v ≤ ys.length := List.countP_le_length
  have : (atLeast ys v : ℚ) ≤ ys.length := by exact_mod_cast this
  exact mul_nonneg (by positivity) (by linarith)

theorem den_nonneg (ys : List β) : 0 ≤ den ys :=
  List.sum_nonneg (by
    intro v hv
    obtain ⟨u, _, rfl⟩ := List.mem_map.1 hv
    exact den_term_nonneg ys u)

theorem sum_eq_zero_of_nonneg : ∀ (l : List ℚ), (∀ v ∈ l, 0 ≤ v) → l.sum = 0 → ∀ v ∈ l, v = 0
  | [], _, _, v, hv => by cases hv
  | a :: t, h, hs, v, hv => by
    have ha := h a (by simp)
    have ht : 0 ≤ t.sum := List.sum_nonneg fun u hu => h u (by simp [hu])
    rw [List.sum_cons] at hs
    rcases List.mem_cons.1 hv with rfl | hv
    · linarith
    · exact sum_eq_zero_of_nonneg t (fun u hu => h u (by simp [hu])) (by linarith) v hv

/-- **C67.** On null-free rows `xi_corr` is Chatterjee's coefficient; it is NaN exactly when all `y` are
equal. -/
theorem xi_correct (rows : List (Option α × Option β)) (ys : List β) (h : rows.map Prod.snd = ys.map some) :
    (xiCorr rows = none ↔ ∀ u ∈ ys, ∀ v ∈ ys, u = v) ∧
    ∀ c, xiCorr rows = some c → c = chatterjee ys := by
  rw [xiCorr_eq rows ys h]
  constructor
  · have hd : (den ys = 0 ↔ ∀ u ∈ ys, ∀ v ∈ ys, u = v) := by
      constructor
      · intro h0
        have hle : ∀ v ∈ ys, ∀ u ∈ ys, v ≤ u := by
          intro v hv u hu
          have hz := sum_eq_zero_of_nonneg _ (by
            intro w hw
            obtain ⟨z, _, rfl⟩ := List.mem_map.1 hw
            exact den_term_nonneg ys z) h0 _ (List.mem_map_of_mem hv)
          have hpos : 0 < atLeast ys v := List.countP_pos_iff.2 ⟨v, hv, by simp⟩
          have hq : (0 : ℚ) < atLeast ys v := by exact_mod_cast hpos
          have : (ys.length : ℚ) = atLeast ys v := by
            rcases mul_eq_zero.1 hz with h | h
            · linarith
            · linarith
          have hl : atLeast ys v = ys.length := by exact_mod_cast this.symm
          have := List.countP_eq_length.1 hl u hu
          simpa using this
        intro u hu v hv
        exact le_antisymm (hle u hu v hv) (hle v hv u hu)
      · intro hall
        unfold den
        apply List.sum_eq_zero
        intro w hw
        obtain ⟨z, hz, rfl⟩ := List.mem_map.1 hw
        have : atLeast ys z = ys.length := List.countP_eq_length.2 (by
          intro u hu
          simp [hall u hu z hz])
        rw [this]; ring
    rw [← hd]
    by_cases h0 : den ys = 0 <;> simp [h0]
  · intro c hc
    split at hc
    · cases hc
    · rename_i h0
      simp only [Option.some.injEq] at hc
      rw [← hc]
      unfold chatterjee
      change _ = 1 - _ / (2 * den ys)
      congr 1
      field_simp

example : xiCorr ([(some 1, some 5), (some 2, some 7), (some 3, some 6)] : List (Option ℕ × Option ℕ)) =
    some (-1 / 8) := by decide +kernel

/-! ## Range -/

/-- Number of places where a yes/no sequence changes. -/
def changes : List Bool → ℕ
  | a :: b :: t => (if a = b then 0 else 1) + changes (b :: t)
  | _ => 0

theorem changes_le : ∀ (l : List Bool) (c : Bool),
    changes l + (if l.head? = some c then 1 else 0) ≤ 2 * l.count c
  | [], c => by simp [changes]
  | [a], c => by cases a <;> cases c <;> simp [changes]
  | a :: b :: t, c => by
    have ih := changes_le (b :: t) c
    simp only [changes, List.head?_cons, Option.some.injEq, List.count_cons] at ih ⊢
    revert ih
    cases a <;> cases b <;> cases c <;> simp <;> omega

/-- The distance between two ranks is the number of sample entries between them. -/
theorem rank_dist (ys : List β) (a b : β) :
    |(atMost ys b : ℚ) - atMost ys a| =
      (ys.map fun u => if decide (u ≤ a) = decide (u ≤ b) then (0 : ℚ) else 1).sum := by
  have key : ∀ (ys : List β) (a b : β), a ≤ b → (atMost ys b : ℚ) - atMost ys a =
      (ys.map fun u => if decide (u ≤ a) = decide (u ≤ b) then (0 : ℚ) else 1).sum := by
    intro ys a b hab
    induction ys with
    | nil => simp [atMost]
    | cons u t ih =>
      simp only [atMost, List.countP_cons, List.map_cons, List.sum_cons] at ih ⊢
      rw [← ih]
      by_cases h1 : u ≤ a
      · have h2 : u ≤ b := le_trans h1 hab
        simp [h1, h2]
      · by_cases h2 : u ≤ b <;> simp [h1, h2]
        ring
  rcases le_total a b with h | h
  · rw [← key ys a b h, abs_of_nonneg]
    have : atMost ys a ≤ atMost ys b := List.countP_mono_left (by
      intro u _ hu
      have : u ≤ a := by simpa using hu
      simpa using le_trans this h)
    have : (atMost ys a : ℚ) ≤ atMost ys b := by exact_mod_cast this
    linarith
  · have e : (fun u => if decide (u ≤ a) = decide (u ≤ b) then (0 : ℚ) else 1) =
        fun u => if decide (u ≤ b) = decide (u ≤ a) then (0 : ℚ) else 1 := by
      funext u
      simp only [eq_comm]
    rw [e, ← key ys b a h, abs_sub_comm, abs_of_nonneg]
    have : atMost ys b ≤ atMost ys a := List.countP_mono_left (by
      intro u _ hu
      have : u ≤ b := by simpa using hu
      simpa using le_trans this h)
    have : (atMost ys b : ℚ) ≤ atMost ys a := by exact_mod_cast this
    linarith

theorem sum_map_add' {γ : Type} (l : List γ) (f g : γ → ℚ) :
    (l.map fun u => f u + g u).sum = (l.map f).sum + (l.map g).sum := by
  induction l with
  | nil => simp
  | cons a t ih => simp only [List.map_cons, List.sum_cons, ih]; ring

theorem variation_changes (ys : List β) : ∀ zs : List β,
    variation (zs.map fun v => (atMost ys v : ℚ)) =
      (ys.map fun u => (changes (zs.map fun z => decide (u ≤ z)) : ℚ)).sum
  | [] => by simp [variation, changes]
  | [_] => by simp [variation, changes]
  | a :: b :: t => by
    have ih := variation_changes ys (b :: t)
    simp only [List.map_cons, variation, changes] at ih ⊢
    rw [ih, rank_dist, ← sum_map_add']
    congr 1
    apply List.map_congr_left
    intro u _
    push_cast
    rfl

theorem count_map_true (zs : List β) (u : β) :
    (zs.map fun z => decide (u ≤ z)).count true = atLeast zs u := by
  induction zs with
  | nil => rfl
  | cons a t ih =>
    simp only [List.map_cons, List.count_cons, ih, atLeast, List.countP_cons]
    by_cases h : u ≤ a <;> simp [h]

theorem count_map_false (zs : List β) (u : β) :
    (zs.map fun z => decide (u ≤ z)).count false + atLeast zs u = zs.length := by
  induction zs with
  | nil => rfl
  | cons a t ih =>
    simp only [List.map_cons, List.count_cons, atLeast, List.countP_cons, List.length_cons] at ih ⊢
    by_cases h : u ≤ a <;> simp [h] <;> omega

theorem sum_le_sum' {γ : Type} (l : List γ) (f g : γ → ℚ) (h : ∀ u ∈ l, f u ≤ g u) :
    (l.map f).sum ≤ (l.map g).sum := by
  induction l with
  | nil => simp
  | cons a t ih =>
    simp only [List.map_cons, List.sum_cons]
    have := h a (by simp)
    have := ih fun u hu => h u (by simp [hu])
    linarith

theorem sum_map_mul' {γ : Type} (l : List γ) (c : ℚ) (f : γ → ℚ) :
    (l.map fun u => c * f u).sum = c * (l.map f).sum := by
  induction l with
  | nil => simp
  | cons a t ih => simp only [List.map_cons, List.sum_cons, ih]; ring

theorem variation_nonneg : ∀ l : List ℚ, 0 ≤ variation l
  | [] => le_refl _
  | [_] => le_refl _
  | a :: b :: t => by
    have := variation_nonneg (b :: t)
    simp only [variation]
    positivity

theorem num_le (ys : List β) :
    (ys.length : ℚ) / 2 * variation (ys.map fun v => (atMost ys v : ℚ)) ≤ 2 * den ys := by
  rw [variation_changes, den, ← sum_map_mul', ← sum_map_mul']
  apply sum_le_sum'
  intro u _
  have h1 := changes_le (ys.map fun z => decide (u ≤ z)) true
  have h2 := changes_le (ys.map fun z => decide (u ≤ z)) false
  rw [count_map_true] at h1
  have h3 := count_map_false ys u
  set T := changes (ys.map fun z => decide (u ≤ z))
  set l := atLeast ys u
  have h1' : T ≤ 2 * l := by omega
  have h2' : T + 2 * l ≤ 2 * ys.length := by omega
  have q1 : (T : ℚ) ≤ 2 * l := by exact_mod_cast h1'
  have q2 : (T : ℚ) + 2 * l ≤ 2 * ys.length := by exact_mod_cast h2'
  have q3 : (0 : ℚ) ≤ l := by positivity
  have q4 : (l : ℚ) ≤ ys.length := by
    have : l ≤ ys.length := by omega
    exact_mod_cast this
  nlinarith [mul_nonneg q3 (sub_nonneg.2 q2), mul_nonneg (sub_nonneg.2 q4) (sub_nonneg.2 q1)]

/-- **C67.** On null-free rows `xi_corr` lies between -1 and 1, whatever the ties. -/
theorem xi_range (rows : List (Option α × Option β)) (ys : List β) (h : rows.map Prod.snd = ys.map some)
    (c : ℚ) (hc : xiCorr rows = some c) : -1 ≤ c ∧ c ≤ 1 := by
  rw [xiCorr_eq rows ys h] at hc
  split at hc
  · cases hc
  · rename_i h0
    simp only [Option.some.injEq] at hc
    have hd : 0 < den ys := lt_of_le_of_ne (den_nonneg ys) (Ne.symm h0)
    have h1 : (ys.length : ℚ) / 2 * variation (ys.map fun v => (atMost ys v : ℚ)) / den ys ≤ 2 := by
      rw [div_le_iff₀ hd]; exact num_le ys
    have h2 : 0 ≤ (ys.length : ℚ) / 2 * variation (ys.map fun v => (atMost ys v : ℚ)) / den ys := by
      have := variation_nonneg (ys.map fun v => (atMost ys v : ℚ))
      positivity
    constructor <;> linarith

example : (([(some 1, some 5), (some 2, some 5), (some 3, some 6)] : List (Option ℕ × Option ℕ)).map Prod.snd =
    ([5, 5, 6] : List ℕ).map some) ∧
    xiCorr ([(some 1, some 5), (some 2, some 5), (some 3, some 6)] : List (Option ℕ × Option ℕ)) = some (1 / 4) := by
  exact ⟨rfl, by decide +kernel⟩

/-! ## Untied samples -/

theorem sum_atLeast_sorted (g : ℕ → ℚ) : ∀ s : List β, s.Pairwise (· < ·) →
    (s.map fun v => g (atLeast s v)).sum = ∑ k ∈ Finset.range s.length, g (k + 1)
  | [], _ => by simp
  | a :: t, h => by
    have ⟨ha, ht⟩ := List.pairwise_cons.1 h
    have ih := sum_atLeast_sorted g t ht
    rw [List.length_cons, Finset.sum_range_succ, ← ih, List.map_cons, List.sum_cons, add_comm]
    congr 1
    · congr 1
      apply List.map_congr_left
      intro v hv
      congr 1
      simp [atLeast, List.countP_cons, ha v hv]
    · congr 1
      have : atLeast t a = t.length := List.countP_eq_length.2 (fun u hu => by simpa using (ha u hu).le)
      simp only [atLeast, List.countP_cons] at this ⊢
      rw [this]; simp

theorem atLeast_perm {s t : List β} (h : s.Perm t) (v : β) : atLeast s v = atLeast t v := h.countP_eq _

theorem atMost_perm {s t : List β} (h : s.Perm t) (v : β) : atMost s v = atMost t v := h.countP_eq _

theorem sum_range_quad (N : ℚ) (m : ℕ) :
    ∑ k ∈ Finset.range m, (((k + 1 : ℕ) : ℚ) * (N - ((k + 1 : ℕ) : ℚ))) =
      N * m * (m + 1) / 2 - m * (m + 1) * (2 * m + 1) / 6 := by
  induction m with
  | zero => simp
  | succ m ih => rw [Finset.sum_range_succ, ih]; push_cast; ring

theorem den_untied (ys : List β) (h : ys.Nodup) :
    den ys = (ys.length : ℚ) * (ys.length ^ 2 - 1) / 6 := by
  set s := ys.mergeSort (fun a b => decide (a ≤ b)) with hs
  have hp : s.Perm ys := List.mergeSort_perm ys _
  have hsort : s.Pairwise (· < ·) := by
    have h1 : s.Pairwise (fun a b => decide (a ≤ b) = true) :=
      List.pairwise_mergeSort (fun a b c => by simpa using le_trans)
        (fun a b => by simpa using le_total a b) ys
    have h2 : s.Nodup := hp.nodup_iff.2 h
    exact (h1.and h2).imp (fun {a b} hab => lt_of_le_of_ne (by simpa using hab.1) hab.2)
  have e : den ys = (s.map fun v => (fun k : ℕ => (k : ℚ) * (s.length - k)) (atLeast s v)).sum := by
    unfold den
    rw [← (hp.map _).sum_eq]
    congr 1
    apply List.map_congr_left
    intro v _
    rw [atLeast_perm hp v, hp.length_eq]
  rw [e, sum_atLeast_sorted (fun k : ℕ => (k : ℚ) * (s.length - k)) s hsort]
  rw [sum_range_quad, hp.length_eq]
  ring

/-- **C67.** When no two `y` are equal, the coefficient is the simple formula of the paper,
`1 - 3 Σ |r(i+1) - r(i)| / (n² - 1)`. -/
theorem xi_untied (rows : List (Option α × Option β)) (ys : List β) (h : rows.map Prod.snd = ys.map some)
    (hn : ys.Nodup) (h2 : 2 ≤ ys.length) :
    xiCorr rows = some (1 - 3 * variation (ys.map fun v => (atMost ys v : ℚ)) / (ys.length ^ 2 - 1)) := by
  have q : (2 : ℚ) ≤ ys.length := by exact_mod_cast h2
  have hp : (0 : ℚ) < (ys.length : ℚ) ^ 2 - 1 := by nlinarith
  rw [xiCorr_eq rows ys h, den_untied ys hn, if_neg (by positivity)]
  congr 2
  field_simp
  ring

example : ([5, 7, 6] : List ℕ).Nodup ∧ 2 ≤ ([5, 7, 6] : List ℕ).length := by decide

theorem variation_ge : ∀ l : List ℕ, l.Nodup → (l.length : ℚ) - 1 ≤ variation (l.map (Nat.cast : ℕ → ℚ))
  | [], _ => by simp [variation]
  | [_], _ => by simp [variation]
  | a :: b :: t, h => by
    have ⟨ha, ht⟩ := List.nodup_cons.1 h
    have ih := variation_ge (b :: t) ht
    simp only [List.map_cons, variation, List.length_cons] at ih ⊢
    have hab : a ≠ b := fun e => ha (by simp [e])
    have : (1 : ℚ) ≤ |(b : ℚ) - a| := by
      have h1 : (1 : ℤ) ≤ |(b : ℤ) - a| := Int.one_le_abs (by omega)
      exact_mod_cast h1
    push_cast at ih ⊢
    linarith

theorem atMost_lt (ys : List β) (a b : β) (hb : b ∈ ys) (h : a < b) : atMost ys a < atMost ys b := by
  induction ys with
  | nil => cases hb
  | cons u t ih =>
    have hmono : atMost t a ≤ atMost t b := List.countP_mono_left (by
      intro u _ hu
      have : u ≤ a := by simpa using hu
      simpa using le_trans this h.le)
    simp only [atMost, List.countP_cons] at ih hmono ⊢
    rcases List.mem_cons.1 hb with rfl | hb
    · simp [not_le.2 h]; omega
    · have := ih hb
      by_cases h1 : u ≤ a
      · have h2 : u ≤ b := le_trans h1 h.le
        simp [h1, h2]; omega
      · simp [h1]; split <;> omega

theorem ranks_nodup (ys : List β) (h : ys.Nodup) : (ys.map (atMost ys)).Nodup := by
  apply List.Nodup.map_on _ h
  intro a ha b hb e
  rcases lt_trichotomy a b with hl | hl | hl
  · have := atMost_lt ys a b hb hl; omega
  · exact hl
  · have := atMost_lt ys b a ha hl; omega

/-- **C67.** Without ties the coefficient never exceeds `(n - 2) / (n + 1)`. -/
theorem xi_untied_max (rows : List (Option α × Option β)) (ys : List β) (h : rows.map Prod.snd = ys.map some)
    (hn : ys.Nodup) (h2 : 2 ≤ ys.length) (c : ℚ) (hc : xiCorr rows = some c) :
    c ≤ (ys.length - 2) / (ys.length + 1) := by
  rw [xi_untied rows ys h hn h2] at hc
  simp only [Option.some.injEq] at hc
  have q : (2 : ℚ) ≤ ys.length := by exact_mod_cast h2
  have hp : (0 : ℚ) < (ys.length : ℚ) ^ 2 - 1 := by nlinarith
  have hv := variation_ge _ (ranks_nodup ys hn)
  rw [List.map_map, List.length_map] at hv
  have e : ((ys.length : ℚ) - 2) / (ys.length + 1) = 1 - 3 * (ys.length - 1) / (ys.length ^ 2 - 1) := by
    have : (ys.length : ℚ) ^ 2 - 1 = (ys.length - 1) * (ys.length + 1) := by ring
    rw [this]
    have h3 : (ys.length : ℚ) - 1 ≠ 0 := by linarith
    field_simp
    ring
  rw [e, ← hc]
  have : 3 * ((ys.length : ℚ) - 1) / (ys.length ^ 2 - 1) ≤
      3 * variation (ys.map fun v => (atMost ys v : ℚ)) / (ys.length ^ 2 - 1) := by
    apply div_le_div_of_nonneg_right _ hp.le
    have : variation (ys.map fun v => (atMost ys v : ℚ)) =
      variation (ys.map ((Nat.cast : ℕ → ℚ) ∘ atMost ys)) := rfl
    rw [this]
    linarith
  linarith

example : ([5, 7, 6] : List ℕ).Nodup ∧ 2 ≤ ([5, 7, 6] : List ℕ).length := by decide

theorem variation_mono : ∀ l : List ℚ, l.Pairwise (· ≤ ·) → ∀ a b, l.head? = some a → l.getLast? = some b →
    variation l = b - a
  | [], _, a, b, h, _ => by cases h
  | [_], _, a, b, h1, h2 => by
    simp only [List.head?_cons, Option.some.injEq, List.getLast?_singleton] at h1 h2
    simp [variation, ← h1, ← h2]
  | u :: v :: t, h, a, b, h1, h2 => by
    have ⟨hu, ht⟩ := List.pairwise_cons.1 h
    simp only [List.head?_cons, Option.some.injEq] at h1
    rw [List.getLast?_cons_cons] at h2
    have ih := variation_mono (v :: t) ht v b rfl h2
    simp only [variation]
    rw [ih, abs_of_nonneg (by have := hu v (by simp); linarith), ← h1]
    ring

theorem variation_anti : ∀ l : List ℚ, l.Pairwise (· ≥ ·) → ∀ a b, l.head? = some a → l.getLast? = some b →
    variation l = a - b
  | [], _, a, b, h, _ => by cases h
  | [_], _, a, b, h1, h2 => by
    simp only [List.head?_cons, Option.some.injEq, List.getLast?_singleton] at h1 h2
    simp [variation, ← h1, ← h2]
  | u :: v :: t, h, a, b, h1, h2 => by
    have ⟨hu, ht⟩ := List.pairwise_cons.1 h
    simp only [List.head?_cons, Option.some.injEq] at h1
    rw [List.getLast?_cons_cons] at h2
    have ih := variation_anti (v :: t) ht v b rfl h2
    simp only [variation]
    rw [ih, abs_of_nonpos (by have := hu v (by simp); linarith), ← h1]
    ring

theorem atMost_mono (ys : List β) {a b : β} (h : a ≤ b) : (atMost ys a : ℚ) ≤ atMost ys b := by
  have : atMost ys a ≤ atMost ys b := List.countP_mono_left (by
    intro u _ hu
    have : u ≤ a := by simpa using hu
    simpa using le_trans this h)
  exact_mod_cast this

theorem atMost_min (ys : List β) (hn : ys.Nodup) (a : β) (ha : a ∈ ys) (h : ∀ u ∈ ys, a ≤ u) : atMost ys a = 1 := by
  have e : atMost ys a = ys.count a := by
    unfold atMost
    rw [List.count]
    apply List.countP_congr
    intro u hu
    simp only [decide_eq_true_eq, beq_iff_eq]
    exact ⟨fun hle => le_antisymm hle (h u hu), fun he => he.le⟩
  rw [e]
  exact List.count_eq_one_of_mem hn ha

theorem atMost_max (ys : List β) (b : β) (h : ∀ u ∈ ys, u ≤ b) : atMost ys b = ys.length :=
  List.countP_eq_length.2 fun u hu => by simpa using h u hu

/-- **C67.** A strictly increasing or strictly decreasing relation reaches the maximum `(n - 2) / (n + 1)`. -/
theorem xi_monotone (rows : List (Option α × Option β)) (ys : List β) (h : rows.map Prod.snd = ys.map some)
    (hm : ys.Pairwise (· < ·) ∨ ys.Pairwise (· > ·)) (h2 : 2 ≤ ys.length) :
    xiCorr rows = some (((ys.length : ℚ) - 2) / ((ys.length : ℚ) + 1)) := by
  have hn : ys.Nodup := by
    rcases hm with hm | hm
    · exact hm.imp fun hab => ne_of_lt hab
    · exact hm.imp fun hab => ne_of_gt hab
  have q : (2 : ℚ) ≤ ys.length := by exact_mod_cast h2
  obtain ⟨a, ha⟩ : ∃ a, ys.head? = some a := by
    cases ys with
    | nil => simp at h2
    | cons a t => exact ⟨a, rfl⟩
  obtain ⟨b, hb⟩ : ∃ b, ys.getLast? = some b := by
    cases hl : ys.getLast? with
    | none => rw [List.getLast?_eq_none_iff] at hl; subst hl; simp at h2
    | some b => exact ⟨b, rfl⟩
  have hah : (ys.map fun v => (atMost ys v : ℚ)).head? = some (atMost ys a : ℚ) := by
    rw [List.head?_map, ha]; rfl
  have hbl : (ys.map fun v => (atMost ys v : ℚ)).getLast? = some (atMost ys b : ℚ) := by
    rw [List.getLast?_map, hb]; rfl
  obtain ⟨t, et⟩ : ∃ t, ys = a :: t := by
    cases hy : ys with
    | nil => rw [hy] at ha; cases ha
    | cons c t => rw [hy] at ha; simp only [List.head?_cons, Option.some.injEq] at ha; exact ⟨t, by rw [ha]⟩
  obtain ⟨t', et'⟩ : ∃ t', ys = t' ++ [b] := by
    rw [List.getLast?_eq_some_iff] at hb; exact hb
  have hv : variation (ys.map fun v => (atMost ys v : ℚ)) = ys.length - 1 := by
    rcases hm with hm | hm
    · have hpw : (ys.map fun v => (atMost ys v : ℚ)).Pairwise (· ≤ ·) :=
        List.pairwise_map.2 (hm.imp fun {a b} hab => atMost_mono ys (le_of_lt hab))
      rw [variation_mono _ hpw _ _ hah hbl]
      rw [atMost_max ys b, atMost_min ys hn a (by rw [et]; simp)]
      · simp
      · intro u hu
        rw [et] at hu hm
        rcases List.mem_cons.1 hu with rfl | hu
        · exact le_refl _
        · exact ((List.pairwise_cons.1 hm).1 u hu).le
      · intro u hu
        rw [et'] at hu hm
        rcases List.mem_append.1 hu with hu | hu
        · exact ((List.pairwise_append.1 hm).2.2 u hu b (by simp)).le
        · rw [List.mem_singleton.1 hu]
    · have hpw : (ys.map fun v => (atMost ys v : ℚ)).Pairwise (· ≥ ·) :=
        List.pairwise_map.2 (hm.imp fun {a b} hab => atMost_mono ys (le_of_lt hab))
      rw [variation_anti _ hpw _ _ hah hbl]
      rw [atMost_max ys a, atMost_min ys hn b (by rw [et']; simp)]
      · simp
      · intro u hu
        rw [et'] at hu hm
        rcases List.mem_append.1 hu with hu | hu
        · exact le_of_lt ((List.pairwise_append.1 hm).2.2 u hu b (by simp))
        · rw [List.mem_singleton.1 hu]
      · intro u hu
        rw [et] at hu hm
        rcases List.mem_cons.1 hu with rfl | hu
        · exact le_refl _
        · exact le_of_lt ((List.pairwise_cons.1 hm).1 u hu)
  rw [xi_untied rows ys h hn h2, hv]
  have : (ys.length : ℚ) ^ 2 - 1 = (ys.length - 1) * (ys.length + 1) := by ring
  rw [this, Option.some.injEq]
  have h3 : (ys.length : ℚ) - 1 ≠ 0 := by linarith
  field_simp
  ring

example : ([5, 6, 9] : List ℕ).Pairwise (· < ·) ∧ 2 ≤ ([5, 6, 9] : List ℕ).length := by decide

/-! ## Invariance -/

/-- **C67.** Only the order of `y` matters: a strictly increasing transformation of `y` (nulls included)
changes nothing. -/
theorem xi_invariant {γ : Type} [LinearOrder γ] (f : β → γ) (hf : StrictMono f)
    (rows : List (Option α × Option β)) :
    xiCorr (rows.map fun p => (p.1, p.2.map f)) = xiCorr rows := by
  have hv : ∀ y : List (Option β), vals (y.map (Option.map f)) = (vals y).map f := by
    intro y
    induction y with
    | nil => rfl
    | cons o t ih => cases o <;> simp [vals] at ih ⊢ <;> exact ih
  have e0 : (rows.map fun p => (p.1, p.2.map f)).map Prod.snd = (rows.map Prod.snd).map (Option.map f) := by
    rw [List.map_map, List.map_map]; rfl
  have e1 : rankMax ((rows.map Prod.snd).map (Option.map f)) = rankMax (rows.map Prod.snd) := by
    unfold rankMax
    rw [hv, List.map_map]
    apply List.map_congr_left
    intro o _
    cases o with
    | none => rfl
    | some v =>
      simp only [Function.comp, Option.map_some, Option.some.injEq, Nat.cast_inj]
      rw [List.filter_map, List.length_map]
      congr 1
      apply List.filter_congr
      intro u _
      simp [hf.le_iff_le]
  have e2 : rankMaxNeg ((rows.map Prod.snd).map (Option.map f)) = rankMaxNeg (rows.map Prod.snd) := by
    unfold rankMaxNeg
    rw [hv, List.map_map]
    apply List.map_congr_left
    intro o _
    cases o with
    | none => rfl
    | some v =>
      simp only [Function.comp, Option.map_some, Option.some.injEq, Nat.cast_inj]
      rw [List.filter_map, List.length_map]
      congr 1
      apply List.filter_congr
      intro u _
      simp [hf.le_iff_le]
  unfold xiCorr
  rw [e0, e1, e2]

example : StrictMono (fun n : ℕ => 2 * n + 1) := fun a b h => by dsimp only; omega

/-- **C67.** When no two rows share their `x`, the seed of the random tie break does not matter: only one row
order is possible. -/
theorem xi_seed_irrelevant (rows o1 o2 : List (Option α × Option β)) (h1 : Ordered rows o1) (h2 : Ordered rows o2)
    (hx : (rows.map Prod.fst).Nodup) : o1 = o2 := by
  have hinj : ∀ p ∈ rows, ∀ q ∈ rows, p.1 = q.1 → p = q := fun p hp q hq e =>
    List.inj_on_of_nodup_map hx hp hq e
  refine List.Perm.eq_of_pairwise ?_ h1.2 h2.2 (h1.1.trans h2.1.symm)
  intro p q hp hq hpq hqp
  apply hinj p (h1.1.subset hp) q (h2.1.subset hq)
  obtain ⟨px, py⟩ := p
  obtain ⟨qx, qy⟩ := q
  cases px with
  | none => cases qx with
    | none => rfl
    | some v => exact hqp.elim
  | some u => cases qx with
    | none => exact hpq.elim
    | some v => exact congrArg some (le_antisymm hpq hqp)

example : Ordered [(some 2, some 5), (some 1, some 7)] [(some 1, some 7), (some 2, some 5)] ∧
    ([(some 2, some 5), (some 1, some 7)].map (Prod.fst : Option ℕ × Option ℕ → Option ℕ)).Nodup := by
  refine ⟨⟨List.Perm.swap _ _ _, by simp⟩, by decide⟩

/-! ## Nulls -/

/-- **C67 (disagreement).** A null `y` is not left out: it still counts as a row and breaks the chain of
differences, so three rows `1, null, 2` get the value 1, where the two complete rows get 0 and no complete
sample of distinct values can reach 1. -/
theorem xi_null_wrong :
    xiCorr ([(some 1, some 1), (some 2, none), (some 3, some 2)] : List (Option ℕ × Option ℕ)) = some 1 ∧
    xiCorr ([(some 1, some 1), (some 3, some 2)] : List (Option ℕ × Option ℕ)) = some 0 := by
  constructor <;> decide +kernel

end Verif.Xi
