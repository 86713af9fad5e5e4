import Verif.Model.FTest
import Verif.Props.Chi2

/-!
# One-way F test: theorems
-/

namespace Verif.FTest.Spec
variable {κ K : Type} [DecidableEq κ] [Field K]

/-- The values of a group. -/
def vals (rows : List (κ × K)) (k : κ) : List K := (rows.filter fun p => decide (p.1 = k)).map Prod.snd

/-- The mean of a list. -/
def mean (xs : List K) : K := xs.sum / (xs.length : K)

/-- Sum of squared deviations from `m`. -/
def ss (xs : List K) (m : K) : K := (xs.map fun x => (x - m) ^ 2).sum

/-- Sum of squares between the groups. -/
def ssb (rows : List (κ × K)) (ks : List κ) : K :=
  (ks.map fun k => ((vals rows k).length : K) * (mean (vals rows k) - mean (rows.map Prod.snd)) ^ 2).sum

/-- Sum of squares within the groups. -/
def ssw (rows : List (κ × K)) (ks : List κ) : K :=
  (ks.map fun k => ss (vals rows k) (mean (vals rows k))).sum

end Verif.FTest.Spec

namespace Verif.FTest
open Verif.FTest.Spec Verif.Chi2.Spec
set_option linter.unusedSectionVars false
variable {κ K : Type} [DecidableEq κ] [Field K] [LinearOrder K] [IsStrictOrderedRing K]

/-- Rows without nulls. -/
def lift (rows : List (κ × K)) : List (Option κ × Option K) := rows.map fun p => (some p.1, some p.2)

theorem group_lift (rows : List (κ × K)) (k : κ) : group (lift rows) (some k) = (vals rows k).map some := by
  unfold group lift vals
  rw [List.filter_map, List.map_map, List.map_map]
  congr 1
  apply List.filter_congr
  intro p _
  simp

theorem filterMap_some (xs : List K) : (xs.map some).filterMap id = xs := by
  rw [List.filterMap_map]
  simp

theorem cnt_lift (rows : List (κ × K)) (k : κ) : cnt (lift rows) (some k) = (vals rows k).length := by
  unfold cnt
  rw [group_lift, List.length_map]

theorem gsum_lift (rows : List (κ × K)) (k : κ) : gsum (lift rows) (some k) = (vals rows k).sum := by
  unfold gsum
  rw [group_lift, filterMap_some]

/-- Summing over the groups and then within them is summing over the rows. -/
theorem sum_groups (rows : List (κ × K)) (ks : List κ) (hk : ks.Nodup) (hm : ∀ p ∈ rows, p.1 ∈ ks) (f : K → K) :
    (ks.map fun k => ((vals rows k).map f).sum).sum = ((rows.map Prod.snd).map f).sum := by
  induction rows with
  | nil =>
    rw [List.sum_eq_zero]
    · simp
    · intro x hx
      obtain ⟨k, _, rfl⟩ := List.mem_map.1 hx
      simp [vals]
  | cons p rows ih =>
    have ih := ih fun q hq => hm q (List.mem_cons_of_mem _ hq)
    have hp := hm p List.mem_cons_self
    have e : (fun k => ((vals (p :: rows) k).map f).sum) =
        fun k => (if p.1 = k then f p.2 else 0) + ((vals rows k).map f).sum := by
      funext k
      unfold vals
      by_cases h : p.1 = k
      · rw [List.filter_cons_of_pos (by simpa using h), List.map_cons, List.map_cons, List.sum_cons, if_pos h]
      · rw [List.filter_cons_of_neg (by simpa using h), if_neg h, zero_add]
    rw [e, List.sum_map_add, ih, List.map_cons, List.map_cons, List.sum_cons]
    congr 1
    clear * - hk hp
    induction ks with
    | nil => exact absurd hp (by simp)
    | cons k ks ih =>
      obtain ⟨hk1, hk2⟩ := List.nodup_cons.1 hk
      rw [List.map_cons, List.sum_cons]
      by_cases h : p.1 = k
      · rw [if_pos h, List.sum_eq_zero, add_zero]
        intro x hx
        obtain ⟨k', hk', rfl⟩ := List.mem_map.1 hx
        rw [if_neg]
        rintro rfl
        exact hk1 (h ▸ hk')
      · rw [if_neg h, zero_add]
        exact ih hk2 ((List.mem_cons.1 hp).resolve_left h)

theorem length_groups (rows : List (κ × K)) (ks : List κ) (hk : ks.Nodup) (hm : ∀ p ∈ rows, p.1 ∈ ks) :
    (ks.map fun k => (vals rows k).length).sum = rows.length := by
  have h := Psi.sum_count_nodup ks hk (rows.map Prod.fst) (by
    intro x hx
    obtain ⟨p, hp, rfl⟩ := List.mem_map.1 hx
    exact hm p hp)
  rw [List.length_map] at h
  rw [← h]
  congr 1
  apply List.map_congr_left
  intro k _
  unfold vals
  rw [List.length_map, List.count_eq_countP, List.countP_map, List.countP_eq_length_filter]
  congr 1

/-- Steiner's identity. -/
theorem ss_shift (xs : List K) (hx : xs ≠ []) (m : K) :
    ss xs m = ss xs (mean xs) + (xs.length : K) * (mean xs - m) ^ 2 := by
  have hn : (xs.length : K) ≠ 0 := by
    have := List.length_pos_iff.2 hx
    exact_mod_cast this.ne'
  have lin : ∀ (l : List K) (a b : K), ss l b = ss l a + 2 * (a - b) * (l.sum - (l.length : K) * a) +
      (l.length : K) * (a - b) ^ 2 := by
    intro l a b
    induction l with
    | nil => simp [ss]
    | cons x l ih =>
      unfold ss at ih ⊢
      rw [List.map_cons, List.sum_cons, List.map_cons, List.sum_cons, ih, List.sum_cons, List.length_cons]
      push_cast
      ring
  rw [lin xs (mean xs) m]
  have : xs.sum - (xs.length : K) * mean xs = 0 := by
    unfold mean
    field_simp
    ring
  rw [this]
  ring

theorem ss_nonneg (xs : List K) (m : K) : 0 ≤ ss xs m := by
  apply List.sum_nonneg
  intro x hx
  obtain ⟨y, _, rfl⟩ := List.mem_map.1 hx
  exact sq_nonneg _

theorem vals_ne_nil (rows : List (κ × K)) (k : κ) (h : k ∈ rows.map Prod.fst) : vals rows k ≠ [] := by
  obtain ⟨p, hp, rfl⟩ := List.mem_map.1 h
  intro h0
  have : p.2 ∈ vals rows p.1 := List.mem_map_of_mem (f := Prod.snd) (List.mem_filter.2 ⟨hp, by simp⟩)
  rw [h0] at this
  exact absurd this (by simp)

/-- The two sums of squares are not negative and add up to the total sum of squares. -/
theorem ss_decomposition (rows : List (κ × K)) (ks : List κ) (hk : Levels (rows.map Prod.fst) ks) :
    0 ≤ ssb rows ks ∧ 0 ≤ ssw rows ks ∧
    ssb rows ks + ssw rows ks = ss (rows.map Prod.snd) (mean (rows.map Prod.snd)) := by
  refine ⟨?_, ?_, ?_⟩
  · apply List.sum_nonneg
    intro x hx
    obtain ⟨k, _, rfl⟩ := List.mem_map.1 hx
    exact mul_nonneg (Nat.cast_nonneg _) (sq_nonneg _)
  · apply List.sum_nonneg
    intro x hx
    obtain ⟨k, _, rfl⟩ := List.mem_map.1 hx
    exact ss_nonneg _ _
  · have h := sum_groups rows ks hk.1 (fun p hp => (hk.2 _).2 (List.mem_map_of_mem hp))
      (fun x => (x - mean (rows.map Prod.snd)) ^ 2)
    unfold ss
    rw [← h]
    unfold ssb ssw
    rw [← List.sum_map_add]
    congr 1
    apply List.map_congr_left
    intro k hkk
    have := ss_shift (vals rows k) (vals_ne_nil rows k ((hk.2 k).1 hkk)) (mean (rows.map Prod.snd))
    unfold ss at this
    rw [this]
    unfold ss
    ring

theorem nSamples_lift (rows : List (κ × K)) (ks : List κ) (hk : Levels (rows.map Prod.fst) ks) :
    nSamples (lift rows) (ks.map some) = rows.length := by
  unfold nSamples
  rw [List.map_map, ← length_groups rows ks hk.1 (fun p hp => (hk.2 _).2 (List.mem_map_of_mem hp))]
  congr 1
  apply List.map_congr_left
  intro k _
  exact cnt_lift rows k

theorem between_lift (rows : List (κ × K)) (ks : List κ) (hk : Levels (rows.map Prod.fst) ks) :
    between (lift rows) (ks.map some) = ssb rows ks := by
  have hs : ((ks.map some).map (gsum (lift rows))).sum = (rows.map Prod.snd).sum := by
    have h := sum_groups rows ks hk.1 (fun p hp => (hk.2 _).2 (List.mem_map_of_mem hp)) id
    rw [List.map_id] at h
    rw [← h, List.map_map]
    congr 1
    apply List.map_congr_left
    intro k _
    rw [List.map_id]
    exact gsum_lift rows k
  unfold between
  rw [hs, nSamples_lift rows ks hk, List.map_map]
  unfold ssb
  congr 1
  apply List.map_congr_left
  intro k _
  simp only [Function.comp]
  rw [gsum_lift, cnt_lift]
  unfold mean
  rw [List.length_map]
  ring

theorem within_lift (rows : List (κ × K)) (ks : List κ) (hk : Levels (rows.map Prod.fst) ks) :
    within (lift rows) (ks.map some) = ssw rows ks := by
  have aux : ∀ l : List κ, (∀ k ∈ l, k ∈ ks) →
      ((l.map some).filterMap fun k => (gvar (lift rows) k).map fun v => v * (cnt (lift rows) k : K)) =
      l.map fun k => ss (vals rows k) (mean (vals rows k)) := by
    intro l hl
    induction l with
    | nil => rfl
    | cons k l ih =>
      have hne := vals_ne_nil rows k ((hk.2 k).1 (hl k List.mem_cons_self))
      have hlen : (vals rows k).length ≠ 0 := (List.length_pos_iff.2 hne).ne'
      have hn : ((vals rows k).length : K) ≠ 0 := by exact_mod_cast hlen
      have hg : gvar (lift rows) (some k) = some (popVar (vals rows k)) := by
        unfold gvar
        simp only [group_lift, filterMap_some]
        rw [if_neg hlen]
      rw [List.map_cons, List.map_cons]
      have hhead : (gvar (lift rows) (some k)).map (fun v => v * (cnt (lift rows) (some k) : K)) =
          some (ss (vals rows k) (mean (vals rows k))) := by
        rw [hg, cnt_lift]
        simp only [Option.map_some, Option.some.injEq]
        unfold popVar ss mean
        rw [div_mul_cancel₀ _ hn]
      rw [List.filterMap_cons_some (f := fun k => (gvar (lift rows) k).map fun v => v * (cnt (lift rows) k : K)) hhead, ih fun k' hk' => hl k' (List.mem_cons_of_mem _ hk')]
  unfold within ssw
  rw [aux ks fun k hk => hk]

/-- Without nulls: an error iff there is at most one group or row; otherwise the statistic is
`(SSB / (k - 1)) / (SSW / (n - k))`, not finite iff `SSW = 0`.  (With nulls the claim fails, see below.) -/
theorem f_test_textbook_partial (rows : List (κ × K)) (ks : List κ) (hk : Levels (rows.map Prod.fst) ks) :
    (fTest (lift rows) (ks.map some) = .error ↔ ks.length ≤ 1 ∨ rows.length ≤ 1) ∧
    (2 ≤ ks.length → 2 ≤ rows.length → ssw rows ks = 0 → fTest (lift rows) (ks.map some) = .notFinite) ∧
    (2 ≤ ks.length → 2 ≤ rows.length → ssw rows ks ≠ 0 → fTest (lift rows) (ks.map some) =
      .value ((ssb rows ks / ((ks.length : K) - 1)) / (ssw rows ks / ((rows.length : K) - (ks.length : K))))) := by
  have hn := nSamples_lift rows ks hk
  have hc : (ks.map some).countP (fun k => k.isSome) = ks.length := by
    rw [List.countP_map, List.countP_eq_length.2]
    intro k _
    rfl
  have hkn : ks.length ≤ rows.length := by
    have hsub : ks.Subperm (rows.map Prod.fst) := List.subperm_of_subset hk.1 fun x hx => (hk.2 x).1 hx
    have := hsub.length_le
    rwa [List.length_map] at this
  unfold fTest
  simp only [hn, hc, between_lift rows ks hk, within_lift rows ks hk]
  refine ⟨?_, ?_, ?_⟩
  · by_cases h : ks.length ≤ 1 ∨ rows.length ≤ 1
    · rw [if_pos h]; simp [h]
    · rw [if_neg h]
      by_cases h0 : ssw rows ks = 0
      · rw [if_pos h0]; simp [h]
      · rw [if_neg h0]; simp [h]
  · intro h1 h2 h0
    rw [if_neg (by omega), if_pos h0]
  · intro h1 h2 h0
    rw [if_neg (by omega), if_neg h0]
    have e1 : ((rows.length - ks.length + (ks.length - rows.length) : Nat) : K) = (rows.length : K) - (ks.length : K) := by
      rw [show rows.length - ks.length + (ks.length - rows.length) = rows.length - ks.length from by omega]
      rw [Nat.cast_sub hkn]
    have e2 : ((ks.length - 1 + (1 - ks.length) : Nat) : K) = (ks.length : K) - 1 := by
      rw [show ks.length - 1 + (1 - ks.length) = ks.length - 1 from by omega]
      rw [Nat.cast_sub (by omega), Nat.cast_one]
    rw [e1, e2]
    congr 1
    rw [div_div_div_eq, div_mul_div_comm]
    congr 1
    ring

/-- A null value changes the result: the group sizes count it, the sums do not.  Without the null row the statistic of
these rows is 8. -/
theorem f_test_null_value :
    fTest (K := ℚ) [(some 0, some 1), (some 0, some 3), (some 0, none), (some 1, some 5), (some 1, some 7)]
      [some 0, some 1] = .value (392 / 25) ∧
    fTest (K := ℚ) [(some 0, some 1), (some 0, some 3), (some 1, some 5), (some 1, some 7)]
      [some 0, some 1] = .value 8 := by decide +kernel

/-- Rows with a null key are a group for the sums of squares but not for the degrees of freedom: with them the two
calls would agree if they were dropped (or counted as a group). -/
theorem f_test_null_key :
    fTest (K := ℚ) [(some 0, some 1), (some 0, some 3), (some 1, some 5), (some 1, some 7), (none, some 0),
      (none, some 2)] [some 0, some 1, none] = .value (56 / 3) ∧
    fTest (K := ℚ) [(some 0, some 1), (some 0, some 3), (some 1, some 5), (some 1, some 7), (some 2, some 0),
      (some 2, some 2)] [some 0, some 1, some 2] = .value 7 := by decide +kernel

example : Levels ([(0, (1 : ℚ)), (0, 3), (1, 5), (1, 7)].map Prod.fst) [0, 1] := ⟨by decide, by intro x; simp⟩
example : fTest (K := ℚ) (lift [(0, 1), (0, 3), (1, 5), (1, 7)]) ([0, 1].map some) = .value 8 := by
  rw [(f_test_textbook_partial [(0, (1 : ℚ)), (0, 3), (1, 5), (1, 7)] [0, 1] ⟨by decide, by intro x; simp⟩).2.2
    (by decide) (by decide) (by decide +kernel)]
  decide +kernel
example : ssb [(0, (1 : ℚ)), (0, 3), (1, 5), (1, 7)] [0, 1] = 16 ∧ ssw [(0, (1 : ℚ)), (0, 3), (1, 5), (1, 7)] [0, 1] = 4 := by
  decide +kernel
example : ssb [(0, (1 : ℚ)), (1, 5)] [0, 1] + ssw [(0, (1 : ℚ)), (1, 5)] [0, 1] = 8 := by
  rw [(ss_decomposition [(0, (1 : ℚ)), (1, 5)] [0, 1] ⟨by decide, by intro x; simp⟩).2.2]
  decide +kernel

end Verif.FTest
