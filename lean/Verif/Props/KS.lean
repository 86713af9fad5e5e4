import Verif.Lemmas.KS
import Verif.Lemmas.Arith
import Mathlib.Tactic.Positivity

/-!
# Property C25: the two-sample KS statistic
-/

namespace Verif.KS
open Verif
variable {K : Type} [Field K] [LinearOrder K] [IsStrictOrderedRing K]

/-- **C25.** With more than 30 usable values on both sides the expression reports a number `D` that bounds the
gap of the empirical distribution functions at *every* `t`, is attained at a sample point, and lies in
`[0, 1]`; otherwise it reports the degenerate result. -/
theorem ks_is_sup (us : USort) (fmin : K) (hmin : fmin ≤ 0) (c1 c2 : List (Option K)) :
    let s1 := c1.filterMap id
    let s2 := c2.filterMap id
    (s1.length ≤ 30 ∨ s2.length ≤ 30 → ks2samp us fmin c1 c2 = .tooSmall) ∧
    (30 < s1.length → 30 < s2.length → ∃ D, ks2samp us fmin c1 c2 = .stat D ∧
      (∀ t, |Spec.ecdf s1 t - Spec.ecdf s2 t| ≤ D) ∧
      (∃ t, (t ∈ s1 ∨ t ∈ s2) ∧ D = |Spec.ecdf s1 t - Spec.ecdf s2 t|) ∧ 0 ≤ D ∧ D ≤ 1) := by
  intro s1 s2
  have p1 := us.perm (fun a b : K => decide (a ≤ b)) s1
  have p2 := us.perm (fun a b : K => decide (a ≤ b)) s2
  have srt : ∀ s : List K, (us.run (fun a b : K => decide (a ≤ b)) s).Pairwise (· ≤ ·) := by
    intro s
    have := us.sorted (fun a b : K => decide (a ≤ b))
      (by intro a b c h1 h2; simp only [decide_eq_true_eq] at *; exact le_trans h1 h2)
      (by intro a b; simp only [Bool.or_eq_true, decide_eq_true_eq]; exact le_total _ _) s
    simpa using this
  refine ⟨fun h => ?_, fun h1 h2 => ?_⟩
  · have h' : (us.run (fun a b : K => decide (a ≤ b)) s1).length ≤ 30 ∨
        (us.run (fun a b : K => decide (a ≤ b)) s2).length ≤ 30 := by
      rw [p1.length_eq, p2.length_eq]; exact h
    simp only [ks2samp]
    exact if_pos h'
  · have h' : ¬ ((us.run (fun a b : K => decide (a ≤ b)) s1).length ≤ 30 ∨
        (us.run (fun a b : K => decide (a ≤ b)) s2).length ≤ 30) := by
      rw [p1.length_eq, p2.length_eq]; omega
    set v1 := us.run (fun a b : K => decide (a ≤ b)) s1 with hv1
    set v2 := us.run (fun a b : K => decide (a ≤ b)) s2 with hv2
    have hst : ksStat fmin v1 v2 =
        some (((v1 ++ v2).map fun x => |Spec.ecdf v1 x - Spec.ecdf v2 x|).foldl max fmin) := by
      unfold ksStat
      rw [mapM_some _ _ _ (gapAt_spec v1 v2 (srt s1) (srt s2))]
      rfl
    obtain ⟨f1, f2, f3⟩ := foldl_max_spec ((v1 ++ v2).map fun x => |Spec.ecdf v1 x - Spec.ecdf v2 x|) fmin
    set D := ((v1 ++ v2).map fun x => |Spec.ecdf v1 x - Spec.ecdf v2 x|).foldl max fmin with hD
    have hE1 : ∀ t, Spec.ecdf v1 t = Spec.ecdf s1 t := ecdf_perm p1
    have hE2 : ∀ t, Spec.ecdf v2 t = Spec.ecdf s2 t := ecdf_perm p2
    have hpt : ∀ x, x ∈ s1 ∨ x ∈ s2 → |Spec.ecdf s1 x - Spec.ecdf s2 x| ≤ D := by
      intro x hx
      rw [← hE1, ← hE2]
      refine f2 _ (List.mem_map.2 ⟨x, List.mem_append.2 ?_, rfl⟩)
      rcases hx with hx | hx
      · exact .inl (p1.mem_iff.2 hx)
      · exact .inr (p2.mem_iff.2 hx)
    have h0 : 0 ≤ D := by
      obtain ⟨x, hx⟩ : ∃ x, x ∈ s1 := by
        cases hs : s1 with
        | nil => rw [hs] at h1; simp at h1
        | cons a l => exact ⟨a, by simp⟩
      exact le_trans (abs_nonneg _) (hpt x (.inl hx))
    have hatt : ∃ t, (t ∈ s1 ∨ t ∈ s2) ∧ D = |Spec.ecdf s1 t - Spec.ecdf s2 t| := by
      have hmem : D ∈ (v1 ++ v2).map fun x => |Spec.ecdf v1 x - Spec.ecdf v2 x| := by
        rcases f3 with f3 | f3
        · -- the start value can only survive if it is not below the gaps
          obtain ⟨x, hx⟩ : ∃ x, x ∈ v1 := by
            cases hs : v1 with
            | nil => rw [hs] at h'; simp at h'
            | cons a l => exact ⟨a, by simp⟩
          have hle := f2 _ (List.mem_map.2 ⟨x, List.mem_append.2 (.inl hx), rfl⟩)
          have : |Spec.ecdf v1 x - Spec.ecdf v2 x| = D := by
            apply le_antisymm hle
            rw [f3]
            exact le_trans hmin (abs_nonneg _)
          rw [← this]
          exact List.mem_map.2 ⟨x, List.mem_append.2 (.inl hx), rfl⟩
        · exact f3
      obtain ⟨t, ht, hDt⟩ := List.mem_map.1 hmem
      refine ⟨t, ?_, by rw [← hE1, ← hE2]; exact hDt.symm⟩
      rcases List.mem_append.1 ht with ht | ht
      · exact .inl (p1.mem_iff.1 ht)
      · exact .inr (p2.mem_iff.1 ht)
    refine ⟨D, ?_, ?_, hatt, h0, ?_⟩
    · simp only [ks2samp]
      refine (if_neg h').trans ?_
      rw [hst]
    · intro t
      rcases exists_pred (s1 ++ s2) t with h | ⟨s, hs, hst', h⟩
      · have z : ∀ l : List K, (∀ x ∈ l, t < x) → Spec.ecdf l t = 0 := by
          intro l hl
          have hz : l.countP (fun x => decide (x ≤ t)) = 0 := by
            rw [List.countP_eq_zero]; intro x hx; simpa using hl x hx
          simp [Spec.ecdf, hz]
        rw [z s1 (fun x hx => h x (List.mem_append_left _ hx)),
          z s2 (fun x hx => h x (List.mem_append_right _ hx)), sub_self, abs_zero]
        exact h0
      · have e : ∀ l : List K, (∀ x ∈ l, x ∈ s1 ++ s2) → Spec.ecdf l t = Spec.ecdf l s := by
          intro l hl
          apply ecdf_congr
          intro x hx
          exact ⟨fun hx' => h x (hl x hx) hx', fun hx' => le_trans hx' hst'⟩
        rw [e s1 (fun x hx => List.mem_append_left _ hx), e s2 (fun x hx => List.mem_append_right _ hx)]
        exact hpt s (List.mem_append.1 hs)
    · obtain ⟨t, _, ht⟩ := hatt
      rw [ht, abs_le]
      have b1 := ecdf_bounds s1 t
      have b2 := ecdf_bounds s2 t
      constructor <;> linarith [b1.1, b1.2, b2.1, b2.2]

/-- **C25**, symmetry in the samples (and independence of the sort used and of the row order). -/
theorem ks_symm (us us' : USort) (fmin : K) (hmin : fmin ≤ 0) (c1 c2 c1' c2' : List (Option K))
    (h1 : (c1.filterMap id).Perm (c1'.filterMap id)) (h2 : (c2.filterMap id).Perm (c2'.filterMap id)) :
    ks2samp us fmin c1 c2 = ks2samp us' fmin c2' c1' := by
  obtain ⟨a1, a2⟩ := ks_is_sup us fmin hmin c1 c2
  obtain ⟨b1, b2⟩ := ks_is_sup us' fmin hmin c2' c1'
  by_cases hs : (c1.filterMap id).length ≤ 30 ∨ (c2.filterMap id).length ≤ 30
  · rw [a1 hs, b1 (by rw [← h1.length_eq, ← h2.length_eq]; exact hs.symm)]
  · have hs1 : 30 < (c1.filterMap id).length := by omega
    have hs2 : 30 < (c2.filterMap id).length := by omega
    obtain ⟨D, e, hD, ⟨t, _, ht⟩, _⟩ := a2 hs1 hs2
    obtain ⟨D', e', hD', ⟨t', _, ht'⟩, _⟩ := b2 (by rw [← h2.length_eq]; exact hs2)
      (by rw [← h1.length_eq]; exact hs1)
    rw [e, e']
    congr 1
    apply le_antisymm
    · rw [ht, abs_sub_comm, ecdf_perm h1, ecdf_perm h2]; exact hD' t
    · rw [ht', abs_sub_comm, ← ecdf_perm h1, ← ecdf_perm h2]; exact hD t'

/-- **C25**, the binary form compares the values of the two classes. -/
theorem ks_binary (us : USort) (fmin : K) (rows : List (Option Int × Option K)) :
    ksBinary us fmin rows = ks2samp us fmin
      (rows.flatMap fun r => if r.1 = some 1 then [r.2] else [])
      (rows.flatMap fun r => if r.1 = some 0 then [r.2] else []) := by
  have e : ∀ k : Option Int, (rows.filter fun r => r.1 == k).map (·.2) =
      rows.flatMap fun r => if r.1 = k then [r.2] else [] := by
    intro k
    induction rows with
    | nil => rfl
    | cons r rows ih =>
      by_cases h : r.1 = k
      · simp [List.filter_cons, h]
        simpa using ih
      · simp [List.filter_cons, h]
        simpa using ih
  simp only [ksBinary, e]

/-- 31 values against 31 shifted ones (with a null): the statistic is `10/31`. -/
example : ks2samp (K := ℚ) insertionUSort (-1) ((List.range 31).map fun i => some (i : ℚ))
    (none :: (List.range 31).map fun i => some ((i + 10 : Nat) : ℚ)) = .stat (10 / 31) := by
  decide +kernel

example : ks2samp (K := ℚ) insertionUSort (-1) [some 1, some 2] [some 1] = .tooSmall := by decide +kernel

end Verif.KS
