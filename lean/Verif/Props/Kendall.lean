import Verif.Lemmas.Kendall
import Verif.Lemmas.Arith
import Mathlib.Analysis.Real.Sqrt

/-!
# Property C24: Kendall's tau is its pairwise definition
-/

namespace Verif.Kendall
open Verif

theorem complete_eq (rows : List (Option Nat × Option Nat)) :
    rows.filterMap bothPresent = Spec.complete rows := by
  induction rows with
  | nil => rfl
  | cons r rows ih =>
    rcases r with ⟨_ | x, _ | y⟩ <;> simp [List.filterMap_cons, Spec.complete, bothPresent] at ih ⊢ <;> exact ih

/-- **C24.** For every pair of columns (any length, ties and nulls) and every sorting routine: NaN below two
complete rows; otherwise the numerator is concordant minus discordant pairs, and the factors under the root
are the numbers of pairs not tied in the first and in the second column. -/
theorem kendall_pairwise (us : USort) (rows : List (Option Nat × Option Nat)) :
    ((Spec.complete rows).length ≤ 1 → kendallTau us rows = .nan) ∧
    (2 ≤ (Spec.complete rows).length → kendallTau us rows =
      .quot ((Spec.pairs Spec.concordant (Spec.complete rows) : Int) -
              Spec.pairs Spec.discordant (Spec.complete rows))
            ((Spec.complete rows).length.choose 2 - Spec.pairs Spec.tiedX (Spec.complete rows))
            ((Spec.complete rows).length.choose 2 - Spec.pairs Spec.tiedY (Spec.complete rows))) := by
  unfold kendallTau
  rw [complete_eq]
  set l0 := Spec.complete rows
  have hperm := us.perm lexLe l0
  have hsort := us.sorted lexLe
    (by intro a b c h1 h2; rw [lexLe_iff] at *; omega)
    (by intro a b; rw [Bool.or_eq_true, lexLe_iff, lexLe_iff]; omega) l0
  revert hperm hsort
  rcases us.run lexLe l0 with _ | ⟨p, _ | ⟨q, rest⟩⟩ <;> intro hperm hsort
  · have := hperm.length_eq
    simp only [List.length_nil] at this
    exact ⟨fun _ => rfl, fun h => by omega⟩
  · have := hperm.length_eq
    simp only [List.length_singleton] at this
    exact ⟨fun _ => rfl, fun h => by omega⟩
  · have hlen := hperm.length_eq
    refine ⟨fun h => ?_, fun _ => ?_⟩
    · simp only [List.length_cons] at hlen; omega
    · simp only
      set l := p :: q :: rest with hl
      have hsym : ∀ P : Nat × Nat → Nat × Nat → Bool, (∀ a b, P a b = P b a) →
          Spec.pairs P l0 = Spec.pairs P l := fun P hP => pairs_perm hP hperm.symm
      have ec := hsym Spec.concordant (by
        intro a b; simp only [Spec.concordant]; rw [Bool.or_comm])
      have ed := hsym Spec.discordant (by
        intro a b; rw [Bool.eq_iff_iff]; simp only [Spec.discordant, Bool.or_eq_true, Bool.and_eq_true,
          decide_eq_true_eq]; omega)
      have ex := hsym Spec.tiedX (by intro a b; simp [Spec.tiedX, Bool.beq_comm])
      have ey := hsym Spec.tiedY (by intro a b; simp [Spec.tiedY, Bool.beq_comm])
      rw [ec, ed, ex, ey, ties_spec p (q :: rest) hsort, ← hlen]
      obtain ⟨s1, s2, s3⟩ := sort_spec (l.map (·.2))
      rw [List.length_map] at s1 s2 s3
      have ety : tiesY (sortLoop l.length 1 (l.map (·.2), 0)).1 = Spec.pairs Spec.tiedY l := by
        rw [tiesY_spec _ s2, pairs_perm (by intro a b; simp [Bool.beq_comm]) s1, pairs_map]
        rfl
      rw [ety, s3, inv_discordant hsort]
      have hpart := pairs_partition l
      rw [pairs_true] at hpart
      have hch : l.length.choose 2 = half l.length := Nat.choose_two_right _
      have hn : ((l.length * (l.length - 1)) / 2 : Nat) = half l.length := rfl
      rw [hch, hn]
      simp only [Tau.quot.injEq]
      refine ⟨?_, ?_, ?_⟩
      · rw [← hl]; push_cast; omega
      · rw [← hl]
      · trivial

/-- The reported number, when it is one. -/
noncomputable def Tau.value : Tau → Option ℝ
  | .nan => none
  | .quot num d1 d2 => if d1 * d2 = 0 then none else some (num / Real.sqrt (d1 * d2))

/-- **C24**, range: whenever tau is a number it lies between -1 and 1. -/
theorem kendall_range (us : USort) (rows : List (Option Nat × Option Nat)) (t : ℝ)
    (h : (kendallTau us rows).value = some t) : |t| ≤ 1 := by
  obtain ⟨h1, h2⟩ := kendall_pairwise us rows
  rcases Nat.lt_or_ge (Spec.complete rows).length 2 with hn | hn
  · rw [h1 (by omega)] at h; simp [Tau.value] at h
  · rw [h2 hn] at h
    set l := Spec.complete rows
    have hpart := pairs_partition l
    rw [pairs_true] at hpart
    have hch : l.length.choose 2 = half l.length := Nat.choose_two_right _
    have hxx : Spec.pairs (fun a b => a == b) l ≤ Spec.pairs Spec.tiedX l ∧
        Spec.pairs (fun a b => a == b) l ≤ Spec.pairs Spec.tiedY l := by
      clear_value l
      clear h1 h2 h hn hpart hch
      induction l with
      | nil => exact ⟨le_refl _, le_refl _⟩
      | cons a l ih =>
        simp only [Spec.pairs]
        exact ⟨Nat.add_le_add (List.countP_mono_left fun b _ hb => by
            have := beq_iff_eq.1 hb; simp [Spec.tiedX, this]) ih.1,
          Nat.add_le_add (List.countP_mono_left fun b _ hb => by
            have := beq_iff_eq.1 hb; simp [Spec.tiedY, this]) ih.2⟩
    simp only [Tau.value] at h
    split at h
    · cases h
    · rename_i hz
      cases h
      rw [hch] at *
      generalize hC : Spec.pairs Spec.concordant l = C at *
      generalize hD : Spec.pairs Spec.discordant l = D at *
      generalize hX : Spec.pairs Spec.tiedX l = X at *
      generalize hY : Spec.pairs Spec.tiedY l = Y at *
      generalize hXY : Spec.pairs (fun a b => a == b) l = XY at *
      generalize hN : half l.length = N at *
      have b1 : |((C : Int) - D)| ≤ (N : Int) - X := by rw [abs_le]; omega
      have b2 : |((C : Int) - D)| ≤ (N : Int) - Y := by rw [abs_le]; omega
      have hsq : ((C : Int) - D) ^ 2 ≤ ((N : Int) - X) * (N - Y) := by
        rw [← sq_abs, pow_two]
        exact mul_le_mul b1 b2 (abs_nonneg _) (le_trans (abs_nonneg _) b1)
      have hsqR : (((C : Int) - D : Int) : ℝ) ^ 2 ≤ ((((N : Int) - X : Int) : ℝ) * (((N : Int) - Y : Int) : ℝ)) := by
        exact_mod_cast hsq
      rw [abs_div, abs_of_nonneg (Real.sqrt_nonneg _)]
      apply div_le_one_of_le₀ _ (Real.sqrt_nonneg _)
      exact Real.abs_le_sqrt hsqR

/-- **C24**, symmetry: exchanging the columns changes nothing but the order of the two factors. -/
theorem kendall_symm (us : USort) (rows : List (Option Nat × Option Nat)) :
    (kendallTau us (rows.map Prod.swap)).value = (kendallTau us rows).value := by
  have hc : Spec.complete (rows.map Prod.swap) = (Spec.complete rows).map Prod.swap := by
    induction rows with
    | nil => rfl
    | cons r rows ih => rcases r with ⟨_ | x, _ | y⟩ <;> simp_all [Spec.complete]
  have hp : ∀ (P Q : Nat × Nat → Nat × Nat → Bool), (∀ a b, P a.swap b.swap = Q a b) →
      Spec.pairs P (Spec.complete (rows.map Prod.swap)) = Spec.pairs Q (Spec.complete rows) := by
    intro P Q h
    rw [hc, pairs_map]
    congr 1
    funext a b; exact h a b
  have hlen : (Spec.complete (rows.map Prod.swap)).length = (Spec.complete rows).length := by simp [hc]
  obtain ⟨h1, h2⟩ := kendall_pairwise us rows
  obtain ⟨g1, g2⟩ := kendall_pairwise us (rows.map Prod.swap)
  rw [hlen] at g1 g2
  rcases Nat.lt_or_ge (Spec.complete rows).length 2 with hn | hn
  · rw [h1 (by omega), g1 (by omega)]
  · rw [h2 hn, g2 hn,
      hp Spec.concordant Spec.concordant (by
        intro a b; rw [Bool.eq_iff_iff]; simp only [Spec.concordant, Prod.fst_swap, Prod.snd_swap,
          Bool.or_eq_true, Bool.and_eq_true, decide_eq_true_eq]; omega),
      hp Spec.discordant Spec.discordant (by
        intro a b; rw [Bool.eq_iff_iff]; simp only [Spec.discordant, Prod.fst_swap, Prod.snd_swap,
          Bool.or_eq_true, Bool.and_eq_true, decide_eq_true_eq]; omega),
      hp Spec.tiedX Spec.tiedY (fun a b => rfl), hp Spec.tiedY Spec.tiedX (fun a b => rfl)]
    simp only [Tau.value]
    rw [mul_comm, mul_comm (Int.cast (R := ℝ) _)]

/-- **C24** for the expression as users call it, on columns of any ordered values. -/
theorem kendall_expr_pairwise {α β : Type} [LinearOrder α] [LinearOrder β] (us : USort)
    (rows : List (Option α × Option β)) :
    ((Spec.complete rows).length ≤ 1 → kendallTauExpr us rows = .nan) ∧
    (2 ≤ (Spec.complete rows).length → kendallTauExpr us rows =
      .quot ((Spec.pairs Spec.concordant (Spec.complete rows) : Int) -
              Spec.pairs Spec.discordant (Spec.complete rows))
            ((Spec.complete rows).length.choose 2 - Spec.pairs Spec.tiedX (Spec.complete rows))
            ((Spec.complete rows).length.choose 2 - Spec.pairs Spec.tiedY (Spec.complete rows))) := by
  have h := kendall_pairwise us ((rankMin (rows.map (·.1))).zip (rankMin (rows.map (·.2))))
  rw [complete_ranks] at h
  simp only [List.length_map, pairs_map] at h
  have hp : ∀ (P : Nat × Nat → Nat × Nat → Bool) (Q : α × β → α × β → Bool),
      (∀ a ∈ Spec.complete rows, ∀ b ∈ Spec.complete rows,
        P (rk (rows.map (·.1)) a.1, rk (rows.map (·.2)) a.2)
          (rk (rows.map (·.1)) b.1, rk (rows.map (·.2)) b.2) = Q a b) →
      Spec.pairs (fun a b => P (rk (rows.map (·.1)) a.1, rk (rows.map (·.2)) a.2)
          (rk (rows.map (·.1)) b.1, rk (rows.map (·.2)) b.2)) (Spec.complete rows) =
        Spec.pairs Q (Spec.complete rows) := fun P Q hh => pairs_congr_mem hh
  rw [hp Spec.concordant Spec.concordant, hp Spec.discordant Spec.discordant,
    hp Spec.tiedX Spec.tiedX, hp Spec.tiedY Spec.tiedY] at h
  · exact h
  all_goals
    intro a ha b hb
    obtain ⟨a1, a2⟩ := mem_complete ha
    obtain ⟨b1, b2⟩ := mem_complete hb
    simp only [Spec.concordant, Spec.discordant, Spec.tiedX, Spec.tiedY, rk_lt_iff a1, rk_lt_iff a2,
      rk_lt_iff b1, rk_lt_iff b2]
  · rw [Bool.eq_iff_iff, beq_iff_eq, beq_iff_eq, rk_eq_iff a2 b2]
  · rw [Bool.eq_iff_iff, beq_iff_eq, beq_iff_eq, rk_eq_iff a1 b1]

example : kendallTauExpr (α := ℚ) (β := ℚ) insertionUSort
    [(some (1/2), some (-1)), (none, some 5), (some (1/3), some 7), (some (1/3), some (-2)), (some 3, some 7)] =
    .quot 2 5 5 := by decide +kernel

/-- A column pair with ties and nulls: 4 complete rows, 3 concordant, 1 discordant, one tie in each column. -/
example : kendallTau insertionUSort
    [(some 2, some 1), (none, some 5), (some 1, some 2), (some 1, some 0), (some 3, some 2), (some 3, none)] =
    .quot 2 5 5 := by decide +kernel

example : Spec.pairs Spec.concordant [(2, 1), (1, 2), (1, 0), (3, 2)] = 3 ∧
    Spec.pairs Spec.discordant [(2, 1), (1, 2), (1, 0), (3, 2)] = 1 := by decide

end Verif.Kendall
