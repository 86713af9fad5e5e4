import Verif.Lemmas.Doubles
import Verif.Props.StrSim
import Verif.Props.EditDist
import Verif.Props.Kendall
import Verif.Props.KS

/-!
# Property C150: similarities and statistics computed with doubles stay in range
-/

namespace Verif.Doubles
open Verif Verif.FloatBits Verif.Ieee

variable {α : Type} [DecidableEq α]

open StrSim.Spec in
theorem sets (w1 w2 : List α) (n : ℕ) (hn : 0 < n) (h1 : w1 ≠ []) (h2 : w2 ≠ []) :
    ∃ A B : Finset (List α), (∀ g, g ∈ A ↔ IsGram n w1 g) ∧ (∀ g, g ∈ B ↔ IsGram n w2 g) ∧
      StrSim.setSim w1 w2 n = some (A.card, B.card, (A ∩ B).card) ∧ A.Nonempty ∧ B.Nonempty :=
  StrSim.setSim_spec w1 w2 n hn h1 h2

theorem gram_count (w : List α) (n : ℕ) (A : Finset (List α)) (hA : ∀ g, g ∈ A ↔ StrSim.Spec.IsGram n w g) (hn : 0 < n) :
    A.card ≤ w.length + 1 := by
  obtain ⟨l, hl, he, hm⟩ := StrSim.gram_finset w n hn
  have hA' : A = l.toFinset := by ext g; rw [hA, List.mem_toFinset, hm]
  rw [hA', List.toFinset_card_of_nodup hl]
  unfold StrSim.gramSet at he
  split_ifs at he with h1 h2
  · cases he; simp
  · cases he
    refine (List.dedup_sublist _).length_le.trans ?_
    unfold StrSim.windows
    rw [List.length_map, List.length_range]
    omega

/-- **C150.**  In doubles, for strings of fewer than `2 ^ 51` characters: the similarities are between 0 and 1; they are exactly
1 for equal sets of n-grams only (for the overlap: when one set contains the other), and exactly 0 only if no n-gram is shared. -/
theorem similarity_double (w1 w2 : List α) (n : ℕ) (hn : 0 < n) (h1 : w1 ≠ []) (h2 : w2 ≠ []) (l1 : w1.length < 2 ^ 51)
    (l2 : w2.length < 2 ^ 51) :
    ∃ A B : Finset (List α), (∀ g, g ∈ A ↔ StrSim.Spec.IsGram n w1 g) ∧ (∀ g, g ∈ B ↔ StrSim.Spec.IsGram n w2 g) ∧
      (∃ s, strJaccard w1 w2 n = some (some s) ∧ 0 ≤ s ∧ s ≤ 1 ∧ (s = 1 ↔ A = B) ∧ (s = 0 ↔ A ∩ B = ∅)) ∧
      (∃ s, sorensenDice w1 w2 n = some (some s) ∧ 0 ≤ s ∧ s ≤ 1 ∧ (s = 1 ↔ A = B) ∧ (s = 0 ↔ A ∩ B = ∅)) ∧
      (∃ s, overlapCoeff w1 w2 n = some (some s) ∧ 0 ≤ s ∧ s ≤ 1 ∧ (s = 1 ↔ A ⊆ B ∨ B ⊆ A) ∧ (s = 0 ↔ A ∩ B = ∅)) := by
  obtain ⟨A, B, hA, hB, hs, nA, nB⟩ := sets w1 w2 n hn h1 h2
  have cA := gram_count w1 n A hA hn
  have cB := gram_count w2 n B hB hn
  have pA := nA.card_pos
  have pB := nB.card_pos
  have iA : (A ∩ B).card ≤ A.card := Finset.card_le_card Finset.inter_subset_left
  have iB : (A ∩ B).card ≤ B.card := Finset.card_le_card Finset.inter_subset_right
  have hz : (A ∩ B).card = 0 ↔ A ∩ B = ∅ := Finset.card_eq_zero
  have eqA : (A ∩ B).card = A.card ↔ A ⊆ B := by
    constructor
    · intro h
      exact Finset.inter_eq_left.1 (Finset.eq_of_subset_of_card_le Finset.inter_subset_left h.ge)
    · intro h; rw [Finset.inter_eq_left.2 h]
  have eqB : (A ∩ B).card = B.card ↔ B ⊆ A := by
    constructor
    · intro h
      exact Finset.inter_eq_right.1 (Finset.eq_of_subset_of_card_le Finset.inter_subset_right h.ge)
    · intro h; rw [Finset.inter_eq_right.2 h]
  have eqAB : (A ∩ B).card = A.card ∧ (A ∩ B).card = B.card ↔ A = B := by
    rw [eqA, eqB]; exact ⟨fun h => Finset.Subset.antisymm h.1 h.2, fun h => by rw [h]; simp⟩
  generalize (A ∩ B).card = c at *
  have e51 : (2 : ℕ) ^ 53 = 4 * 2 ^ 51 := by norm_num
  refine ⟨A, B, hA, hB, ?_, ?_, ?_⟩
  · refine ⟨quot c (A.card + B.card - c), ?_, quot_nonneg _ _, quot_le_one (by omega), ?_, ?_⟩
    · unfold strJaccard
      rw [hs, Option.map_some]
      simp only
      rw [if_neg (by omega)]
    · rw [quot_eq_one_iff (by omega) (by omega) (by omega), ← eqAB]; omega
    · rw [quot_eq_zero_iff (by omega) (by omega), hz]
  · refine ⟨quot (2 * c) (A.card + B.card), ?_, quot_nonneg _ _, quot_le_one (by omega), ?_, ?_⟩
    · unfold sorensenDice
      rw [hs, Option.map_some]
      simp only
      rw [if_neg (by omega)]
    · rw [quot_eq_one_iff (by omega) (by omega) (by omega), ← eqAB]; omega
    · rw [quot_eq_zero_iff (by omega) (by omega), ← hz]; omega
  · refine ⟨quot c (min A.card B.card), ?_, quot_nonneg _ _, quot_le_one (by omega), ?_, ?_⟩
    · unfold overlapCoeff
      rw [hs, Option.map_some]
      simp only
      rw [if_neg (by omega)]
    · rw [quot_eq_one_iff (by omega) (by omega) (by omega), ← eqA, ← eqB]; omega
    · rw [quot_eq_zero_iff (by omega) (by omega), hz]

example : ∃ A B : Finset (List Char), (∀ g, g ∈ A ↔ StrSim.Spec.IsGram 2 "night".toList g) ∧
    (∀ g, g ∈ B ↔ StrSim.Spec.IsGram 2 "nacht".toList g) ∧
    ∃ s, strJaccard "night".toList "nacht".toList 2 = some (some s) ∧ 0 ≤ s ∧ s ≤ 1 ∧ (s = 1 ↔ A = B) := by
  obtain ⟨A, B, hA, hB, ⟨s, h1, h2, h3, h4, -⟩, -⟩ := similarity_double "night".toList "nacht".toList 2 (by norm_num)
    (by simp) (by simp) (by simp) (by simp)
  exact ⟨A, B, hA, hB, s, h1, h2, h3, h4⟩

/-- **C150.**  In doubles, the Tversky similarity with nonnegative weights is between 0 and 1 whenever it is a number. -/
theorem tversky_double (w1 w2 : List α) (n : ℕ) {alpha beta s : ℝ} (ha : 0 ≤ alpha) (hb : 0 ≤ beta)
    (h : tverskySim w1 w2 n alpha beta = some (some s)) : 0 ≤ s ∧ s ≤ 1 := by
  unfold tverskySim at h
  obtain ⟨t, -, ht⟩ := Option.map_eq_some_iff.1 h
  split_ifs at ht with hd
  cases ht
  have hden : rd t.2.2 ≤ tverskyDen t alpha beta := by
    unfold tverskyDen
    have k1 : rd t.2.2 ≤ rd (rd t.2.2 + rd (alpha * rd (StrSim.absDiff t.1 t.2.2))) := by
      have := rd_mono (le_add_of_nonneg_right (a := rd t.2.2)
        (rd_nonneg (mul_nonneg ha (rd_nonneg (Nat.cast_nonneg (StrSim.absDiff t.1 t.2.2))))))
      rwa [show rd (rd t.2.2) = rd t.2.2 from fl_idem f64 _] at this
    have k2 := rd_mono (le_add_of_nonneg_right (a := rd (rd t.2.2 + rd (alpha * rd (StrSim.absDiff t.1 t.2.2))))
        (rd_nonneg (mul_nonneg hb (rd_nonneg (Nat.cast_nonneg (StrSim.absDiff t.2.1 t.2.2))))))
    rw [show rd (rd (rd t.2.2 + rd (alpha * rd (StrSim.absDiff t.1 t.2.2)))) = _ from fl_idem f64 _] at k2
    exact k1.trans k2
  have h0 := rd_nonneg (Nat.cast_nonneg (α := ℝ) t.2.2)
  exact ⟨rd_nonneg (div_nonneg h0 (h0.trans hden)), rd_le_one (div_le_one_of_le₀ hden (h0.trans hden))⟩

example : ∃ s, tverskySim ['a', 'b', 'c'] ['a', 'b', 'd'] 2 0 1 = some (some s) ∧ 0 ≤ s ∧ s ≤ 1 := by
  have h : StrSim.setSim ['a', 'b', 'c'] ['a', 'b', 'd'] 2 = some (2, 2, 1) := by decide +kernel
  have e : tverskySim ['a', 'b', 'c'] ['a', 'b', 'd'] 2 0 1 = some (some (rd (rd (1 : ℕ) / tverskyDen (2, 2, 1) 0 1))) := by
    unfold tverskySim
    rw [h, Option.map_some]
    simp only
    rw [if_neg]
    unfold tverskyDen StrSim.absDiff
    norm_num [rd_one, rd_zero]
    have := rd_nat (n := 2) (by norm_num)
    push_cast at this
    rw [this]
    norm_num
  exact ⟨_, e, tversky_double _ _ 2 le_rfl zero_le_one e⟩

/-- **C150.**  In doubles, the Levenshtein similarity of strings of at most `2 ^ 53` characters is between 0 and 1, exactly 1 for
equal strings only, and exactly 0 only if nothing can be kept (the distance is the length of the longer string). -/
theorem lev_sim_double (x y : List Char) (hl : max x.length y.length ≤ 2 ^ 53) :
    0 ≤ levSim x y ∧ levSim x y ≤ 1 ∧ (levSim x y = 1 ↔ x = y) ∧
      (levSim x y = 0 ↔ 0 < max x.length y.length ∧ EditDist.Spec.LeastEdits (max x.length y.length) x y) := by
  have hle := EditDist.lev_le_max x y
  have hz : EditDist.lev x y = 0 ↔ x = y :=
    (EditDist.least_edits_laws x y y _ _ _ (EditDist.lev_least x y) (EditDist.lev_least y y) (EditDist.lev_least x y)).1
  have hun : ∀ d, EditDist.Spec.LeastEdits d x y ↔ d = EditDist.lev x y := fun d =>
    ⟨fun hd => Nat.le_antisymm (hd.2 _ (EditDist.lev_least _ _).1) ((EditDist.lev_least _ _).2 _ hd.1),
      fun hd => hd ▸ EditDist.lev_least x y⟩
  unfold levSim normSim
  rw [hun, ← hz]
  generalize EditDist.lev x y = d at hle ⊢
  generalize max x.length y.length = m at hle hl ⊢
  have hp := two_zpow_pos (-53)
  by_cases hm : m = 0
  · rw [if_pos hm]
    refine ⟨zero_le_one, le_refl _, by simp; omega, by simp; omega⟩
  · rw [if_neg hm]
    have q0 := quot_nonneg d m
    have q1 := quot_le_one hle
    refine ⟨rd_nonneg (by linarith), rd_le_one (by linarith), ⟨fun h => ?_, fun h => ?_⟩, ⟨fun h => ?_, fun h => ?_⟩⟩
    · by_contra hd
      have h1 := quot_pos (Nat.pos_of_ne_zero hd) hle hl
      have h2 : rd (1 - quot d m) ≤ rd (1 - 2 ^ (-53 : ℤ)) := rd_mono (by linarith)
      rw [rd_below, h] at h2
      linarith
    · rw [h, quot_zero, sub_zero, rd_one]
    · refine ⟨by omega, ?_⟩
      by_contra hd
      have h1 := quot_lt_one (show d < m by omega) hl
      have h2 : rd (2 ^ (-53 : ℤ)) ≤ rd (1 - quot d m) := rd_mono (by linarith)
      rw [rd_two53, h] at h2
      linarith
    · rw [← h.2, quot_self (by omega), sub_self, rd_zero]

example : 0 ≤ levSim "kitten".toList "sitting".toList ∧ levSim "kitten".toList "sitting".toList ≠ 1 := by
  obtain ⟨h1, -, h3, -⟩ := lev_sim_double "kitten".toList "sitting".toList (by simp)
  exact ⟨h1, fun h => by simpa using h3.1 h⟩

/-- **C150.**  In doubles, Kendall's tau of at most `2 ^ 27` complete rows is between -1 and 1. -/
theorem tau_double (us : USort) (rows : List (Option ℕ × Option ℕ)) (hl : (Kendall.Spec.complete rows).length ≤ 2 ^ 27) {t : ℝ}
    (h : tau (Kendall.kendallTau us rows) = some t) : |t| ≤ 1 := by
  obtain ⟨h1, h2⟩ := Kendall.kendall_pairwise us rows
  rcases Nat.lt_or_ge (Kendall.Spec.complete rows).length 2 with hn | hn
  · rw [h1 (by omega)] at h; simp [tau] at h
  rw [h2 hn] at h
  set l := Kendall.Spec.complete rows
  have hpart := Kendall.pairs_partition l
  rw [Kendall.pairs_true] at hpart
  have hch : l.length.choose 2 = Kendall.half l.length := Nat.choose_two_right _
  have hhalf : Kendall.half l.length < 2 ^ 53 := by
    unfold Kendall.half
    have : l.length * (l.length - 1) ≤ 2 ^ 27 * (2 ^ 27 - 1) := Nat.mul_le_mul hl (by omega)
    omega
  have hxx : Kendall.Spec.pairs (fun a b => a == b) l ≤ Kendall.Spec.pairs Kendall.Spec.tiedX l ∧
      Kendall.Spec.pairs (fun a b => a == b) l ≤ Kendall.Spec.pairs Kendall.Spec.tiedY l := by
    clear_value l
    clear h1 h2 h hn hpart hch hhalf hl
    induction l with
    | nil => exact ⟨le_refl _, le_refl _⟩
    | cons a l ih =>
      simp only [Kendall.Spec.pairs]
      exact ⟨Nat.add_le_add (List.countP_mono_left fun b _ hb => by
          have := beq_iff_eq.1 hb; simp [Kendall.Spec.tiedX, this]) ih.1,
        Nat.add_le_add (List.countP_mono_left fun b _ hb => by
          have := beq_iff_eq.1 hb; simp [Kendall.Spec.tiedY, this]) ih.2⟩
  rw [hch] at h
  unfold tau at h
  dsimp only at h
  split_ifs at h with hz
  cases h
  generalize Kendall.Spec.pairs Kendall.Spec.concordant l = C at *
  generalize Kendall.Spec.pairs Kendall.Spec.discordant l = D at *
  generalize Kendall.Spec.pairs Kendall.Spec.tiedX l = X at *
  generalize Kendall.Spec.pairs Kendall.Spec.tiedY l = Y at *
  generalize Kendall.Spec.pairs (fun a b => a == b) l = XY at *
  generalize Kendall.half l.length = N at *
  have b1 : |((C : Int) - D)| ≤ (N : Int) - X := by rw [abs_le]; omega
  have b2 : |((C : Int) - D)| ≤ (N : Int) - Y := by rw [abs_le]; omega
  obtain ⟨m, hm⟩ : ∃ m : ℕ, |((C : Int) - D)| = m := ⟨_, (Int.natCast_natAbs _).symm⟩
  have hm53 : m < 2 ^ 53 := by omega
  have r1 : rd (((N : Int) - X : Int) : ℝ) = (((N : Int) - X : Int) : ℝ) := rd_int (by rw [abs_le]; omega)
  have r2 : rd (((N : Int) - Y : Int) : ℝ) = (((N : Int) - Y : Int) : ℝ) := rd_int (by rw [abs_le]; omega)
  have r0 : rd (((C : Int) - D : Int) : ℝ) = (((C : Int) - D : Int) : ℝ) := rd_int (by rw [hm]; omega)
  rw [r0, r1, r2, rd_abs]
  apply rd_le_one
  rw [abs_div, abs_of_nonneg (rd_nonneg (Real.sqrt_nonneg _))]
  refine div_le_one_of_le₀ ?_ (rd_nonneg (Real.sqrt_nonneg _))
  have e : |(((C : Int) - D : Int) : ℝ)| = m := by rw [← Int.cast_abs, hm]; simp
  rw [e, ← sqrt_sq hm53]
  refine rd_mono (Real.sqrt_le_sqrt (rd_mono ?_))
  rw [hm] at b1 b2
  have c1 : (m : ℝ) ≤ (((N : Int) - X : Int) : ℝ) := by exact_mod_cast b1
  have c2 : (m : ℝ) ≤ (((N : Int) - Y : Int) : ℝ) := by exact_mod_cast b2
  exact mul_le_mul c1 c2 (Nat.cast_nonneg _) ((Nat.cast_nonneg _).trans c1)

/-- **C150.**  In doubles, columns of distinct values in the same order have Kendall's tau exactly 1. -/
theorem tau_double_one (us : USort) (rows : List (Option ℕ × Option ℕ)) (hl : (Kendall.Spec.complete rows).length ≤ 2 ^ 27)
    (hn : 2 ≤ (Kendall.Spec.complete rows).length)
    (hc : (Kendall.Spec.complete rows).Pairwise fun a b => Kendall.Spec.concordant a b = true) :
    tau (Kendall.kendallTau us rows) = some 1 := by
  obtain ⟨h1, h2⟩ := Kendall.kendall_pairwise us rows
  rw [h2 hn]
  set l := Kendall.Spec.complete rows
  have hhalf : Kendall.half l.length < 2 ^ 53 := by
    unfold Kendall.half
    have : l.length * (l.length - 1) ≤ 2 ^ 27 * (2 ^ 27 - 1) := Nat.mul_le_mul hl (by omega)
    omega
  have hch : l.length.choose 2 = Kendall.half l.length := Nat.choose_two_right _
  have hpos : 0 < l.length.choose 2 := Nat.choose_pos hn
  have cnt : ∀ (P : ℕ × ℕ → ℕ × ℕ → Bool) (v : Bool), (∀ a b, Kendall.Spec.concordant a b = true → P a b = v) →
      Kendall.Spec.pairs P l = if v then l.length.choose 2 else 0 := by
    intro P v hP
    have e : Kendall.Spec.pairs P l = Kendall.Spec.pairs (fun _ _ => v) l :=
      Kendall.pairs_congr hc fun a b h => hP a b h
    rw [e, hch, ← Kendall.pairs_true l]
    cases v
    · clear_value l
      clear * -
      induction l with
      | nil => rfl
      | cons a l ih => simp only [Kendall.Spec.pairs]; rw [ih]; simp
    · rfl
  have k1 := cnt Kendall.Spec.concordant true fun a b h => h
  have k2 := cnt Kendall.Spec.discordant false fun a b h => by
    unfold Kendall.Spec.concordant at h; unfold Kendall.Spec.discordant
    simp at h ⊢; omega
  have k3 := cnt Kendall.Spec.tiedX false fun a b h => by
    unfold Kendall.Spec.concordant at h; unfold Kendall.Spec.tiedX
    simp at h ⊢; omega
  have k4 := cnt Kendall.Spec.tiedY false fun a b h => by
    unfold Kendall.Spec.concordant at h; unfold Kendall.Spec.tiedY
    simp at h ⊢; omega
  rw [k1, k2, k3, k4]
  simp only [if_true, Bool.false_eq_true, if_false, Nat.cast_zero, sub_zero]
  rw [hch] at *
  generalize Kendall.half l.length = N at *
  unfold tau
  dsimp only
  rw [if_neg (by omega)]
  have r : rd ((N : Int) : ℝ) = N := by rw [rd_int (by rw [abs_le]; omega)]; simp
  rw [r, sqrt_sq hhalf, div_self (by exact_mod_cast hpos.ne'), rd_one]

example (us : USort) : tau (Kendall.kendallTau us [(some 3, some 5), (none, some 1), (some 1, some 2), (some 7, some 9)]) = some 1 :=
  tau_double_one us _ (by decide) (by decide) (by decide)

example (us : USort) : |(1 : ℝ)| ≤ 1 :=
  tau_double us [(some 3, some 5), (none, some 1), (some 1, some 2), (some 7, some 9)] (by decide)
    (tau_double_one us _ (by decide) (by decide) (by decide))

theorem unit_err {x : ℝ} (h : |x| ≤ 1) : |rd x - x| ≤ 2 ^ (-54 : ℤ) := by
  rcases eq_or_ne x 0 with h0 | h0
  · rw [h0, rd_zero, sub_zero, abs_zero]; positivity
  rcases h.lt_or_eq with h1 | h1
  · refine (fl_err f64 x).trans ?_
    have : ulp f64 x ≤ -53 := ulp_of_lt f64 h0 (by norm_num [f64]) (by norm_num [f64]; exact h1)
    have : (2 : ℝ) ^ ulp f64 x ≤ 2 ^ (-53 : ℤ) := zpow_le_zpow_right₀ (by norm_num) this
    rw [show (-53 : ℤ) = -54 + 1 by norm_num, zpow_add₀ (by norm_num), zpow_one] at this
    generalize (2 : ℝ) ^ ulp f64 x = p at *
    generalize (2 : ℝ) ^ (-54 : ℤ) = q at *
    linarith only [this]
  · have : rd x = x := by
      rcases (abs_eq (by norm_num : (0 : ℝ) ≤ 1)).1 h1 with h | h
      · rw [h, rd_one]
      · rw [h, rd_neg, rd_one]
    rw [this, sub_self, abs_zero]; positivity

/-- The double gap at a point is close to the gap of the empirical distribution functions. -/
theorem ksAt_close (v1 v2 : List ℝ) (h1 : v1.Pairwise (· ≤ ·)) (h2 : v2.Pairwise (· ≤ ·)) (l1 : v1.length ≤ 2 ^ 53)
    (l2 : v2.length ≤ 2 ^ 53) (x : ℝ) :
    ksAt v1 v2 x = some (ksGap (v1.countP fun y => decide (y ≤ x)) v1.length (v2.countP fun y => decide (y ≤ x)) v2.length) ∧
    |ksGap (v1.countP fun y => decide (y ≤ x)) v1.length (v2.countP fun y => decide (y ≤ x)) v2.length
      - (|KS.Spec.ecdf v1 x - KS.Spec.ecdf v2 x|)| ≤ 3 * 2 ^ (-54 : ℤ) ∧
    ksGap (v1.countP fun y => decide (y ≤ x)) v1.length (v2.countP fun y => decide (y ≤ x)) v2.length ≤ 1 := by
  have e : ∀ v : List ℝ, v.Pairwise (· ≤ ·) →
      KS.bsearchRight v x 0 v.length = some (v.countP fun y => decide (y ≤ x)) := fun v hv =>
    KS.bsearchRight_spec v x hv 0 v.length (by omega) (by omega) (by intro i w hi; omega)
      (by intro i w hi hw; rw [List.getElem?_eq_none hi] at hw; cases hw)
  have c1 : (v1.countP fun y => decide (y ≤ x)) ≤ v1.length := List.countP_le_length
  have c2 : (v2.countP fun y => decide (y ≤ x)) ≤ v2.length := List.countP_le_length
  have b1 := KS.ecdf_bounds v1 x
  have b2 := KS.ecdf_bounds v2 x
  refine ⟨by unfold ksAt; rw [e v1 h1, e v2 h2], ?_⟩
  unfold ksGap
  rw [quot_eq (c1.trans l1) l1, quot_eq (c2.trans l2) l2]
  change |(|rd (rd (KS.Spec.ecdf v1 x) - rd (KS.Spec.ecdf v2 x))| - |KS.Spec.ecdf v1 x - KS.Spec.ecdf v2 x|)| ≤ _ ∧
    |rd (rd (KS.Spec.ecdf v1 x) - rd (KS.Spec.ecdf v2 x))| ≤ 1
  generalize KS.Spec.ecdf v1 x = a at *
  generalize KS.Spec.ecdf v2 x = b at *
  have ra := unit_err (x := a) (by rw [abs_le]; constructor <;> linarith)
  have rb := unit_err (x := b) (by rw [abs_le]; constructor <;> linarith)
  have a0 := rd_nonneg b1.1
  have a1 := rd_le_one b1.2
  have b0 := rd_nonneg b2.1
  have b1' := rd_le_one b2.2
  have hd : |rd a - rd b| ≤ 1 := by rw [abs_le]; constructor <;> linarith
  have rc := unit_err hd
  refine ⟨(abs_abs_sub_abs_le _ _).trans ?_, by rw [rd_abs]; exact rd_le_one hd⟩
  rw [abs_le] at *
  constructor <;> linarith [ra.1, ra.2, rb.1, rb.2, rc.1, rc.2]

/-- **C150.**  In doubles, the Kolmogorov-Smirnov statistic lies in `[0, 1]` and differs from the supremum of the gaps of the two
empirical distribution functions by at most `3 · 2⁻⁵⁴`. -/
theorem ks_double (us : USort) (fmin : ℝ) (hmin : fmin ≤ 0) (c1 c2 : List (Option ℝ)) (l1 : (c1.filterMap id).length ≤ 2 ^ 53)
    (l2 : (c2.filterMap id).length ≤ 2 ^ 53) (n1 : 30 < (c1.filterMap id).length) (n2 : 30 < (c2.filterMap id).length) :
    ∃ D, ks2samp us fmin c1 c2 = .stat D ∧ 0 ≤ D ∧ D ≤ 1 ∧
      (∀ t, |KS.Spec.ecdf (c1.filterMap id) t - KS.Spec.ecdf (c2.filterMap id) t| ≤ D + 3 * 2 ^ (-54 : ℤ)) ∧
      ∃ t, D ≤ |KS.Spec.ecdf (c1.filterMap id) t - KS.Spec.ecdf (c2.filterMap id) t| + 3 * 2 ^ (-54 : ℤ) := by
  obtain ⟨D0, hD0, sup, ⟨t0, -, ht0⟩, -, -⟩ := (KS.ks_is_sup us fmin hmin c1 c2).2 n1 n2
  set s1 := c1.filterMap id with hs1
  set s2 := c2.filterMap id with hs2
  have p1 := us.perm (fun a b : ℝ => decide (a ≤ b)) s1
  have p2 := us.perm (fun a b : ℝ => decide (a ≤ b)) s2
  have srt : ∀ s : List ℝ, (us.run (fun a b : ℝ => decide (a ≤ b)) s).Pairwise (· ≤ ·) := by
    intro s
    have := us.sorted (fun a b : ℝ => decide (a ≤ b))
      (by intro a b c h1 h2; simp only [decide_eq_true_eq] at *; exact le_trans h1 h2)
      (by intro a b; simp only [Bool.or_eq_true, decide_eq_true_eq]; exact le_total _ _) s
    simpa using this
  have q1 := srt s1
  have q2 := srt s2
  have h' : ¬ ((us.run (fun a b : ℝ => decide (a ≤ b)) s1).length ≤ 30 ∨
      (us.run (fun a b : ℝ => decide (a ≤ b)) s2).length ≤ 30) := by
    rw [p1.length_eq, p2.length_eq]; omega
  have e1 := p1.length_eq
  have e2 := p2.length_eq
  have k1 := fun t => KS.ecdf_perm p1 t
  have k2 := fun t => KS.ecdf_perm p2 t
  have hks : ks2samp us fmin c1 c2 = match ksStat fmin (us.run (fun a b : ℝ => decide (a ≤ b)) s1)
      (us.run (fun a b : ℝ => decide (a ≤ b)) s2) with | some d => .stat d | none => .panic := by
    unfold ks2samp; exact if_neg h'
  generalize us.run (fun a b : ℝ => decide (a ≤ b)) s1 = v1 at *
  generalize us.run (fun a b : ℝ => decide (a ≤ b)) s2 = v2 at *
  have hat := ksAt_close v1 v2 q1 q2 (by omega) (by omega)
  set g := fun x => ksGap (v1.countP fun y => decide (y ≤ x)) v1.length (v2.countP fun y => decide (y ≤ x)) v2.length with hg
  have hst : ksStat fmin v1 v2 = some (((v1 ++ v2).map g).foldl max fmin) := by
    unfold ksStat
    rw [KS.mapM_some _ g _ fun x => (hat x).1]
    rfl
  obtain ⟨-, f2, f3⟩ := KS.foldl_max_spec ((v1 ++ v2).map g) fmin
  rw [hst] at hks
  set D := ((v1 ++ v2).map g).foldl max fmin
  have g0 : ∀ x, 0 ≤ g x := fun x => abs_nonneg _
  obtain ⟨x0, hx0⟩ : ∃ x, x ∈ v1 := by
    cases hs : v1 with
    | nil => rw [hs] at h'; simp at h'
    | cons a l => exact ⟨a, by simp⟩
  have hmem : D ∈ (v1 ++ v2).map g := by
    rcases f3 with f3 | f3
    · have hle := f2 _ (List.mem_map.2 ⟨x0, List.mem_append.2 (.inl hx0), rfl⟩)
      have : g x0 = D := le_antisymm hle (by rw [f3]; exact hmin.trans (g0 _))
      rw [← this]
      exact List.mem_map.2 ⟨x0, List.mem_append.2 (.inl hx0), rfl⟩
    · exact f3
  obtain ⟨t, ht, hDt⟩ := List.mem_map.1 hmem
  have hclose : ∀ x, |g x - (|KS.Spec.ecdf s1 x - KS.Spec.ecdf s2 x|)| ≤ 3 * 2 ^ (-54 : ℤ) := fun x => by
    rw [← k1, ← k2]; exact (hat x).2.1
  refine ⟨D, hks, hDt ▸ g0 t, hDt ▸ (hat t).2.2, fun u => (sup u).trans ?_, t, ?_⟩
  · obtain ⟨t1, hm1, hd1⟩ : ∃ t1 ∈ v1 ++ v2, D0 = |KS.Spec.ecdf s1 t1 - KS.Spec.ecdf s2 t1| := by
      obtain ⟨D1, hD1, -, ⟨w, hw, hw2⟩, -, -⟩ := (KS.ks_is_sup us fmin hmin c1 c2).2 n1 n2
      rw [hD0] at hD1
      cases hD1
      exact ⟨w, List.mem_append.2 (hw.imp p1.mem_iff.2 p2.mem_iff.2), hw2⟩
    have := f2 _ (List.mem_map.2 ⟨t1, hm1, rfl⟩)
    have hc := abs_le.1 (hclose t1)
    rw [hd1]
    linarith [hc.1, hc.2]
  · have hc := abs_le.1 (hclose t)
    rw [← hDt]
    linarith [hc.1, hc.2]

example (us : USort) : ∃ D, ks2samp us (-1) ((List.range 31).map fun i => some (i : ℝ))
    ((List.range 40).map fun i => some (i : ℝ)) = .stat D ∧ 0 ≤ D ∧ D ≤ 1 := by
  have e : ∀ n : ℕ, (((List.range n).map fun i => some (i : ℝ)).filterMap id).length = n := by
    intro n; rw [List.filterMap_map]; simp
  obtain ⟨D, h1, h2, h3, -⟩ := ks_double us (-1) (by norm_num) ((List.range 31).map fun i => some (i : ℝ))
    ((List.range 40).map fun i => some (i : ℝ)) (by rw [e]; norm_num) (by rw [e]; norm_num) (by rw [e]; norm_num)
    (by rw [e]; norm_num)
  exact ⟨D, h1, h2, h3⟩

/-- **C150.**  In doubles, min-max scaling maps the fitted minimum to 0 and the fitted maximum to 1, keeps order, and stays in
`[0, 1]`. -/
theorem min_max_double {lo hi x y : ℝ} (hlo : Spec.Rep f64 lo) (hhi : Spec.Rep f64 hi) (h : lo < hi) (hx : lo ≤ x) (hxy : x ≤ y)
    (hy : y ≤ hi) :
    minMax lo hi lo = 0 ∧ minMax lo hi hi = 1 ∧ 0 ≤ minMax lo hi x ∧ minMax lo hi x ≤ minMax lo hi y ∧ minMax lo hi y ≤ 1 := by
  have hp : 0 < rd (hi - lo) := by
    obtain ⟨a, ha⟩ := rep_grid f64 hlo
    obtain ⟨b, hb⟩ := rep_grid f64 hhi
    have hpos := two_zpow_pos f64.low
    have hab : (1 : ℝ) ≤ ((b - a : ℤ) : ℝ) := by
      rw [ha, hb] at h
      have : (a : ℝ) < b := lt_of_mul_lt_mul_right h hpos.le
      have : a < b := by exact_mod_cast this
      exact_mod_cast (by omega : 1 ≤ b - a)
    have hr : rd (2 ^ f64.low) = 2 ^ f64.low := fl_rep f64 ⟨1, f64.low, by norm_num [f64], le_refl _, by simp⟩
    have : rd (2 ^ f64.low) ≤ rd (hi - lo) := rd_mono (by
      rw [ha, hb, ← sub_mul]
      push_cast at hab
      generalize (2 : ℝ) ^ f64.low = p at *
      nlinarith)
    rw [hr] at this
    exact hpos.trans_le this
  unfold minMax
  refine ⟨by rw [sub_self, rd_zero, zero_div, rd_zero], by rw [div_self hp.ne', rd_one],
    rd_nonneg (div_nonneg (rd_nonneg (by linarith)) hp.le),
    rd_mono (div_le_div_of_nonneg_right (rd_mono (by linarith)) hp.le),
    rd_le_one (div_le_one_of_le₀ (rd_mono (by linarith)) hp.le)⟩

example : minMax 1 3 1 = 0 ∧ minMax 1 3 3 = 1 ∧ 0 ≤ minMax 1 3 2 := by
  have h := min_max_double (lo := 1) (hi := 3) (x := 2) (y := 2) ⟨1, 0, by norm_num [f64], by norm_num [f64], by norm_num⟩
    ⟨3, 0, by norm_num [f64], by norm_num [f64], by norm_num⟩ (by norm_num) (by norm_num) le_rfl (by norm_num)
  exact ⟨h.1, h.2.1, h.2.2.1⟩

end Verif.Doubles
