import Verif.Model.NormalP
import Verif.Props.Normal
import Verif.Props.MannWhitney

/-!
# Property C135: p-values of the Mann-Whitney test and of the xi correlation
-/
set_option linter.unusedSectionVars false

namespace Verif.MWU
open Verif
variable {K : Type} [Field K] [LinearOrder K] [IsStrictOrderedRing K]

/-- The average rank of `x` among `l`. -/
def rk (l : List K) (x : K) : K :=
  ((l.countP fun y => decide (y < x) : Nat) : K) + (((l.countP fun y => decide (y = x) : Nat) : K) + 1) / 2

theorem rankAvg_eq (l : List K) : rankAvg l = l.map (rk l) := rfl

theorem countP_lt_add (l : List K) {x y : K} (h : x < y) :
    (l.countP fun v => decide (v < x)) + (l.countP fun v => decide (v = x)) ≤ l.countP fun v => decide (v < y) := by
  induction l with
  | nil => simp
  | cons a l ih =>
    simp only [List.countP_cons]
    rcases lt_trichotomy a x with h1 | h1 | h1
    · have h2 : a < y := h1.trans h
      simp [h1, h2, h1.ne]
      omega
    · subst h1
      simp [h]
      omega
    · simp [not_lt.2 h1.le, h1.ne']
      omega

theorem rk_lt (l : List K) {x y : K} (hx : x ∈ l) (h : x < y) : rk l x < rk l y := by
  have h1 := countP_lt_add l h
  have h2 : 0 < l.countP fun v => decide (v = x) := by
    rw [List.countP_pos_iff]
    exact ⟨x, hx, by simp⟩
  have h1' : ((l.countP fun v => decide (v < x) : Nat) : K) + ((l.countP fun v => decide (v = x) : Nat) : K) ≤
      ((l.countP fun v => decide (v < y) : Nat) : K) := by exact_mod_cast h1
  have h2' : (1 : K) ≤ ((l.countP fun v => decide (v = x) : Nat) : K) := by exact_mod_cast h2
  have h3 : (0 : K) ≤ ((l.countP fun v => decide (v = y) : Nat) : K) := Nat.cast_nonneg _
  unfold rk
  linarith

theorem rk_inj (l : List K) {x y : K} (hx : x ∈ l) (hy : y ∈ l) (h : rk l x = rk l y) : x = y := by
  rcases lt_trichotomy x y with h1 | h1 | h1
  · exact absurd h (rk_lt l hx h1).ne
  · exact h1
  · exact absurd h (rk_lt l hy h1).ne'

theorem rk_perm {l l' : List K} (h : l.Perm l') : rk l = rk l' := by
  funext x
  unfold rk
  rw [h.countP_eq, h.countP_eq]

theorem rankAvg_perm {l l' : List K} (h : l.Perm l') : (rankAvg l).Perm (rankAvg l') := by
  rw [rankAvg_eq, rankAvg_eq, rk_perm h]
  exact h.map _

theorem run_sorted (us : USort) (l : List K) : (us.run (fun a b => decide (a ≤ b)) l).Pairwise (· ≤ ·) := by
  have := us.sorted (fun a b : K => decide (a ≤ b)) (by simpa using fun a b c => le_trans)
    (by intro a b; simpa using le_total a b) l
  exact this.imp (by simp)

theorem run_perm (us : USort) {l l' : List K} (h : l.Perm l') :
    us.run (fun a b => decide (a ≤ b)) l = us.run (fun a b => decide (a ≤ b)) l' :=
  List.Perm.eq_of_pairwise (le := (· ≤ ·)) (fun _ _ _ _ h1 h2 => le_antisymm h1 h2) (run_sorted us l) (run_sorted us l')
    ((us.perm _ l).trans (h.trans (us.perm _ l').symm))

/-- The variance of the statistic without reference to the tie loop. -/
theorem var_eq (us : USort) (xs ys : List K) : (mannWhitney us xs ys).var =
    (xs.length : K) * ys.length / 2 / 6 * (((xs.length : K) + ys.length + 1) -
      tieSum (us.run (fun a b => decide (a ≤ b)) (rankAvg (xs ++ ys))) /
        (((xs.length : K) + ys.length) * ((xs.length : K) + ys.length - 1))) := by
  have hlen : (us.run (fun a b => decide (a ≤ b)) (rankAvg (xs ++ ys))).length = xs.length + ys.length := by
    rw [(us.perm _ _).length_eq, rankAvg_eq, List.length_map, List.length_append]
  simp only [mannWhitney, hlen]
  push_cast
  rfl

/-- **C135.** Exchanging the samples exchanges the two statistics and leaves mean and variance alone. -/
theorem mwu_swap (us : USort) (xs ys : List K) :
    (mannWhitney us ys xs).u1 = (mannWhitney us xs ys).u2 ∧ (mannWhitney us ys xs).u2 = (mannWhitney us xs ys).u1 ∧
      (mannWhitney us ys xs).mean = (mannWhitney us xs ys).mean ∧
      (mannWhitney us ys xs).var = (mannWhitney us xs ys).var := by
  obtain ⟨a1, a2, a3⟩ := mann_whitney_counts_pairs us xs ys
  obtain ⟨b1, b2, b3⟩ := mann_whitney_counts_pairs us ys xs
  refine ⟨b1.trans a2.symm, b2.trans a1.symm, by rw [a3, b3, add_comm], ?_⟩
  rw [var_eq, var_eq, run_perm us (rankAvg_perm (List.perm_append_comm (l₁ := ys) (l₂ := xs)))]
  rw [add_comm (ys.length : K), mul_comm (ys.length : K)]

example : (mannWhitney insertionUSort ([2, 0] : List ℚ) [3, 1, 2]).u2 = 9 / 2 := by decide +kernel

theorem countP_map_iff {L : Type} (f : K → L) (l : List K) (p : L → Bool) (q : K → Bool) (h : ∀ y ∈ l, p (f y) = q y) :
    (l.map f).countP p = l.countP q := by
  rw [List.countP_map]
  exact List.countP_congr fun y hy => by simp [h y hy]

/-- **C135.** Only the order of the values matters: a strictly increasing transformation changes nothing. -/
theorem mwu_invariant (us : USort) (f : K → K) (hf : StrictMono f) (xs ys : List K) :
    mannWhitney us (xs.map f) (ys.map f) = mannWhitney us xs ys := by
  have hr : rankAvg (xs.map f ++ ys.map f) = rankAvg (xs ++ ys) := by
    rw [← List.map_append, rankAvg_eq, rankAvg_eq, List.map_map]
    refine List.map_congr_left fun x _ => ?_
    unfold rk
    rw [Function.comp_apply, countP_map_iff f _ _ (fun y => decide (y < x)) (fun y _ => by simp [hf.lt_iff_lt]),
      countP_map_iff f _ _ (fun y => decide (y = x)) (fun y _ => by simp [hf.injective.eq_iff])]
  unfold mannWhitney
  simp only [hr, List.length_map]

example : (mannWhitney insertionUSort ([3, 1, 2].map fun v : ℚ => 2 * v + 1) ([2, 0].map fun v => 2 * v + 1)).u1 =
    9 / 2 := by decide +kernel

/-- The tie term stays below its largest possible value. -/
theorem tieSum_lt (ranks : List K) (hs : ranks.Pairwise (· ≤ ·)) (h2 : 2 ≤ ranks.length) :
    tieSum ranks < (ranks.length : K) * ((ranks.length : K) - 1) * ((ranks.length : K) + 1) := by
  have hne : ranks ≠ [] := by rintro rfl; simp at h2
  have hmem : ranks.getLast hne ∈ ranks.toFinset := List.mem_toFinset.2 (List.getLast_mem hne)
  set m := ranks.getLast hne with hm
  set n : K := (ranks.length : K) with hn
  have hn2 : 2 ≤ n := by rw [hn]; exact_mod_cast h2
  have hsum : tieSum ranks = ∑ x ∈ ranks.toFinset.erase m, ((ranks.count x : K) ^ 3 - (ranks.count x : K)) := by
    rw [tie_sum_partial ranks hs hne, Spec.tieTerm, ← Finset.add_sum_erase _ _ hmem]
    ring
  have hcount : ∀ x, (ranks.count x : K) ≤ n := fun x => by rw [hn]; exact_mod_cast List.count_le_length
  have hle : tieSum ranks ≤ ∑ x ∈ ranks.toFinset.erase m, (ranks.count x : K) * (n ^ 2 - 1) := by
    rw [hsum]
    refine Finset.sum_le_sum fun x _ => ?_
    have h0 : (0 : K) ≤ ranks.count x := Nat.cast_nonneg _
    have h1 := hcount x
    have : (ranks.count x : K) ^ 2 ≤ n ^ 2 := pow_le_pow_left₀ h0 h1 2
    calc (ranks.count x : K) ^ 3 - ranks.count x = ranks.count x * ((ranks.count x : K) ^ 2 - 1) := by ring
      _ ≤ _ := mul_le_mul_of_nonneg_left (by linarith) h0
  rw [← Finset.sum_mul] at hle
  have htot : (ranks.count m : K) + ∑ x ∈ ranks.toFinset.erase m, (ranks.count x : K) = n := by
    rw [Finset.add_sum_erase _ (fun x => (ranks.count x : K)) hmem, hn, ← List.sum_toFinset_count_eq_length ranks]
    push_cast
    rfl
  have hm1 : (1 : K) ≤ ranks.count m := by
    have : 0 < ranks.count m := List.count_pos_iff.2 (List.getLast_mem hne)
    exact_mod_cast this
  have hpos : 0 < n ^ 2 - 1 := by nlinarith
  refine hle.trans_lt ?_
  have : n * (n - 1) * (n + 1) = n * (n ^ 2 - 1) := by ring
  rw [this]
  exact mul_lt_mul_of_pos_right (by linarith) hpos

/-- **C135.** The variance used is positive for two non-empty samples, whatever the ties. -/
theorem mwu_var_pos (us : USort) (xs ys : List K) (hx : xs ≠ []) (hy : ys ≠ []) : 0 < (mannWhitney us xs ys).var := by
  have h1 : (1 : K) ≤ xs.length := by
    have := List.length_pos_iff.2 hx
    exact_mod_cast this
  have h2 : (1 : K) ≤ ys.length := by
    have := List.length_pos_iff.2 hy
    exact_mod_cast this
  have hlen : (us.run (fun a b => decide (a ≤ b)) (rankAvg (xs ++ ys))).length = xs.length + ys.length := by
    rw [(us.perm _ _).length_eq, rankAvg_eq, List.length_map, List.length_append]
  have ht := tieSum_lt (us.run (fun a b => decide (a ≤ b)) (rankAvg (xs ++ ys))) (run_sorted us _) (by
    rw [hlen]
    have := List.length_pos_iff.2 hx
    have := List.length_pos_iff.2 hy
    omega)
  rw [hlen] at ht
  push_cast at ht
  rw [var_eq]
  set n : K := (xs.length : K) + ys.length with hn
  have hn2 : 2 ≤ n := by linarith
  have hp : 0 < n * (n - 1) := by nlinarith
  refine mul_pos (by positivity) ?_
  rw [sub_pos, div_lt_iff₀ hp]
  linarith

example : 0 < (mannWhitney insertionUSort ([7, 7] : List ℚ) [7]).var :=
  mwu_var_pos _ _ _ (by simp) (by simp)

namespace Spec

/-- The tie-corrected variance of the statistic, from the pooled values. -/
def variance (xs ys : List K) : K :=
  (xs.length : K) * ys.length / 12 * (((xs.length : K) + ys.length + 1) -
    tieTerm (xs ++ ys) / (((xs.length : K) + ys.length) * ((xs.length : K) + ys.length - 1)))

end Spec

theorem tieTerm_perm {l l' : List K} (h : l.Perm l') : Spec.tieTerm l = Spec.tieTerm l' := by
  unfold Spec.tieTerm
  have : l.toFinset = l'.toFinset := List.toFinset_eq_of_perm _ _ h
  rw [this]
  exact Finset.sum_congr rfl fun x _ => by rw [h.count_eq]

theorem count_rankAvg (l : List K) {x : K} (hx : x ∈ l) : (rankAvg l).count (rk l x) = l.count x := by
  rw [rankAvg_eq, List.count, List.count, List.countP_map]
  refine List.countP_congr fun y hy => ?_
  simp only [Function.comp_apply, beq_iff_eq]
  exact ⟨fun h => rk_inj l hy hx h, fun h => by rw [h]⟩

theorem tieTerm_rankAvg (l : List K) : Spec.tieTerm (rankAvg l) = Spec.tieTerm l := by
  unfold Spec.tieTerm
  have : (rankAvg l).toFinset = l.toFinset.image (rk l) := by
    ext x
    simp [rankAvg_eq]
  rw [this, Finset.sum_image]
  · refine Finset.sum_congr rfl fun x hx => ?_
    rw [count_rankAvg l (List.mem_toFinset.1 hx)]
  · intro x hx y hy h
    exact rk_inj l (by simpa using hx) (by simpa using hy) h

/-- **C135, partial.** The variance is the tie-corrected one when the largest pooled value occurs once.  (Missing: a tied
largest value, see `mwu_p_wrong`.) -/
theorem mwu_variance_partial (us : USort) (xs ys : List K) (m : K) (hm : m ∈ xs ++ ys) (hmax : ∀ y ∈ xs ++ ys, y ≤ m)
    (h1 : (xs ++ ys).count m = 1) : (mannWhitney us xs ys).var = Spec.variance xs ys := by
  have hp := us.perm (fun a b : K => decide (a ≤ b)) (rankAvg (xs ++ ys))
  have hne : us.run (fun a b => decide (a ≤ b)) (rankAvg (xs ++ ys)) ≠ [] := by
    intro h
    rw [h] at hp
    have := hp.length_eq
    rw [rankAvg_eq, List.length_map, List.length_nil] at this
    rw [List.eq_nil_of_length_eq_zero this.symm] at hm
    simp at hm
  have hmem : rk (xs ++ ys) m ∈ us.run (fun a b => decide (a ≤ b)) (rankAvg (xs ++ ys)) :=
    hp.mem_iff.2 (List.mem_map_of_mem hm)
  have hlast : (us.run (fun a b => decide (a ≤ b)) (rankAvg (xs ++ ys))).getLast hne = rk (xs ++ ys) m := by
    refine le_antisymm ?_ ?_
    · obtain ⟨y, hy, hye⟩ := List.mem_map.1 (hp.mem_iff.1 (List.getLast_mem hne))
      rw [← hye]
      rcases (hmax y hy).lt_or_eq with h | h
      · exact (rk_lt _ hy h).le
      · rw [h]; exact le_rfl
    · have hpw := run_sorted us (rankAvg (xs ++ ys))
      rw [← List.dropLast_append_getLast hne] at hpw hmem
      rcases List.mem_append.1 hmem with h | h
      · exact (List.pairwise_append.1 hpw).2.2 _ h _ (by simp)
      · exact (List.mem_singleton.1 h).le
  rw [var_eq, tie_sum_untied_max_partial _ (run_sorted us _) hne, tieTerm_perm hp, tieTerm_rankAvg, Spec.variance]
  · ring
  · rw [hlast, hp.count_eq, count_rankAvg _ hm, h1]

example : (mannWhitney insertionUSort ([3, 1, 1] : List ℚ) [2, 0]).var = Spec.variance ([3, 1, 1] : List ℚ) [2, 0] :=
  mwu_variance_partial _ _ _ 3 (by decide +kernel) (by decide +kernel) (by decide +kernel)

end Verif.MWU

namespace Verif.NormalP
open Verif.TTest (Alt)
open Verif.Normal Verif.GaussTail
open MeasureTheory ProbabilityTheory Set

namespace Spec

/-- The p-value of the Mann-Whitney test by the normal approximation with continuity correction: the (doubled, for
two sides) probability of a score above the observed one, at most 1. -/
noncomputable def mwuP (alt : Alt) (xs ys : List ℝ) : ℝ :=
  let tail := fun u => Normal.Spec.upper ((xs.length : ℝ) * ys.length / 2 + 1 / 2) (√(MWU.Spec.variance xs ys)) u
  match alt with
  | .twoSided => min 1 (2 * tail (max (MWU.Spec.wins xs ys) (MWU.Spec.wins ys xs)))
  | .less => tail (MWU.Spec.wins ys xs)
  | .greater => tail (MWU.Spec.wins xs ys)

end Spec

/-- **C135.** The p-value lies between 0 and 1. -/
theorem mwu_p_range (alt : Alt) (s : MWU.Stats ℝ) : 0 ≤ mwuP alt s ∧ mwuP alt s ≤ 1 := by
  unfold mwuP
  split
  · norm_num
  · exact ⟨le_max_left _ _, max_le (by norm_num) (min_le_left _ _)⟩

example : mwuP .less ⟨1, 3, 2, 1⟩ ≤ 1 := (mwu_p_range _ _).2

/-- **C135.** The two-sided p-value does not depend on which sample comes first; "less" and "greater" are exchanged. -/
theorem mwu_p_swap (us : USort) (xs ys : List ℝ) :
    mwuP .twoSided (MWU.mannWhitney us ys xs) = mwuP .twoSided (MWU.mannWhitney us xs ys) ∧
      mwuP .less (MWU.mannWhitney us ys xs) = mwuP .greater (MWU.mannWhitney us xs ys) ∧
      mwuP .greater (MWU.mannWhitney us ys xs) = mwuP .less (MWU.mannWhitney us xs ys) := by
  obtain ⟨h1, h2, h3, h4⟩ := MWU.mwu_swap us xs ys
  refine ⟨?_, ?_, ?_⟩
  · simp only [mwuP, mwuPick, h1, h2, h3, h4, max_comm]
  · simp only [mwuP, mwuPick, h2, h3, h4]
  · simp only [mwuP, mwuPick, h1, h3, h4]

example : mwuP .less (MWU.mannWhitney insertionUSort [1, 2] [3]) =
    mwuP .greater (MWU.mannWhitney insertionUSort [3] [1, 2]) := (mwu_p_swap insertionUSort [3] [1, 2]).2.1

theorem clamp_near {a b e : ℝ} (h : |a - b| ≤ e) (hb : 0 ≤ b) : |max 0 (min 1 a) - min 1 b| ≤ e := by
  have h' := abs_le.1 h
  rw [abs_le]
  rcases le_total 1 a with h1 | h1 <;> rcases le_total 1 b with h2 | h2 <;> rcases le_total 0 a with h3 | h3 <;>
    simp only [min_eq_left, min_eq_right, max_eq_left, max_eq_right, h1, h2, h3, zero_le_one] <;>
    constructor <;> linarith [h'.1, h'.2]

theorem upper_le_one (μ σ x : ℝ) : 0 ≤ Normal.Spec.upper μ σ x ∧ Normal.Spec.upper μ σ x ≤ 1 :=
  ⟨measureReal_nonneg, measureReal_le_one⟩

/-- **C135, partial.** When the largest pooled value occurs once the p-value is that of the normal approximation with
tie and continuity corrections, up to `1.05e-10`.  (Missing: a tied largest value, see `mwu_p_wrong`.) -/
theorem mwu_p_partial (us : USort) (alt : Alt) (xs ys : List ℝ) (hx : xs ≠ []) (hy : ys ≠ []) (m : ℝ)
    (hm : m ∈ xs ++ ys) (hmax : ∀ y ∈ xs ++ ys, y ≤ m) (h1 : (xs ++ ys).count m = 1) :
    |mwuP alt (MWU.mannWhitney us xs ys) - Spec.mwuP alt xs ys| ≤ 1.05e-10 := by
  have hvar := MWU.mwu_variance_partial us xs ys m hm hmax h1
  have hpos := MWU.mwu_var_pos us xs ys hx hy
  obtain ⟨e1, e2, -⟩ := MWU.mann_whitney_counts_pairs us xs ys
  have e3 : (MWU.mannWhitney us xs ys).mean = (xs.length : ℝ) * ys.length / 2 := rfl
  rw [hvar] at hpos
  have hs : 0 < √(MWU.Spec.variance xs ys) := Real.sqrt_pos.2 hpos
  have hh : (0.5 : ℝ) = 1 / 2 := by norm_num
  rw [mwuP, hvar, if_neg hs.ne', e3, hh]
  have key := fun u => sf_abs u ((xs.length : ℝ) * ys.length / 2 + 1 / 2) _ hs
  have hu := fun u => upper_le_one ((xs.length : ℝ) * ys.length / 2 + 1 / 2) (√(MWU.Spec.variance xs ys)) u
  cases alt with
  | twoSided =>
    simp only [mwuPick, Spec.mwuP, e1, e2]
    refine clamp_near ?_ (mul_nonneg (by norm_num) (hu _).1)
    rw [← mul_sub, abs_mul, abs_two]
    have := key (max (MWU.Spec.wins xs ys) (MWU.Spec.wins ys xs))
    norm_num at this ⊢
    linarith
  | less =>
    simp only [mwuPick, Spec.mwuP, e2, one_mul]
    have := clamp_near (key (MWU.Spec.wins ys xs)) (hu _).1
    rw [min_eq_right (hu _).2] at this
    exact this.trans (by norm_num)
  | greater =>
    simp only [mwuPick, Spec.mwuP, e1, one_mul]
    have := clamp_near (key (MWU.Spec.wins xs ys)) (hu _).1
    rw [min_eq_right (hu _).2] at this
    exact this.trans (by norm_num)

example : |mwuP .greater (MWU.mannWhitney insertionUSort [3, 1, 1] [2, 0]) - Spec.mwuP .greater [3, 1, 1] [2, 0]| ≤
    1.05e-10 := by
  refine mwu_p_partial _ _ _ _ (by simp) (by simp) 3 (by simp) ?_ ?_
  · intro y hy
    simp at hy
    rcases hy with h | h | h | h <;> rw [h] <;> norm_num
  · norm_num [List.count_cons]

/-- **C135 is false** for an empty sample: nothing has been observed, yet the p-value is 0, the strongest evidence. -/
theorem mwu_p_empty_wrong (us : USort) (alt : Alt) (l : List ℝ) :
    mwuP alt (MWU.mannWhitney us [] l) = 0 ∧ mwuP alt (MWU.mannWhitney us l []) = 0 := by
  have h : ∀ xs ys : List ℝ, (xs.length : ℝ) * ys.length = 0 → mwuP alt (MWU.mannWhitney us xs ys) = 0 := by
    intro xs ys h0
    rw [mwuP, if_pos]
    rw [MWU.var_eq, h0]
    simp
  exact ⟨h _ _ (by simp), h _ _ (by simp)⟩

example : mwuP .twoSided (MWU.mannWhitney insertionUSort [] [1, 2, 3]) = 0 := (mwu_p_empty_wrong _ _ _).1

/-- **C135 is false** when the largest value is tied: for the samples 1, 1 and 0, 0 the two-sided p-value is too large
by more than 0.008. -/
theorem mwu_p_wrong (us : USort) :
    Spec.mwuP .twoSided [1, 1] [0, 0] + 0.008 ≤ mwuP .twoSided (MWU.mannWhitney us [1, 1] [0, 0]) := by
  have w1 : MWU.Spec.wins ([1, 1] : List ℝ) [0, 0] = 4 := by norm_num [MWU.Spec.wins, MWU.Spec.score]
  have w2 : MWU.Spec.wins ([0, 0] : List ℝ) [1, 1] = 0 := by norm_num [MWU.Spec.wins, MWU.Spec.score]
  obtain ⟨e1, e2, e3⟩ := MWU.mann_whitney_counts_pairs us ([1, 1] : List ℝ) [0, 0]
  rw [w1] at e1 e3
  rw [w2] at e2 e3
  have hr : MWU.rankAvg ([1, 1] ++ [0, 0] : List ℝ) = [7 / 2, 7 / 2, 3 / 2, 3 / 2] := by
    norm_num [MWU.rankAvg, List.countP_cons]
  have hsort : us.run (fun a b => decide (a ≤ b)) ([7 / 2, 7 / 2, 3 / 2, 3 / 2] : List ℝ) =
      [3 / 2, 3 / 2, 7 / 2, 7 / 2] := by
    refine List.Perm.eq_of_pairwise (le := (· ≤ ·)) (fun _ _ _ _ h1 h2 => le_antisymm h1 h2) (MWU.run_sorted us _) ?_
      ((us.perm _ _).trans ?_)
    · norm_num
    · exact (List.perm_append_comm (l₁ := [7 / 2, 7 / 2]) (l₂ := [3 / 2, 3 / 2]))
  have hvar : (MWU.mannWhitney us ([1, 1] : List ℝ) [0, 0]).var = 3 / 2 := by
    rw [MWU.var_eq, hr, hsort]
    have ht : MWU.tieSum ([3 / 2, 3 / 2, 7 / 2, 7 / 2] : List ℝ) = 6 := by
      have s1 : ∀ (v c a : ℝ), MWU.tieStep ⟨some v, c, a⟩ v = ⟨some v, c + 1, a⟩ := fun v c a => if_pos rfl
      have s2 : ∀ (r : Option ℝ) (v c a : ℝ), r ≠ some v →
          MWU.tieStep ⟨r, c, a⟩ v = ⟨some v, 1, a + c * (c + 1) * (c - 1)⟩ := fun r v c a h => if_neg h
      rw [MWU.tieSum, List.foldl_cons, List.foldl_cons, List.foldl_cons, List.foldl_cons, List.foldl_nil,
        s2 none _ _ _ (by simp), s1, s2 (some _) _ _ _ (by norm_num), s1]
      norm_num
    rw [ht]
    norm_num
  have hspec : MWU.Spec.variance ([1, 1] : List ℝ) [0, 0] = 4 / 3 := by
    have : ([1, 1] ++ [0, 0] : List ℝ).toFinset = {1, 0} := by
      ext; simp
    norm_num [MWU.Spec.variance, MWU.Spec.tieTerm, this, List.count_cons]
  have hs1 : (0 : ℝ) < √(3 / 2) := by positivity
  have hs2 : (0 : ℝ) < √(4 / 3) := by positivity
  have h2 : (0 : ℝ) < √2 := by positivity
  rw [mwuP, hvar, if_neg hs1.ne', e3]
  simp only [mwuPick, Spec.mwuP, e1, e2, w1, w2, hspec, List.length_cons, List.length_nil]
  rw [show (4 + 0 : ℝ) / 2 + 0.5 = 5 / 2 by norm_num, show max (4 : ℝ) 0 = 4 by norm_num,
    show (((0 + 1 + 1 : ℕ) : ℝ) * ((0 + 1 + 1 : ℕ) : ℝ) / 2 + 1 / 2) = 5 / 2 by norm_num]
  have a1 : (4 - 5 / 2) / (√(3 / 2) * √2) = √(3 / 4) := by
    rw [← Real.sqrt_mul (by norm_num), div_eq_iff (by positivity), ← Real.sqrt_mul (by norm_num)]
    rw [eq_comm, Real.sqrt_eq_iff_mul_self_eq (by norm_num) (by norm_num)]
    norm_num
  have a2 : (4 - 5 / 2) / (√(4 / 3) * √2) = √(27 / 32) := by
    rw [← Real.sqrt_mul (by norm_num), div_eq_iff (by positivity), ← Real.sqrt_mul (by norm_num)]
    rw [eq_comm, Real.sqrt_eq_iff_mul_self_eq (by norm_num) (by norm_num)]
    norm_num
  have u1 := upper_eq (5 / 2) (√(3 / 2)) 4 hs1
  have u2 := upper_eq (5 / 2) (√(4 / 3)) 4 hs2
  rw [a1] at u1
  rw [a2] at u2
  have hacc := abs_le.1 (sf_abs 4 (5 / 2) (√(3 / 2)) hs1)
  -- the two tails differ
  have b1 : √(3 / 4 : ℝ) ≤ 0.8661 := by rw [Real.sqrt_le_iff]; norm_num
  have b0 : 0 ≤ √(3 / 4 : ℝ) := Real.sqrt_nonneg _
  have b2 : (0.9185 : ℝ) ≤ √(27 / 32) := by rw [Real.le_sqrt (by norm_num) (by norm_num)]; norm_num
  have b3 : √(27 / 32 : ℝ) ^ 2 = 27 / 32 := Real.sq_sqrt (by norm_num)
  generalize √(3 / 4 : ℝ) = a at *
  generalize √(27 / 32 : ℝ) = b at *
  have hab : a ≤ b := by norm_num at b1 b2; linarith
  have hd := (convex_Icc a b).image_sub_le_mul_sub_of_deriv_le (f := U) (C := -0.15) continuous_U.continuousOn
    (fun y _ => (hasDerivAt_U y).differentiableAt.differentiableWithinAt)
    (fun y hy => by
      rw [interior_Icc] at hy
      rw [(hasDerivAt_U y).deriv]
      have hy2 : y ^ 2 ≤ 27 / 32 := by
        rw [← b3]
        exact pow_le_pow_left₀ (by linarith [hy.1]) hy.2.le 2
      have := Real.add_one_le_exp (-y ^ 2)
      norm_num
      linarith) a ⟨le_rfl, hab⟩ b ⟨hab, le_rfl⟩ hab
  have hc := c_bounds.1
  have hsf1 : Normal.sf 4 (5 / 2) √(3 / 2) ≤ 1 / 2 := (sf_range 4 (5 / 2) _ hs1).2.2.1 (by norm_num)
  have hg : U b + 0.15 * 0.0524 ≤ U a := by
    norm_num at hd b1 b2 ⊢
    nlinarith
  have hgap : Normal.Spec.upper (5 / 2) √(4 / 3) 4 + 0.0041 ≤ Normal.Spec.upper (5 / 2) √(3 / 2) 4 := by
    rw [u1, u2]
    norm_num at hg hc ⊢
    nlinarith [c_pos]
  generalize Normal.Spec.upper (5 / 2) √(4 / 3) 4 = P at *
  generalize Normal.Spec.upper (5 / 2) √(3 / 2) 4 = Q at *
  generalize Normal.sf 4 (5 / 2) √(3 / 2) = S at *
  have hm : min 1 (2 * P) ≤ 2 * P := min_le_right _ _
  refine le_trans ?_ (le_max_right _ _)
  rw [min_eq_right (by linarith : 2 * S ≤ 1)]
  norm_num at hacc hgap ⊢
  linarith [hacc.1, hacc.2]

/-! ### xi -/

theorem two_tails (σ t : ℝ) (hσ : 0 < σ) (ht : 0 ≤ t) :
    (gaussianReal 0 (.mk (σ ^ 2) (sq_nonneg σ))).real {y | t < |y|} = 2 * Normal.Spec.upper 0 σ t := by
  have hset : {y : ℝ | t < |y|} = Ioi t ∪ Iio (-t) := by
    ext y
    simp only [mem_ofPred_eq, mem_union, mem_Ioi, mem_Iio, lt_abs]
    constructor
    · rintro (h | h)
      · exact .inl h
      · exact .inr (by linarith)
    · rintro (h | h)
      · exact .inl h
      · exact .inr (by linarith)
  have hv : NNReal.mk (σ ^ 2) (sq_nonneg σ) ≠ 0 := by
    intro h
    have : σ ^ 2 = 0 := congrArg NNReal.toReal h
    nlinarith
  have := nullSingletonClass_gaussianReal (μ := 0) hv
  have hlow : (gaussianReal 0 (.mk (σ ^ 2) (sq_nonneg σ))).real (Iio (-t)) = Normal.Spec.lower 0 σ (-t) := by
    unfold Normal.Spec.lower
    exact measureReal_congr Iio_ae_eq_Iic
  rw [hset, measureReal_union (by
      rw [Set.disjoint_left]
      intro y h1 h2
      simp only [mem_Ioi, mem_Iio] at h1 h2
      linarith) measurableSet_Iio, hlow, lower_eq, upper_eq 0 σ _ hσ]
  change Normal.Spec.upper 0 σ t + _ = _
  rw [upper_eq 0 σ t hσ]
  have hz : (-t - 0) / (σ * √2) = -((t - 0) / (σ * √2)) := by ring
  have hU : Normal.c * U (-((t - 0) / (σ * √2))) = 2 - Normal.c * U ((t - 0) / (σ * √2)) := by
    rw [U_neg, mul_sub, Normal.c]
    have : √Real.pi ≠ 0 := by positivity
    field_simp
  rw [hz, hU]
  ring

/-- **C135.** With at least 30 rows the p-value is the probability that a normal variable with variance 2/5 exceeds
`sqrt n * |xi|` in absolute value, up to `1.05e-10`; it lies between 0 and 1.  With fewer rows it is NaN. -/
theorem xi_p_value (n : ℕ) (corr : ℚ) :
    (n < 30 → xiP n (some corr) = none) ∧
    (30 ≤ n → ∃ p, xiP n (some corr) = some p ∧ 0 ≤ p ∧ p ≤ 1 ∧
      |p - (gaussianReal 0 (2 / 5)).real {y | √(n : ℝ) * |(corr : ℝ)| < |y|}| ≤ 1.05e-10) := by
  refine ⟨fun h => by rw [xiP, if_pos h], fun h => ?_⟩
  have hσ : (0 : ℝ) < √0.4 := by norm_num
  have ht : 0 ≤ √(n : ℝ) * |(corr : ℝ)| := by positivity
  refine ⟨_, by rw [xiP, if_neg (by omega)]; rfl, ?_, ?_, ?_⟩
  · exact mul_nonneg (sf_range _ 0 1 one_pos).1 (by norm_num)
  · have := (sf_range (√(n : ℝ) * |(corr : ℝ)| / √0.4) 0 1 one_pos).2.2.1 (by positivity)
    linarith
  · have hv : (2 / 5 : NNReal) = .mk (√0.4 ^ 2) (sq_nonneg _) := by
      apply NNReal.eq
      rw [NNReal.coe_mk, Real.sq_sqrt (by norm_num)]
      norm_num
    rw [hv, two_tails _ _ hσ ht]
    have he : Normal.Spec.upper 0 √0.4 (√(n : ℝ) * |(corr : ℝ)|) =
        Normal.Spec.upper 0 1 (√(n : ℝ) * |(corr : ℝ)| / √0.4) := by
      rw [upper_eq _ _ _ hσ, upper_eq _ _ _ one_pos, sub_zero, sub_zero, one_mul, div_div]
    change |sf (√(n : ℝ) * |(corr : ℝ)| / √0.4) 0 1 * 2 - _| ≤ _
    rw [he, mul_comm, ← mul_sub, abs_mul, abs_two]
    have := sf_abs (√(n : ℝ) * |(corr : ℝ)| / √0.4) 0 1 one_pos
    norm_num at this ⊢
    linarith

example : ∃ p, xiP 50 (some (1 / 4)) = some p ∧ 0 ≤ p ∧ p ≤ 1 ∧
    |p - (gaussianReal 0 (2 / 5)).real {y | √((50 : ℕ) : ℝ) * |((1 / 4 : ℚ) : ℝ)| < |y|}| ≤ 1.05e-10 :=
  (xi_p_value 50 (1 / 4)).2 (by norm_num)

/-- **C135.** A coefficient of zero gives the p-value 1, and the p-value is NaN exactly when the coefficient is or there
are fewer than 30 rows. -/
theorem xi_p_zero (n : ℕ) (h : 30 ≤ n) : xiP n (some 0) = some 1 := by
  rw [xiP, if_neg (by omega), Option.map_some, Rat.cast_zero, abs_zero, mul_zero, zero_div, sf_mean]
  norm_num

example : xiP 30 (some 0) = some 1 := xi_p_zero 30 le_rfl

theorem xi_p_nan (n : ℕ) (corr : Option ℚ) : xiP n corr = none ↔ n < 30 ∨ corr = none := by
  unfold xiP
  split
  · rename_i h
    simp [h]
  · rename_i h
    simp [h]

example : xiP 100 none = none := (xi_p_nan 100 none).2 (.inr rfl)

end Verif.NormalP
