import Verif.Model.Psi
import Mathlib.Tactic.Linarith
import Mathlib.Tactic.NormNum
import Mathlib.Tactic.Ring
import Mathlib.Tactic.FieldSimp
import Mathlib.Algebra.BigOperators.Group.List.Basic
import Mathlib.Algebra.Order.BigOperators.Group.List

/-!
# Population stability index: theorems
-/

namespace Verif.Psi.Spec
variable {α : Type} [LinearOrder α]

/-- `x` belongs to bin `i` of the ascending right ends `bp`: `bp[i-1] < x ≤ bp[i]`. -/
def InBin (bp : List α) (i : Nat) (x : α) : Prop :=
  (∀ b, bp[i]? = some b → x ≤ b) ∧ (∀ j b, j + 1 = i → bp[j]? = some b → b < x)

end Verif.Psi.Spec

namespace Verif.Psi
open Verif.Psi.Spec
variable {α : Type} [LinearOrder α]

theorem searchLoop_ins (cmp : Nat → Ordering) (n q : Nat) (hgt : ∀ i < n, cmp i = .gt ↔ q ≤ i) (fuel size base : Nat)
    (hf : size ≤ fuel) (hs : 0 < size) (hb : base = 0 ∨ base < q) (hq : q ≤ base + size) (hn : base + size ≤ n) :
    Stopword.searchLoop cmp fuel size base = q - 1 := by
  induction fuel generalizing size base with
  | zero => omega
  | succ fuel ih =>
    unfold Stopword.searchLoop
    by_cases h : 1 < size
    · rw [if_pos h]
      simp only []
      by_cases hc : cmp (base + size / 2) = .gt
      · rw [if_pos hc]
        have := (hgt _ (by omega)).1 hc
        exact ih _ _ (by omega) (by omega) hb (by omega) (by omega)
      · rw [if_neg hc]
        have : ¬ q ≤ base + size / 2 := fun hle => hc ((hgt _ (by omega)).2 hle)
        exact ih _ _ (by omega) (by omega) (by omega) (by omega) (by omega)
    · rw [if_neg h]
      omega

/-- On an ascending list without repetition the index is the number of entries below `x`. -/
theorem bsIndex_spec (bp : List α) (h : bp.Pairwise (· < ·)) (x : α) :
    bsIndex bp x ≤ bp.length ∧ (∀ j b, j < bsIndex bp x → bp[j]? = some b → b < x) ∧
    (∀ j b, bsIndex bp x ≤ j → bp[j]? = some b → x ≤ b) := by
  by_cases h0 : bp.length = 0
  · have : bp = [] := List.length_eq_zero_iff.1 h0
    subst this
    refine ⟨by simp [bsIndex], ?_, ?_⟩ <;> intros <;> simp_all
  -- number of entries ≤ x
  have hsplit : ∃ q ≤ bp.length, (∀ j b, j < q → bp[j]? = some b → b ≤ x) ∧
      (∀ j b, q ≤ j → bp[j]? = some b → x < b) := by
    clear h0
    induction bp with
    | nil => exact ⟨0, le_refl _, by simp, by simp⟩
    | cons b bp ih =>
      obtain ⟨hb, hp⟩ := List.pairwise_cons.1 h
      by_cases hbx : b ≤ x
      · obtain ⟨q, hq, h1, h2⟩ := ih hp
        refine ⟨q + 1, by simpa using hq, ?_, ?_⟩
        · intro j c hj hc
          cases j with
          | zero => simp only [List.getElem?_cons_zero, Option.some.injEq] at hc; exact hc ▸ hbx
          | succ j => rw [List.getElem?_cons_succ] at hc; exact h1 j c (by omega) hc
        · intro j c hj hc
          cases j with
          | zero => omega
          | succ j => rw [List.getElem?_cons_succ] at hc; exact h2 j c (by omega) hc
      · refine ⟨0, by omega, by intro j c hj; omega, ?_⟩
        intro j c _ hc
        cases j with
        | zero => simp only [List.getElem?_cons_zero, Option.some.injEq] at hc; exact hc ▸ not_le.1 hbx
        | succ j =>
          rw [List.getElem?_cons_succ] at hc
          exact lt_trans (not_le.1 hbx) (hb c (List.mem_of_getElem? hc))
  obtain ⟨q, hq, hle, hgt⟩ := hsplit
  have hbase : Stopword.searchLoop (cmpAt bp x) bp.length bp.length 0 = q - 1 := by
    apply searchLoop_ins (cmpAt bp x) bp.length q _ bp.length bp.length 0 (le_refl _) (by omega) (Or.inl rfl) (by omega)
      (by omega)
    intro i hi
    have hg : bp[i]? = some bp[i] := List.getElem?_eq_getElem hi
    simp only [cmpAt, hg]
    rw [compare_gt_iff_gt]
    constructor
    · intro hlt
      by_contra hni
      exact absurd (hle i _ (by omega) hg) (not_le.2 hlt)
    · intro hqi
      exact hgt i _ hqi hg
  have hval : bsIndex bp x = if cmpAt bp x (q - 1) = .eq then q - 1 else q - 1 + (if cmpAt bp x (q - 1) = .lt then 1 else 0) := by
    unfold bsIndex
    rw [if_neg h0]
    simp only []
    rw [hbase]
  have hmono : ∀ (i j : Nat) (b c : α), i < j → bp[i]? = some b → bp[j]? = some c → b < c := by
    intro i j b c hij hb hc
    obtain ⟨hi, rfl⟩ := List.getElem?_eq_some_iff.1 hb
    obtain ⟨hj, rfl⟩ := List.getElem?_eq_some_iff.1 hc
    exact List.pairwise_iff_getElem.1 h i j hi hj hij
  by_cases hq0 : q = 0
  · subst hq0
    have hlt0 : 0 < bp.length := by omega
    have hg : bp[0]? = some bp[0] := List.getElem?_eq_getElem hlt0
    have hx := hgt 0 _ (le_refl _) hg
    have ha : cmpAt bp x 0 = .gt := by
      simp only [cmpAt, hg]
      exact compare_gt_iff_gt.2 hx
    have hv0 : bsIndex bp x = 0 := by
      rw [hval]
      simp [ha]
    rw [hv0]
    exact ⟨by omega, by intros; omega, fun j b hj hb => (hgt j b hj hb).le⟩
  · have hlt : q - 1 < bp.length := by omega
    have hg : bp[q - 1]? = some bp[q - 1] := List.getElem?_eq_getElem hlt
    have hx := hle (q - 1) _ (by omega) hg
    rcases lt_or_eq_of_le hx with hlt' | heq
    · have ha : cmpAt bp x (q - 1) = .lt := by
        simp only [cmpAt, hg]
        exact compare_lt_iff_lt.2 hlt'
      have hv0 : bsIndex bp x = q := by
        rw [hval, ha]
        simp
        omega
      rw [hv0]
      refine ⟨hq, ?_, fun j b hj hb => (hgt j b hj hb).le⟩
      intro j b hj hb
      rcases Nat.lt_or_ge j (q - 1) with h1 | h1
      · exact lt_trans (hmono j (q - 1) b _ h1 hb hg) hlt'
      · have : j = q - 1 := by omega
        subst this
        rw [hg] at hb
        exact Option.some.inj hb ▸ hlt'
    · have ha : cmpAt bp x (q - 1) = .eq := by
        simp only [cmpAt, hg]
        exact compare_eq_iff_eq.2 heq
      have hv0 : bsIndex bp x = q - 1 := by rw [hval, if_pos ha]
      rw [hv0]
      refine ⟨by omega, ?_, ?_⟩
      · intro j b hj hb
        exact lt_of_lt_of_eq (hmono j (q - 1) b _ hj hb hg) heq
      · intro j b hj hb
        rcases Nat.lt_or_ge j q with h1 | h1
        · have : j = q - 1 := by omega
          subst this
          rw [hg] at hb
          rw [← Option.some.inj hb, heq]
        · exact (hgt j b h1 hb).le

theorem bsIndex_lt_iff (bp : List α) (h : bp.Pairwise (· < ·)) (x : α) :
    bsIndex bp x < bp.length ↔ ∃ b ∈ bp, x ≤ b := by
  obtain ⟨h1, h2, h3⟩ := bsIndex_spec bp h x
  constructor
  · intro hlt
    exact ⟨bp[bsIndex bp x], List.getElem_mem hlt, h3 _ _ (le_refl _) (List.getElem?_eq_getElem hlt)⟩
  · rintro ⟨b, hb, hxb⟩
    by_contra hge
    obtain ⟨j, hj, rfl⟩ := List.getElem_of_mem hb
    exact absurd (h2 j _ (by omega) (List.getElem?_eq_getElem hj)) (not_lt.2 hxb)

theorem bsIndex_inBin (bp : List α) (h : bp.Pairwise (· < ·)) (x : α) (i : Nat) (hi : i < bp.length) :
    bsIndex bp x = i ↔ InBin bp i x := by
  obtain ⟨h1, h2, h3⟩ := bsIndex_spec bp h x
  constructor
  · rintro rfl
    exact ⟨fun b hb => h3 _ _ (le_refl _) hb, fun j b hj hb => h2 j b (by omega) hb⟩
  · rintro ⟨a1, a2⟩
    apply Nat.le_antisymm
    · by_contra hlt
      have := h2 i _ (by omega) (List.getElem?_eq_getElem hi)
      exact absurd (a1 _ (List.getElem?_eq_getElem hi)) (not_le.2 this)
    · by_contra hlt
      obtain ⟨j, rfl⟩ : ∃ j, i = j + 1 := ⟨i - 1, by omega⟩
      have hj : j < bp.length := by omega
      have := a2 j _ rfl (List.getElem?_eq_getElem hj)
      exact absurd (h3 j _ (by omega) (List.getElem?_eq_getElem hj)) (not_le.2 this)

theorem sum_count_nodup {β : Type} [BEq β] [LawfulBEq β] [DecidableEq β] (L : List β) (hL : L.Nodup) (l : List β) (h : ∀ x ∈ l, x ∈ L) :
    (L.map fun c => l.count c).sum = l.length := by
  induction l with
  | nil => simp
  | cons a l ih =>
    have ih := ih fun i hi => h i (List.mem_cons_of_mem _ hi)
    have ha := h a List.mem_cons_self
    have e : (fun i => (a :: l).count i) = fun i => l.count i + if a = i then 1 else 0 := by
      funext i
      rw [List.count_cons]
      simp
    rw [e, List.sum_map_add, ih, List.length_cons]
    congr 1
    have : ∀ (l : List β), l.Nodup → (l.map fun i => if a = i then 1 else 0).sum = if a ∈ l then 1 else 0 := by
      intro l hl
      induction l with
      | nil => rfl
      | cons b l ih =>
        rw [List.map_cons, List.sum_cons, ih (List.nodup_cons.1 hl).2]
        by_cases hab : a = b
        · subst hab
          simp [(List.nodup_cons.1 hl).1]
        · simp [hab]
    rw [this _ hL, if_pos ha]

/-- For ascending breakpoints: the counts exist (no panic) iff every value is at most some breakpoint; then every value
is counted in its bin and nowhere else, and the counts add up to the sample size. -/
theorem psi_counts_bins (bp : List α) (h : bp.Pairwise (· < ·)) (s : List α) :
    ((∀ x ∈ s, ∃ b ∈ bp, x ≤ b) ↔ (psiCounts bp s).isSome) ∧
    ∀ c, psiCounts bp s = some c → c.length = bp.length ∧ c.sum = s.length ∧
      ∀ (i n : Nat), c[i]? = some n → ∀ p : α → Bool, (∀ x, p x = true ↔ InBin bp i x) → n = s.countP p := by
  have hall : (∀ x ∈ s, ∃ b ∈ bp, x ≤ b) ↔ ((s.map (bsIndex bp)).all fun i => decide (i < bp.length)) = true := by
    rw [List.all_eq_true]
    constructor
    · intro hx i hi
      obtain ⟨x, hxs, rfl⟩ := List.mem_map.1 hi
      exact decide_eq_true ((bsIndex_lt_iff bp h x).2 (hx x hxs))
    · intro hi x hx
      exact (bsIndex_lt_iff bp h x).1 (of_decide_eq_true (hi _ (List.mem_map_of_mem hx)))
  constructor
  · rw [hall]
    unfold psiCounts
    simp only []
    by_cases hc : ((s.map (bsIndex bp)).all fun i => decide (i < bp.length)) = true
    · rw [if_pos hc]; simp [hc]
    · rw [if_neg hc]; simp [hc]
  · intro c hc
    unfold psiCounts at hc
    simp only [] at hc
    by_cases hcond : ((s.map (bsIndex bp)).all fun i => decide (i < bp.length)) = true
    · rw [if_pos hcond] at hc
      obtain rfl := Option.some.inj hc
      refine ⟨by simp, ?_, ?_⟩
      · rw [sum_count_nodup _ List.nodup_range, List.length_map]
        intro i hi
        rw [List.mem_range]
        exact of_decide_eq_true (List.all_eq_true.1 hcond i hi)
      · intro i n hn p hp
        rw [List.getElem?_map] at hn
        by_cases hi : i < bp.length
        · rw [List.getElem?_range hi] at hn
          obtain rfl := Option.some.inj hn
          simp only []
          rw [List.count_eq_countP, List.countP_map]
          apply List.countP_congr
          intro x _
          simp only [Function.comp]
          rw [hp, beq_iff_eq, bsIndex_inBin bp h x i hi]
        · rw [List.getElem?_eq_none (by simpa using hi)] at hn
          exact absurd hn (by simp)
    · rw [if_neg hcond] at hc
      exact absurd hc (by simp)

theorem withTop_sorted (q : List α) (h : q.Pairwise (· < ·)) :
    (q.map (fun b : α => (b : WithTop α)) ++ [⊤]).Pairwise (· < ·) := by
  rw [List.pairwise_append]
  refine ⟨?_, List.pairwise_singleton _ _, ?_⟩
  · rw [List.pairwise_map]
    exact h.imp fun hab => WithTop.coe_lt_coe.2 hab
  · intro a ha b hb
    obtain ⟨x, _, rfl⟩ := List.mem_map.1 ha
    rw [List.mem_singleton.1 hb]
    exact WithTop.coe_lt_top x

/-- `psi_w_breakpoints` never panics for ascending breakpoints: the bins are `(-inf, b₀], (b₀, b₁], …, (bₙ, inf)`. -/
theorem custom_breakpoints_bins (breakpoints s : List α) (h : breakpoints.Pairwise (· < ·)) :
    ∃ c, countsWithBreakpoints breakpoints s = some c ∧ c.length = breakpoints.length + 1 ∧ c.sum = s.length ∧
      ∀ (i n : Nat), c[i]? = some n → ∀ p : α → Bool,
        (∀ x, p x = true ↔ (∀ b, breakpoints[i]? = some b → x ≤ b) ∧
          (∀ j b, j + 1 = i → breakpoints[j]? = some b → b < x)) → n = s.countP p := by
  have hs := withTop_sorted breakpoints h
  obtain ⟨h1, h2⟩ := psi_counts_bins _ hs (s.map fun x : α => (x : WithTop α))
  have hsome := h1.1 (fun x _ => ⟨⊤, by simp, le_top⟩)
  obtain ⟨c, hc⟩ := Option.isSome_iff_exists.1 hsome
  obtain ⟨a1, a2, a3⟩ := h2 c hc
  refine ⟨c, hc, by simpa using a1, by simpa using a2, ?_⟩
  intro i n hn p hp
  have hi : i < breakpoints.length + 1 := by
    have := (List.getElem?_eq_some_iff.1 hn).1
    rw [a1] at this
    simpa using this
  classical
  rw [a3 i n hn (fun x => decide (InBin (breakpoints.map (fun b : α => (b : WithTop α)) ++ [⊤]) i x)) (by simp)]
  rw [List.countP_map]
  apply List.countP_congr
  intro x _
  simp only [Function.comp, decide_eq_true_eq]
  rw [hp]
  constructor
  · rintro ⟨b1, b2⟩
    constructor
    · intro b hb
      have hlt := (List.getElem?_eq_some_iff.1 hb).1
      exact WithTop.coe_le_coe.1 (b1 b (by rw [List.getElem?_append_left (by simpa using hlt), List.getElem?_map, hb]; rfl))
    · intro j b hj hb
      have hlt := (List.getElem?_eq_some_iff.1 hb).1
      exact WithTop.coe_lt_coe.1 (b2 j b hj (by
        rw [List.getElem?_append_left (by simpa using hlt), List.getElem?_map, hb]; rfl))
  · rintro ⟨b1, b2⟩
    constructor
    · intro b hb
      by_cases hlt : i < breakpoints.length
      · rw [List.getElem?_append_left (by simpa using hlt), List.getElem?_map, List.getElem?_eq_getElem hlt] at hb
        obtain rfl := Option.some.inj hb
        exact WithTop.coe_le_coe.2 (b1 _ (List.getElem?_eq_getElem hlt))
      · rw [List.getElem?_append_right (by simpa using hlt)] at hb
        have : i - (List.map (fun b : α => (b : WithTop α)) breakpoints).length = 0 := by rw [List.length_map]; omega
        rw [this] at hb
        obtain rfl := Option.some.inj hb
        exact le_top
    · intro j b hj hb
      have hlt : j < breakpoints.length := by omega
      rw [List.getElem?_append_left (by simpa using hlt), List.getElem?_map, List.getElem?_eq_getElem hlt] at hb
      obtain rfl := Option.some.inj hb
      exact WithTop.coe_lt_coe.2 (b2 j _ hj (List.getElem?_eq_getElem hlt))

/-! ### Contributions -/

/-- A contribution of positive shares is symmetric, never negative, and 0 only for equal shares. -/
theorem psi_bin_nonneg (a b : ℝ) (ha : 0 < a) (hb : 0 < b) :
    0 ≤ psiBin a b ∧ psiBin a b = psiBin b a ∧ (psiBin a b = 0 ↔ a = b) := by
  have key : ∀ a b : ℝ, 0 < a → 0 < b → a < b → 0 < psiBin a b := by
    intro a b ha hb hab
    have : Real.log (a / b) < 0 := Real.log_neg (div_pos ha hb) ((div_lt_one hb).2 hab)
    exact mul_pos_of_neg_of_neg (by linarith) this
  have hsymm : ∀ a b : ℝ, 0 < a → 0 < b → psiBin a b = psiBin b a := by
    intro a b ha hb
    unfold psiBin
    rw [Real.log_div ha.ne' hb.ne', Real.log_div hb.ne' ha.ne']
    ring
  refine ⟨?_, hsymm a b ha hb, ?_⟩
  · rcases lt_trichotomy a b with h | h | h
    · exact (key a b ha hb h).le
    · subst h; simp [psiBin]
    · rw [hsymm a b ha hb]; exact (key b a hb ha h).le
  · constructor
    · intro h0
      rcases lt_trichotomy a b with h | h | h
      · exact absurd h0 (key a b ha hb h).ne'
      · exact h
      · rw [hsymm a b ha hb] at h0
        exact absurd h0 (key b a hb ha h).ne'
    · rintro rfl; simp [psiBin]

theorem shares_pos (cnt : List Nat) (a : List ℝ) (h : shares cnt = some a) : ∀ x ∈ a, (1 / 10000 : ℝ) ≤ x := by
  unfold shares at h
  split at h
  · exact absurd h (by simp)
  · obtain rfl := Option.some.inj h
    intro x hx
    obtain ⟨c, _, rfl⟩ := List.mem_map.1 hx
    exact le_max_right _ _

/-- Every row of a report has shares of at least 0.0001 and a contribution `≥ 0` that is 0 only if the shares agree. -/
theorem psi_report_nonneg (cnt1 cnt2 : List Nat) (rows : List (ℝ × ℝ × ℝ)) (h : psiFrame cnt1 cnt2 = some rows) :
    ∀ r ∈ rows, 1 / 10000 ≤ r.1 ∧ 1 / 10000 ≤ r.2.1 ∧ 0 ≤ r.2.2 ∧ (r.2.2 = 0 ↔ r.1 = r.2.1) := by
  unfold psiFrame at h
  split at h
  · rename_i a b ha hb
    obtain rfl := Option.some.inj h
    intro r hr
    obtain ⟨p, hp, rfl⟩ := List.mem_map.1 hr
    have h1 := shares_pos _ _ ha p.1 (List.of_mem_zip hp).1
    have h2 := shares_pos _ _ hb p.2 (List.of_mem_zip hp).2
    have ⟨k1, _, k3⟩ := psi_bin_nonneg p.1 p.2 (by linarith) (by linarith)
    exact ⟨h1, h2, k1, k3⟩
  · exact absurd h (by simp)

/-- The report exists unless one of the samples is empty; the shares are the clipped proportions. -/
theorem psi_report_shares (cnt1 cnt2 : List Nat) (hl : cnt1.length = cnt2.length) :
    (psiFrame cnt1 cnt2 = none ↔ cnt1.sum = 0 ∨ cnt2.sum = 0) ∧
    ∀ rows, psiFrame cnt1 cnt2 = some rows → rows.length = cnt1.length ∧
      ∀ (i c1 c2 : Nat), cnt1[i]? = some c1 → cnt2[i]? = some c2 →
        rows[i]? = some (max ((c1 : ℝ) / cnt1.sum) (1 / 10000), max ((c2 : ℝ) / cnt2.sum) (1 / 10000),
          psiBin (max ((c1 : ℝ) / cnt1.sum) (1 / 10000)) (max ((c2 : ℝ) / cnt2.sum) (1 / 10000))) := by
  unfold psiFrame shares
  by_cases h1 : cnt1.sum = 0
  · rw [if_pos h1]; simp [h1]
  · by_cases h2 : cnt2.sum = 0
    · rw [if_neg h1, if_pos h2]; simp [h2]
    · rw [if_neg h1, if_neg h2]
      refine ⟨by simp [h1, h2], ?_⟩
      intro rows hr
      obtain rfl := Option.some.inj hr
      refine ⟨by simp [hl], ?_⟩
      intro i c1 c2 e1 e2
      rw [List.getElem?_map, List.zip, List.getElem?_zipWith, List.getElem?_map, List.getElem?_map, e1, e2]
      rfl

/-! ### `psi` with learned quantiles -/

theorem qcutBreak_mem (q : List α) (x : α) : qcutBreak q x ∈ q.map (fun b : α => (b : WithTop α)) ++ [⊤] := by
  unfold qcutBreak
  cases h : q.find? fun b => decide (x ≤ b) with
  | none => simp
  | some b =>
    simp only [List.mem_append, List.mem_map]
    exact Or.inl ⟨b, List.mem_of_find?_eq_some h, rfl⟩

theorem qcutBreak_ge (q : List α) (x : α) : (x : WithTop α) ≤ qcutBreak q x := by
  unfold qcutBreak
  cases h : q.find? fun b => decide (x ≤ b) with
  | none => exact le_top
  | some b =>
    have := List.find?_some h
    exact WithTop.coe_le_coe.2 (of_decide_eq_true this)

theorem qcutBreak_least (q : List α) (hq : q.Pairwise (· < ·)) (x : α) (b : α) (hb : b ∈ q) (hx : x ≤ b) :
    qcutBreak q x ≤ b := by
  unfold qcutBreak
  cases h : q.find? fun b => decide (x ≤ b) with
  | none => exact absurd hx (by simpa using List.find?_eq_none.1 h b hb)
  | some c =>
    simp only []
    obtain ⟨_, as, bs, rfl, hno⟩ := List.find?_eq_some_iff_append.1 h
    rcases List.mem_append.1 hb with h1 | h1
    · exact absurd hx (by simpa using hno b h1)
    · rcases List.mem_cons.1 h1 with rfl | h2
      · exact le_refl _
      · exact WithTop.coe_le_coe.2 ((List.pairwise_cons.1 (List.pairwise_append.1 hq).2.1).1 b h2).le

theorem learnedBreaks_sorted (q base : List α) (hq : q.Pairwise (· < ·)) :
    (learnedBreaks q base).Pairwise (· < ·) := (withTop_sorted q hq).sublist List.filter_sublist

theorem mem_learnedBreaks (q base : List α) (b : WithTop α) :
    b ∈ learnedBreaks q base ↔ ∃ x ∈ base, qcutBreak q x = b := by
  unfold learnedBreaks
  rw [List.mem_filter, decide_eq_true_eq, List.mem_map]
  constructor
  · exact fun h => h.2
  · rintro ⟨x, hx, rfl⟩
    exact ⟨qcutBreak_mem q x, x, hx, rfl⟩

/-- The learned counts are the bin counts of the baseline at the learned breakpoints: both columns are binned alike. -/
theorem psi_baseline_bins (q base : List α) (hq : q.Pairwise (· < ·)) :
    newCounts q base base = some (learnedCounts q base) := by
  have hs := learnedBreaks_sorted q base hq
  have hidx : ∀ x ∈ base, ∀ i (hi : i < (learnedBreaks q base).length),
      (bsIndex (learnedBreaks q base) (x : WithTop α) = i ↔ qcutBreak q x = (learnedBreaks q base)[i]) := by
    intro x hx i hi
    obtain ⟨h1, h2, h3⟩ := bsIndex_spec _ hs (x : WithTop α)
    have hmem := (mem_learnedBreaks q base (qcutBreak q x)).2 ⟨x, hx, rfl⟩
    obtain ⟨k, hk, hkx⟩ := List.getElem_of_mem hmem
    have hle : bsIndex (learnedBreaks q base) (x : WithTop α) ≤ k := by
      by_contra hlt
      have := h2 k _ (by omega) (List.getElem?_eq_getElem hk)
      rw [hkx] at this
      exact absurd (qcutBreak_ge q x) (not_le.2 this)
    have hge : k ≤ bsIndex (learnedBreaks q base) (x : WithTop α) := by
      by_contra hlt
      generalize hj : bsIndex (learnedBreaks q base) (x : WithTop α) = j at *
      have hjl : j < (learnedBreaks q base).length := by omega
      have hxj := h3 j _ (le_refl _) (List.getElem?_eq_getElem hjl)
      have hjk : (learnedBreaks q base)[j] < (learnedBreaks q base)[k] :=
        List.pairwise_iff_getElem.1 hs j k hjl hk (by omega)
      rw [hkx] at hjk
      have hmemj : (learnedBreaks q base)[j] ∈ q.map (fun b : α => (b : WithTop α)) ++ [⊤] :=
        (List.mem_filter.1 (List.getElem_mem hjl)).1
      rcases List.mem_append.1 hmemj with hm | hm
      · obtain ⟨b, hb, hbe⟩ := List.mem_map.1 hm
        rw [← hbe] at hxj hjk
        exact absurd (qcutBreak_least q hq x b hb (WithTop.coe_le_coe.1 hxj)) (not_le.2 hjk)
      · rw [List.mem_singleton.1 hm] at hjk
        exact absurd hjk not_top_lt
    have hbk : bsIndex (learnedBreaks q base) (x : WithTop α) = k := by omega
    rw [hbk, ← hkx]
    constructor
    · rintro rfl; rfl
    · intro he
      by_contra hne
      rcases Nat.lt_or_gt_of_ne hne with hlt | hlt
      · exact absurd he (List.pairwise_iff_getElem.1 hs k i hk hi hlt).ne
      · exact absurd he (List.pairwise_iff_getElem.1 hs i k hi hk hlt).ne'
  unfold newCounts psiCounts
  simp only []
  rw [if_pos]
  · congr 1
    unfold learnedCounts
    apply List.ext_getElem
    · simp
    · intro i hi1 hi2
      have hi : i < (learnedBreaks q base).length := by simpa using hi1
      simp only [List.getElem_map, List.getElem_range]
      rw [List.count, List.count, List.countP_map, List.countP_map, List.countP_map]
      apply List.countP_congr
      intro x hx
      simp only [Function.comp, beq_iff_eq]
      exact hidx x hx i hi
  · rw [List.all_eq_true]
    intro i hi
    obtain ⟨y, hy, rfl⟩ := List.mem_map.1 hi
    obtain ⟨x, hx, rfl⟩ := List.mem_map.1 hy
    refine decide_eq_true ((bsIndex_lt_iff _ hs _).2 ⟨qcutBreak q x, ?_, qcutBreak_ge q x⟩)
    exact (mem_learnedBreaks q base _).2 ⟨x, hx, rfl⟩

/-- `psi` panics exactly if a new value exceeds every quantile that is the right end of a baseline value's bin and no
baseline value lies above the last quantile. -/
theorem psi_panics_iff (q base new : List α) (hq : q.Pairwise (· < ·)) :
    newCounts q base new = none ↔ ∃ y ∈ new, ∀ x ∈ base, ∃ b ∈ q, qcutBreak q x = b ∧ b < y := by
  have hs := learnedBreaks_sorted q base hq
  have h1 := (psi_counts_bins _ hs (new.map fun x : α => (x : WithTop α))).1
  have h2 : newCounts q base new = none ↔ ¬ (newCounts q base new).isSome := by
    cases newCounts q base new <;> simp
  rw [h2]
  unfold newCounts
  rw [← h1]
  push Not
  constructor
  · rintro ⟨y', hy', h⟩
    obtain ⟨y, hy, rfl⟩ := List.mem_map.1 hy'
    refine ⟨y, hy, ?_⟩
    intro x hx
    have hlt := h _ ((mem_learnedBreaks q base _).2 ⟨x, hx, rfl⟩)
    rcases List.mem_append.1 (qcutBreak_mem q x) with hm | hm
    · obtain ⟨b, hb, hbe⟩ := List.mem_map.1 hm
      rw [← hbe] at hlt
      exact ⟨b, hb, hbe.symm, WithTop.coe_lt_coe.1 hlt⟩
    · rw [List.mem_singleton.1 hm] at hlt
      exact absurd hlt not_top_lt
  · rintro ⟨y, hy, h⟩
    refine ⟨(y : WithTop α), List.mem_map_of_mem hy, ?_⟩
    intro b hb
    obtain ⟨x, hx, rfl⟩ := (mem_learnedBreaks q base b).1 hb
    obtain ⟨b', _, he, hlt⟩ := h x hx
    rw [he]
    exact WithTop.coe_lt_coe.2 hlt

/-- If no value panics, the new counts are bin counts at the learned breakpoints and add up to the sample size.
(The full claim would need every finite value to have a bin.) -/
theorem psi_new_bins_partial (q base new : List α) (hq : q.Pairwise (· < ·)) (c : List Nat)
    (hc : newCounts q base new = some c) :
    c.length = (learnedBreaks q base).length ∧ c.sum = new.length ∧
      ∀ (i n : Nat), c[i]? = some n → ∀ p : WithTop α → Bool,
        (∀ x, p x = true ↔ InBin (learnedBreaks q base) i x) → n = (new.map fun x : α => (x : WithTop α)).countP p := by
  obtain ⟨_, h⟩ := psi_counts_bins _ (learnedBreaks_sorted q base hq) (new.map fun x : α => (x : WithTop α))
  obtain ⟨h1, h2, h3⟩ := h c hc
  exact ⟨h1, by simpa using h2, h3⟩

/-- A constant baseline has the quantile 5 only, so that the new value 6 has no bin and the call panics. -/
theorem psi_constant_baseline_panics : newCounts [5] [5, 5, 5] [4, 6] = none := by
  rw [psi_panics_iff _ _ _ (by simp)]
  refine ⟨6, by simp, ?_⟩
  intro x hx
  have : x = 5 := by simpa using hx
  subst this
  exact ⟨5, by simp, by decide, by decide⟩

/-! ### `psi_discrete` -/

section discrete
variable {γ : Type} [DecidableEq γ]

theorem keyMatch_some (a b : Option γ) : keyMatch a b = true ↔ a = b ∧ a ≠ none := by
  cases a <;> cases b <;> simp [keyMatch]

theorem filter_key (l : List (Option γ)) (hl : l.Nodup) (f : Option γ → Nat) (c : Option γ) (hc : c ∈ l)
    (hn : c ≠ none) : (l.map fun d => (d, f d)).filter (fun b => keyMatch c b.1) = [(c, f c)] := by
  induction l with
  | nil => exact absurd hc (by simp)
  | cons d l ih =>
    obtain ⟨hd, hl'⟩ := List.nodup_cons.1 hl
    rw [List.map_cons]
    by_cases hdc : c = d
    · subst hdc
      rw [List.filter_cons_of_pos (by simpa using (keyMatch_some c c).2 ⟨rfl, hn⟩)]
      congr 1
      rw [List.filter_eq_nil_iff]
      intro p hp
      obtain ⟨e, he, rfl⟩ := List.mem_map.1 hp
      simp only [keyMatch_some, not_and, ne_eq]
      rintro rfl
      exact absurd he hd
    · rw [List.filter_cons_of_neg]
      · exact ih hl' ((List.mem_cons.1 hc).resolve_left hdc)
      · simp only [keyMatch_some, not_and]
        exact fun he => absurd he hdc

/-- The joined rows of columns without nulls: the categories of the new column with both counts (0 if absent), then the
categories that occur in the baseline only. -/
theorem fullJoin_no_null (new baseline : List (Option γ)) (h1 : none ∉ new) (h2 : none ∉ baseline) :
    fullJoin (valueCounts new) (valueCounts baseline) =
      (new.dedup.map fun c => (new.count c, baseline.count c)) ++
      ((baseline.dedup.filter fun c => decide (c ∉ new)).map fun c => (0, baseline.count c)) := by
  unfold fullJoin
  congr 1
  · unfold valueCounts
    rw [List.flatMap_map]
    have : ∀ l : List (Option γ), (∀ c ∈ l, c ≠ none) →
        (l.flatMap fun c =>
          let m := (baseline.dedup.map fun d => (d, baseline.count d)).filter fun b => keyMatch c b.1
          if m.isEmpty then [(new.count c, 0)] else m.map fun b => (new.count c, b.2)) =
        l.map fun c => (new.count c, baseline.count c) := by
      intro l hl
      induction l with
      | nil => rfl
      | cons c l ih =>
        rw [List.flatMap_cons, List.map_cons, ih fun d hd => hl d (List.mem_cons_of_mem _ hd)]
        have hc := hl c List.mem_cons_self
        rw [show ((new.count c, baseline.count c) :: l.map fun c => (new.count c, baseline.count c)) =
          [(new.count c, baseline.count c)] ++ l.map fun c => (new.count c, baseline.count c) from rfl]
        congr 1
        simp only []
        by_cases hcb : c ∈ baseline
        · rw [filter_key _ (List.nodup_dedup _) (fun d => baseline.count d) c (List.mem_dedup.2 hcb) hc]
          rfl
        · have : (baseline.dedup.map fun d => (d, baseline.count d)).filter (fun b => keyMatch c b.1) = [] := by
            rw [List.filter_eq_nil_iff]
            intro p hp
            obtain ⟨e, he, rfl⟩ := List.mem_map.1 hp
            simp only [keyMatch_some, not_and]
            rintro rfl
            exact absurd (List.mem_dedup.1 he) hcb
          rw [this, List.count_eq_zero_of_not_mem hcb]
          rfl
    apply this
    intro c hc hcn
    subst hcn
    exact h1 (List.mem_dedup.1 hc)
  · unfold valueCounts
    rw [List.filter_map, List.map_map]
    have : (List.filter ((fun b : Option γ × Nat => !List.any (new.dedup.map fun c => (c, new.count c))
        fun a => keyMatch a.1 b.1) ∘ fun c => (c, baseline.count c)) baseline.dedup) =
        baseline.dedup.filter fun c => decide (c ∉ new) := by
      apply List.filter_congr
      intro c hc
      have hcn : c ≠ none := by
        rintro rfl
        exact h2 (List.mem_dedup.1 hc)
      simp only [Function.comp, List.any_map]
      rw [Bool.eq_iff_iff]
      simp only [Bool.not_eq_true', decide_eq_true_eq, List.any_eq_false, List.mem_dedup, Function.comp]
      constructor
      · intro h hm
        exact h c hm ((keyMatch_some c c).2 ⟨rfl, hcn⟩)
      · intro h d hd hk
        obtain ⟨rfl, _⟩ := (keyMatch_some d c).1 hk
        exact h hd
    rw [this]
    rfl

/-- The categories of the joined rows. -/
theorem union_list (new baseline : List (Option γ)) :
    (new.dedup ++ baseline.dedup.filter fun c => decide (c ∉ new)).Nodup ∧
    ∀ c, c ∈ new.dedup ++ (baseline.dedup.filter fun c => decide (c ∉ new)) ↔ c ∈ new ∨ c ∈ baseline := by
  constructor
  · refine List.Nodup.append (List.nodup_dedup _) ((List.nodup_dedup _).filter _) ?_
    intro c h1 h2
    exact (of_decide_eq_true (List.mem_filter.1 h2).2) (List.mem_dedup.1 h1)
  · intro c
    simp only [List.mem_append, List.mem_dedup, List.mem_filter, decide_eq_true_eq]
    by_cases h : c ∈ new <;> simp [h]

/-- The discrete PSI of columns without nulls is the sum over all categories (`L` lists those of both columns, in any
order) of the contribution of the clipped proportions; NaN iff a column is empty.  (With nulls the claim fails, see
below.) -/
theorem psi_discrete_formula_partial (new baseline : List (Option γ)) (h1 : none ∉ new) (h2 : none ∉ baseline)
    (L : List (Option γ)) (hnd : L.Nodup) (hmem : ∀ c, c ∈ L ↔ c ∈ new ∨ c ∈ baseline) :
    psiDiscrete new baseline =
      if new = [] ∨ baseline = [] then none
      else some (L.map fun c => psiBin (max ((baseline.count c : ℝ) / baseline.length) (1 / 10000))
        (max ((new.count c : ℝ) / new.length) (1 / 10000))).sum := by
  obtain ⟨u1, u2⟩ := union_list new baseline
  set M := new.dedup ++ baseline.dedup.filter fun c => decide (c ∉ new) with hM
  have hperm : M.Perm L := (List.perm_ext_iff_of_nodup u1 hnd).2 fun c => by rw [u2, hmem]
  have hrows : fullJoin (valueCounts new) (valueCounts baseline) = M.map fun c => (new.count c, baseline.count c) := by
    rw [fullJoin_no_null new baseline h1 h2, hM, List.map_append]
    congr 1
    apply List.map_congr_left
    intro c hc
    rw [List.count_eq_zero_of_not_mem (of_decide_eq_true (List.mem_filter.1 hc).2)]
  have s1 : (M.map fun c => new.count c).sum = new.length :=
    sum_count_nodup M u1 new fun x hx => (u2 x).2 (Or.inl hx)
  have s2 : (M.map fun c => baseline.count c).sum = baseline.length :=
    sum_count_nodup M u1 baseline fun x hx => (u2 x).2 (Or.inr hx)
  unfold psiDiscrete
  simp only []
  rw [hrows, List.map_map, List.map_map]
  have e1 : (Prod.fst ∘ fun c => (new.count c, baseline.count c)) = fun c => new.count c := rfl
  have e2 : (Prod.snd ∘ fun c => (new.count c, baseline.count c)) = fun c => baseline.count c := rfl
  rw [e1, e2]
  unfold psiFrame shares
  rw [s1, s2]
  by_cases hn : new = []
  · rw [if_pos (Or.inl hn), if_pos (show new.length = 0 by rw [hn]; rfl)]
    cases (if baseline.length = 0 then none else
      some (List.map (fun c : Nat => max ((c : ℝ) / (baseline.length : ℝ)) (1 / 10000))
        (List.map (fun c => baseline.count c) M))) <;> rfl
  · by_cases hb : baseline = []
    · rw [if_pos (Or.inr hb), if_pos (show baseline.length = 0 by rw [hb]; rfl)]
      rfl
    · rw [if_neg (show ¬ (new = [] ∨ baseline = []) by rintro (h | h); exacts [hn h, hb h])]
      rw [if_neg (show ¬ baseline.length = 0 from fun h => hb (List.length_eq_zero_iff.1 h)),
        if_neg (show ¬ new.length = 0 from fun h => hn (List.length_eq_zero_iff.1 h))]
      simp only [Option.map_some, Option.some.injEq]
      rw [List.map_map, List.map_map, List.map_map, List.zip_map', List.map_map]
      exact (hperm.map _).sum_eq

/-- The value is never negative, and 0 for columns without nulls in which every category has the same proportion. -/
theorem psi_discrete_zero_partial (new baseline : List (Option γ)) :
    (∀ v, psiDiscrete new baseline = some v → 0 ≤ v) ∧
    (none ∉ new → none ∉ baseline → (∀ c, new.count c * baseline.length = baseline.count c * new.length) →
      ∀ v, psiDiscrete new baseline = some v → v = 0) := by
  constructor
  · intro v hv
    unfold psiDiscrete at hv
    simp only [Option.map_eq_some_iff] at hv
    obtain ⟨rows, hr, rfl⟩ := hv
    apply List.sum_nonneg
    intro x hx
    obtain ⟨r, hr', rfl⟩ := List.mem_map.1 hx
    exact (psi_report_nonneg _ _ _ hr r hr').2.2.1
  · intro h1 h2 hprop v hv
    obtain ⟨u1, u2⟩ := union_list new baseline
    rw [psi_discrete_formula_partial new baseline h1 h2 _ u1 u2] at hv
    by_cases hem : new = [] ∨ baseline = []
    · rw [if_pos hem] at hv
      exact absurd hv (by simp)
    · rw [if_neg hem] at hv
      push Not at hem
      rw [← Option.some.inj hv]
      apply List.sum_eq_zero
      intro x hx
      obtain ⟨c, _, rfl⟩ := List.mem_map.1 hx
      have e1 : (0 : ℝ) < new.length := by
        exact_mod_cast List.length_pos_iff.2 hem.1
      have e2 : (0 : ℝ) < baseline.length := by
        exact_mod_cast List.length_pos_iff.2 hem.2
      have e3 : (baseline.count c : ℝ) / baseline.length = (new.count c : ℝ) / new.length := by
        rw [div_eq_div_iff e2.ne' e1.ne']
        exact_mod_cast (hprop c).symm
      rw [e3]
      simp [psiBin]

/-- Two identical columns that contain a null have a positive PSI: the null rows are not joined with each other. -/
theorem psi_discrete_null : ∃ v, psiDiscrete [some 1, none] [some 1, none] = some v ∧ 0 < v := by
  have hrows : fullJoin (valueCounts [some 1, none]) (valueCounts [some 1, none]) = [(1, 1), (1, 0), (0, 1)] := by
    decide
  unfold psiDiscrete
  simp only []
  rw [hrows]
  refine ⟨_, rfl, ?_⟩
  have m1 : max (((1 : ℕ) : ℝ) / ((1 + 1 : ℕ) : ℝ)) (1 / 10000) = 1 / 2 := by
    rw [max_eq_left] <;> norm_num
  have m2 : max (((0 : ℕ) : ℝ) / ((1 + 1 : ℕ) : ℝ)) (1 / 10000) = 1 / 10000 := by
    rw [max_eq_right] <;> norm_num
  have k1 := (psi_bin_nonneg (1 / 2) (1 / 2) (by norm_num) (by norm_num)).1
  have k2 := psi_bin_nonneg (1 / 10000) (1 / 2) (by norm_num) (by norm_num)
  have k3 := (psi_bin_nonneg (1 / 2) (1 / 10000) (by norm_num) (by norm_num)).1
  have k2' : 0 < psiBin (1 / 10000) (1 / 2) := by
    rcases lt_or_eq_of_le k2.1 with h | h
    · exact h
    · have := k2.2.2.1 h.symm
      norm_num at this
  have e : ∀ x y : ℝ, 0 < x → 0 ≤ y → ∀ w : ℝ, 0 ≤ w → 0 < w + (x + (y + 0)) := by
    intros; linarith
  have := e _ _ k2' k3 _ k1
  convert this using 1
  simp only [List.map_cons, List.map_nil, List.zip_cons_cons, List.zip_nil_right, List.sum_cons, List.sum_nil]
  norm_num [m1, m2]

end discrete

/-! ### Examples -/

example : psiCounts [1, 3, 10] [0, 1, 2, 3, 4] = some [2, 2, 1] := by decide
example : countsWithBreakpoints [1, 3] [0, 1, 2, 3, 4] = some [2, 2, 1] := by decide
example : ∃ c, countsWithBreakpoints [1, 3] [0, 1, 2, 3, 4] = some c ∧ c.sum = 5 :=
  have ⟨c, h1, _, h2, _⟩ := custom_breakpoints_bins [1, 3] [0, 1, 2, 3, 4] (by decide)
  ⟨c, h1, h2⟩
example : (psiCounts [1, 3] [4]).isSome = false := by
  by_contra h
  have := (psi_counts_bins [1, 3] (by decide) [4]).1.2 (Bool.eq_true_of_not_eq_false h)
  exact absurd this (by decide)
example : 0 ≤ psiBin (1 / 2) (1 / 4) := (psi_bin_nonneg _ _ (by norm_num) (by norm_num)).1
example : newCounts [2, 4] [1, 2, 3, 5] [0, 9] = some [1, 0, 1] := by decide
example : newCounts [2, 4] [1, 2, 3, 5] [1, 2, 3, 5] = some (learnedCounts [2, 4] [1, 2, 3, 5]) :=
  psi_baseline_bins _ _ (by decide)
example : ∀ v, psiDiscrete [some 1, some 2] [some 2, some 1] = some v → v = 0 :=
  (psi_discrete_zero_partial _ _).2 (by decide) (by decide) (by
    intro c
    by_cases h1 : c = some 1
    · subst h1; decide
    · by_cases h2 : c = some 2
      · subst h2; decide
      · rw [List.count_eq_zero_of_not_mem (by simp [h1, h2]), List.count_eq_zero_of_not_mem (by simp [h1, h2]), Nat.zero_mul, Nat.zero_mul])

end Verif.Psi
