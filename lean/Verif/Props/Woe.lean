import Verif.Model.Woe
import Verif.Props.Psi
import Mathlib.Tactic.Positivity

/-!
# Weight of evidence, information value and target encoding: theorems
-/

namespace Verif.Woe.Spec
variable {κ : Type} [DecidableEq κ]

/-- Rows with category `k` and target `t`. -/
noncomputable def events (rows : List (Option κ × Option ℝ)) (k : κ) (t : ℝ) : Nat :=
  by classical exact rows.count (some k, some t)

/-- All targets are 0 or 1 (or null). -/
def Binary (rows : List (Option κ × Option ℝ)) : Prop := ∀ p ∈ rows, ∀ t, p.2 = some t → t = 0 ∨ t = 1

end Verif.Woe.Spec

namespace Verif.Woe
open Verif.Woe.Spec
variable {κ : Type} [DecidableEq κ]

theorem targets_cons (p : Option κ × Option ℝ) (rows : List (Option κ × Option ℝ)) (k : κ) :
    targets (p :: rows) k = match p.1, p.2 with
      | some k', some t => if k' = k then t :: targets rows k else targets rows k
      | _, _ => targets rows k := by
  obtain ⟨a, b⟩ := p
  unfold targets clean
  cases a with
  | none => rfl
  | some k' =>
    cases b with
    | none => rfl
    | some t =>
      rw [List.filterMap_cons]
      simp only []
      by_cases h : k' = k
      · rw [if_pos h, List.filter_cons_of_pos (by simpa using h), List.map_cons]
      · rw [if_neg h, List.filter_cons_of_neg (by simpa using h)]

/-- For 0/1 targets the counts are the numbers of events and non-events. -/
theorem counts_events (rows : List (Option κ × Option ℝ)) (hb : Binary rows) (k : κ) :
    goods rows k = (events rows k 1 : ℝ) ∧ cnt rows k - goods rows k = (events rows k 0 : ℝ) := by
  classical
  induction rows with
  | nil => simp [goods, cnt, targets, clean, events]
  | cons p rows ih =>
    obtain ⟨ih1, ih2⟩ := ih fun q hq => hb q (List.mem_cons_of_mem _ hq)
    have hp := hb p List.mem_cons_self
    have hev : ∀ t, (events (p :: rows) k t : ℝ) = (events rows k t : ℝ) + if p = (some k, some t) then 1 else 0 := by
      intro t
      unfold events
      rw [List.count_cons]
      by_cases h : p = (some k, some t)
      · rw [if_pos (beq_iff_eq.2 h), if_pos h]; push_cast; rfl
      · rw [if_neg (fun hh => h (beq_iff_eq.1 hh)), if_neg h]; push_cast; rfl
    have hg : goods (p :: rows) k = goods rows k + (if p.1 = some k then p.2.getD 0 else 0) ∧
        cnt (p :: rows) k = cnt rows k + (if p.1 = some k ∧ p.2.isSome then 1 else 0) := by
      unfold goods cnt
      rw [targets_cons]
      obtain ⟨a, b⟩ := p
      cases a with
      | none => simp
      | some k' =>
        cases b with
        | none => simp
        | some t =>
          by_cases h : k' = k
          · subst h
            simp only [if_true, List.sum_cons, List.length_cons, Option.getD_some, Option.isSome_some, and_self]
            push_cast
            exact ⟨by ring, rfl⟩
          · have : ¬ (some k' = some k) := fun hh => h (Option.some.inj hh)
            simp [h]
    rw [hev, hev, hg.1, hg.2, ih1]
    obtain ⟨a, b⟩ := p
    have ih2' : cnt rows k = (events rows k 0 : ℝ) + (events rows k 1 : ℝ) := by rw [← ih2, ih1]; ring
    rw [ih2']
    cases b with
    | none => simp
    | some t =>
      by_cases h : a = some k
      · subst h
        rcases hp t rfl with rfl | rfl
        · have : ¬ ((0 : ℝ) = 1) := zero_ne_one
          simp only [if_true, Option.getD_some, Option.isSome_some, and_self, Prod.mk.injEq, Option.some.injEq, true_and,
            this, if_false]
          ring
        · have : ¬ ((1 : ℝ) = 0) := one_ne_zero
          simp only [if_true, Option.getD_some, Option.isSome_some, and_self, Prod.mk.injEq, Option.some.injEq, true_and,
            this, if_false]
          ring
      · simp [h]

theorem sum_map_nonneg (ks : List κ) (f : κ → ℝ) (h : ∀ k ∈ ks, 0 ≤ f k) : 0 ≤ (ks.map f).sum := by
  apply List.sum_nonneg
  intro x hx
  obtain ⟨k, hk, rfl⟩ := List.mem_map.1 hx
  exact h k hk

/-- The smoothed shares in terms of the numbers of events and non-events; both are positive. -/
theorem shares_formula (rows : List (Option κ × Option ℝ)) (hb : Binary rows) (ks : List κ) (k : κ) :
    goodPct rows ks k = ((events rows k 1 : ℝ) + 1) / ((ks.map fun j => (events rows j 1 : ℝ)).sum + 2) ∧
    badPct rows ks k = ((events rows k 0 : ℝ) + 1) / ((ks.map fun j => (events rows j 0 : ℝ)).sum + 2) ∧
    0 < goodPct rows ks k ∧ 0 < badPct rows ks k := by
  have h1 : goodPct rows ks k = ((events rows k 1 : ℝ) + 1) / ((ks.map fun j => (events rows j 1 : ℝ)).sum + 2) := by
    unfold goodPct
    rw [(counts_events rows hb k).1]
    congr 2
    congr 1
    apply List.map_congr_left
    intro j _
    exact (counts_events rows hb j).1
  have h2 : badPct rows ks k = ((events rows k 0 : ℝ) + 1) / ((ks.map fun j => (events rows j 0 : ℝ)).sum + 2) := by
    unfold badPct
    rw [(counts_events rows hb k).2]
    congr 2
    have : ∀ l : List κ, (l.map (cnt rows)).sum - (l.map (goods rows)).sum =
        (l.map fun j => (events rows j 0 : ℝ)).sum := by
      intro l
      induction l with
      | nil => simp
      | cons j l ih =>
        rw [List.map_cons, List.map_cons, List.map_cons, List.sum_cons, List.sum_cons, List.sum_cons, ← ih,
          ← (counts_events rows hb j).2]
        ring
    exact this ks
  refine ⟨h1, h2, ?_, ?_⟩
  · rw [h1]
    have := sum_map_nonneg ks (fun j => (events rows j 1 : ℝ)) fun _ _ => Nat.cast_nonneg _
    positivity
  · rw [h2]
    have := sum_map_nonneg ks (fun j => (events rows j 0 : ℝ)) fun _ _ => Nat.cast_nonneg _
    positivity

/-- Every information value term is `≥ 0`, and 0 only if the shares agree; the weight of evidence has the sign of the
difference of the shares. -/
theorem iv_nonneg (rows : List (Option κ × Option ℝ)) (hb : Binary rows) (ks : List κ) (k : κ) :
    0 ≤ iv rows ks k ∧ (iv rows ks k = 0 ↔ goodPct rows ks k = badPct rows ks k) ∧
    (0 < woe rows ks k ↔ badPct rows ks k < goodPct rows ks k) := by
  obtain ⟨_, _, h1, h2⟩ := shares_formula rows hb ks k
  have := Psi.psi_bin_nonneg _ _ h1 h2
  refine ⟨this.1, this.2.2, ?_⟩
  unfold woe
  rw [Real.log_pos_iff (div_nonneg h1.le h2.le), one_lt_div h2]

/-- Neither the order of the rows nor the order of the categories matters. -/
theorem woe_order (rows rows' : List (Option κ × Option ℝ)) (hr : rows.Perm rows') (ks ks' : List κ) (hk : ks.Perm ks')
    (k : κ) : woe rows ks k = woe rows' ks' k ∧ iv rows ks k = iv rows' ks' k ∧ ivSum rows ks = ivSum rows' ks' := by
  have ht : ∀ j, (targets rows j).Perm (targets rows' j) := by
    intro j
    unfold targets clean
    exact ((hr.filterMap _).filter _).map _
  have hg : goods rows = goods rows' := by
    funext j
    exact (ht j).sum_eq
  have hc : cnt rows = cnt rows' := by
    funext j
    unfold cnt
    rw [(ht j).length_eq]
  have h1 : goodPct rows ks = goodPct rows' ks' := by
    funext j
    unfold goodPct
    rw [hg, (hk.map _).sum_eq]
  have h2 : badPct rows ks = badPct rows' ks' := by
    funext j
    unfold badPct
    rw [hg, hc, (hk.map _).sum_eq, (hk.map (goods rows')).sum_eq]
  have h3 : woe rows ks = woe rows' ks' := by
    funext j
    unfold woe
    rw [h1, h2]
  have h4 : iv rows ks = iv rows' ks' := by
    funext j
    unfold iv
    rw [h1, h2, h3]
  refine ⟨by rw [h3], by rw [h4], ?_⟩
  unfold ivSum
  rw [h4]
  exact (hk.map _).sum_eq

/-- The smoothed shares add up to 1 only for two categories: 1 is added per category, 2 to the total. -/
theorem shares_sum (rows : List (Option κ × Option ℝ)) (hb : Binary rows) (ks : List κ) :
    (ks.map (goodPct rows ks)).sum = 1 ↔ ks.length = 2 := by
  have hpos : (0 : ℝ) < (ks.map (goods rows)).sum + 2 := by
    have := sum_map_nonneg ks (goods rows) fun k _ => by
      rw [(counts_events rows hb k).1]
      exact Nat.cast_nonneg _
    linarith
  have e : ∀ (l : List κ) (D : ℝ), (l.map fun k => (goods rows k + 1) / D).sum =
      ((l.map (goods rows)).sum + (l.length : ℝ)) / D := by
    intro l D
    induction l with
    | nil => simp
    | cons k l ih =>
      rw [List.map_cons, List.sum_cons, ih, List.map_cons, List.sum_cons, List.length_cons]
      push_cast
      ring
  have : (ks.map (goodPct rows ks)).sum = ((ks.map (goods rows)).sum + (ks.length : ℝ)) / ((ks.map (goods rows)).sum + 2) :=
    e ks _
  rw [this, div_eq_one_iff_eq hpos.ne', add_right_inj]
  exact_mod_cast Iff.rfl

/-- `woe` and `info_value` of a numeric feature fail as soon as one value is null, NaN or infinite. -/
theorem woe_non_finite_fails {α : Type} (bin : List α → α → κ) (x : List (Option α)) (t : List (Option ℝ))
    (hl : x.length = t.length) : numericFrame bin x t = none ↔ none ∈ x := by
  have hlen : (x.filterMap id).length ≤ x.length := List.length_filterMap_le _ _
  have hiff : (x.filterMap id).length = x.length ↔ none ∉ x := by
    clear hl hlen
    induction x with
    | nil => simp
    | cons a x ih =>
      have := List.length_filterMap_le id x
      cases a with
      | none =>
        have e : (none :: x).filterMap id = x.filterMap id := rfl
        rw [e, List.length_cons]
        simp only [List.mem_cons, true_or, not_true, iff_false]
        omega
      | some a =>
        have e : (some a :: x).filterMap id = a :: x.filterMap id := rfl
        rw [e, List.length_cons, List.length_cons]
        simpa using ih
  unfold numericFrame
  simp only []
  by_cases h : (x.filterMap id).length = t.length
  · rw [if_pos h]
    rw [← hl] at h
    simp [hiff.1 h]
  · rw [if_neg h]
    rw [← hl] at h
    have := mt hiff.2 h
    simpa using this

/-! ### Target encoding -/

theorem alpha_mem (m s c : ℝ) : 0 < alpha m s c ∧ alpha m s c < 1 := by
  unfold alpha
  have := Real.exp_pos (-(c - m) / s)
  constructor
  · positivity
  · rw [div_lt_one (by positivity)]
    linarith

/-- The encoded value is strictly between the category mean and the overall mean (if they differ). -/
theorem encode_between (rows : List (Option κ × Option ℝ)) (tm m s : ℝ) (k : κ) :
    (goods rows k / cnt rows k < tm → goods rows k / cnt rows k < encode rows tm m s k ∧ encode rows tm m s k < tm) ∧
    (tm < goods rows k / cnt rows k → tm < encode rows tm m s k ∧ encode rows tm m s k < goods rows k / cnt rows k) ∧
    (tm = goods rows k / cnt rows k → encode rows tm m s k = tm) := by
  have ⟨h0, h1⟩ := alpha_mem m s (cnt rows k)
  unfold encode
  simp only []
  generalize goods rows k / cnt rows k = p
  generalize alpha m s (cnt rows k) = a at *
  refine ⟨?_, ?_, ?_⟩
  · intro h
    constructor <;> nlinarith
  · intro h
    constructor <;> nlinarith
  · rintro rfl
    ring

/-- With the same category mean, a category with more rows is encoded strictly closer to it (for positive smoothing). -/
theorem encode_monotone (rows rows' : List (Option κ × Option ℝ)) (tm m s : ℝ) (hs : 0 < s) (k k' : κ)
    (hmean : goods rows k / cnt rows k = goods rows' k' / cnt rows' k') (hne : goods rows k / cnt rows k ≠ tm)
    (hc : cnt rows k < cnt rows' k') :
    |encode rows' tm m s k' - goods rows' k' / cnt rows' k'| < |encode rows tm m s k - goods rows k / cnt rows k| := by
  have hα : alpha m s (cnt rows k) < alpha m s (cnt rows' k') := by
    unfold alpha
    apply one_div_lt_one_div_of_lt
    · have := Real.exp_pos (-(cnt rows' k' - m) / s)
      linarith
    · have : Real.exp (-(cnt rows' k' - m) / s) < Real.exp (-(cnt rows k - m) / s) := by
        apply Real.exp_lt_exp.2
        apply div_lt_div_of_pos_right _ hs
        linarith
      linarith
  have ⟨_, h1⟩ := alpha_mem m s (cnt rows k)
  have ⟨_, h1'⟩ := alpha_mem m s (cnt rows' k')
  unfold encode
  simp only []
  rw [← hmean]
  generalize goods rows k / cnt rows k = p at *
  generalize alpha m s (cnt rows k) = a at *
  generalize alpha m s (cnt rows' k') = a' at *
  have e1 : a * p + (1 - a) * tm - p = (1 - a) * (tm - p) := by ring
  have e2 : a' * p + (1 - a') * tm - p = (1 - a') * (tm - p) := by ring
  rw [e1, e2, abs_mul, abs_mul, abs_of_pos (by linarith : 0 < 1 - a), abs_of_pos (by linarith : 0 < 1 - a')]
  have : 0 < |tm - p| := abs_pos.2 (sub_ne_zero.2 (Ne.symm hne))
  nlinarith

/-- The null category never appears in the result, although the documentation says that nulls are encoded; its rows do
count for the overall mean. -/
theorem encode_null_missing : (∀ rows : List (Option κ × Option ℝ), encoded rows none = false) ∧
    (∀ k : κ, overallMean [(some k, some 0), (none, some 1)] = some (1 / 2)) := by
  constructor
  · intro rows; rfl
  · intro k
    have e : ([(some k, some 0), (none, some 1)] : List (Option κ × Option ℝ)).filterMap Prod.snd = [0, 1] := rfl
    unfold overallMean
    simp only [e]
    norm_num

/-- The categories of the result are those of the rows without nulls. -/
theorem encoded_iff (rows : List (Option κ × Option ℝ)) (k : κ) :
    encoded rows (some k) = true ↔ ∃ t, (some k, some t) ∈ rows := by
  unfold encoded clean
  simp only [List.any_eq_true, List.mem_filterMap, decide_eq_true_eq]
  constructor
  · rintro ⟨p, ⟨⟨a, b⟩, hq, he⟩, hp⟩
    cases a with
    | none => simp at he
    | some a =>
      cases b with
      | none => simp at he
      | some b =>
        simp only [Option.some.injEq] at he
        subst he
        simp only at hp
        subst hp
        exact ⟨b, hq⟩
  · rintro ⟨t, ht⟩
    exact ⟨(k, t), ⟨_, ht, rfl⟩, rfl⟩

example : Binary [(some "a", some 1), (some "b", some 0), (none, some 1), (some "a", none)] := by
  intro p hp t ht
  simp only [List.mem_cons, List.not_mem_nil, or_false] at hp
  rcases hp with rfl | rfl | rfl | rfl <;> simp_all

example : 0 ≤ iv [(some "a", some 1), (some "b", some 0)] ["a", "b"] "a" := by
  have hb : Binary [(some "a", some (1 : ℝ)), (some "b", some 0)] := by
    intro p hp t ht
    simp only [List.mem_cons, List.not_mem_nil, or_false] at hp
    rcases hp with rfl | rfl <;> simp_all
  exact (iv_nonneg _ hb _ _).1

example : numericFrame (fun _ _ => "bin") ([some 1, none] : List (Option Nat)) [some 0, some 1] = none :=
  (woe_non_finite_fails _ ([some 1, none] : List (Option Nat)) [some 0, some 1] rfl).2 (by simp)

example : encode [(some "a", some 1)] 0 20 10 "a" < 1 := by
  have h : goods [(some "a", some (1 : ℝ))] "a" / cnt [(some "a", some (1 : ℝ))] "a" = 1 := by
    simp [goods, cnt, targets, clean]
  have := ((encode_between [(some "a", some (1 : ℝ))] 0 20 10 "a").2.1 (by rw [h]; exact one_pos)).2
  rwa [h] at this

example : encoded [(some "a", some (1 : ℝ)), (some "b", none)] (some "a") = true := (encoded_iff _ _).2 ⟨1, by simp⟩

end Verif.Woe
