import Verif.Model.CondEntropy
import Verif.Props.Psi
import Verif.Props.Chi2
import Mathlib.Tactic.Linarith
import Mathlib.Tactic.FieldSimp
import Mathlib.Tactic.NormNum
import Mathlib.Tactic.Positivity
import Mathlib.Tactic.Ring

/-!
# Conditional entropy: chain rule, range, functional dependence
-/

namespace Verif.CondEntropy
open Verif.Chi2.Spec (Levels)

namespace Spec

/-- Shannon entropy (natural log) of the empirical distribution of `s`; `us` lists the distinct entries. -/
noncomputable def entropy {γ : Type} [DecidableEq γ] (s us : List γ) : ℝ :=
  -(us.map fun u => (s.count u : ℝ) / s.length * Real.log ((s.count u : ℝ) / s.length)).sum

/-- In the given rows the second entry determines the first. -/
def Determines {α β : Type} (rows : List (α × β)) : Prop :=
  ∀ p ∈ rows, ∀ q ∈ rows, p.2 = q.2 → p.1 = q.1

end Spec

open Spec
set_option linter.unusedSectionVars false
variable {α β : Type} [DecidableEq α] [DecidableEq β]

theorem sum_add {γ : Type} (l : List γ) (f g : γ → ℝ) :
    (l.map fun u => f u + g u).sum = (l.map f).sum + (l.map g).sum := by
  induction l with
  | nil => simp
  | cons a t ih => simp only [List.map_cons, List.sum_cons, ih]; ring

theorem sum_mul {γ : Type} (l : List γ) (c : ℝ) (f : γ → ℝ) :
    (l.map fun u => f u * c).sum = (l.map f).sum * c := by
  induction l with
  | nil => simp
  | cons a t ih => simp only [List.map_cons, List.sum_cons, ih]; ring

theorem sum_le {γ : Type} (l : List γ) (f g : γ → ℝ) (h : ∀ u ∈ l, f u ≤ g u) :
    (l.map f).sum ≤ (l.map g).sum := by
  induction l with
  | nil => simp
  | cons a t ih =>
    simp only [List.map_cons, List.sum_cons]
    have := h a (by simp)
    have := ih fun u hu => h u (by simp [hu])
    linarith

theorem total_eq (rows groups : List (α × β)) (hg : Levels rows groups) :
    total (counted rows groups) = rows.length := by
  unfold total counted
  rw [List.map_map]
  exact Psi.sum_count_nodup groups hg.1 rows fun x hx => (hg.2 x).2 hx

theorem sum_count_filter (p : α × β → Bool) (rows groups : List (α × β)) (hg : Levels rows groups) :
    ((groups.filter p).map fun g => rows.count g).sum = (rows.filter p).length := by
  have h := Psi.sum_count_nodup (groups.filter p) (hg.1.filter _) (rows.filter p) (by
    intro x hx
    rw [List.mem_filter] at hx ⊢
    exact ⟨(hg.2 x).2 hx.1, hx.2⟩)
  rw [← h]
  congr 1
  apply List.map_congr_left
  intro g hgm
  rw [List.count_filter (List.mem_filter.1 hgm).2]

theorem overY_eq (rows groups : List (α × β)) (hg : Levels rows groups) (b : β) :
    overY (counted rows groups) b = (rows.map Prod.snd).count b := by
  unfold overY counted
  rw [List.filter_map, List.map_map]
  have := sum_count_filter (fun g => decide (g.2 = b)) rows groups hg
  rw [show ((rows.map Prod.snd).count b) = (rows.filter fun g => decide (g.2 = b)).length by
    rw [List.count, List.countP_map, List.countP_eq_length_filter]
    congr 1]
  exact this

/-- The value computed, in terms of row counts. -/
theorem condEntropy_eq (rows groups : List (α × β)) (hg : Levels rows groups) :
    condEntropy rows groups = -(groups.map fun g =>
      Real.log (((rows.count g : ℝ) / rows.length) / (((rows.map Prod.snd).count g.2 : ℝ) / rows.length)) *
        ((rows.count g : ℝ) / rows.length)).sum := by
  unfold condEntropy
  dsimp only
  rw [total_eq rows groups hg, neg_one_mul]
  congr 2
  unfold counted
  rw [List.map_map]
  apply List.map_congr_left
  intro g _
  simp only [Function.comp]
  have := overY_eq rows groups hg g.2
  unfold counted at this
  rw [this]

theorem count_pos_of (rows groups : List (α × β)) (hg : Levels rows groups) (g : α × β) (h : g ∈ groups) :
    0 < rows.count g ∧ rows.count g ≤ (rows.map Prod.snd).count g.2 ∧
      rows.count g ≤ (rows.map Prod.fst).count g.1 ∧ 0 < rows.length := by
  have hm := (hg.2 g).1 h
  exact ⟨List.count_pos_iff.2 hm, List.count_le_count_map, List.count_le_count_map,
    List.length_pos_iff.2 (List.ne_nil_of_mem hm)⟩

/-- Sums over rows grouped by the second entry. -/
theorem sum_by_snd (rows groups : List (α × β)) (hg : Levels rows groups) (vs : List β)
    (hv : Levels (rows.map Prod.snd) vs) (f : β → ℝ) :
    (groups.map fun g => f g.2 * (rows.count g : ℝ)).sum =
      (vs.map fun b => f b * ((rows.map Prod.snd).count b : ℝ)).sum := by
  have gen : ∀ (vs : List β), vs.Nodup → ∀ gs : List (α × β), (∀ g ∈ gs, g.2 ∈ vs) →
      (gs.map fun g => f g.2 * (rows.count g : ℝ)).sum =
      (vs.map fun b => f b * (((gs.filter fun g => decide (g.2 = b)).map fun g => rows.count g).sum : ℕ)).sum := by
    intro vs hvs gs
    induction gs with
    | nil => intro _; simp
    | cons g t ih =>
      intro hm
      rw [List.map_cons, List.sum_cons, ih fun x hx => hm x (by simp [hx])]
      have e : (fun b => f b * ((((g :: t).filter fun g => decide (g.2 = b)).map fun g => rows.count g).sum : ℕ)) =
          fun b => f b * (((t.filter fun g => decide (g.2 = b)).map fun g => rows.count g).sum : ℕ) +
            (if b = g.2 then f g.2 * (rows.count g : ℝ) else 0) := by
        funext b
        rw [List.filter_cons]
        by_cases hb : g.2 = b
        · subst hb
          simp
          ring
        · simp [hb, Ne.symm hb]
      rw [e, sum_add]
      have : ∀ (c : ℝ) (x : β) (us : List β), us.Nodup → x ∈ us → (us.map fun b => if b = x then c else 0).sum = c := by
        intro c x us hus hx
        induction us with
        | nil => cases hx
        | cons a us ihu =>
          have ⟨ha, hn⟩ := List.nodup_cons.1 hus
          rw [List.map_cons, List.sum_cons]
          rcases List.mem_cons.1 hx with rfl | hx
          · have : (us.map fun b => if b = x then c else 0).sum = 0 := by
              apply List.sum_eq_zero
              intro y hy
              obtain ⟨z, hz, rfl⟩ := List.mem_map.1 hy
              rw [if_neg (fun e : z = x => ha (e ▸ hz))]
            rw [this]; simp
          · rw [ihu hn hx, if_neg (fun e : a = x => ha (e ▸ hx)), zero_add]
      rw [this _ _ vs hvs (hm g (by simp))]
      ring
  rw [gen vs hv.1 groups fun g hgm => (hv.2 _).2 (List.mem_map_of_mem ((hg.2 g).1 hgm))]
  congr 1
  apply List.map_congr_left
  intro b _
  rw [sum_count_filter _ rows groups hg]
  congr 2
  rw [List.count, List.countP_map, List.countP_eq_length_filter]
  congr 1

/-- **C68.** Chain rule: `query_cond_entropy(x, y)` is `H(x, y) - H(y)`, nulls counting as a value. -/
theorem cond_entropy_chain (rows groups : List (α × β)) (hg : Levels rows groups) (vs : List β)
    (hv : Levels (rows.map Prod.snd) vs) :
    condEntropy rows groups = entropy rows groups - entropy (rows.map Prod.snd) vs := by
  have e0 : entropy rows groups = -(groups.map fun u => (rows.count u : ℝ) / rows.length *
      Real.log ((rows.count u : ℝ) / rows.length)).sum := by
    unfold entropy
    rw [lawful_beq_subsingleton (instBEqOfDecidableEq : BEq (α × β)) instBEqProd]
  rw [condEntropy_eq rows groups hg, e0]
  unfold entropy
  rw [List.length_map]
  have h := sum_by_snd rows groups hg vs hv fun b =>
    Real.log (((rows.map Prod.snd).count b : ℝ) / rows.length) / rows.length
  have e1 : (vs.map fun u => ((rows.map Prod.snd).count u : ℝ) / rows.length *
      Real.log (((rows.map Prod.snd).count u : ℝ) / rows.length)).sum =
      (groups.map fun g => Real.log (((rows.map Prod.snd).count g.2 : ℝ) / rows.length) / rows.length *
        (rows.count g : ℝ)).sum := by
    rw [h]
    congr 1
    apply List.map_congr_left
    intro b _
    ring
  rw [e1]
  have e2 : (groups.map fun g =>
      Real.log (((rows.count g : ℝ) / rows.length) / (((rows.map Prod.snd).count g.2 : ℝ) / rows.length)) *
        ((rows.count g : ℝ) / rows.length)).sum +
      (groups.map fun g => Real.log (((rows.map Prod.snd).count g.2 : ℝ) / rows.length) / rows.length *
        (rows.count g : ℝ)).sum =
      (groups.map fun u => (rows.count u : ℝ) / rows.length * Real.log ((rows.count u : ℝ) / rows.length)).sum := by
    rw [← sum_add]
    congr 1
    apply List.map_congr_left
    intro g hgm
    obtain ⟨h1, h2, _, h4⟩ := count_pos_of rows groups hg g hgm
    have hn : (0 : ℝ) < rows.length := by exact_mod_cast h4
    have hc : (0 : ℝ) < rows.count g := by exact_mod_cast h1
    have hy : (0 : ℝ) < (rows.map Prod.snd).count g.2 := by exact_mod_cast lt_of_lt_of_le h1 h2
    rw [Real.log_div (by positivity) (by positivity)]
    ring
  linarith

example : Levels [(1, 'a'), (2, 'a'), (1, 'a')] [(1, 'a'), (2, 'a')] ∧
    Levels ([(1, 'a'), (2, 'a'), (1, 'a')].map Prod.snd) ['a'] := by
  refine ⟨⟨by decide, fun x => ?_⟩, ⟨by decide, fun x => ?_⟩⟩
  · simp; tauto
  · simp

theorem term_nonpos (rows groups : List (α × β)) (hg : Levels rows groups) (g : α × β) (h : g ∈ groups) :
    Real.log (((rows.count g : ℝ) / rows.length) / (((rows.map Prod.snd).count g.2 : ℝ) / rows.length)) *
        ((rows.count g : ℝ) / rows.length) ≤ 0 ∧
    (Real.log (((rows.count g : ℝ) / rows.length) / (((rows.map Prod.snd).count g.2 : ℝ) / rows.length)) *
        ((rows.count g : ℝ) / rows.length) = 0 ↔ rows.count g = (rows.map Prod.snd).count g.2) := by
  obtain ⟨h1, h2, _, h4⟩ := count_pos_of rows groups hg g h
  have hn : (0 : ℝ) < rows.length := by exact_mod_cast h4
  have hc : (0 : ℝ) < rows.count g := by exact_mod_cast h1
  have hy : (0 : ℝ) < (rows.map Prod.snd).count g.2 := by exact_mod_cast lt_of_lt_of_le h1 h2
  have hle : (rows.count g : ℝ) ≤ (rows.map Prod.snd).count g.2 := by exact_mod_cast h2
  have e : ((rows.count g : ℝ) / rows.length) / (((rows.map Prod.snd).count g.2 : ℝ) / rows.length) =
      (rows.count g : ℝ) / (rows.map Prod.snd).count g.2 := by field_simp
  rw [e]
  have hr : (rows.count g : ℝ) / (rows.map Prod.snd).count g.2 ≤ 1 := (div_le_one hy).2 hle
  constructor
  · exact mul_nonpos_of_nonpos_of_nonneg (Real.log_nonpos (by positivity) hr) (by positivity)
  · constructor
    · intro h0
      rcases mul_eq_zero.1 h0 with h0 | h0
      · have : (rows.count g : ℝ) / (rows.map Prod.snd).count g.2 = 1 :=
          Real.eq_one_of_pos_of_log_eq_zero (by positivity) h0
        rw [div_eq_one_iff_eq hy.ne'] at this
        exact_mod_cast this
      · have : (0 : ℝ) < (rows.count g : ℝ) / rows.length := by positivity
        linarith
    · intro h0
      rw [h0, div_self hy.ne', Real.log_one, zero_mul]

/-- **C68.** The conditional entropy is never negative. -/
theorem cond_entropy_nonneg (rows groups : List (α × β)) (hg : Levels rows groups) :
    0 ≤ condEntropy rows groups := by
  rw [condEntropy_eq rows groups hg, neg_nonneg]
  have := sum_le groups _ (fun _ => (0 : ℝ)) fun g h => (term_nonpos rows groups hg g h).1
  simpa using this

example : Levels [(1, 'a'), (2, 'a'), (1, 'a')] [(1, 'a'), (2, 'a')] := by
  refine ⟨by decide, fun x => ?_⟩
  simp; tauto

theorem sum_zero_iff : ∀ (l : List ℝ), (∀ v ∈ l, v ≤ 0) → (l.sum = 0 ↔ ∀ v ∈ l, v = 0)
  | [], _ => by simp
  | a :: t, h => by
    have ih := sum_zero_iff t fun v hv => h v (by simp [hv])
    have ha := h a (by simp)
    have ht : t.sum ≤ 0 := by
      have := sum_le t id (fun _ => (0 : ℝ)) fun u hu => h u (by simp [hu])
      simpa using this
    rw [List.sum_cons]
    constructor
    · intro hs v hv
      rcases List.mem_cons.1 hv with rfl | hv
      · linarith
      · exact ih.1 (by linarith) v hv
    · intro hv
      rw [ih.2 fun v hv' => hv v (by simp [hv']), hv a (by simp), add_zero]

theorem count_eq_iff (rows : List (α × β)) (g : α × β) :
    rows.count g = (rows.map Prod.snd).count g.2 ↔ ∀ p ∈ rows, p.2 = g.2 → p = g := by
  induction rows with
  | nil => simp
  | cons p t ih =>
    rw [List.map_cons, List.count_cons, List.count_cons]
    have hle : t.count g ≤ (t.map Prod.snd).count g.2 := List.count_le_count_map
    constructor
    · intro h q hq hq2
      rcases List.mem_cons.1 hq with rfl | hq
      · by_contra hne
        simp [hne, hq2] at h
        omega
      · refine ih.1 ?_ q hq hq2
        by_cases h1 : p = g
        · simpa [h1] using h
        · by_cases h2 : p.2 = g.2
          · simp [h1, h2] at h; omega
          · simpa [h1, h2] using h
    · intro h
      rw [ih.2 fun q hq => h q (by simp [hq])]
      by_cases h2 : p.2 = g.2
      · simp [h p (by simp) h2]
      · have : p ≠ g := fun e => h2 (by rw [e])
        simp [this, h2]

/-- **C68.** The conditional entropy is zero exactly when `y` determines `x`. -/
theorem cond_entropy_zero_iff (rows groups : List (α × β)) (hg : Levels rows groups) :
    condEntropy rows groups = 0 ↔ Determines rows := by
  rw [condEntropy_eq rows groups hg, neg_eq_zero, sum_zero_iff _ (by
    intro v hv
    obtain ⟨g, h, rfl⟩ := List.mem_map.1 hv
    exact (term_nonpos rows groups hg g h).1)]
  constructor
  · intro h p hp q hq he
    have hq' := (hg.2 q).2 hq
    have := (term_nonpos rows groups hg q hq').2.1 (h _ (List.mem_map_of_mem hq'))
    exact congrArg Prod.fst ((count_eq_iff rows q).1 this p hp he)
  · intro h v hv
    obtain ⟨g, hgm, rfl⟩ := List.mem_map.1 hv
    refine (term_nonpos rows groups hg g hgm).2.2 ((count_eq_iff rows g).2 ?_)
    intro p hp he
    exact Prod.ext (h p hp g ((hg.2 g).1 hgm) he) he

example : Levels [(1, 'a'), (2, 'a'), (1, 'a')] [(1, 'a'), (2, 'a')] ∧ ¬ Determines [(1, 'a'), (2, 'a'), (1, 'a')] := by
  refine ⟨⟨by decide, fun x => ?_⟩, fun h => ?_⟩
  · simp; tauto
  · have := h (1, 'a') (by simp) (2, 'a') (by simp) rfl
    simp at this

theorem fst_eq (rows groups : List (α × β)) (hg : Levels rows groups) (us : List α)
    (hu : Levels (rows.map Prod.fst) us) (f : α → ℝ) :
    (groups.map fun g => f g.1 * (rows.count g : ℝ)).sum =
      (us.map fun a => f a * ((rows.map Prod.fst).count a : ℝ)).sum := by
  have hsw : Function.Injective (Prod.swap : α × β → β × α) := Prod.swap_injective
  have hg' : Levels (rows.map Prod.swap) (groups.map Prod.swap) := by
    refine ⟨hg.1.map hsw, fun x => ?_⟩
    rw [List.mem_map, List.mem_map]
    constructor
    · rintro ⟨g, h, rfl⟩; exact ⟨g, (hg.2 g).1 h, rfl⟩
    · rintro ⟨g, h, rfl⟩; exact ⟨g, (hg.2 g).2 h, rfl⟩
  have hu' : Levels ((rows.map Prod.swap).map Prod.snd) us := by
    rw [List.map_map]; exact hu
  have h := sum_by_snd (rows.map Prod.swap) (groups.map Prod.swap) hg' us hu' f
  rw [List.map_map, List.map_map] at h
  have e1 : (groups.map ((fun g : β × α => f g.2 * ((rows.map Prod.swap).count g : ℝ)) ∘ Prod.swap)) =
      groups.map fun g => f g.1 * (rows.count g : ℝ) := by
    apply List.map_congr_left
    intro g _
    simp only [Function.comp, Prod.snd_swap]
    rw [List.count_map_of_injective _ _ hsw]
  rw [e1] at h
  exact h

/-- **C68.** Knowing `y` cannot increase the entropy of `x`: `H(x | y) ≤ H(x)`. -/
theorem cond_entropy_le (rows groups : List (α × β)) (hg : Levels rows groups) (us : List α)
    (hu : Levels (rows.map Prod.fst) us) :
    condEntropy rows groups ≤ entropy (rows.map Prod.fst) us := by
  obtain ⟨vs, hv⟩ : ∃ vs, Levels (rows.map Prod.snd) vs :=
    ⟨(rows.map Prod.snd).dedup, List.nodup_dedup _, fun x => List.mem_dedup⟩
  by_cases hr : rows = []
  · subst hr
    have hg0 : groups = [] := List.eq_nil_iff_forall_not_mem.2 fun g h => by simpa using (hg.2 g).1 h
    have hu0 : us = [] := List.eq_nil_iff_forall_not_mem.2 fun g h => by simpa using (hu.2 g).1 h
    rw [condEntropy_eq _ _ hg]
    simp [entropy, hg0, hu0]
  have hn : (0 : ℝ) < rows.length := by exact_mod_cast List.length_pos_iff.2 hr
  rw [condEntropy_eq rows groups hg]
  unfold entropy
  rw [List.length_map]
  set n : ℝ := (rows.length : ℝ) with hnd
  have e1 : (us.map fun u => ((rows.map Prod.fst).count u : ℝ) / n *
      Real.log (((rows.map Prod.fst).count u : ℝ) / n)).sum =
      (groups.map fun g => Real.log (((rows.map Prod.fst).count g.1 : ℝ) / n) / n * (rows.count g : ℝ)).sum := by
    rw [fst_eq rows groups hg us hu fun a => Real.log (((rows.map Prod.fst).count a : ℝ) / n) / n]
    congr 1
    apply List.map_congr_left
    intro b _
    ring
  rw [e1, neg_le_neg_iff]
  -- log t ≤ t - 1 term by term
  have hterm : ∀ g ∈ groups, Real.log (((rows.map Prod.fst).count g.1 : ℝ) / n) / n * (rows.count g : ℝ) ≤
      Real.log (((rows.count g : ℝ) / n) / (((rows.map Prod.snd).count g.2 : ℝ) / n)) * ((rows.count g : ℝ) / n) +
      (((rows.map Prod.fst).count g.1 : ℝ) / n * (((rows.map Prod.snd).count g.2 : ℝ) / n) - (rows.count g : ℝ) / n) := by
    intro g hgm
    obtain ⟨h1, h2, h3, _⟩ := count_pos_of rows groups hg g hgm
    have hc : (0 : ℝ) < rows.count g := by exact_mod_cast h1
    have hy : (0 : ℝ) < (rows.map Prod.snd).count g.2 := by exact_mod_cast lt_of_lt_of_le h1 h2
    have hx : (0 : ℝ) < (rows.map Prod.fst).count g.1 := by exact_mod_cast lt_of_lt_of_le h1 h3
    generalize (rows.count g : ℝ) = c at hc ⊢
    generalize ((rows.map Prod.snd).count g.2 : ℝ) = y at hy ⊢
    generalize ((rows.map Prod.fst).count g.1 : ℝ) = x at hx ⊢
    have hlog := Real.log_le_sub_one_of_pos (show 0 < (x / n * (y / n)) / (c / n) by positivity)
    rw [Real.log_div (by positivity) (by positivity), Real.log_mul (by positivity) (by positivity)] at hlog
    rw [Real.log_div (x := c / n) (by positivity) (by positivity)]
    have hm := mul_le_mul_of_nonneg_right hlog (show 0 ≤ c / n by positivity)
    have e2 : ((x / n * (y / n)) / (c / n) - 1) * (c / n) = x / n * (y / n) - c / n := by field_simp
    rw [e2] at hm
    have e3 : Real.log (x / n) / n * c = Real.log (x / n) * (c / n) := by ring
    rw [e3]
    nlinarith
  have hsum := sum_le groups _ _ hterm
  rw [sum_add] at hsum
  have hle0 : (groups.map fun g => ((rows.map Prod.fst).count g.1 : ℝ) / n * (((rows.map Prod.snd).count g.2 : ℝ) / n) -
      (rows.count g : ℝ) / n).sum ≤ 0 := by
    have e4 : (groups.map fun g => ((rows.map Prod.fst).count g.1 : ℝ) / n * (((rows.map Prod.snd).count g.2 : ℝ) / n) -
        (rows.count g : ℝ) / n).sum =
        (groups.map fun g => ((rows.map Prod.fst).count g.1 : ℝ) * ((rows.map Prod.snd).count g.2 : ℝ)).sum / (n * n) -
        (groups.map fun g => (rows.count g : ℝ)).sum / n := by
      clear hsum hterm hg e1
      induction groups with
      | nil => simp
      | cons a t ih => simp only [List.map_cons, List.sum_cons, ih]; field_simp; ring
    have e5 : (groups.map fun g => (rows.count g : ℝ)).sum = n := by
      have h := Psi.sum_count_nodup groups hg.1 rows fun x hx => (hg.2 x).2 hx
      have : ((groups.map fun g => rows.count g).sum : ℝ) = (groups.map fun g => (rows.count g : ℝ)).sum := by
        rw [Nat.cast_list_sum, List.map_map]; rfl
      rw [← this, h]
    have e6 : (groups.map fun g => ((rows.map Prod.fst).count g.1 : ℝ) * ((rows.map Prod.snd).count g.2 : ℝ)).sum ≤ n * n := by
      -- the groups are among all pairs of levels
      have hsub : (groups.map fun g => ((rows.map Prod.fst).count g.1 : ℝ) * ((rows.map Prod.snd).count g.2 : ℝ)).sum ≤
          ((us ×ˢ vs).map fun g => ((rows.map Prod.fst).count g.1 : ℝ) * ((rows.map Prod.snd).count g.2 : ℝ)).sum := by
        have hp : groups.Subperm (us ×ˢ vs) := by
          apply List.subperm_of_subset hg.1
          intro g hgm
          have hm := (hg.2 g).1 hgm
          exact List.pair_mem_product.2 ⟨(hu.2 _).2 (List.mem_map_of_mem hm), (hv.2 _).2 (List.mem_map_of_mem hm)⟩
        obtain ⟨l, hl1, hl2⟩ := hp
        rw [← (hl1.map _).sum_eq]
        apply List.Sublist.sum_le_sum (hl2.map _)
        intro a ha
        obtain ⟨g, _, rfl⟩ := List.mem_map.1 ha
        positivity
      refine le_trans hsub (le_of_eq ?_)
      have hprod : ∀ (us : List α) (vs : List β) (f : α → ℝ) (h : β → ℝ),
          ((us ×ˢ vs).map fun g => f g.1 * h g.2).sum = (us.map f).sum * (vs.map h).sum := by
        intro us vs f h
        induction us with
        | nil => simp
        | cons a t ih =>
          rw [List.product_cons, List.map_append, List.sum_append, ih, List.map_map, List.map_cons, List.sum_cons, add_mul]
          congr 1
          clear ih
          induction vs with
          | nil => simp
          | cons b s ihs =>
            simp only [List.map_cons, List.sum_cons, Function.comp] at ihs ⊢
            rw [ihs]; ring
      rw [hprod us vs (fun a => ((rows.map Prod.fst).count a : ℝ)) (fun b => ((rows.map Prod.snd).count b : ℝ))]
      have hx := Psi.sum_count_nodup us hu.1 (rows.map Prod.fst) fun x hx => (hu.2 x).2 hx
      have hy := Psi.sum_count_nodup vs hv.1 (rows.map Prod.snd) fun x hx => (hv.2 x).2 hx
      rw [List.length_map] at hx hy
      congr 1
      · have : ((us.map fun a => (rows.map Prod.fst).count a).sum : ℝ) = (us.map fun a => ((rows.map Prod.fst).count a : ℝ)).sum := by
          rw [Nat.cast_list_sum, List.map_map]; rfl
        rw [← this, hx]
      · have : ((vs.map fun a => (rows.map Prod.snd).count a).sum : ℝ) = (vs.map fun a => ((rows.map Prod.snd).count a : ℝ)).sum := by
          rw [Nat.cast_list_sum, List.map_map]; rfl
        rw [← this, hy]
    rw [e4, e5, div_self hn.ne']
    have : (groups.map fun g => ((rows.map Prod.fst).count g.1 : ℝ) * ((rows.map Prod.snd).count g.2 : ℝ)).sum / (n * n) ≤ 1 :=
      (div_le_one (by positivity)).2 e6
    linarith
  linarith

example : Levels [(1, 'a'), (2, 'a'), (1, 'b')] [(1, 'a'), (2, 'a'), (1, 'b')] ∧
    Levels ([(1, 'a'), (2, 'a'), (1, 'b')].map Prod.fst) [1, 2] := by
  refine ⟨⟨by decide, fun x => ?_⟩, ⟨by decide, fun x => ?_⟩⟩
  · simp
  · simp; tauto

/-! ## Dependency detection -/

/-- **C68.** Testing only pairs with the smaller number of distinct values first loses no dependency: a column
determined by another never has more distinct values, and with equally many the two determine each other. -/
theorem dependency_order (rows : List (α × β)) (us : List α) (vs : List β)
    (hu : Levels (rows.map Prod.fst) us) (hv : Levels (rows.map Prod.snd) vs) (h : Determines rows) :
    us.length ≤ vs.length ∧ (us.length = vs.length → Determines (rows.map Prod.swap)) := by
  let f : β → Option α := fun b => (rows.find? fun p => decide (p.2 = b)).map Prod.fst
  have hf : ∀ p ∈ rows, f p.2 = some p.1 := by
    intro p hp
    cases hq : rows.find? fun q => decide (q.2 = p.2) with
    | none =>
      have := List.find?_eq_none.1 hq p hp
      simp at this
    | some q =>
      have h1 := List.mem_of_find?_eq_some hq
      have h2 : q.2 = p.2 := by simpa using List.find?_some hq
      simp only [f, hq, Option.map_some, Option.some.injEq]
      exact h q h1 p hp h2
  have hsub : (us.map some).Subperm (vs.map f) := by
    apply List.subperm_of_subset (hu.1.map (Option.some_injective _))
    intro o ho
    obtain ⟨a, ha, rfl⟩ := List.mem_map.1 ho
    obtain ⟨p, hp, rfl⟩ := List.mem_map.1 ((hu.2 a).1 ha)
    exact List.mem_map.2 ⟨p.2, (hv.2 _).2 (List.mem_map_of_mem hp), hf p hp⟩
  have hlen := hsub.length_le
  rw [List.length_map, List.length_map] at hlen
  refine ⟨hlen, fun he => ?_⟩
  have hperm : (us.map some).Perm (vs.map f) := hsub.perm_of_length_le (by simp [he])
  have hnd : (vs.map f).Nodup := hperm.nodup_iff.1 (hu.1.map (Option.some_injective _))
  intro p hp q hq hpq
  obtain ⟨p, hp', rfl⟩ := List.mem_map.1 hp
  obtain ⟨q, hq', rfl⟩ := List.mem_map.1 hq
  simp only [Prod.snd_swap, Prod.fst_swap] at hpq ⊢
  exact List.inj_on_of_nodup_map hnd ((hv.2 _).2 (List.mem_map_of_mem hp'))
    ((hv.2 _).2 (List.mem_map_of_mem hq')) (by rw [hf p hp', hf q hq', hpq])

example : Levels ([(1, 'a'), (1, 'b'), (2, 'c')].map Prod.fst) [1, 2] ∧
    Levels ([(1, 'a'), (1, 'b'), (2, 'c')].map Prod.snd) ['a', 'b', 'c'] ∧
    Determines [(1, 'a'), (1, 'b'), (2, 'c')] := by
  refine ⟨⟨by decide, fun x => ?_⟩, ⟨by decide, fun x => ?_⟩, ?_⟩
  · simp
  · simp
  · intro p hp q hq h
    simp at hp hq
    rcases hp with rfl | rfl | rfl <;> rcases hq with rfl | rfl | rfl <;> simp_all

/-- **C68.** `infer_dependency` tests every unordered pair of its columns once, the one with fewer distinct
values as `column`. -/
theorem combos_cover {γ : Type} (l : List γ) (n : γ → ℕ) (hl : l.Pairwise fun a b => n a ≤ n b) :
    (∀ p ∈ combos l, n p.1 ≤ n p.2) ∧
    (∀ i j, (hi : i < l.length) → (hj : j < l.length) → i < j → (l[i], l[j]) ∈ combos l) := by
  induction l with
  | nil => exact ⟨by simp [combos], fun i j hi => by simp at hi⟩
  | cons a t ih =>
    have ⟨ha, ht⟩ := List.pairwise_cons.1 hl
    have ⟨ih1, ih2⟩ := ih ht
    constructor
    · intro p hp
      simp only [combos, List.mem_append, List.mem_map] at hp
      rcases hp with ⟨b, hb, rfl⟩ | hp
      · exact ha b hb
      · exact ih1 p hp
    · intro i j hi hj hij
      simp only [combos, List.mem_append, List.mem_map]
      cases j with
      | zero => omega
      | succ j =>
        cases i with
        | zero => left; exact ⟨t[j]'(by simpa using hj), List.getElem_mem _, rfl⟩
        | succ i => right; exact ih2 i j (by simpa using hi) (by simpa using hj) (by omega)

example : ([1, 2, 2] : List ℕ).Pairwise fun a b => id a ≤ id b := by decide

end Verif.CondEntropy
