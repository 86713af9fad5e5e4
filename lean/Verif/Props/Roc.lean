import Verif.Lemmas.Roc
import Mathlib.Data.Rat.Defs
import Mathlib.Algebra.Order.Ring.Rat

/-!
# ROC AUC, average precision, precision and recall: theorems

`rows` lists the pairs of score and label.  The expression receives the scores and the labels as two columns
without nulls.
-/
set_option linter.unusedSectionVars false

namespace Verif.Roc
open Verif
variable {K : Type} [Field K] [LinearOrder K] [IsStrictOrderedRing K]

/-- A member of a list of naturals is at most its sum. -/
theorem le_sum_of_mem' {a : Nat} : ∀ {l : List Nat}, a ∈ l → a ≤ l.sum
  | b :: l, h => by
    rw [List.sum_cons]
    rcases List.mem_cons.1 h with h | h
    · omega
    · have := le_sum_of_mem' h
      omega

theorem rocAuc_unfold (rows : List (K × Nat)) (hb : ∀ r ∈ rows, r.2 = 0 ∨ r.2 = 1)
    (hp : Spec.positives rows ≠ []) (hn : Spec.negatives rows ≠ []) :
    rocAuc (rows.map fun r => some r.1) (rows.map fun r => some r.2) =
      .val (aucOf ((thresholds rows).map (rocRow rows))) := by
  have hne : rows ≠ [] := by rintro rfl; exact hp rfl
  have hl := length_split rows hb
  have h1 := List.length_pos_iff.2 hp
  have h2 := List.length_pos_iff.2 hn
  unfold rocAuc
  simp only [filterMap_some_snd, sum_snd rows hb, checked_map rows hne]
  rw [if_neg (by omega), if_neg (by omega), frame_eq rows hb]

theorem countP_ge_max (rows : List (K × Nat)) (m : K) (hmax : ∀ r ∈ rows, r.1 ≤ m) (S : List K)
    (hS : ∀ s ∈ S, s ∈ rows.map Prod.fst) : (S.countP fun s => decide (m ≤ s)) = S.count m := by
  rw [List.count]
  apply List.countP_congr
  intro s hs
  obtain ⟨r, hr, rfl⟩ := List.mem_map.1 (hS s hs)
  simp only [decide_eq_true_eq, beq_iff_eq]
  exact ⟨fun h => le_antisymm (hmax r hr) h, fun h => h ▸ le_refl _⟩

theorem thresholds_last (rows : List (K × Nat)) (m : K) (hm : m ∈ rows.map Prod.fst)
    (hmax : ∀ r ∈ rows, r.1 ≤ m) : (thresholds rows).getLast? = some m := by
  have hmem := mem_thresholds.2 hm
  have hs := thresholds_sorted rows
  have hne : thresholds rows ≠ [] := List.ne_nil_of_mem hmem
  rw [List.getLast?_eq_getLast_of_ne_nil hne]
  congr 1
  have h1 : (thresholds rows).getLast hne ≤ m := by
    obtain ⟨r, hr, h⟩ := List.mem_map.1 (mem_thresholds.1 (List.getLast_mem hne))
    rw [← h]; exact hmax r hr
  refine le_antisymm h1 ?_
  exact List.Pairwise.rel_getLast (hs.imp fun h => h.le) hmem

/-- With at least two distinct scores the expression returns the true AUC minus half the product of the two
fractions of the classes that sit at the top score `m`: the last triangle of the curve is left out. -/
theorem roc_auc_deficit (rows : List (K × Nat)) (hb : ∀ r ∈ rows, r.2 = 0 ∨ r.2 = 1)
    (hp : Spec.positives rows ≠ []) (hn : Spec.negatives rows ≠ [])
    (m : K) (hm : m ∈ rows.map Prod.fst) (hmax : ∀ r ∈ rows, r.1 ≤ m) (h2 : ∃ r ∈ rows, r.1 ≠ m) :
    rocAuc (rows.map fun r => some r.1) (rows.map fun r => some r.2) =
      .val (Spec.auc rows - ((Spec.positives rows).count m : K) / (Spec.positives rows).length *
        (((Spec.negatives rows).count m : K) / (Spec.negatives rows).length) / 2) := by
  rw [rocAuc_unfold rows hb hp hn]
  congr 1
  have hlast := thresholds_last rows m hm hmax
  obtain ⟨r0, hr0, hr0m⟩ := h2
  have hm0 : r0.1 ∈ thresholds rows := mem_thresholds.2 (List.mem_map_of_mem hr0)
  have hsort := thresholds_sorted rows
  have hall := fun s => @mem_thresholds K _ _ rows s
  generalize thresholds rows = ts at *
  match ts, hlast with
  | [t], hlast =>
    have h1 : t = m := by simpa using hlast
    have h2 : r0.1 = t := by simpa using hm0
    exact absurd (h2.trans h1) hr0m
  | t :: u :: ts, hlast =>
    have hmin : ∀ s ∈ rows.map Prod.fst, t ≤ s := by
      intro s hs
      rcases List.mem_cons.1 ((hall s).2 hs) with h | h
      · rw [h]
      · exact ((List.pairwise_cons.1 hsort).1 s h).le
    have hac := area_counts (Spec.positives rows) (Spec.negatives rows) m (u :: ts) t hlast hsort
      (fun s hs => .inl ((hall s).2 (pos_mem hs))) (fun s hs => .inl ((hall s).2 (neg_mem hs)))
    rw [List.filter_eq_self.2 (fun s hs => by simpa using hmin s (pos_mem hs)),
      List.filter_eq_self.2 (fun s hs => by simpa using hmin s (neg_mem hs)),
      countP_ge_max rows m hmax _ (fun s hs => pos_mem hs),
      countP_ge_max rows m hmax _ (fun s hs => neg_mem hs)] at hac
    unfold aucOf
    rw [Trapz.trapz_eq_area _ _ (by simp) (by simp)]
    have hz : (((t :: u :: ts).map (rocRow rows)).map (·.fpr)).zip
        (((t :: u :: ts).map (rocRow rows)).map (·.tpr)) =
        ((t :: u :: ts).map fun t => ((((Spec.negatives rows).countP fun s => decide (t ≤ s) : Nat) : K),
          (((Spec.positives rows).countP fun s => decide (t ≤ s) : Nat) : K))).map
          fun p => (p.1 / ((Spec.negatives rows).length : K), p.2 / ((Spec.positives rows).length : K)) := by
      rw [List.map_map, List.map_map, List.map_map, List.zip_map']
      rfl
    rw [hz, area_scale, Spec.auc, ← hac]
    have hP : ((Spec.positives rows).length : K) ≠ 0 := by
      simpa using hp
    have hN : ((Spec.negatives rows).length : K) ≠ 0 := by
      simpa using hn
    field_simp
    ring

/-- Partial: the ROC AUC expression is the probability that a random positive outranks a random negative (ties
counting half) when the top score is not shared by the two classes, or when all scores are equal.  Missing: the
case of a shared top score, where `roc_auc_deficit` gives the exact wrong value. -/
theorem roc_auc_partial (rows : List (K × Nat)) (hb : ∀ r ∈ rows, r.2 = 0 ∨ r.2 = 1)
    (hp : Spec.positives rows ≠ []) (hn : Spec.negatives rows ≠ [])
    (m : K) (hm : m ∈ rows.map Prod.fst) (hmax : ∀ r ∈ rows, r.1 ≤ m)
    (h : ¬ (m ∈ Spec.positives rows ∧ m ∈ Spec.negatives rows) ∨ ∀ r ∈ rows, r.1 = m) :
    rocAuc (rows.map fun r => some r.1) (rows.map fun r => some r.2) = .val (Spec.auc rows) := by
  by_cases h2 : ∃ r ∈ rows, r.1 ≠ m
  · rw [roc_auc_deficit rows hb hp hn m hm hmax h2]
    rcases h with h | h
    · rw [not_and_or] at h
      rcases h with h | h
      · rw [List.count_eq_zero.2 h]; simp
      · rw [List.count_eq_zero.2 h]; simp
    · obtain ⟨r, hr, hne⟩ := h2
      exact absurd (h r hr) hne
  · push Not at h2
    rw [rocAuc_unfold rows hb hp hn]
    congr 1
    have hP : ((Spec.positives rows).length : K) ≠ 0 := by simpa using hp
    have hN : ((Spec.negatives rows).length : K) ≠ 0 := by simpa using hn
    have hall : ∀ s ∈ rows.map Prod.fst, s = m := by
      intro s hs
      obtain ⟨r, hr, rfl⟩ := List.mem_map.1 hs
      exact h2 r hr
    have hts : thresholds rows = [m] := by
      have h1 : ∀ t ∈ thresholds rows, t = m := fun t ht => hall t (mem_thresholds.1 ht)
      have h3 := mem_thresholds.2 hm
      have h4 := thresholds_sorted rows
      revert h1 h3 h4
      generalize thresholds rows = ts
      intro h1 h3 h4
      match ts with
      | [] => simp at h3
      | [t] => rw [h1 t (by simp)]
      | t :: u :: ts =>
        have := (List.pairwise_cons.1 h4).1 u (by simp)
        rw [h1 t (by simp), h1 u (by simp)] at this
        exact absurd this (lt_irrefl _)
    have e1 : ((Spec.positives rows).countP fun s => decide (m ≤ s)) = (Spec.positives rows).length :=
      List.countP_eq_length.2 fun s hs => by simp [hall s (pos_mem hs)]
    have e2 : ((Spec.negatives rows).countP fun s => decide (m ≤ s)) = (Spec.negatives rows).length :=
      List.countP_eq_length.2 fun s hs => by simp [hall s (neg_mem hs)]
    rw [hts, Spec.auc, MWU.Spec.wins, ← MWU.Spec.wins, wins_const _ _ (1 / 2)]
    · simp only [List.map_cons, List.map_nil, aucOf, Trapz.trapz, rocRow, Spec.recall, e1, e2]
      rw [div_self hP, div_self hN]
      field_simp
    · intro x hx y hy
      rw [hall x (pos_mem hx), hall y (neg_mem hy)]
      simp [MWU.Spec.score]

/-- The claim of the AUC fails: one positive and one negative share the top score. -/
theorem roc_auc_wrong : ∃ rows : List (ℚ × Nat), (∀ r ∈ rows, r.2 = 0 ∨ r.2 = 1) ∧
    rocAuc (rows.map fun r => some r.1) (rows.map fun r => some r.2) = .val (1 / 2) ∧
    Spec.auc rows = 3 / 4 :=
  ⟨[(1 / 10, 0), (9 / 10, 1), (9 / 10, 0)], by decide, by decide +kernel, by decide +kernel⟩

/-- The AUC of a column without positives or without negatives is NaN. -/
theorem roc_auc_undefined (rows : List (K × Nat)) (hb : ∀ r ∈ rows, r.2 = 0 ∨ r.2 = 1)
    (h : Spec.positives rows = [] ∨ Spec.negatives rows = []) :
    rocAuc (rows.map fun r => some r.1) (rows.map fun r => some r.2) = .nan := by
  have hl := length_split rows hb
  unfold rocAuc
  simp only [filterMap_some_snd, sum_snd rows hb]
  by_cases hp : Spec.positives rows = []
  · rw [if_pos (by rw [hp]; rfl)]
  · have hne : rows ≠ [] := by rintro rfl; exact hp rfl
    have hn := h.resolve_left hp
    have h1 := List.length_pos_iff.2 hp
    rw [hn] at hl
    simp only [List.length_nil] at hl
    rw [if_neg (by omega), checked_map rows hne]
    simp only
    rw [if_pos (by omega)]

/-- Columns of different lengths, or with a null, are refused as soon as there is a positive label. -/
theorem roc_rejects (pred : List (Option K)) (actual : List (Option Nat)) (t : K)
    (hpos : some 1 ∈ actual) (h : actual.length ≠ pred.length ∨ none ∈ pred ∨ none ∈ actual) :
    rocAuc pred actual = .err ∧ comboB pred actual t = .err := by
  have hs : (actual.filterMap id).sum ≠ 0 := by
    have : 1 ∈ actual.filterMap id := List.mem_filterMap.2 ⟨some 1, hpos, rfl⟩
    intro h0
    exact absurd (le_sum_of_mem' this) (by omega)
  have hn : ∀ {α : Type} (l : List (Option α)), none ∈ l → l.mapM id = none := by
    intro α l hl
    induction l with
    | nil => simp at hl
    | cons a l ih =>
      cases a with
      | none => simp
      | some a =>
        have := ih (by simpa using hl)
        simp [this]
  have hc : checked pred actual = none := by
    unfold checked
    split
    · rfl
    · rename_i h1
      rcases h with h | h | h
      · simp [h] at h1
      · rw [hn _ h]
      · rw [hn _ h]; cases List.mapM id pred <;> rfl
  unfold rocAuc comboB
  simp only [hc]
  rw [if_neg hs, if_neg hs]
  exact ⟨rfl, rfl⟩

example : (some 1 ∈ [some 0, some 1, none]) ∧
    rocAuc [some (1 : ℚ), some 2, some 3] [some 0, some 1, none] = .err := by
  decide +kernel

example : Spec.positives [((1 : ℚ) / 2, 1), (1 / 4, 0), (1 / 4, 1)] ≠ [] ∧
    rocAuc [some ((1 : ℚ) / 2), some (1 / 4), some (1 / 4)] [some 1, some 0, some 1] = .val (3 / 4) := by
  decide +kernel

example : rocAuc [some ((1 : ℚ) / 2), some (1 / 4)] [some 1, some 1] = .nan := by decide +kernel

/-! ## Precision and recall at a threshold, average precision -/

theorem comboB_unfold (rows : List (K × Nat)) (hb : ∀ r ∈ rows, r.2 = 0 ∨ r.2 = 1)
    (hp : Spec.positives rows ≠ []) (t : K) :
    comboB (rows.map fun r => some r.1) (rows.map fun r => some r.2) t =
      (match ((thresholds rows).map (rocRow rows))[searchIndex ((thresholds rows).map (rocRow rows)) t]? with
      | none => .panic
      | some r => .val ⟨r.precision, r.tpr,
          if r.precision + r.tpr = 0 then none
          else some (2 * (r.precision * r.tpr) / (r.precision + r.tpr)),
          avgPrecision ((thresholds rows).map (rocRow rows))⟩) := by
  have hne : rows ≠ [] := by rintro rfl; exact hp rfl
  have h1 := List.length_pos_iff.2 hp
  unfold comboB
  simp only [filterMap_some_snd, sum_snd rows hb, checked_map rows hne]
  rw [if_neg (by omega), frame_eq rows hb]
  rfl

theorem search_row (rows : List (K × Nat)) (t : K) : ∀ ts : List K, ts.Pairwise (· < ·) →
    (∃ u ∈ ts, t ≤ u ∧ (ts.map (rocRow rows))[searchIndex (ts.map (rocRow rows)) t]? = some (rocRow rows u) ∧
      ∀ v ∈ ts, t ≤ v ↔ u ≤ v) ∨
    ((∀ u ∈ ts, u < t) ∧ (ts.map (rocRow rows))[searchIndex (ts.map (rocRow rows)) t]? = none) := by
  intro ts
  induction ts with
  | nil => intro _; right; simp [searchIndex]
  | cons u ts ih =>
    intro hp
    have hp' := List.pairwise_cons.1 hp
    by_cases h : u < t
    · have hi : searchIndex ((u :: ts).map (rocRow rows)) t = searchIndex (ts.map (rocRow rows)) t + 1 := by
        have : (rocRow rows u).threshold < t := h
        simp [searchIndex, this]
      rw [hi, List.map_cons, List.getElem?_cons_succ]
      rcases ih hp'.2 with ⟨v, hv, htv, hg, hiff⟩ | ⟨hall, hg⟩
      · left
        refine ⟨v, by simp [hv], htv, hg, ?_⟩
        intro w hw
        rcases List.mem_cons.1 hw with rfl | hw
        · exact ⟨fun hh => absurd h (not_lt.2 hh), fun hh => absurd (hp'.1 v hv) (not_lt.2 hh)⟩
        · exact hiff w hw
      · right
        refine ⟨?_, hg⟩
        intro w hw
        rcases List.mem_cons.1 hw with rfl | hw
        · exact h
        · exact hall w hw
    · left
      have hi : searchIndex ((u :: ts).map (rocRow rows)) t = 0 := by
        have : ¬ (rocRow rows u).threshold < t := h
        simp [searchIndex, this]
      refine ⟨u, by simp, not_lt.1 h, by rw [hi]; rfl, ?_⟩
      intro v hv
      have huv : u ≤ v := by
        rcases List.mem_cons.1 hv with rfl | hv
        · exact le_refl _
        · exact (hp'.1 v hv).le
      exact ⟨fun _ => huv, fun _ => (not_lt.1 h).trans huv⟩

/-- Partial: at a threshold that some score reaches, the reported precision and recall are those of the rule
"score at least the threshold", and F is their harmonic mean.  Missing: a threshold above all scores, see
`binary_metrics_panics`. -/
theorem binary_metrics_partial (rows : List (K × Nat)) (hb : ∀ r ∈ rows, r.2 = 0 ∨ r.2 = 1)
    (hp : Spec.positives rows ≠ []) (t : K) (ht : ∃ r ∈ rows, t ≤ r.1) :
    ∃ c, comboB (rows.map fun r => some r.1) (rows.map fun r => some r.2) t = .val c ∧
      c.precision = Spec.precision rows t ∧ c.recall = Spec.recall rows t ∧
      (c.f = none ↔ Spec.recall rows t = 0) ∧
      ∀ f, c.f = some f →
        f * (Spec.precision rows t + Spec.recall rows t) = 2 * Spec.precision rows t * Spec.recall rows t := by
  rw [comboB_unfold rows hb hp]
  rcases search_row rows t (thresholds rows) (thresholds_sorted rows) with ⟨u, hu, htu, hg, hiff⟩ | ⟨hall, _⟩
  · have hS : ∀ S : List K, (∀ s ∈ S, s ∈ rows.map Prod.fst) →
        (S.countP fun s => decide (u ≤ s)) = S.countP fun s => decide (t ≤ s) := by
      intro S h
      apply List.countP_congr
      intro s hs
      simp only [decide_eq_true_eq]
      exact (hiff s (mem_thresholds.2 (h s hs))).symm
    have hR : (rows.countP fun r => decide (u ≤ r.1)) = rows.countP fun r => decide (t ≤ r.1) := by
      apply List.countP_congr
      intro r hr
      simp only [decide_eq_true_eq]
      exact (hiff r.1 (mem_thresholds.2 (List.mem_map_of_mem hr))).symm
    have e1 : Spec.precision rows u = Spec.precision rows t := by
      unfold Spec.precision
      rw [hS _ (fun s hs => pos_mem hs), hR]
    have e2 : Spec.recall rows u = Spec.recall rows t := by
      unfold Spec.recall
      rw [hS _ (fun s hs => pos_mem hs)]
    have hsum : Spec.precision rows t + Spec.recall rows t = 0 ↔ Spec.recall rows t = 0 := by
      have hP : ((Spec.positives rows).length : K) ≠ 0 := by simpa using hp
      have h1 : 0 ≤ Spec.precision rows t := by unfold Spec.precision; positivity
      have h2 : 0 ≤ Spec.recall rows t := by unfold Spec.recall; positivity
      refine ⟨fun h => by linarith, fun h => ?_⟩
      have : ((Spec.positives rows).countP fun s => decide (t ≤ s) : Nat) = (0 : K) := by
        unfold Spec.recall at h
        rcases div_eq_zero_iff.1 h with h | h
        · exact h
        · exact absurd h hP
      rw [h]
      unfold Spec.precision
      rw [this]
      simp
    rw [hg]
    refine ⟨_, rfl, e1, e2, ?_, ?_⟩
    · simp only [rocRow, e1, e2]
      rw [← hsum]
      split <;> simp_all
    · intro f hf
      simp only [rocRow, e1, e2] at hf
      split at hf
      · simp at hf
      · rename_i hne
        rw [← Option.some.inj hf]
        field_simp
  · obtain ⟨r, hr, hle⟩ := ht
    exact absurd (hall r.1 (mem_thresholds.2 (List.mem_map_of_mem hr))) (not_lt.2 hle)

/-- Above every score nothing is predicted positive, and the expression panics instead of reporting recall 0. -/
theorem binary_metrics_panics (rows : List (K × Nat)) (hb : ∀ r ∈ rows, r.2 = 0 ∨ r.2 = 1)
    (hp : Spec.positives rows ≠ []) (t : K) (ht : ∀ r ∈ rows, r.1 < t) :
    comboB (rows.map fun r => some r.1) (rows.map fun r => some r.2) t = .panic := by
  rw [comboB_unfold rows hb hp]
  rcases search_row rows t (thresholds rows) (thresholds_sorted rows) with ⟨u, hu, htu, _, _⟩ | ⟨_, hg⟩
  · obtain ⟨r, hr, rfl⟩ := List.mem_map.1 (mem_thresholds.1 hu)
    exact absurd (ht r hr) (not_lt.2 htu)
  · rw [hg]

example : comboB [some ((1 : ℚ) / 4), some (1 / 2)] [some 0, some 1] (1 / 3) =
    .val ⟨1, 1, some 1, 0⟩ := by decide +kernel

example : comboB [some ((1 : ℚ) / 4), some (1 / 2)] [some 0, some 1] (3 / 4) = .panic := by decide +kernel

/-- Partial: with the distinct scores `ts` in ascending order, the reported average precision is the documented
sum without its term for the top score.  It is the documented value exactly when the top score `m` has no
positive row.  Missing: every other input, see `avg_precision_wrong`. -/
theorem avg_precision_partial (rows : List (K × Nat)) (hb : ∀ r ∈ rows, r.2 = 0 ∨ r.2 = 1)
    (hp : Spec.positives rows ≠ []) (t : K) (c : Combo K)
    (hc : comboB (rows.map fun r => some r.1) (rows.map fun r => some r.2) t = .val c)
    (ts : List K) (hts : ts.Pairwise (· < ·)) (hmem : ∀ s, s ∈ ts ↔ s ∈ rows.map Prod.fst)
    (m : K) (hm : m ∈ rows.map Prod.fst) (hmax : ∀ r ∈ rows, r.1 ≤ m) :
    c.avgPrecision = Spec.avgPrecision rows ts - Spec.recall rows m * Spec.precision rows m ∧
    (c.avgPrecision = Spec.avgPrecision rows ts ↔ m ∉ Spec.positives rows) := by
  have hts' : ts = thresholds rows := by
    refine List.Perm.eq_of_pairwise (le := (· ≤ ·)) (fun a b _ _ h1 h2 => le_antisymm h1 h2)
      (hts.imp fun h => h.le) ((thresholds_sorted rows).imp fun h => h.le) ?_
    refine (List.perm_ext_iff_of_nodup (hts.imp fun h => ne_of_lt h)
      ((thresholds_sorted rows).imp fun h => ne_of_lt h)).2 fun s => ?_
    rw [hmem, mem_thresholds]
  subst hts'
  have hlast := thresholds_last rows m hm hmax
  rw [comboB_unfold rows hb hp] at hc
  have hv : c.avgPrecision = avgPrecision ((thresholds rows).map (rocRow rows)) := by
    split at hc
    · simp at hc
    · simp only [Res.val.injEq] at hc
      rw [← hc]
  have h1 : c.avgPrecision = Spec.avgPrecision rows (thresholds rows) -
      Spec.recall rows m * Spec.precision rows m := by
    rw [hv]
    generalize thresholds rows = ts at hlast
    match ts, hlast with
    | t :: ts, hlast => exact avgPrecision_rows rows m ts t hlast
  refine ⟨h1, ?_⟩
  rw [h1]
  have hP : ((Spec.positives rows).length : K) ≠ 0 := by simpa using hp
  have hR : ((rows.countP fun r => decide (m ≤ r.1) : Nat) : K) ≠ 0 := by
    obtain ⟨r, hr, hrm⟩ := List.mem_map.1 hm
    rw [Nat.cast_ne_zero]
    have : 0 < rows.countP fun r => decide (m ≤ r.1) :=
      List.countP_pos_iff.2 ⟨r, hr, by simp [hrm]⟩
    omega
  rw [sub_eq_self, Spec.recall, Spec.precision, countP_ge_max rows m hmax _ (fun s hs => pos_mem hs),
    mul_eq_zero, div_eq_zero_iff, div_eq_zero_iff]
  simp only [hP, hR, or_false, or_self, Nat.cast_eq_zero]
  exact List.count_eq_zero

/-- A perfect ranking with one positive is given average precision 0 instead of 1. -/
theorem avg_precision_wrong : ∃ rows : List (ℚ × Nat), (∀ r ∈ rows, r.2 = 0 ∨ r.2 = 1) ∧
    comboB (rows.map fun r => some r.1) (rows.map fun r => some r.2) (1 / 2) = .val ⟨1, 1, some 1, 0⟩ ∧
    Spec.avgPrecision rows [1 / 10, 9 / 10] = 1 :=
  ⟨[(1 / 10, 0), (9 / 10, 1)], by decide, by decide +kernel, by decide +kernel⟩

/-- The condition of `avg_precision_partial` can be met: no positive at the top score. -/
example : ∃ rows : List (ℚ × Nat), Spec.positives rows ≠ [] ∧ (3 / 4) ∉ Spec.positives rows ∧
    comboB (rows.map fun r => some r.1) (rows.map fun r => some r.2) (1 / 4) =
      .val ⟨1 / 2, 1, some (2 / 3), 1 / 2⟩ ∧ Spec.avgPrecision rows [1 / 4, 3 / 4] = 1 / 2 :=
  ⟨[(1 / 4, 1), (3 / 4, 0)], by decide +kernel⟩

end Verif.Roc
