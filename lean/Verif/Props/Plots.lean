import Verif.Model.Plots
import Verif.Props.Roc

/-! # The data behind the charts: theorems -/
set_option linter.unusedSectionVars false

namespace Verif.Plots
open Verif.Roc

section
variable {K : Type} [Field K] [LinearOrder K] [IsStrictOrderedRing K]

/-- Share of the negatives that are predicted positive at threshold `t`. -/
def Spec.fallout (rows : List (K × Nat)) (t : K) : K :=
  (((Spec.negatives rows).countP fun s => decide (t ≤ s) : Nat) : K) / ((Spec.negatives rows).length : K)

/-- The columns of a data set. -/
abbrev scores (rows : List (K × Nat)) : List (Option K) := rows.map fun r => some r.1
abbrev labels (rows : List (K × Nat)) : List (Option Nat) := rows.map fun r => some r.2

theorem tprFpr_eq (rows : List (K × Nat)) (hb : ∀ r ∈ rows, r.2 = 0 ∨ r.2 = 1)
    (hp : Spec.positives rows ≠ []) (hn : Spec.negatives rows ≠ []) :
    tprFpr (scores rows) (labels rows) = .val ((thresholds rows).map (rocRow rows)) := by
  have hne : rows ≠ [] := by rintro rfl; exact hp rfl
  have hl := length_split rows hb
  have h1 := List.length_pos_iff.2 hp
  have h2 := List.length_pos_iff.2 hn
  unfold tprFpr
  simp only [filterMap_some_snd, sum_snd rows hb, checked_map rows hne]
  rw [if_neg (by omega), if_neg (by omega), frame_eq rows hb]

/-- **C138.** `query_tpr_fpr`: one row per distinct score, ascending, with the share of the positives and of the negatives
scored at least that high. -/
theorem tpr_fpr_correct (rows : List (K × Nat)) (hb : ∀ r ∈ rows, r.2 = 0 ∨ r.2 = 1)
    (hp : Spec.positives rows ≠ []) (hn : Spec.negatives rows ≠ []) :
    ∃ f, tprFpr (scores rows) (labels rows) = .val f ∧ (f.map (·.threshold)).Pairwise (· < ·) ∧
      (∀ t, t ∈ f.map (·.threshold) ↔ t ∈ rows.map Prod.fst) ∧
      ∀ r ∈ f, r.tpr = Spec.recall rows r.threshold ∧ r.fpr = Spec.fallout rows r.threshold := by
  have e : ((thresholds rows).map (rocRow rows)).map (·.threshold) = thresholds rows := by
    rw [List.map_map]
    exact List.map_id _
  refine ⟨_, tprFpr_eq rows hb hp hn, ?_, ?_, ?_⟩
  · rw [e]; exact thresholds_sorted rows
  · intro t; rw [e]; exact mem_thresholds
  · intro r hr
    obtain ⟨t, _, rfl⟩ := List.mem_map.1 hr
    exact ⟨rfl, rfl⟩

/-- Both classes present. -/
example : tprFpr (K := ℚ) (scores [(1, 0), (3, 1), (2, 1), (2, 0)]) (labels [((1 : ℚ), 0), (3, 1), (2, 1), (2, 0)]) =
    .val [⟨1, 1, 1, 1 / 2⟩, ⟨2, 1, 1 / 2, 2 / 3⟩, ⟨3, 1 / 2, 0, 1⟩] := by decide +kernel

theorem area_reverse : ∀ l : List (K × K), Trapz.Spec.area l.reverse = -Trapz.Spec.area l
  | [] => by simp [Trapz.Spec.area]
  | [p] => by simp [Trapz.Spec.area]
  | p :: q :: l => by
    have ih := area_reverse (q :: l)
    rw [List.reverse_cons, List.reverse_cons, List.append_assoc, List.singleton_append, Trapz.area_append,
      ← List.reverse_cons, ih]
    simp only [Trapz.Spec.area]
    ring

/-- The points of the curve. -/
def pts (rows : List (K × Nat)) : List (K × K) :=
  (0, 0) :: (thresholds rows).reverse.map fun t => (Spec.fallout rows t, Spec.recall rows t)

theorem points_eq (rows : List (K × Nat)) : points ((thresholds rows).map (rocRow rows)) = pts rows := by
  unfold points pts
  rw [← List.map_reverse, List.map_map]
  rfl

theorem curve_eq (rows : List (K × Nat)) (hb : ∀ r ∈ rows, r.2 = 0 ∨ r.2 = 1)
    (hp : Spec.positives rows ≠ []) (hn : Spec.negatives rows ≠ []) (show' : Bool) (name : String) :
    curve show' (labels rows) (name, scores rows) = .ok ⟨name, if show' then
      some (.val (Trapz.trapz ((thresholds rows).reverse.map (Spec.recall rows))
        ((thresholds rows).reverse.map (Spec.fallout rows)))) else none, some (pts rows)⟩ := by
  unfold curve
  simp only [tprFpr_eq rows hb hp hn, points_eq]
  congr 2
  cases show'
  · rfl
  · simp only [if_true]
    congr 1
    have e1 : (((thresholds rows).map (rocRow rows)).reverse.map fun r => some r.tpr) =
        ((thresholds rows).reverse.map (Spec.recall rows)).map some := by
      rw [← List.map_reverse, List.map_map, List.map_map]; rfl
    have e2 : (((thresholds rows).map (rocRow rows)).reverse.map fun r => some r.fpr) =
        ((thresholds rows).reverse.map (Spec.fallout rows)).map some := by
      rw [← List.map_reverse, List.map_map, List.map_map]; rfl
    have hne : thresholds rows ≠ [] := by
      obtain ⟨s, hs⟩ := List.exists_mem_of_ne_nil _ hp
      exact List.ne_nil_of_mem (mem_thresholds.2 (pos_mem hs))
    have hpos := List.length_pos_iff.2 hne
    rw [e1, e2]
    unfold Trapz.plTrapz
    rw [Trapz.mapM_id_some, Trapz.mapM_id_some, if_neg (by simp; omega)]
    rcases h : (thresholds rows).reverse with _ | ⟨a, _ | ⟨b, l⟩⟩
    · simp
    · simp
    · simp

theorem thresholds_ne (rows : List (K × Nat)) (hp : Spec.positives rows ≠ []) : thresholds rows ≠ [] := by
  obtain ⟨s, hs⟩ := List.exists_mem_of_ne_nil _ hp
  exact List.ne_nil_of_mem (mem_thresholds.2 (pos_mem hs))

/-- The top score. -/
theorem exists_top (rows : List (K × Nat)) (hp : Spec.positives rows ≠ []) :
    ∃ m, m ∈ rows.map Prod.fst ∧ ∀ r ∈ rows, r.1 ≤ m := by
  have hne := thresholds_ne rows hp
  refine ⟨(thresholds rows).getLast hne, mem_thresholds.1 (List.getLast_mem hne), fun r hr => ?_⟩
  exact List.Pairwise.rel_getLast ((thresholds_sorted rows).imp fun h => h.le) (mem_thresholds.2 (List.mem_map_of_mem hr))

/-- The area without the origin, and the triangle at the origin. -/
theorem area_pts (rows : List (K × Nat)) (m : K) (hm : m ∈ rows.map Prod.fst) (hmax : ∀ r ∈ rows, r.1 ≤ m) :
    Trapz.Spec.area (pts rows) = Spec.fallout rows m * Spec.recall rows m / 2 -
      Trapz.Spec.area ((thresholds rows).map fun t => (Spec.fallout rows t, Spec.recall rows t)) := by
  have hlast := thresholds_last rows m hm hmax
  rw [sub_eq_add_neg, ← area_reverse, ← List.map_reverse]
  unfold pts
  rw [← List.head?_reverse] at hlast
  rcases h : (thresholds rows).reverse with _ | ⟨a, l⟩
  · rw [h] at hlast; simp at hlast
  · rw [h] at hlast
    have : a = m := by simpa using hlast
    subst this
    simp only [List.map_cons, Trapz.Spec.area]
    ring

theorem area_auc (rows : List (K × Nat)) (hp : Spec.positives rows ≠ []) (hn : Spec.negatives rows ≠ []) :
    Trapz.Spec.area (pts rows) = Spec.auc rows := by
  obtain ⟨m, hm, hmax⟩ := exists_top rows hp
  rw [area_pts rows m hm hmax]
  have hlast := thresholds_last rows m hm hmax
  have hsort := thresholds_sorted rows
  have hall := fun s => @mem_thresholds K _ _ rows s
  have hne := thresholds_ne rows hp
  generalize thresholds rows = ts at *
  match ts, hlast with
  | t :: ts, hlast =>
    have hmin : ∀ s ∈ rows.map Prod.fst, t ≤ s := by
      intro s hs
      rcases List.mem_cons.1 ((hall s).2 hs) with h | h
      · rw [h]
      · exact ((List.pairwise_cons.1 hsort).1 s h).le
    have hac := area_counts (Spec.positives rows) (Spec.negatives rows) m ts t hlast hsort
      (fun s hs => .inl ((hall s).2 (pos_mem hs))) (fun s hs => .inl ((hall s).2 (neg_mem hs)))
    rw [List.filter_eq_self.2 (fun s hs => by simpa using hmin s (pos_mem hs)),
      List.filter_eq_self.2 (fun s hs => by simpa using hmin s (neg_mem hs))] at hac
    have hz : ((t :: ts).map fun t => (Spec.fallout rows t, Spec.recall rows t)) =
        ((t :: ts).map fun t => ((((Spec.negatives rows).countP fun s => decide (t ≤ s) : Nat) : K),
          (((Spec.positives rows).countP fun s => decide (t ≤ s) : Nat) : K))).map
          fun p => (p.1 / ((Spec.negatives rows).length : K), p.2 / ((Spec.positives rows).length : K)) := by
      rw [List.map_map]
      rfl
    rw [hz, area_scale, Spec.auc, ← hac]
    have hP : ((Spec.positives rows).length : K) ≠ 0 := by
      simpa using hp
    have hN : ((Spec.negatives rows).length : K) ≠ 0 := by
      simpa using hn
    unfold Spec.fallout Spec.recall
    field_simp
    ring

theorem recall_anti (rows : List (K × Nat)) {t u : K} (h : t ≤ u) :
    Spec.recall rows u ≤ Spec.recall rows t ∧ Spec.fallout rows u ≤ Spec.fallout rows t := by
  have key : ∀ S : List K, (S.countP fun s => decide (u ≤ s)) ≤ S.countP fun s => decide (t ≤ s) := fun S =>
    List.countP_mono_left fun s _ hs => by
      simp only [decide_eq_true_eq] at hs ⊢
      exact h.trans hs
  constructor
  · exact div_le_div_of_nonneg_right (by exact_mod_cast key _) (Nat.cast_nonneg _)
  · exact div_le_div_of_nonneg_right (by exact_mod_cast key _) (Nat.cast_nonneg _)

theorem plot_single (target : List (Option Nat)) (pred : List (Option K)) (name : String) (show' : Bool)
    (hname : name ≠ "__actual__") (hl : pred.length = target.length) {c : Curve K} (h : curve show' target (name, pred) = .ok c) :
    plotRocAuc target (some pred) (some name) none none show' = .ok [c] := by
  unfold plotRocAuc predDict
  simp only [bind, Except.bind]
  rw [if_neg (by simp [hl])]
  simp only [List.mapM_cons, List.mapM_nil, if_neg hname, h, bind, Except.bind, pure, Except.pure]
  rfl

/-- **C138.** The curve that `plot_roc_auc` draws for a prediction runs from (0, 0) to (1, 1), never falls, has the point
(false positive rate, true positive rate) of every score as threshold and no other but the origin, and encloses the AUC. -/
theorem roc_curve (rows : List (K × Nat)) (hb : ∀ r ∈ rows, r.2 = 0 ∨ r.2 = 1)
    (hp : Spec.positives rows ≠ []) (hn : Spec.negatives rows ≠ []) (show' : Bool) (name : String)
    (hname : name ≠ "__actual__") :
    ∃ l p, plotRocAuc (labels rows) (some (scores rows)) (some name) none none show' = .ok [⟨name, l, some ((0, 0) :: p)⟩] ∧
      p.getLast? = some (1, 1) ∧ ((0, 0) :: p).Pairwise (fun u v => u.1 ≤ v.1 ∧ u.2 ≤ v.2) ∧
      (∀ q, q ∈ p ↔ ∃ t ∈ rows.map Prod.fst, q = (Spec.fallout rows t, Spec.recall rows t)) ∧
      Trapz.Spec.area ((0, 0) :: p) = Spec.auc rows := by
  have hP : ((Spec.positives rows).length : K) ≠ 0 := by simpa using hp
  have hN : ((Spec.negatives rows).length : K) ≠ 0 := by simpa using hn
  refine ⟨_, _, plot_single _ _ _ _ hname (by simp) (curve_eq rows hb hp hn show' name), ?_, ?_, ?_, area_auc rows hp hn⟩
  · rw [List.map_reverse, List.getLast?_reverse]
    rcases h : thresholds rows with _ | ⟨t, ts⟩
    · exact absurd h (thresholds_ne rows hp)
    · have hmin : ∀ s ∈ rows.map Prod.fst, t ≤ s := by
        intro s hs
        have hs' := mem_thresholds.2 hs
        have hsort := thresholds_sorted rows
        rw [h] at hs' hsort
        rcases List.mem_cons.1 hs' with h | h
        · rw [h]
        · exact ((List.pairwise_cons.1 hsort).1 s h).le
      have e1 : ((Spec.positives rows).countP fun s => decide (t ≤ s)) = (Spec.positives rows).length :=
        List.countP_eq_length.2 fun s hs => by simpa using hmin s (pos_mem hs)
      have e2 : ((Spec.negatives rows).countP fun s => decide (t ≤ s)) = (Spec.negatives rows).length :=
        List.countP_eq_length.2 fun s hs => by simpa using hmin s (neg_mem hs)
      simp [Spec.fallout, Spec.recall, e1, e2, div_self hP, div_self hN]
  · rw [List.pairwise_cons]
    constructor
    · intro q hq
      obtain ⟨t, _, rfl⟩ := List.mem_map.1 hq
      exact ⟨div_nonneg (Nat.cast_nonneg _) (Nat.cast_nonneg _), div_nonneg (Nat.cast_nonneg _) (Nat.cast_nonneg _)⟩
    · rw [List.pairwise_map, List.pairwise_reverse]
      exact (thresholds_sorted rows).imp fun h => ⟨(recall_anti rows h.le).2, (recall_anti rows h.le).1⟩
  · intro q
    simp only [List.mem_map, List.mem_reverse]
    constructor
    · rintro ⟨t, ht, rfl⟩
      obtain ⟨r, hr, h⟩ := List.mem_map.1 (mem_thresholds.1 ht)
      exact ⟨t, ⟨r, hr, h⟩, rfl⟩
    · rintro ⟨t, ⟨r, hr, h⟩, rfl⟩
      exact ⟨t, mem_thresholds.2 (List.mem_map.2 ⟨r, hr, h⟩), rfl⟩

/-- **C138, disagreement.** The AUC in the label leaves out the triangle at the origin: with two or more distinct scores it
is the enclosed area less half the product of the shares of positives and of negatives that have the top score. -/
theorem roc_label (rows : List (K × Nat)) (hb : ∀ r ∈ rows, r.2 = 0 ∨ r.2 = 1)
    (hp : Spec.positives rows ≠ []) (hn : Spec.negatives rows ≠ []) (name : String)
    (hname : name ≠ "__actual__") (m : K) (hm : m ∈ rows.map Prod.fst) (hmax : ∀ r ∈ rows, r.1 ≤ m) (h2 : ∃ r ∈ rows, r.1 ≠ m) :
    ∃ p, plotRocAuc (labels rows) (some (scores rows)) (some name) none none true =
      .ok [⟨name, some (.val (Spec.auc rows - Spec.fallout rows m * Spec.recall rows m / 2)), p⟩] := by
  refine ⟨some (pts rows), plot_single _ _ _ _ hname (by simp) ?_⟩
  rw [curve_eq rows hb hp hn]
  simp only [if_true]
  have hlen : 2 ≤ (thresholds rows).length := by
    obtain ⟨r, hr, hrm⟩ := h2
    have h1 := mem_thresholds.2 (List.mem_map_of_mem (f := Prod.fst) hr)
    have h3 := mem_thresholds.2 hm
    rcases h : thresholds rows with _ | ⟨a, _ | ⟨b, l⟩⟩
    · rw [h] at h1; simp at h1
    · rw [h] at h1 h3
      simp only [List.mem_singleton] at h1 h3
      exact absurd (h1.trans h3.symm) hrm
    · simp
  rw [Trapz.trapz_eq_area _ _ (by simp) (by simpa using hlen), ← area_auc rows hp hn, area_pts rows m hm hmax]
  have e : ((thresholds rows).reverse.map (Spec.fallout rows)).zip ((thresholds rows).reverse.map (Spec.recall rows)) =
      ((thresholds rows).map fun t => (Spec.fallout rows t, Spec.recall rows t)).reverse := by
    rw [List.zip_map', List.map_reverse]
  rw [e, area_reverse]
  congr 5
  ring

/-- **C138 (part).** The label shows the AUC when the top score is not shared by the two classes. Missing: a shared top
score, where `roc_label` gives the wrong value. -/
theorem roc_label_partial (rows : List (K × Nat)) (hb : ∀ r ∈ rows, r.2 = 0 ∨ r.2 = 1)
    (hp : Spec.positives rows ≠ []) (hn : Spec.negatives rows ≠ []) (name : String)
    (hname : name ≠ "__actual__") (m : K) (hm : m ∈ rows.map Prod.fst) (hmax : ∀ r ∈ rows, r.1 ≤ m)
    (h : ¬ (m ∈ Spec.positives rows ∧ m ∈ Spec.negatives rows)) :
    ∃ p, plotRocAuc (labels rows) (some (scores rows)) (some name) none none true =
      .ok [⟨name, some (.val (Spec.auc rows)), p⟩] := by
  have hz : ∀ S : List K, m ∉ S → (∀ s ∈ S, s ∈ rows.map Prod.fst) → (S.countP fun s => decide (m ≤ s)) = 0 := by
    intro S hS hS'
    rw [countP_ge_max rows m hmax S hS', List.count_eq_zero.2 hS]
  have h0 : Spec.fallout rows m * Spec.recall rows m = 0 := by
    rw [not_and_or] at h
    rcases h with h | h
    · unfold Spec.recall
      rw [hz _ h fun s hs => pos_mem hs]; simp
    · unfold Spec.fallout
      rw [hz _ h fun s hs => neg_mem hs]; simp
  have h2 : ∃ r ∈ rows, r.1 ≠ m := by
    by_contra hc
    push Not at hc
    apply h
    obtain ⟨s, hs⟩ := List.exists_mem_of_ne_nil _ hp
    obtain ⟨s', hs'⟩ := List.exists_mem_of_ne_nil _ hn
    obtain ⟨r, hr, rfl⟩ := List.mem_map.1 (pos_mem hs)
    obtain ⟨r', hr', rfl⟩ := List.mem_map.1 (neg_mem hs')
    rw [hc r hr] at hs
    rw [hc r' hr'] at hs'
    exact ⟨hs, hs'⟩
  obtain ⟨p, hp'⟩ := roc_label rows hb hp hn name hname m hm hmax h2
  rw [h0, zero_div, sub_zero] at hp'
  exact ⟨p, hp'⟩

/-- The curve and the label of four rows with a top score that is not shared. -/
example : plotRocAuc (K := ℚ) (labels [((1 : ℚ), 0), (3, 1), (2, 1), (2, 0)]) (some (scores [(1, 0), (3, 1), (2, 1), (2, 0)]))
    (some "m") none none true =
    .ok [⟨"m", some (.val (7 / 8)), some [(0, 0), (0, 1 / 2), (1 / 2, 1), (1, 1)]⟩] := by decide +kernel

/-- **C138, disagreement.** A prediction with a single score is labelled with an AUC of minus one half; the area under the
curve drawn is one half. -/
theorem roc_label_constant (rows : List (K × Nat)) (hb : ∀ r ∈ rows, r.2 = 0 ∨ r.2 = 1)
    (hp : Spec.positives rows ≠ []) (hn : Spec.negatives rows ≠ []) (name : String) (hname : name ≠ "__actual__")
    (m : K) (hm : ∀ r ∈ rows, r.1 = m) :
    plotRocAuc (labels rows) (some (scores rows)) (some name) none none true =
      .ok [⟨name, some (.val (-(1 / 2))), some [(0, 0), (1, 1)]⟩] ∧
      Spec.auc rows = 1 / 2 := by
  have hP : ((Spec.positives rows).length : K) ≠ 0 := by simpa using hp
  have hN : ((Spec.negatives rows).length : K) ≠ 0 := by simpa using hn
  have hall : ∀ s ∈ rows.map Prod.fst, s = m := by
    intro s hs
    obtain ⟨r, hr, rfl⟩ := List.mem_map.1 hs
    exact hm r hr
  have hts : thresholds rows = [m] := by
    have h1 : ∀ t ∈ thresholds rows, t = m := fun t ht => hall t (mem_thresholds.1 ht)
    have h3 := thresholds_ne rows hp
    have h4 := thresholds_sorted rows
    revert h1 h3 h4
    generalize thresholds rows = ts
    intro h1 h3 h4
    match ts with
    | [] => simp at h3
    | [t] => rw [h1 t (by simp)]
    | t :: u :: ts =>
      have := (List.pairwise_cons.1 h4).1 u (by simp)
      rw [h1 t (by simp), h1 u (by simp)] at this
      exact absurd this (lt_irrefl _)
  have e1 : Spec.recall rows m = 1 := by
    unfold Spec.recall
    rw [List.countP_eq_length.2 fun s hs => by simp [hall s (pos_mem hs)], div_self hP]
  have e2 : Spec.fallout rows m = 1 := by
    unfold Spec.fallout
    rw [List.countP_eq_length.2 fun s hs => by simp [hall s (neg_mem hs)], div_self hN]
  constructor
  · apply plot_single _ _ _ _ hname (by simp)
    rw [curve_eq rows hb hp hn, pts, hts]
    simp [e1, e2, Trapz.trapz]
  · rw [← area_auc rows hp hn, pts, hts]
    simp [e1, e2, Trapz.Spec.area]

/-- Two rows with the same score. -/
example : (∀ r ∈ [((1 : ℚ), 0), (1, 1)], r.2 = 0 ∨ r.2 = 1) ∧ Spec.positives [((1 : ℚ), 0), (1, 1)] ≠ [] ∧
    Spec.negatives [((1 : ℚ), 0), (1, 1)] ≠ [] ∧ ∀ r ∈ [((1 : ℚ), 0), (1, 1)], r.1 = 1 := by decide +kernel

/-! ## Several predictions -/

theorem dictOf_nodup {α : Type} (l : List (String × α)) (h : (l.map Prod.fst).Nodup) : dictOf l = l := by
  have key : ∀ (l acc : List (String × α)), ((acc ++ l).map Prod.fst).Nodup →
      l.foldl (fun d p => upsert d p.1 p.2) acc = acc ++ l := by
    intro l
    induction l with
    | nil => intro acc _; simp
    | cons p l ih =>
      intro acc h
      have hnot : ¬ (acc.any fun q => q.1 == p.1) = true := by
        rw [List.any_eq_true]
        rintro ⟨q, hq, he⟩
        rw [List.map_append, List.nodup_append] at h
        exact h.2.2 q.1 (List.mem_map_of_mem hq) p.1 (by simp) (by simpa using he)
      rw [List.foldl_cons]
      have : upsert acc p.1 p.2 = acc ++ [p] := by
        unfold upsert
        rw [if_neg hnot]
      rw [this, ih (acc ++ [p]) (by simpa using h)]
      simp
  exact key l [] (by simpa using h)

theorem mapM_ok {α β ε : Type} (f : α → Except ε β) : ∀ (l : List α) (out : List β),
    l.mapM f = .ok out ↔ List.Forall₂ (fun a b => f a = .ok b) l out
  | [], out => by
    cases out <;> simp [pure, Except.pure]
  | a :: l, out => by
    rw [List.mapM_cons]
    cases h : f a with
    | error e =>
      simp only [bind, Except.bind]
      cases out <;> simp [h]
    | ok b =>
      simp only [bind, Except.bind]
      cases h2 : l.mapM f with
      | error e =>
        simp only [reduceCtorEq, false_iff]
        intro hc
        cases hc with
        | cons _ hc => rw [← mapM_ok f l, h2] at hc; simp at hc
      | ok bs =>
        simp only [pure, Except.pure, Except.ok.injEq]
        constructor
        · rintro rfl
          exact .cons h ((mapM_ok f l bs).1 h2)
        · intro hc
          cases hc with
          | cons h1 hc =>
            rw [h] at h1
            rw [← mapM_ok f l, h2] at hc
            cases h1; cases hc; rfl

theorem forall₂_congr_left {α β : Type} {R S : α → β → Prop} : ∀ {l : List α} {out : List β},
    (∀ a ∈ l, ∀ b, R a b ↔ S a b) → (List.Forall₂ R l out ↔ List.Forall₂ S l out)
  | [], out, _ => by simp
  | a :: l, [], _ => by simp
  | a :: l, b :: out, h => by
    rw [List.forall₂_cons, List.forall₂_cons, h a (by simp),
      forall₂_congr_left fun x hx y => h x (List.mem_cons_of_mem _ hx) y]

/-- **C138.** Several predictions with distinct names: one curve for each, in the order given, the same as when drawn
alone. -/
theorem roc_many (target : List (Option Nat)) (cs : List (List (Option K))) (ns : List String) (show' : Bool)
    (hl : cs.length = ns.length) (hne : ns ≠ []) (hnd : ns.Nodup) (ha : "__actual__" ∉ ns)
    (hc : ∀ c ∈ cs, c.length = target.length) (out : List (Curve K)) :
    plotRocAuc target none none (some cs) (some ns) show' = .ok out ↔
      List.Forall₂ (fun p c => plotRocAuc target (some p.2) (some p.1) none none show' = .ok [c]) (ns.zip cs) out := by
  have hfst : (ns.zip cs).map Prod.fst = ns := List.map_fst_zip (by omega)
  have hmem : ∀ p ∈ ns.zip cs, p.1 ≠ "__actual__" ∧ p.2.length = target.length := fun p hp =>
    ⟨fun h => ha (h ▸ (List.of_mem_zip hp).1), hc _ (List.of_mem_zip hp).2⟩
  have hz : ns.zip cs ≠ [] := by
    intro h
    rw [h] at hfst
    exact hne hfst.symm
  have single : ∀ p ∈ ns.zip cs, ∀ c, plotRocAuc target (some p.2) (some p.1) none none show' = .ok [c] ↔
      curve show' target p = .ok c := by
    intro p hp c
    refine ⟨fun h => ?_, plot_single _ _ _ _ (hmem p hp).1 (hmem p hp).2⟩
    unfold plotRocAuc predDict at h
    simp only [bind, Except.bind] at h
    rw [if_neg (by simp [(hmem p hp).2])] at h
    simp only [List.mapM_cons, List.mapM_nil, if_neg (hmem p hp).1, bind, Except.bind, pure, Except.pure] at h
    cases hcv : curve show' target p with
    | error e => rw [hcv] at h; simp at h
    | ok c' => rw [hcv] at h; simpa using h
  unfold plotRocAuc predDict
  simp only [bind, Except.bind]
  rw [if_neg (by simpa using hl)]
  simp only [dictOf_nodup _ (by rw [hfst]; exact hnd)]
  rw [if_neg (by
    rw [List.any_eq_true]
    rintro ⟨p, hp, h⟩
    simp [(hmem p hp).2] at h)]
  have hF : ∀ out, List.Forall₂ (fun p c => curve show' target (p.1, if p.1 = "__actual__" then asScore target else p.2) = .ok c)
      (ns.zip cs) out ↔
      List.Forall₂ (fun p c => plotRocAuc target (some p.2) (some p.1) none none show' = .ok [c]) (ns.zip cs) out := by
    intro out
    refine forall₂_congr_left fun p hp c => ?_
    rw [single p hp c, if_neg (hmem p hp).1]
  refine Iff.trans ?_ (hF out)
  rw [← mapM_ok]
  cases hm : (ns.zip cs).mapM (fun p => curve show' target (p.1, if p.1 = "__actual__" then asScore target else p.2)) with
  | error e => simp
  | ok out' =>
    have hlen := (mapM_ok _ _ _).1 hm |>.length_eq
    have : out' ≠ [] := by
      rintro rfl
      exact hz (List.length_eq_zero_iff.1 hlen)
    simp [this]

/-- Two predictions: each gets its curve. -/
example : ∃ out, plotRocAuc (K := ℚ) [some 0, some 1] none none (some [[some 1, some 2], [some 2, some 1]]) (some ["a", "b"]) true =
    .ok out ∧ out.map (·.auc) = [some (.val 1), some (.val 0)] := ⟨_, rfl, by decide +kernel⟩

/-- **C138, disagreement.** Of two predictions with the same name only the second is drawn. -/
theorem roc_duplicate_name (target : List (Option Nat)) (c1 c2 : List (Option K)) (n : String) (show' : Bool) :
    plotRocAuc target none none (some [c1, c2]) (some [n, n]) show' =
      plotRocAuc target (some c2) (some n) none none show' := by
  have hd : dictOf ([n, n].zip [c1, c2]) = [(n, c2)] := by simp [dictOf, upsert]
  unfold plotRocAuc predDict
  simp only [List.length_cons, List.length_nil, ne_eq, not_true_eq_false, if_false, hd]

example : plotRocAuc (K := ℚ) [some 0, some 1] none none (some [[some 1, some 2], [some 2, some 1]]) (some ["m", "m"]) true =
    .ok [⟨"m", some (.val 0), some [(0, 0), (1, 0), (1, 1)]⟩] := by decide +kernel

/-- **C138, disagreement.** A prediction named `__actual__` is replaced by the target: whatever it was, the curve shown is
perfect. -/
theorem roc_actual_name (rows : List (K × Nat)) (hb : ∀ r ∈ rows, r.2 = 0 ∨ r.2 = 1)
    (hp : Spec.positives rows ≠ []) (hn : Spec.negatives rows ≠ []) :
    plotRocAuc (labels rows) (some (scores rows)) (some "__actual__") none none true =
      .ok [⟨"__actual__", some (.val 1), some [(0, 0), (0, 1), (1, 1)]⟩] := by
  set rows' : List (K × Nat) := rows.map fun r => ((r.2 : K), r.2) with hr
  have hl : labels rows' = labels rows := by simp [hr, labels, Function.comp_def]
  have hs : scores rows' = asScore (labels rows) := by simp [hr, scores, labels, asScore, Function.comp_def]
  have hb' : ∀ r ∈ rows', r.2 = 0 ∨ r.2 = 1 := by
    intro r h
    obtain ⟨q, hq, rfl⟩ := List.mem_map.1 h
    exact hb q hq
  have pos' : Spec.positives rows' = (Spec.positives rows).map fun _ => (1 : K) := by
    rw [hr]
    unfold Spec.positives
    rw [List.filter_map, List.map_map, List.map_map]
    apply List.map_congr_left
    intro r h
    have := (List.mem_filter.1 h).2
    simp only [Function.comp, decide_eq_true_eq] at this ⊢
    rw [this]; simp
  have neg' : Spec.negatives rows' = (Spec.negatives rows).map fun _ => (0 : K) := by
    rw [hr]
    unfold Spec.negatives
    rw [List.filter_map, List.map_map, List.map_map]
    apply List.map_congr_left
    intro r h
    have := (List.mem_filter.1 h).2
    simp only [Function.comp, decide_eq_true_eq] at this ⊢
    rw [this]; simp
  have hp' : Spec.positives rows' ≠ [] := by rw [pos']; simpa using hp
  have hn' : Spec.negatives rows' ≠ [] := by rw [neg']; simpa using hn
  have m1 : (1 : K) ∈ rows'.map Prod.fst := by
    obtain ⟨s, hs⟩ := List.exists_mem_of_ne_nil _ hp
    exact pos_mem (by rw [pos']; exact List.mem_map.2 ⟨s, hs, rfl⟩)
  have m0 : (0 : K) ∈ rows'.map Prod.fst := by
    obtain ⟨s, hs⟩ := List.exists_mem_of_ne_nil _ hn
    exact neg_mem (by rw [neg']; exact List.mem_map.2 ⟨s, hs, rfl⟩)
  have hmem : ∀ t, t ∈ thresholds rows' ↔ t = 0 ∨ t = 1 := by
    intro t
    rw [mem_thresholds]
    constructor
    · intro h
      obtain ⟨r, h1, rfl⟩ := List.mem_map.1 h
      obtain ⟨q, hq, rfl⟩ := List.mem_map.1 h1
      rcases hb q hq with h | h <;> simp [h]
    · rintro (h | h)
      · rw [h]; exact m0
      · rw [h]; exact m1
  have hts : thresholds rows' = [0, 1] := by
    have hsort := thresholds_sorted rows'
    revert hmem hsort
    generalize thresholds rows' = ts
    intro hmem hsort
    have h01 : ([0, 1] : List K).Pairwise (· < ·) := by simp
    refine List.Perm.eq_of_pairwise (le := (· < ·)) ?_ hsort h01 ?_
    · intro a b _ _ h1 h2; exact absurd h1 (not_lt.2 h2.le)
    · rw [List.perm_ext_iff_of_nodup (hsort.imp fun h => ne_of_lt h) (by simp)]
      intro t; rw [hmem]; simp
  have hP : ((Spec.positives rows).length : K) ≠ 0 := by simpa using hp
  have hN : ((Spec.negatives rows).length : K) ≠ 0 := by simpa using hn
  have r0 : Spec.recall rows' 0 = 1 := by
    unfold Spec.recall
    rw [pos', List.countP_map]
    simp [Function.comp_def, hP]
  have r1 : Spec.recall rows' 1 = 1 := by
    unfold Spec.recall
    rw [pos', List.countP_map]
    simp [Function.comp_def, hP]
  have f0 : Spec.fallout rows' 0 = 1 := by
    unfold Spec.fallout
    rw [neg', List.countP_map]
    simp [Function.comp_def, hN]
  have f1 : Spec.fallout rows' 1 = 0 := by
    unfold Spec.fallout
    rw [neg', List.countP_map]
    simp [Function.comp_def]
  have hc := curve_eq rows' hb' hp' hn' true "__actual__"
  rw [hl, hs, pts, hts] at hc
  unfold plotRocAuc predDict
  simp only [bind, Except.bind]
  rw [if_neg (by simp)]
  simp only [List.mapM_cons, List.mapM_nil, hc, bind, Except.bind, pure, Except.pure, if_true]
  norm_num [r0, r1, f0, f1, Trapz.trapz]

/-- A prediction that ranks the wrong way round. -/
example : plotRocAuc (K := ℚ) [some 1, some 0] (some [some 1, some 2]) (some "__actual__") none none true =
    .ok [⟨"__actual__", some (.val 1), some [(0, 0), (0, 1), (1, 1)]⟩] := by decide +kernel

/-- **C138.** The arguments that are refused: a prediction without a name, neither kind of predictions, as many names as
predictions missing, a prediction whose length is not that of the target. -/
theorem roc_rejected (target : List (Option Nat)) (c : List (Option K)) (cs : List (List (Option K))) (n : Option String)
    (name : String) (ns : List String) (show' : Bool) :
    plotRocAuc target (some c) none (some cs) (some ns) show' = .error .value ∧
    plotRocAuc (K := K) target none n none (some ns) show' = .error .value ∧
    plotRocAuc target none n (some cs) none show' = .error .value ∧
    (cs.length ≠ ns.length → plotRocAuc target none n (some cs) (some ns) show' = .error .value) ∧
    (c.length ≠ target.length → plotRocAuc target (some c) (some name) none none show' = .error .value) ∧
    plotRocAuc (K := K) target none n (some []) (some []) show' = .error .value := by
  refine ⟨rfl, rfl, rfl, fun h => ?_, fun h => ?_, ?_⟩
  · unfold plotRocAuc predDict
    simp only [bind, Except.bind]
    rw [if_pos h]
  · unfold plotRocAuc predDict
    simp only [bind, Except.bind]
    rw [if_pos (by simp [h])]
  · rfl

end

/-! ## Share of bad values -/

section
open Verif.Confusion (Val)
variable {K : Type}

/-- Null, NaN or infinite. -/
def Spec.bad : Option (Val K) → Bool
  | some (.num _) => false
  | _ => true

theorem badCount_eq (c : List (Option (Val K))) : badCount c = c.countP Spec.bad := by
  unfold badCount
  induction c with
  | nil => rfl
  | cons v c ih =>
    rcases v with _ | ⟨_ | _ | _⟩ <;>
      simp only [List.filter_cons, List.countP_cons, Spec.bad, isFinite] at ih ⊢ <;> simp at ih ⊢ <;> omega

/-- **C139.** The share in the chart counts every null, NaN and infinity once; without rows there is an error instead. -/
theorem bad_share (c : List (Option (Val K))) (h : c ≠ []) :
    ∃ q, badShare c = some q ∧ 0 ≤ q ∧ q ≤ 1 ∧ q * c.length = (c.countP Spec.bad : Nat) := by
  have hl : 0 < c.length := List.length_pos_iff.2 h
  have hq : (0 : ℚ) < c.length := by exact_mod_cast hl
  refine ⟨badCount c / c.length, by rw [badShare, if_neg hl.ne'], by positivity, ?_, ?_⟩
  · rw [div_le_one hq, badCount_eq]
    exact_mod_cast List.countP_le_length
  · rw [div_mul_cancel₀ _ hq.ne', badCount_eq]

example : badShare (K := ℚ) [some (.num 1), none, some .nan, some (.inf true)] = some (3 / 4) := by decide +kernel

/-- **C139, disagreement.** Without rows `plot_feature_distr` fails with a division by zero. -/
theorem bad_share_empty : badShare (K := K) [] = none := rfl

example : badShare (K := ℚ) [] = none ∧ badShare (K := ℚ) [none] = some 1 := by decide +kernel

/-- **C139.** With `over`, each group present gets one bar with the share of its own rows. -/
theorem bad_shares {G : Type} [DecidableEq G] (rows : List (G × Option (Val K))) (keys : List G)
    (hk : ∀ g, g ∈ keys ↔ g ∈ rows.map Prod.fst) (hnd : keys.Nodup) :
    ((badShares rows keys).map Prod.fst).Nodup ∧
    (∀ g, g ∈ (badShares rows keys).map Prod.fst ↔ g ∈ rows.map Prod.fst) ∧
    ∀ p ∈ badShares rows keys, 0 ≤ p.2 ∧ p.2 ≤ 1 ∧
      p.2 * (rows.countP fun r => decide (r.1 = p.1) : Nat) =
        (rows.countP fun r => decide (r.1 = p.1) && Spec.bad r.2 : Nat) := by
  have e : (badShares rows keys).map Prod.fst = keys := by
    unfold badShares
    rw [List.map_map]
    exact List.map_id _
  rw [e]
  refine ⟨hnd, hk, fun p hp => ?_⟩
  obtain ⟨g, hg, rfl⟩ := List.mem_map.1 hp
  dsimp only
  have hne : (rows.filter fun r => decide (r.1 = g)).map Prod.snd ≠ [] := by
    obtain ⟨r, hr, h⟩ := List.mem_map.1 ((hk g).1 hg)
    exact List.ne_nil_of_mem (List.mem_map_of_mem (List.mem_filter.2 ⟨hr, by simp [h]⟩))
  obtain ⟨q, h1, h2, h3, h4⟩ := bad_share _ hne
  unfold badShare at h1
  rw [if_neg (List.length_pos_iff.2 hne).ne'] at h1
  have hq := Option.some.inj h1
  rw [hq]
  refine ⟨h2, h3, ?_⟩
  rw [List.length_map, ← List.countP_eq_length_filter, List.countP_map, List.countP_filter] at h4
  rw [h4]
  congr 1
  apply List.countP_congr
  intro r _
  simp [and_comm]

example : badShares (K := ℚ) [("a", none), ("b", some (.num 1)), ("a", some (.num 2))] ["a", "b"] = [("a", 1 / 2), ("b", 0)] := by
  decide +kernel

end
end Verif.Plots
