import Verif.Model.MultiMetrics
import Verif.Props.Roc
import Verif.Props.MannWhitney

/-!
# C129: multiclass AUC and Gini coefficient
-/

namespace Verif.MultiMetrics
open Verif.Roc

variable {K : Type} [Field K] [LinearOrder K]

namespace Spec

/-- The rows as seen for class `i`: its probability, and whether the label is `i`. -/
def oneVsRest (rows : List (Nat × List K)) (i : Nat) : List (K × Nat) :=
  rows.map fun r => (r.2.getD i 0, if r.1 = i then 1 else 0)

/-- A score of both a positive and a negative row is not the top score (or all scores are the same). -/
def TopClear (rs : List (K × Nat)) : Prop :=
  (∀ s ∈ Roc.Spec.positives rs, s ∈ Roc.Spec.negatives rs → ∃ r ∈ rs, s < r.1) ∨ ∀ a ∈ rs, ∀ b ∈ rs, a.1 = b.1

/-- The share of rows with label `i`. -/
def share (rows : List (Nat × List K)) (i : Nat) : K := ((rows.filter fun r => decide (r.1 = i)).length : K) / rows.length

end Spec

open Spec

section
variable [IsStrictOrderedRing K]

omit [Field K] [IsStrictOrderedRing K] in
theorem exists_max (l : List K) (h : l ≠ []) : ∃ m ∈ l, ∀ x ∈ l, x ≤ m := by
  induction l with
  | nil => exact absurd rfl h
  | cons a t ih =>
    by_cases ht : t = []
    · subst ht; exact ⟨a, by simp, by simp⟩
    · obtain ⟨m, hm, hmax⟩ := ih ht
      rcases le_total a m with hl | hl
      · exact ⟨m, by simp [hm], by simpa [hl] using hmax⟩
      · refine ⟨a, by simp, ?_⟩
        intro x hx
        rcases List.mem_cons.1 hx with rfl | hx
        · exact le_refl _
        · exact (hmax x hx).trans hl

/-- The AUC expression on rows whose top score is clear. -/
theorem rocAuc_clear (rs : List (K × Nat)) (hb : ∀ r ∈ rs, r.2 = 0 ∨ r.2 = 1) (hp : Roc.Spec.positives rs ≠ [])
    (hn : Roc.Spec.negatives rs ≠ []) (ht : TopClear rs) :
    rocAuc (rs.map fun r => some r.1) (rs.map fun r => some r.2) = .val (Roc.Spec.auc rs) := by
  have hne : rs ≠ [] := by rintro rfl; exact hp rfl
  obtain ⟨m, hm, hmax⟩ := exists_max (rs.map Prod.fst) (by simpa using hne)
  have hmax' : ∀ r ∈ rs, r.1 ≤ m := fun r hr => hmax _ (List.mem_map_of_mem hr)
  refine roc_auc_partial rs hb hp hn m hm hmax' ?_
  rcases ht with h | h
  · left
    rintro ⟨h1, h2⟩
    obtain ⟨r, hr, hlt⟩ := h m h1 h2
    exact absurd (hmax' r hr) (not_le.2 hlt)
  · right
    obtain ⟨r0, hr0, rfl⟩ := List.mem_map.1 hm
    exact fun r hr => h r hr r0 hr0

omit [LinearOrder K] [IsStrictOrderedRing K] in
theorem oneVsRest_binary (rows : List (Nat × List K)) (i : Nat) : ∀ r ∈ oneVsRest rows i, r.2 = 0 ∨ r.2 = 1 := by
  intro r hr
  simp only [oneVsRest, List.mem_map] at hr
  obtain ⟨a, -, rfl⟩ := hr
  by_cases h : a.1 = i <;> simp [h]

omit [LinearOrder K] [IsStrictOrderedRing K] in
theorem mapM_get (rows : List (Nat × List K)) (i : Nat) (h : ∀ r ∈ rows, i < r.2.length) :
    rows.mapM (fun r => r.2[i]?) = some (rows.map fun r => r.2.getD i 0) := by
  induction rows with
  | nil => rfl
  | cons r t ih =>
    have := h r (by simp)
    rw [List.mapM_cons, ih fun a ha => h a (by simp [ha])]
    simp [List.getElem?_eq_getElem this]

omit [IsStrictOrderedRing K] in
theorem classAuc_eq (rows : List (Nat × List K)) (i : Nat) (h : ∀ r ∈ rows, i < r.2.length) :
    classAuc rows i = rocAuc ((oneVsRest rows i).map fun r => some r.1) ((oneVsRest rows i).map fun r => some r.2) := by
  unfold classAuc
  rw [mapM_get rows i h]
  simp [oneVsRest, Function.comp_def]

omit [LinearOrder K] [IsStrictOrderedRing K] in
theorem positives_ne {rows : List (Nat × List K)} {i : Nat} (h : ∃ r ∈ rows, r.1 = i) :
    Roc.Spec.positives (oneVsRest rows i) ≠ [] := by
  obtain ⟨r, hr, rfl⟩ := h
  apply List.ne_nil_of_mem (a := r.2.getD r.1 0)
  simp only [Roc.Spec.positives, oneVsRest, List.mem_map, List.mem_filter, decide_eq_true_eq]
  exact ⟨(r.2.getD r.1 0, 1), ⟨⟨r, hr, by simp⟩, rfl⟩, rfl⟩

omit [LinearOrder K] [IsStrictOrderedRing K] in
theorem negatives_ne {rows : List (Nat × List K)} {i : Nat} (h : ∃ r ∈ rows, r.1 ≠ i) :
    Roc.Spec.negatives (oneVsRest rows i) ≠ [] := by
  obtain ⟨r, hr, hne⟩ := h
  apply List.ne_nil_of_mem (a := r.2.getD i 0)
  simp only [Roc.Spec.negatives, oneVsRest, List.mem_map, List.mem_filter, decide_eq_true_eq]
  exact ⟨(r.2.getD i 0, 0), ⟨⟨r, hr, by simp [hne]⟩, rfl⟩, rfl⟩

omit [LinearOrder K] [IsStrictOrderedRing K] in
theorem sumRes_val (l : List K) : sumRes (l.map Res.val) = .val l.sum := by
  induction l with
  | nil => rfl
  | cons a t ih =>
    have : sumRes ((a :: t).map Res.val) = addRes (.val a) (sumRes (t.map Res.val)) := rfl
    rw [this, ih]; simp [addRes]

/-- C129, the part that holds: with every class present and the top score of each class clear, `macro` is the plain and
`weighted` the share-weighted average of the one-against-rest AUCs. -/
theorem multi_auc_partial (n : Nat) (hn : 1 < n) (rows : List (Nat × List K)) (hl : ∀ r ∈ rows, r.2.length = n)
    (hc : ∀ i < n, ∃ r ∈ rows, r.1 = i) (ht : ∀ i < n, TopClear (oneVsRest rows i)) :
    macroAuc n rows = .val (((List.range n).map fun i => Roc.Spec.auc (oneVsRest rows i)).sum / n) ∧
    weightedAuc n rows =
      .val ((List.range n).map fun i => share rows i * Roc.Spec.auc (oneVsRest rows i)).sum := by
  have hclass : ∀ i < n, classAuc rows i = .val (Roc.Spec.auc (oneVsRest rows i)) := by
    intro i hi
    rw [classAuc_eq rows i fun r hr => by rw [hl r hr]; exact hi]
    refine rocAuc_clear _ (oneVsRest_binary rows i) (positives_ne (hc i hi)) (negatives_ne ?_) (ht i hi)
    obtain ⟨j, hj, hji⟩ : ∃ j < n, j ≠ i := by
      by_cases h0 : i = 0
      · exact ⟨1, hn, by omega⟩
      · exact ⟨0, by omega, by omega⟩
    obtain ⟨r, hr, rfl⟩ := hc j hj
    exact ⟨r, hr, hji⟩
  constructor
  · unfold macroAuc
    have : (List.range n).map (classAuc rows) =
        ((List.range n).map fun i => Roc.Spec.auc (oneVsRest rows i)).map Res.val := by
      rw [List.map_map]
      exact List.map_congr_left fun i hi => hclass i (List.mem_range.1 hi)
    rw [this, sumRes_val]
    simp only [scaleRes]
    congr 1
    ring
  · unfold weightedAuc
    have : ((List.range n).map fun i => scaleRes (classCount rows i : K) (classAuc rows i)) =
        ((List.range n).map fun i => (classCount rows i : K) * Roc.Spec.auc (oneVsRest rows i)).map Res.val := by
      rw [List.map_map]
      refine List.map_congr_left fun i hi => ?_
      rw [hclass i (List.mem_range.1 hi)]
      rfl
    rw [this, sumRes_val]
    simp only [scaleRes]
    congr 1
    rw [← List.sum_map_mul_left]
    congr 1
    refine List.map_congr_left fun i _ => ?_
    simp only [classCount, share, List.countP_eq_length_filter]
    ring

theorem auc_bounds (rs : List (K × Nat)) : 0 ≤ Roc.Spec.auc rs ∧ Roc.Spec.auc rs ≤ 1 := by
  have hnn : ∀ xs ys : List K, 0 ≤ MWU.Spec.wins xs ys := by
    intro xs ys
    unfold MWU.Spec.wins
    refine List.sum_nonneg fun a ha => ?_
    obtain ⟨x, -, rfl⟩ := List.mem_map.1 ha
    refine List.sum_nonneg fun b hb => ?_
    obtain ⟨y, -, rfl⟩ := List.mem_map.1 hb
    unfold MWU.Spec.score
    split
    · norm_num
    · split <;> norm_num
  have hs := MWU.wins_swap (Roc.Spec.positives rs) (Roc.Spec.negatives rs)
  have h1 := hnn (Roc.Spec.positives rs) (Roc.Spec.negatives rs)
  have h2 := hnn (Roc.Spec.negatives rs) (Roc.Spec.positives rs)
  unfold Roc.Spec.auc
  have h3 : (0 : K) ≤ (Roc.Spec.positives rs).length * (Roc.Spec.negatives rs).length := by positivity
  refine ⟨div_nonneg h1 h3, div_le_one_of_le₀ ?_ h3⟩
  linarith

/-- Under the same conditions both averages are in [0, 1]. -/
theorem multi_auc_bounds (n : Nat) (hn : 1 < n) (rows : List (Nat × List K)) (hl : ∀ r ∈ rows, r.2.length = n)
    (hlab : ∀ r ∈ rows, r.1 < n) (hc : ∀ i < n, ∃ r ∈ rows, r.1 = i) (ht : ∀ i < n, TopClear (oneVsRest rows i)) :
    ∃ a b : K, macroAuc n rows = .val a ∧ weightedAuc n rows = .val b ∧ (0 ≤ a ∧ a ≤ 1) ∧ (0 ≤ b ∧ b ≤ 1) := by
  obtain ⟨h1, h2⟩ := multi_auc_partial n hn rows hl hc ht
  refine ⟨_, _, h1, h2, ?_, ?_⟩
  · have hn0 : (0 : K) < n := by exact_mod_cast (by omega : 0 < n)
    have hle : ((List.range n).map fun i => Roc.Spec.auc (oneVsRest rows i)).sum ≤ ((List.range n).map fun _ => (1 : K)).sum :=
      List.sum_le_sum fun i _ => (auc_bounds _).2
    have hge : 0 ≤ ((List.range n).map fun i => Roc.Spec.auc (oneVsRest rows i)).sum := by
      refine List.sum_nonneg fun a ha => ?_
      obtain ⟨i, -, rfl⟩ := List.mem_map.1 ha
      exact (auc_bounds _).1
    refine ⟨div_nonneg hge hn0.le, (div_le_one hn0).2 ?_⟩
    simpa using hle
  · have hsh : ∀ i, 0 ≤ share rows i := fun i => by unfold share; positivity
    have hge : 0 ≤ ((List.range n).map fun i => share rows i * Roc.Spec.auc (oneVsRest rows i)).sum := by
      refine List.sum_nonneg fun a ha => ?_
      obtain ⟨i, -, rfl⟩ := List.mem_map.1 ha
      exact mul_nonneg (hsh i) (auc_bounds _).1
    have hle : ((List.range n).map fun i => share rows i * Roc.Spec.auc (oneVsRest rows i)).sum ≤
        ((List.range n).map fun i => share rows i).sum :=
      List.sum_le_sum fun i _ => mul_le_of_le_one_right (hsh i) (auc_bounds _).2
    have hcount : ∀ rows : List (Nat × List K), (∀ r ∈ rows, r.1 < n) →
        ((List.range n).map fun i => (rows.filter fun r => decide (r.1 = i)).length).sum = rows.length := by
      intro rows hlab
      induction rows with
      | nil => simp
      | cons r t ih =>
        have h1 := ih fun a ha => hlab a (by simp [ha])
        have h2 : ((List.range n).map fun i => ((r :: t).filter fun r => decide (r.1 = i)).length).sum =
            ((List.range n).map fun i => (t.filter fun r => decide (r.1 = i)).length).sum +
              ((List.range n).map fun i => if i = r.1 then 1 else 0).sum := by
          rw [← List.sum_map_add]
          congr 1
          refine List.map_congr_left fun i _ => ?_
          by_cases h : r.1 = i
          · simp [h]
          · simp [h, Ne.symm h]
        have h3 : ∀ m, r.1 < m → ((List.range m).map fun i => if i = r.1 then 1 else 0).sum = 1 := by
          intro m
          induction m with
          | zero => intro h; omega
          | succ m ihm =>
            intro h
            rw [List.range_succ, List.map_append, List.sum_append]
            by_cases he : r.1 = m
            · have : ((List.range m).map fun i => if i = r.1 then 1 else 0) = (List.range m).map fun _ => 0 :=
                List.map_congr_left fun i hi => by
                  have := List.mem_range.1 hi
                  rw [if_neg (by omega)]
              rw [this]
              simp [he]
            · rw [ihm (by omega)]
              simp [Ne.symm he]
        rw [h2, h1, h3 n (hlab r (by simp))]
        simp
    have hsum : ((List.range n).map fun i => share rows i).sum = 1 := by
      have hne : (0 : K) < rows.length := by
        obtain ⟨r, hr, -⟩ := hc 0 (by omega)
        exact_mod_cast List.length_pos_of_mem hr
      have hcc := hcount rows hlab
      unfold share
      simp only [div_eq_mul_inv]
      rw [List.sum_map_mul_right]
      have : ((List.range n).map fun i => (((rows.filter fun r => decide (r.1 = i)).length : Nat) : K)).sum = rows.length := by
        rw [← hcc, Nat.cast_list_sum, List.map_map]
        rfl
      rw [this]
      exact mul_inv_cancel₀ hne.ne'
    exact ⟨hge, hle.trans hsum.le⟩

/-- Four rows of three classes. -/
def exRows : List (Nat × List ℚ) :=
  [(0, [7 / 10, 2 / 10, 1 / 10]), (1, [3 / 10, 6 / 10, 1 / 10]), (2, [1 / 2, 1 / 10, 4 / 10]), (2, [8 / 10, 1 / 10, 1 / 10])]

example : (∀ r ∈ exRows, r.2.length = 3) ∧ (∀ i < 3, ∃ r ∈ exRows, r.1 = i) ∧ (∀ r ∈ exRows, r.1 < 3) ∧
    (∀ i < 3, TopClear (oneVsRest exRows i)) ∧
    macroAuc 3 exRows = .val (29 / 36) ∧ weightedAuc 3 exRows = .val (19 / 24) := by
  unfold TopClear
  decide +kernel

theorem sumRes_nan (l : List (Res K)) (h : .nan ∈ l) (hok : ∀ r ∈ l, r = .nan ∨ ∃ v, r = .val v) :
    sumRes l = .nan := by
  induction l with
  | nil => simp at h
  | cons a t ih =>
    have hs : sumRes (a :: t) = addRes a (sumRes t) := rfl
    have ht : sumRes t = .nan ∨ ∃ v, sumRes t = .val v := by
      clear h hs ih
      induction t with
      | nil => exact Or.inr ⟨0, rfl⟩
      | cons b u ihu =>
        have hs : sumRes (b :: u) = addRes b (sumRes u) := rfl
        have hu := ihu fun r hr => hok r (by
          rcases List.mem_cons.1 hr with h | h
          · simp [h]
          · simp [h])
        rw [hs]
        rcases hok b (by simp) with rfl | ⟨v, rfl⟩ <;> rcases hu with hu | ⟨w, hu⟩ <;> simp [hu, addRes]
    rw [hs]
    rcases List.mem_cons.1 h with rfl | h
    · rcases ht with ht | ⟨v, ht⟩ <;> simp [ht, addRes]
    · have := ih h fun r hr => hok r (by simp [hr])
      rcases hok a (by simp) with rfl | ⟨v, rfl⟩ <;> simp [this, addRes]

/-- A class without a row makes both averages NaN, though its weight is 0. -/
theorem multi_auc_absent (n : Nat) (rows : List (Nat × List K)) (hl : ∀ r ∈ rows, r.2.length = n)
    (i : Nat) (hi : i < n) (hc : ∀ r ∈ rows, r.1 ≠ i) : macroAuc n rows = .nan ∧ weightedAuc n rows = .nan := by
  have hclass : ∀ j < n, classAuc rows j = .nan ∨ ∃ v, classAuc rows j = .val v := by
    intro j hj
    rw [classAuc_eq rows j fun r hr => by rw [hl r hr]; exact hj]
    have hb := oneVsRest_binary rows j
    by_cases hp : Roc.Spec.positives (oneVsRest rows j) = []
    · exact Or.inl (roc_auc_undefined _ hb (Or.inl hp))
    · by_cases hn : Roc.Spec.negatives (oneVsRest rows j) = []
      · exact Or.inl (roc_auc_undefined _ hb (Or.inr hn))
      · exact Or.inr ⟨_, rocAuc_unfold _ hb hp hn⟩
  have hnan : classAuc rows i = .nan := by
    rw [classAuc_eq rows i fun r hr => by rw [hl r hr]; exact hi]
    refine roc_auc_undefined _ (oneVsRest_binary rows i) (Or.inl ?_)
    unfold Roc.Spec.positives
    rw [List.map_eq_nil_iff, List.filter_eq_nil_iff]
    intro r hr
    simp only [oneVsRest, List.mem_map] at hr
    obtain ⟨a, ha, rfl⟩ := hr
    simp [hc a ha]
  constructor
  · unfold macroAuc
    rw [sumRes_nan]
    · rfl
    · exact List.mem_map.2 ⟨i, List.mem_range.2 hi, hnan⟩
    · intro r hr
      obtain ⟨j, hj, rfl⟩ := List.mem_map.1 hr
      exact hclass j (List.mem_range.1 hj)
  · unfold weightedAuc
    rw [sumRes_nan]
    · rfl
    · exact List.mem_map.2 ⟨i, List.mem_range.2 hi, by rw [hnan]; rfl⟩
    · intro r hr
      obtain ⟨j, hj, rfl⟩ := List.mem_map.1 hr
      rcases hclass j (List.mem_range.1 hj) with h | ⟨v, h⟩ <;> simp [h, scaleRes]

example : ∀ r ∈ [(0, [(1 : ℚ), 0, 0]), (1, [0, 1, 0])], r.1 ≠ 2 := by decide

/-- A shared top score gives a wrong average: two rows of different labels share the top score of class 0. -/
theorem multi_auc_wrong :
    macroAuc 2 [(0, [(1 / 2 : ℚ), 1 / 2]), (1, [1 / 2, 1 / 2]), (1, [1 / 5, 4 / 5])] ≠
      .val (((List.range 2).map fun i =>
        Roc.Spec.auc (oneVsRest [(0, [(1 / 2 : ℚ), 1 / 2]), (1, [1 / 2, 1 / 2]), (1, [1 / 5, 4 / 5])] i)).sum / 2) := by
  decide +kernel

/-! ## Two classes -/

theorem wins_flip (f : K → K) (hf : ∀ a b, f a < f b ↔ b < a) (xs ys : List K) :
    MWU.Spec.wins (xs.map f) (ys.map f) = MWU.Spec.wins ys xs := by
  have hs : ∀ x y, MWU.Spec.score (f x) (f y) = MWU.Spec.score y x := by
    intro x y
    have he : f y = f x ↔ x = y := by
      constructor
      · intro h
        rcases lt_trichotomy x y with hl | hl | hl
        · exact absurd h (((hf y x).2 hl).ne)
        · exact hl
        · exact absurd h (((hf x y).2 hl).ne')
      · rintro rfl; rfl
    unfold MWU.Spec.score
    simp only [hf, he]
  induction xs with
  | nil =>
    have : MWU.Spec.wins ys ([] : List K) = 0 := by
      induction ys with
      | nil => rfl
      | cons y ys ih => rw [MWU.wins_cons_left, ih]; simp
    rw [this]; rfl
  | cons x t ih =>
    rw [List.map_cons, MWU.wins_cons_left, ih, MWU.wins_cons_right, List.map_map]
    congr 2
    exact List.map_congr_left fun y _ => hs x y

/-- For two classes with probabilities `1 - p` and `p` the two one-against-rest AUCs are the same. -/
theorem two_class_auc (rows : List (K × Nat)) (hb : ∀ r ∈ rows, r.2 = 0 ∨ r.2 = 1) :
    Roc.Spec.auc (oneVsRest (rows.map fun r => (r.2, [1 - r.1, r.1])) 0) = Roc.Spec.auc rows ∧
    Roc.Spec.auc (oneVsRest (rows.map fun r => (r.2, [1 - r.1, r.1])) 1) = Roc.Spec.auc rows := by
  have h0 : oneVsRest (rows.map fun r => (r.2, [1 - r.1, r.1])) 0 =
      rows.map fun r => (1 - r.1, if r.2 = 0 then 1 else 0) := by simp [oneVsRest]
  have h1 : oneVsRest (rows.map fun r => (r.2, [1 - r.1, r.1])) 1 = rows := by
    unfold oneVsRest
    rw [List.map_map]
    refine (List.map_congr_left fun r hr => ?_).trans (List.map_id _)
    rcases hb r hr with h | h <;> simp [h] <;> rw [← h]
  refine ⟨?_, by rw [h1]⟩
  rw [h0]
  have hp : ∀ rows : List (K × Nat), (∀ r ∈ rows, r.2 = 0 ∨ r.2 = 1) →
      Roc.Spec.positives (rows.map fun r => (1 - r.1, if r.2 = 0 then 1 else 0)) =
        (Roc.Spec.negatives rows).map fun x => 1 - x := by
    intro rows hb
    unfold Roc.Spec.positives Roc.Spec.negatives
    rw [List.filter_map, List.map_map, List.map_map]
    congr 1
    refine List.filter_congr fun r hr => ?_
    rcases hb r hr with h | h <;> simp [h]
  have hn : ∀ rows : List (K × Nat), (∀ r ∈ rows, r.2 = 0 ∨ r.2 = 1) →
      Roc.Spec.negatives (rows.map fun r => (1 - r.1, if r.2 = 0 then 1 else 0)) =
        (Roc.Spec.positives rows).map fun x => 1 - x := by
    intro rows hb
    unfold Roc.Spec.positives Roc.Spec.negatives
    rw [List.filter_map, List.map_map, List.map_map]
    congr 1
    refine List.filter_congr fun r hr => ?_
    rcases hb r hr with h | h <;> simp [h]
  unfold Roc.Spec.auc
  rw [hp rows hb, hn rows hb, wins_flip (fun x => 1 - x) (fun a b => by constructor <;> intro h <;> linarith)]
  simp only [List.length_map]
  rw [mul_comm]

example : ∀ r ∈ [((1 / 2 : ℚ), 1), (1 / 4, 0)], r.2 = 0 ∨ r.2 = 1 := by decide

/-! ## Gini -/

/-- C129: where the AUC is right, `query_gini` is the share of pairs ranked right minus the share ranked wrong. -/
theorem gini_partial (rs : List (K × Nat)) (hb : ∀ r ∈ rs, r.2 = 0 ∨ r.2 = 1) (hp : Roc.Spec.positives rs ≠ [])
    (hn : Roc.Spec.negatives rs ≠ []) (ht : TopClear rs) :
    gini (rs.map fun r => some r.1) (rs.map fun r => some r.2) =
      .val ((MWU.Spec.wins (Roc.Spec.positives rs) (Roc.Spec.negatives rs) -
        MWU.Spec.wins (Roc.Spec.negatives rs) (Roc.Spec.positives rs)) /
        ((Roc.Spec.positives rs).length * (Roc.Spec.negatives rs).length)) := by
  unfold gini
  rw [rocAuc_clear rs hb hp hn ht]
  simp only
  congr 1
  have hs := MWU.wins_swap (Roc.Spec.positives rs) (Roc.Spec.negatives rs)
  have hP : ((Roc.Spec.positives rs).length : K) ≠ 0 := by simpa using hp
  have hN : ((Roc.Spec.negatives rs).length : K) ≠ 0 := by simpa using hn
  unfold Roc.Spec.auc
  rw [eq_comm, div_eq_iff (mul_ne_zero hP hN), sub_mul, mul_comm _ (2 : K), mul_assoc, div_mul_cancel₀ _ (mul_ne_zero hP hN)]
  linarith

/-- No positives or no negatives: NaN. -/
theorem gini_undefined (rs : List (K × Nat)) (hb : ∀ r ∈ rs, r.2 = 0 ∨ r.2 = 1)
    (h : Roc.Spec.positives rs = [] ∨ Roc.Spec.negatives rs = []) :
    gini (rs.map fun r => some r.1) (rs.map fun r => some r.2) = .nan := by
  unfold gini; rw [roc_auc_undefined rs hb h]

example : gini [some (1 / 2 : ℚ), some (1 / 4), some (1 / 4)] [some 1, some 0, some 1] = .val (1 / 2) := by
  decide +kernel

end

end Verif.MultiMetrics
