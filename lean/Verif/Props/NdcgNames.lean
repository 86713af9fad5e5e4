import Verif.Model.NdcgNames
import Verif.Props.Ndcg

/-!
# Column names in `calculate_ndcg` (C167)
-/

namespace Verif.NdcgNames
open Verif.Ndcg (Row disc mask)

namespace Spec

/-- What the user sees of a row: group, relevance and score. -/
def view (rel score : String) (r : FRow) : Row := ⟨r.id, r.val rel, r.val score⟩

/-- No two rows of a group have the same score. -/
def Distinct (score : String) (rows : List FRow) : Prop :=
  ∀ g, ((rows.filter fun r => decide (r.id = g)).map fun r => r.val score).Nodup

/-- Some group has more than one row. -/
def HasGroup (rows : List FRow) : Prop := ∃ r ∈ rows, 1 < rows.countP fun x => decide (x.id = r.id)

end Spec
open Spec

/-! ## Lemmas -/

/-- Sum over a list with the number of the place. -/
noncomputable def gsum (R : FRow → ℕ → ℝ) : ℕ → List FRow → ℝ
  | _, [] => 0
  | i, r :: rs => R r i + gsum R (i + 1) rs

theorem rankRows_sum (φ : FRow → ℝ) (g : ℕ) (rs seen : List FRow)
    (h1 : ∀ r ∈ seen, r.val "ones" = 1) (h2 : ∀ r ∈ rs, r.val "ones" = 1) :
    (((rankRows seen rs).filter fun r => r.id == g).map φ).sum =
      gsum (fun r i => φ { r with val := Function.update r.val "rank" (i : ℝ) })
        ((seen.filter fun r => r.id == g).length + 1) (rs.filter fun r => r.id == g) := by
  induction rs generalizing seen with
  | nil => simp [rankRows, gsum]
  | cons r rs ih =>
    have h1' : ∀ s ∈ seen ++ [r], s.val "ones" = 1 := by
      intro s hs
      rcases List.mem_append.1 hs with hs | hs
      · exact h1 s hs
      · rw [List.mem_singleton.1 hs]; exact h2 r (by simp)
    have hi := ih (seen ++ [r]) h1' (fun s hs => h2 s (by simp [hs]))
    have hsum : ((((seen ++ [r]).filter fun s => s.id == r.id).map fun s => s.val "ones").sum : ℝ) =
        (((seen.filter fun s => s.id == r.id).length + 1 : ℕ) : ℝ) := by
      have hm : ((seen ++ [r]).filter fun s => s.id == r.id).map (fun s => s.val "ones") =
          ((seen ++ [r]).filter fun s => s.id == r.id).map fun _ => (1 : ℝ) :=
        List.map_congr_left fun s hs => h1' s (List.mem_filter.1 hs).1
      rw [hm]
      simp [List.filter_append]
    rw [rankRows]
    by_cases hg : r.id = g
    · rw [List.filter_cons_of_pos (by simp [hg]), List.filter_cons_of_pos (by simp [hg]), List.map_cons,
        List.sum_cons, gsum, hi, hsum, List.filter_append]
      simp [hg]
    · rw [List.filter_cons_of_neg (by simp [hg]), List.filter_cons_of_neg (by simp [hg]), hi, List.filter_append]
      simp [hg]

theorem gsum_congr {R R' : FRow → ℕ → ℝ} (l : List FRow) (h : ∀ r ∈ l, ∀ i, R r i = R' r i) (i : ℕ) :
    gsum R i l = gsum R' i l := by
  induction l generalizing i with
  | nil => rfl
  | cons r l ih => rw [gsum, gsum, h r (by simp), ih fun s hs => h s (by simp [hs])]

/-- The value that multiplies the discount, for a row of rank `i`. -/
noncomputable def weightOf (k : Option ℤ) (rel : String) (r : FRow) (i : ℕ) : ℝ :=
  if rel = "discount" then disc k i else if rel = "discount_mask" then mask k i
  else if rel = "rank" then i else r.val rel

theorem mask_cast (k : Option ℤ) (i : ℕ) : maskAt k (i : ℝ) = mask k i := by
  cases k with
  | none => rfl
  | some k =>
    simp only [mask, maskAt]
    have : ((i : ℝ) ≤ (k : ℝ)) ↔ ((i : ℤ) ≤ k) := by
      rw [show ((i : ℝ)) = (((i : ℤ)) : ℝ) by simp]
      exact Int.cast_le
    simp only [this]

theorem mem_withColumn {f : Frame} {n : String} {e : FRow → ℝ} {x : String} (h : x ∈ f.cols) :
    x ∈ (withColumn f n e).cols := by
  unfold withColumn
  dsimp only
  split_ifs
  · exact h
  · exact List.mem_append_left _ h

theorem names_nodup {f : Frame} (hn : f.cols.Nodup) (hr : "rank" ∉ f.cols) :
    (((withColumn f "ones" fun _ => 1).cols.filter fun n => n != "ones") ++ ["rank"]).Nodup := by
  rw [List.nodup_append]
  refine ⟨?_, by simp, ?_⟩
  · apply List.Nodup.filter
    unfold withColumn
    dsimp only
    split_ifs with h
    · exact hn
    · exact List.nodup_append.2 ⟨hn, by simp, fun a ha b hb e => h (by rw [← List.mem_singleton.1 hb, ← e]; exact ha)⟩
  · intro a ha b hb
    rw [List.mem_singleton.1 hb]
    rintro rfl
    have := (List.mem_filter.1 ha).1
    unfold withColumn at this
    dsimp only at this
    split_ifs at this
    · exact hr this
    · rcases List.mem_append.1 this with h | h
      · exact hr h
      · simp at h

theorem gsum_map {R R' : FRow → ℕ → ℝ} {h : FRow → FRow} (hR : ∀ r i, R (h r) i = R' r i) (l : List FRow) (i : ℕ) :
    gsum R i (l.map h) = gsum R' i l := by
  induction l generalizing i with
  | nil => rfl
  | cons r l ih => rw [List.map_cons, gsum, gsum, hR, ih]

theorem dcg_value (us : USort) (k : Option ℤ) (rel by_ : String) (f : Frame) (hn : f.cols.Nodup)
    (hr : "rank" ∉ f.cols) (hb : by_ ∈ f.cols) (hrel : rel ∈ f.cols) (ho : rel ≠ "ones") :
    ∃ d, dcgIgnore us k rel by_ f = .ok d ∧ ∀ g, d g = gsum (fun r i => weightOf k rel r i * disc k i) 1
      (((sortFrame us by_ f).rows).filter fun r => r.id == g) := by
  have hnd := names_nodup (f := sortFrame us by_ f) hn hr
  have hrk : rel ≠ "rank" := fun h => hr (h ▸ hrel)
  unfold dcgIgnore
  rw [if_neg (by simpa using hb)]
  unfold rankDiscount
  simp only
  rw [if_neg (by simpa using hnd)]
  simp only
  rw [if_neg ?_]
  · refine ⟨_, rfl, fun g => ?_⟩
    simp only [withColumn, List.map_map, List.filter_map]
    rw [show ∀ (l : List FRow) (p : FRow → Bool) (q : FRow → Bool) (φ : FRow → ℝ), (∀ r, p r = q r) →
        ((l.filter p).map φ).sum = ((l.filter q).map φ).sum from
      fun l p q φ h => by rw [show p = q from funext h]]
    rotate_left
    · exact fun r => r.id == g
    · intro r; rfl
    rw [rankRows_sum _ g _ [] (by simp) (by simp), List.filter_map]
    simp only [List.filter_nil, List.length_nil, zero_add]
    refine gsum_map ?_ _ 1
    intro r i
    simp only [Function.comp, Function.update_self, weightOf, if_neg hrk]
    by_cases h1 : rel = "discount"
    · subst h1
      simp [Function.update_of_ne, mask_cast, disc]
    · by_cases h2 : rel = "discount_mask"
      · subst h2
        simp [Function.update_of_ne, mask_cast, disc]
      · simp [Function.update_of_ne, h1, h2, hrk, ho, mask_cast, disc]
  · rw [not_not]
    refine mem_withColumn (mem_withColumn (List.mem_append_left _ (List.mem_filter.2 ⟨?_, by simpa using ho⟩)))
    exact mem_withColumn hrel

theorem group_sorted (us : USort) (by_ : String) (f : Frame) (g : ℕ) :
    (((sortFrame us by_ f).rows).filter fun r => r.id == g).Pairwise fun x y => y.val by_ ≤ x.val by_ := by
  have h := us.sorted (fun x y : FRow => decide (y.id < x.id ∨ (y.id = x.id ∧ y.val by_ ≤ x.val by_)))
    (by
      intro a b c hab hbc
      simp only [decide_eq_true_eq] at hab hbc ⊢
      rcases hab with h1 | ⟨h1, h2⟩ <;> rcases hbc with h3 | ⟨h3, h4⟩
      · left; omega
      · left; omega
      · left; omega
      · right; exact ⟨by omega, le_trans h4 h2⟩)
    (by
      intro a b
      simp only [Bool.or_eq_true, decide_eq_true_eq]
      rcases lt_trichotomy a.id b.id with h | h | h
      · right; left; exact h
      · rcases le_total (a.val by_) (b.val by_) with h' | h'
        · right; right; exact ⟨h, h'⟩
        · left; right; exact ⟨h.symm, h'⟩
      · left; left; exact h) f.rows
  have h' := h.filter fun r => r.id == g
  refine List.Pairwise.imp_of_mem ?_ h'
  intro a b ha hb hab
  have ea : a.id = g := by simpa using (List.mem_filter.1 ha).2
  have eb : b.id = g := by simpa using (List.mem_filter.1 hb).2
  simp only [decide_eq_true_eq] at hab
  rcases hab with h | h
  · omega
  · exact h.2

theorem group_perm (us : USort) (by_ : String) (f : Frame) (g : ℕ) :
    (((sortFrame us by_ f).rows).filter fun r => r.id == g).Perm (f.rows.filter fun r => r.id == g) :=
  (us.perm _ f.rows).filter _

theorem gsum_wsum (k : Option ℤ) (rel : String) (l : List FRow) (i : ℕ) :
    gsum (fun r i => r.val rel * disc k i) i l = Ndcg.wsum (disc k) i (l.map fun r => r.val rel) := by
  induction l generalizing i with
  | nil => rfl
  | cons r l ih => rw [gsum, List.map_cons, Ndcg.wsum, ih]

/-- Two arrangements of the same rows by decreasing, different keys are the same. -/
theorem sorted_rows {key : Row → ℝ} {l m : List Row} (hp : l.Perm m) (hl : l.Pairwise fun x y => key y ≤ key x)
    (hm : m.Pairwise fun x y => key y ≤ key x) (hd : (l.map key).Nodup) : l = m := by
  have hk : ∀ a ∈ l, ∀ b ∈ l, key a = key b → a = b := fun a ha b hb h => List.inj_on_of_nodup_map hd ha hb h
  refine List.Perm.eq_of_pairwise (le := fun x y : Row => key y ≤ key x) ?_ hl hm hp
  intro a b ha hb h1 h2
  exact hk a ha b (hp.mem_iff.2 hb) (le_antisymm h2 h1)

/-! ## The claims -/

/-- **C167.**  If no column is called "rank" and the relevance column is none of "ones", "discount" and
"discount_mask", the names do not matter: the result is that of `Verif.Ndcg.calculate` (C77), which knows only the
values (of groups, relevances and scores; no tied scores in a group). -/
theorem names_good_partial (us us' : USort) (k : Option ℤ) (rel score : String) (f : Frame) (hn : f.cols.Nodup)
    (hrel : rel ∈ f.cols) (hs : score ∈ f.cols) (hr : "rank" ∉ f.cols)
    (h1 : rel ≠ "ones") (h2 : rel ≠ "discount") (h3 : rel ≠ "discount_mask") (hd : Distinct score f.rows) :
    calculate us k rel score f =
      Ndcg.calculate us' ("example_id" :: f.cols) "example_id" k false (f.rows.map (view rel score)) := by
  have hrk : rel ≠ "rank" := fun h => hr (h ▸ hrel)
  obtain ⟨d, ed, hd1⟩ := dcg_value us k rel score f hn hr hs hrel h1
  obtain ⟨e, ee, he1⟩ := dcg_value us k rel rel f hn hr hrel hrel h1
  have hw : (fun (r : FRow) i => weightOf k rel r i * disc k i) = fun r i => r.val rel * disc k i := by
    funext r i
    simp [weightOf, h2, h3, hrk]
  simp only [hw, gsum_wsum] at hd1 he1
  have hgrp : ∀ g, Ndcg.inGroup g (f.rows.map (view rel score)) =
      (f.rows.filter fun r => r.id == g).map (view rel score) := by
    intro g
    rw [Ndcg.inGroup, List.filter_map]
    rfl
  have hg : keptGroups f.rows = Ndcg.keptGroups (f.rows.map (view rel score)) := by
    unfold keptGroups Ndcg.keptGroups
    rw [List.map_map]
    congr 1
    funext g
    rw [hgrp, List.length_map]
  have hideal : ∀ g, e g = Ndcg.dcgIgnore us' k Row.rel (f.rows.map (view rel score)) g := by
    intro g
    rw [he1]
    obtain ⟨m, hm, hms, em⟩ := Ndcg.ideal_wsum us' k (f.rows.map (view rel score)) g
    rw [em]
    congr 1
    refine Ndcg.sorted_unique ?_ ?_ hms
    · refine List.Perm.trans ?_ hm.symm
      rw [← Ndcg.group_eq, hgrp, List.map_map]
      exact (group_perm us rel f g).map _
    · rw [List.pairwise_map]
      exact group_sorted us rel f g
  have hscore : ∀ g, d g = Ndcg.dcgIgnore us' k Row.score (f.rows.map (view rel score)) g := by
    intro g
    rw [hd1]
    obtain ⟨m, hm, hms, em⟩ := Ndcg.score_wsum us' k Row.score (f.rows.map (view rel score)) g
    rw [em]
    have hmm : ((((sortFrame us score f).rows).filter fun r => r.id == g).map (view rel score)) = m := by
      refine sorted_rows (key := Row.score) ?_ ?_ hms ?_
      · refine List.Perm.trans ?_ hm.symm
        rw [← Ndcg.group_eq, hgrp]
        exact (group_perm us score f g).map _
      · rw [List.pairwise_map]
        exact group_sorted us score f g
      · rw [List.map_map]
        have := hd g
        refine ((group_perm us score f g).map _).nodup_iff.2 ?_
        exact this
    rw [← hmm, List.map_map]
    rfl
  unfold calculate Ndcg.calculate
  rw [ed, ee, if_neg (by simp), if_neg (by simp)]
  simp only [hg]
  congr 1
  split_ifs
  · rfl
  · congr 3
    refine List.map_congr_left fun g _ => ?_
    unfold Ndcg.ndcgGroup
    simp [hscore, hideal]

/-- **C167, violated.**  A frame with a column called "rank", used or not, is rejected. -/
theorem rank_rejected (us : USort) (k : Option ℤ) (rel score : String) (f : Frame) (hs : score ∈ f.cols)
    (hr : "rank" ∈ f.cols) : calculate us k rel score f = .error "DuplicateError" := by
  have : dcgIgnore us k rel score f = .error "DuplicateError" := by
    unfold dcgIgnore
    rw [if_neg (by simpa using hs)]
    unfold rankDiscount
    simp only
    rw [if_pos]
    rw [List.nodup_append]
    rintro ⟨-, -, h⟩
    refine h "rank" ?_ "rank" (by simp) rfl
    refine List.mem_filter.2 ⟨?_, by decide⟩
    have hr' : "rank" ∈ (sortFrame us score f).cols := hr
    exact mem_withColumn hr'
  unfold calculate
  rw [this]

/-- **C167.**  A score column that is not in the frame is an error. -/
theorem score_missing (us : USort) (k : Option ℤ) (rel score : String) (f : Frame) (hs : score ∉ f.cols) :
    calculate us k rel score f = .error "ColumnNotFound" := by
  have : dcgIgnore us k rel score f = .error "ColumnNotFound" := by
    unfold dcgIgnore
    rw [if_pos hs]
  unfold calculate
  rw [this]

example (us : USort) (k : Option ℤ) (rows : List FRow) :
    calculate us k "rel" "score" ⟨["rel", "other"], rows⟩ = .error "ColumnNotFound" :=
  score_missing us k "rel" "score" _ (by simp)

/-- **C167, violated.**  A relevance column called "ones" is dropped before it is used. -/
theorem ones_rejected (us : USort) (k : Option ℤ) (score : String) (f : Frame) (hn : f.cols.Nodup)
    (hs : score ∈ f.cols) (hr : "rank" ∉ f.cols) : calculate us k "ones" score f = .error "ColumnNotFound" := by
  have : dcgIgnore us k "ones" score f = .error "ColumnNotFound" := by
    have hnd := names_nodup (f := sortFrame us score f) hn hr
    unfold dcgIgnore
    rw [if_neg (by simpa using hs)]
    unfold rankDiscount
    simp only
    rw [if_neg (by simpa using hnd)]
    simp only
    rw [if_pos]
    simp only [withColumn]
    split_ifs <;> simp
  unfold calculate
  rw [this]

theorem gsum_length {R : ℕ → ℝ} {l m : List FRow} (h : l.length = m.length) (i : ℕ) :
    gsum (fun _ j => R j) i l = gsum (fun _ j => R j) i m := by
  induction l generalizing i m with
  | nil => rw [List.length_eq_zero_iff.1 h.symm]
  | cons r l ih =>
    cases m with
    | nil => simp at h
    | cons s m => rw [gsum, gsum, ih (by simpa using h)]

theorem gsum_nonneg {R : ℕ → ℝ} (hR : ∀ j, 0 ≤ R j) (l : List FRow) (i : ℕ) : 0 ≤ gsum (fun _ j => R j) i l := by
  induction l generalizing i with
  | nil => exact le_rfl
  | cons r l ih => exact add_nonneg (hR i) (ih _)

/-- **C167, violated.**  A relevance column called "discount" or "discount_mask" is overwritten before it is used:
with any cut-off that keeps the first rank every ranking is reported as perfect, whatever relevances and scores. -/
theorem discount_always_one (us : USort) (k : Option ℤ) (hk : ∀ c, k = some c → 0 ≤ c) (rel score : String)
    (h : rel = "discount" ∨ rel = "discount_mask") (f : Frame) (hn : f.cols.Nodup) (hrel : rel ∈ f.cols)
    (hs : score ∈ f.cols) (hr : "rank" ∉ f.cols) (hg : HasGroup f.rows) :
    calculate us k rel score f = .ok (some 1) := by
  have ho : rel ≠ "ones" := by rcases h with h | h <;> rw [h] <;> decide
  obtain ⟨d, ed, hd1⟩ := dcg_value us k rel score f hn hr hs hrel ho
  obtain ⟨e, ee, he1⟩ := dcg_value us k rel rel f hn hr hrel hrel ho
  have hm : 0 < mask k 1 := by
    cases k with
    | none => simp [mask]
    | some c =>
      have := hk c rfl
      simp only [mask]
      split_ifs with h1 h2
      · norm_num
      · norm_num
      · exfalso; apply h2; push_cast; omega
  have hd0 : 0 < disc k 1 := by
    unfold disc
    refine mul_pos ?_ hm
    norm_num
  obtain ⟨W, hW, hW0, hW1⟩ : ∃ W : ℕ → ℝ,
      (fun (r : FRow) i => weightOf k rel r i * disc k i) = (fun _ i => W i) ∧ (∀ i, 0 ≤ W i) ∧ 0 < W 1 := by
    rcases h with h | h
    · refine ⟨fun i => disc k i * disc k i, ?_, fun i => mul_self_nonneg _, mul_pos hd0 hd0⟩
      funext r i
      simp [weightOf, h]
    · refine ⟨fun i => mask k i * disc k i, ?_,
        fun i => mul_nonneg (Ndcg.mask_nonneg k i) (Ndcg.disc_nonneg k i), mul_pos hm hd0⟩
      funext r i
      simp [weightOf, h]
  rw [hW] at hd1 he1
  have hde : ∀ g, d g = e g := fun g => by
    rw [hd1, he1]
    exact gsum_length ((group_perm us score f g).length_eq.trans (group_perm us rel f g).length_eq.symm) 1
  have hpos : ∀ g ∈ keptGroups f.rows, e g ≠ 0 := by
    intro g hg
    obtain ⟨r, hr1, hr2⟩ := List.mem_map.1 (List.mem_dedup.1 (List.mem_filter.1 hg).1)
    have hne : ((sortFrame us rel f).rows.filter fun r => r.id == g) ≠ [] :=
      List.ne_nil_of_mem ((group_perm us rel f g).mem_iff.2 (List.mem_filter.2 ⟨hr1, by simp [hr2]⟩))
    rw [he1]
    cases hc : (sortFrame us rel f).rows.filter fun r => r.id == g with
    | nil => exact absurd hc hne
    | cons x l =>
      rw [gsum]
      have := gsum_nonneg hW0 l (1 + 1)
      exact (add_pos_of_pos_of_nonneg hW1 this).ne'
  have hne : keptGroups f.rows ≠ [] := by
    obtain ⟨r, hr1, hr2⟩ := hg
    refine List.ne_nil_of_mem (a := r.id) (List.mem_filter.2 ⟨List.mem_dedup.2 (List.mem_map_of_mem hr1), ?_⟩)
    rw [List.countP_eq_length_filter] at hr2
    simp only [bne_iff_ne, ne_eq]
    have e : (f.rows.filter fun x => x.id == r.id) = f.rows.filter fun x => decide (x.id = r.id) :=
      List.filter_congr fun x _ => rfl
    rw [e]
    omega
  unfold calculate
  rw [ed, ee]
  simp only [if_neg hne]
  congr 2
  have hmap : (keptGroups f.rows).map (fun g => if e g = 0 then 0 else d g / e g) =
      (keptGroups f.rows).map fun _ => (1 : ℝ) :=
    List.map_congr_left fun g hg => by rw [if_neg (hpos g hg), hde, div_self (hpos g hg)]
  rw [hmap]
  have hl : ((keptGroups f.rows).length : ℝ) ≠ 0 := by
    exact_mod_cast (List.length_pos_of_ne_nil hne).ne'
  simp [hl]

/-- Two documents, the relevant one ranked last; the columns are called as the arguments say. -/
def exRows (rel : String) : List FRow :=
  [⟨1, fun n => if n = rel then 0 else 2⟩, ⟨1, fun n => if n = rel then 1 else 1⟩]

example : Distinct "score" (exRows "gain") := by
  intro g
  by_cases h : 1 = g <;> simp [exRows, h]

example : HasGroup (exRows "discount") := ⟨_, List.mem_cons_self, by simp [exRows]⟩

/-- **C167, violated.**  The same two rows, the relevant document ranked last: the value depends on what the column is
called. -/
theorem name_changes_result (us : USort) :
    calculate us none "discount" "score" ⟨["discount", "score"], exRows "discount"⟩ = .ok (some 1) ∧
    (∃ v < 1, calculate us none "gain" "score" ⟨["gain", "score"], exRows "gain"⟩ = .ok (some v)) ∧
    calculate us none "rank" "score" ⟨["rank", "score"], exRows "rank"⟩ = .error "DuplicateError" ∧
    calculate us none "ones" "score" ⟨["ones", "score"], exRows "ones"⟩ = .error "ColumnNotFound" := by
  refine ⟨discount_always_one us none (by simp) _ _ (Or.inl rfl) _ (by decide) (by decide) (by decide) (by decide)
    ⟨_, List.mem_cons_self, by simp [exRows]⟩, ?_, rank_rejected us none _ _ _ (by decide) (by decide),
    ones_rejected us none _ _ (by decide) (by decide) (by decide)⟩
  rw [names_good_partial us Ndcg.stableSort none "gain" "score" _ (by decide) (by decide) (by decide) (by decide)
    (by decide) (by decide) (by decide) (by intro g; by_cases h : 1 = g <;> simp [exRows, h])]
  have hlog : 1 < Real.logb 2 3 := by
    rw [Real.lt_logb_iff_rpow_lt (by norm_num) (by norm_num)]; norm_num
  have h2 : (1 : ℝ) + 1 = 2 := by norm_num
  have h3 : (2 : ℝ) + 1 = 3 := by norm_num
  have hv : (exRows "gain").map (view "gain" "score") = [⟨1, 0, 2⟩, ⟨1, 1, 1⟩] := by
    simp [exRows, view]
  have e1 : Ndcg.inGroup 1 (Ndcg.sortDesc Ndcg.stableSort Row.score [⟨1, 0, 2⟩, ⟨1, 1, 1⟩]) =
      [⟨1, 0, 2⟩, ⟨1, 1, 1⟩] := by
    simp [Ndcg.sortDesc, Ndcg.stableSort, Ndcg.inGroup, List.mergeSort, List.MergeSort.Internal.splitInTwo]
  have i1 : Ndcg.dcgIgnore Ndcg.stableSort none Row.rel [⟨1, 0, 2⟩, ⟨1, 1, 1⟩] 1 = 1 := by
    obtain ⟨mi, hmi, hsi, ei⟩ := Ndcg.ideal_wsum Ndcg.stableSort none [⟨1, 0, 2⟩, ⟨1, 1, 1⟩] 1
    have : mi = [1, 0] := Ndcg.sorted_unique (hmi.trans (by simpa [Ndcg.Spec.group] using List.Perm.swap _ _ _))
      hsi (by simp)
    rw [ei, this]; simp [Ndcg.wsum, disc, mask, h2]
  refine ⟨1 / Real.logb 2 3, by rw [div_lt_one (by linarith)]; exact hlog, ?_⟩
  have hk : Ndcg.keptGroups [⟨1, 0, 2⟩, ⟨1, 1, 1⟩] = [1] := by
    simp [Ndcg.keptGroups, Ndcg.inGroup]
  simp only [hv]
  unfold Ndcg.calculate
  rw [if_neg (by simp), if_neg (by simp)]
  simp only [hk]
  simp only [Ndcg.ndcgGroup, Bool.false_eq_true, if_false, i1, List.map_cons, List.map_nil]
  rw [Ndcg.dcgIgnore, e1]
  simp [Ndcg.dcgFrom, disc, mask, h3]

end Verif.NdcgNames
