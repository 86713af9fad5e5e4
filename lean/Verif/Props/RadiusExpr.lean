import Verif.Model.RadiusExpr
import Verif.Props.Dispatch
import Mathlib.Algebra.BigOperators.Group.List.Lemmas

/-!
# C118: `query_radius_ptwise`, `query_radius_freq_cnt`, `query_knn_freq_cnt`
-/
set_option linter.unusedSectionVars false

namespace Verif.KDT
open Verif FloatOps

section general
variable {K : Type} [Field K] [LinearOrder K] [IsStrictOrderedRing K] [LawfulFloat K]

namespace Spec

/-- Rows with their ids. -/
def labelled (ids : List Nat) (rows : List (List K)) : List (Leaf K Nat) := (ids.zip rows).map fun p => ⟨p.1, p.2⟩

/-- Number of rows other than row `i` that have `x` in their ball. -/
def others (d : KDT.Dist K) (rows : List (List K)) (i : Nat) (x : List K) (r : K) : Nat :=
  (rows.eraseIdx i).countP fun q => decide (d.dist x q ≤ r)

end Spec

/-! ## Lemmas -/

theorem fromLeaves_within {A : Type} (us : USort) {d : KDT.Dist K} (hd : d.prunable) (m : SplitMethod)
    (dim : Nat) (hdim : 0 < dim) (ps : List (Leaf K A)) (hne : ps ≠ []) (hps : ∀ p ∈ ps, p.row.length = dim) :
    ∃ cfg t, fromLeaves us d m ps = some (cfg, t) ∧ ∀ (q : List K) (r : K) (sort : Bool), 0 + eps < r →
      ∃ res, within us cfg t q r sort = some (some res) ∧ res.Perm (Spec.ball d q r ps) ∧
        (sort = true → res.Pairwise fun a b => a.dist ≤ b.dist) := by
  obtain ⟨t, h1, h2, h3⟩ := fromLeaves_spec us d m dim hdim ps hne hps
  refine ⟨_, t, h1, fun q r sort hr => ?_⟩
  obtain ⟨res, r1, r2⟩ := withinLoop_spec (d := d) hd q r dim t.size [(minVal, t)] []
    (by simp [stackSize]) (by intro e he; rw [List.mem_singleton.1 he]; exact .root hd h2)
  have r3 : res.Perm (Spec.ball d q r ps) := by
    refine r2.trans ?_
    simpa [stackPts] using Spec.ball_perm d q r h3
  unfold within
  rw [if_neg (not_le.mpr hr), r1]
  cases sort with
  | false => exact ⟨res, rfl, r3, by simp⟩
  | true =>
    refine ⟨us.run (fun a b => decide (a.dist ≤ b.dist)) res, rfl, (us.perm _ _).trans r3, fun _ => ?_⟩
    have := us.sorted (fun a b : NB K A => decide (a.dist ≤ b.dist)) (by
      intro a b c; simpa using le_trans) (by intro a b; simpa using le_total _ _) res
    simpa using this

theorem valueCounts_mem (us : USort) (l : List Nat) (a c : Nat) :
    (a, c) ∈ valueCounts us l ↔ c = l.count a ∧ 0 < c := by
  rw [valueCounts, (us.perm _ _).mem_iff]
  simp only [List.mem_map, List.mem_dedup, Prod.mk.injEq]
  constructor
  · rintro ⟨b, hb, rfl, rfl⟩
    exact ⟨rfl, List.count_pos_iff.mpr hb⟩
  · rintro ⟨rfl, hc⟩
    exact ⟨a, List.count_pos_iff.mp hc, rfl, rfl⟩

theorem valueCounts_sorted (us : USort) (l : List Nat) : (valueCounts us l).Pairwise fun a b => b.2 ≤ a.2 := by
  have := us.sorted (fun a b : Nat × Nat => decide (b.2 ≤ a.2)) (by
    intro a b c h1 h2; simp only [decide_eq_true_eq] at *; omega) (by
    intro a b; simpa using le_total _ _) (l.dedup.map fun a => (a, l.count a))
  simpa [valueCounts] using this

theorem valueCounts_nodup (us : USort) (l : List Nat) : ((valueCounts us l).map (·.1)).Nodup := by
  have h : ((valueCounts us l).map (·.1)).Perm ((l.dedup.map fun a => (a, l.count a)).map (·.1)) := (us.perm _ _).map _
  rw [h.nodup_iff, List.map_map]
  exact (List.map_id l.dedup).symm ▸ List.nodup_dedup l

theorem count_filter_fst {α : Type} (ps : List (Nat × α)) (hnd : (ps.map (·.1)).Nodup) (P : Nat × α → Bool) {a : Nat} {x : α}
    (hm : (a, x) ∈ ps) : ((ps.filter P).map (·.1)).count a = if P (a, x) then 1 else 0 := by
  have hnd' : ((ps.filter P).map (·.1)).Nodup := hnd.sublist (List.filter_sublist.map _)
  rw [hnd'.count]
  have : a ∈ (ps.filter P).map (·.1) ↔ P (a, x) = true := by
    constructor
    · intro h
      obtain ⟨⟨b, y⟩, hb, rfl⟩ := List.mem_map.mp h
      obtain ⟨hb1, hb2⟩ := List.mem_filter.mp hb
      have := List.inj_on_of_nodup_map hnd hb1 hm rfl
      rwa [this] at hb2
    · intro h
      exact List.mem_map.mpr ⟨(a, x), List.mem_filter.mpr ⟨hm, h⟩, rfl⟩
  simp only [this]

theorem ball_items (d : KDT.Dist K) (q : List K) (r : K) (ids : List Nat) (rows : List (List K)) :
    (Spec.ball d q r (Spec.labelled ids rows)).map (·.item) =
      ((ids.zip rows).filter fun p => decide (d.dist p.2 q ≤ r)).map (·.1) := by
  unfold Spec.ball Spec.all Spec.labelled
  generalize ids.zip rows = ps
  induction ps with
  | nil => rfl
  | cons p ps ih =>
    simp only [List.map_cons, List.filter_cons]
    split <;> simp_all

/-! ## Properties -/

/-- **C118a.** On frames without nulls every row gets the ids of exactly the rows within the radius, by distance if `sort`. -/
theorem radius_ptwise_exact (us : USort) (cosine hav : List K → List K → K) (ncols : Nat) (hn : 0 < ncols)
    (ids : List Nat) (rows : List (List K)) (hne : rows ≠ []) (hids : ids.length = rows.length)
    (hrows : ∀ r ∈ rows, r.length = ncols) (metric : String) (hm : metric ∈ Spec.metricNames) {r : K} (hr : 0 + eps < r)
    (sort : Bool) :
    ∃ (d : KDT.Dist K) (col : List (Option (List Nat))), Dist.ofString cosine hav metric ncols = .ok d ∧
      queryRadiusPtwise us cosine hav ncols ids rows r sort metric = .ok col ∧ col.length = rows.length ∧
      ∀ (i : Nat) (q : List K), rows[i]? = some q →
        ∃ nbs : List (NB K Nat), nbs.Perm (Spec.ball d q r (Spec.labelled ids rows)) ∧
          (sort = true → nbs.Pairwise fun a b => a.dist ≤ b.dist) ∧ col[i]? = some (some (nbs.map (·.item))) := by
  obtain ⟨d, hd1, hd2⟩ := ofString_prunable cosine hav hm ncols
  have hpl : (ids.zip rows).map (fun p => (⟨p.1, p.2⟩ : Leaf K Nat)) ≠ [] := by
    cases rows with
    | nil => exact absurd rfl hne
    | cons a rows => cases ids <;> simp_all
  obtain ⟨cfg, t, ht, hq⟩ := fromLeaves_within us hd2 .midpoint ncols hn _ hpl (by
    intro p hp
    obtain ⟨x, hx, rfl⟩ := List.mem_map.1 hp
    exact hrows x.2 (List.of_mem_zip (a := x.1) (b := x.2) hx).2)
  have hr0 : ¬ r ≤ 0 := by
    have := LawfulFloat.le_add (0 : K) eps LawfulFloat.eps_nonneg
    exact not_le.mpr (lt_of_le_of_lt this hr)
  have hmet : ¬ (metric = "cosine" ∨ metric = "h" ∨ metric = "haversine") := by
    simp only [Spec.metricNames, List.mem_cons, List.not_mem_nil, or_false] at hm
    rcases hm with rfl | rfl | rfl | rfl | rfl <;> decide
  refine ⟨d, rows.map fun q => ((within us cfg t q r sort).bind id).map fun nbs => nbs.map (·.item), hd1, ?_, by simp, ?_⟩
  · simp only [queryRadiusPtwise, if_neg hr0, if_neg hmet, plRadiusPtwise, hd1, ht]
  · intro i q hi
    obtain ⟨res, h1, h2, h3⟩ := hq q r sort hr
    exact ⟨res, h2, h3, by simp [hi, h1]⟩

/-- Radii not above zero, and the metrics the tree cannot prune with, are refused. -/
theorem radius_ptwise_rejects (us : USort) (cosine hav : List K → List K → K) (ncols : Nat) (ids : List Nat)
    (rows : List (List K)) (r : K) (sort : Bool) (metric : String)
    (h : r ≤ 0 ∨ metric ∈ ["cosine", "h", "haversine"]) :
    ∃ e, queryRadiusPtwise us cosine hav ncols ids rows r sort metric = .err e := by
  unfold queryRadiusPtwise
  split
  · exact ⟨_, rfl⟩
  · rename_i h1
    have h2 : metric = "cosine" ∨ metric = "h" ∨ metric = "haversine" := by simpa [h1] using h
    rw [if_pos h2]
    exact ⟨_, rfl⟩

/-- **C118b** (and disagreement).  With distinct ids the count of a row is one more than the number of *other* rows that have it
within the radius: the row itself is counted. -/
theorem radius_freq_cnt_plus_one (us : USort) (cosine hav : List K → List K → K) (ncols : Nat) (hn : 0 < ncols)
    (ids : List Nat) (hnd : ids.Nodup) (rows : List (List K)) (hne : rows ≠ []) (hids : ids.length = rows.length)
    (hrows : ∀ r ∈ rows, r.length = ncols) (metric : String) (hm : metric ∈ Spec.metricNames) {r : K} (hr : 0 + eps < r) :
    ∃ (d : KDT.Dist K) (res : List (Nat × Nat)), Dist.ofString cosine hav metric ncols = .ok d ∧
      queryRadiusFreqCnt us cosine hav ncols ids rows r metric = .ok res ∧
      (res.Pairwise fun a b => b.2 ≤ a.2) ∧ (res.map (·.1)).Nodup ∧
      ∀ (i a : Nat) (x : List K), ids[i]? = some a → rows[i]? = some x → d.dist x x = 0 →
        ∀ c, (a, c) ∈ res ↔ c = Spec.others d rows i x r + 1 := by
  obtain ⟨d, col, hd, hcol, hlen, hspec⟩ :=
    radius_ptwise_exact us cosine hav ncols hn ids rows hne hids hrows metric hm hr false
  refine ⟨d, freqCnt us col, hd, by simp only [queryRadiusFreqCnt, hcol], valueCounts_sorted _ _, valueCounts_nodup _ _, ?_⟩
  intro i a x ha hx hself c
  have hmem : (a, x) ∈ ids.zip rows := by
    have : (ids.zip rows)[i]? = some (a, x) := List.getElem?_zip_eq_some.mpr ⟨ha, hx⟩
    exact List.mem_of_getElem? this
  have hndz : ((ids.zip rows).map (·.1)).Nodup := by
    rw [List.map_fst_zip (by omega)]; exact hnd
  have hcount : (col.filterMap id).flatten.count a = rows.countP fun q => decide (d.dist x q ≤ r) := by
    have h1 : ∀ (l : List (Option (List Nat))) (qs : List (List K)), l.length = qs.length →
        (∀ (j : Nat) (q : List K), qs[j]? = some q → ∃ nbs : List (NB K Nat),
          nbs.Perm (Spec.ball d q r (Spec.labelled ids rows)) ∧ l[j]? = some (some (nbs.map (·.item)))) →
        (l.filterMap id).flatten.count a = qs.countP fun q => decide (d.dist x q ≤ r) := by
      intro l
      induction l with
      | nil => intro qs hq _; cases qs <;> simp_all
      | cons o l ih =>
        intro qs hq hs
        cases qs with
        | nil => simp at hq
        | cons q qs =>
          obtain ⟨nbs, h1, h2⟩ := hs 0 q rfl
          have h2' : o = some (nbs.map (·.item)) := by simpa using h2
          have h3 := ih qs (by simpa using hq) fun j q' hj => by
            obtain ⟨nbs', e1, e2⟩ := hs (j + 1) q' (by simpa using hj)
            exact ⟨nbs', e1, by simpa using e2⟩
          have h4 : (nbs.map (·.item)).count a = if decide (d.dist x q ≤ r) then 1 else 0 := by
            rw [(h1.map (·.item)).count_eq, ball_items, count_filter_fst _ hndz _ hmem]
          subst h2'
          rw [List.filterMap_cons_some (f := id) (b := nbs.map (·.item)) rfl, List.flatten_cons, List.count_append, h3, h4,
            List.countP_cons, add_comm]
    exact h1 col rows hlen fun j q hj => by
      obtain ⟨nbs, e1, -, e2⟩ := hspec j q hj
      exact ⟨nbs, e1, e2⟩
  have hi : i < rows.length := by
    by_contra hcon
    rw [List.getElem?_eq_none (by omega)] at hx
    cases hx
  have hsplit : rows.countP (fun q => decide (d.dist x q ≤ r)) = Spec.others d rows i x r + 1 := by
    have hp := (List.getElem_cons_eraseIdx_perm (l := rows) hi).symm
    rw [hp.countP_eq, List.countP_cons, Spec.others]
    have hxe : rows[i] = x := by
      rw [List.getElem?_eq_getElem hi] at hx
      exact Option.some.inj hx
    have : d.dist x rows[i] ≤ r := by
      rw [hxe, hself]
      exact le_of_lt (lt_of_le_of_lt (LawfulFloat.le_add (0 : K) eps LawfulFloat.eps_nonneg) hr)
    simp [this]
  rw [freqCnt, valueCounts_mem, hcount, hsplit]
  constructor
  · exact fun h => h.1
  · rintro rfl
    exact ⟨rfl, by omega⟩

/-- **C118c.** `query_knn_freq_cnt`: an id appears with the number of lists entries it has, over all rows, the list of its own
row included; ids in no list do not appear. -/
theorem knn_freq_cnt_counts (us : USort) (col : List (Option (List (NB K Nat)))) :
    ((queryKnnFreqCnt us col).Pairwise fun a b => b.2 ≤ a.2) ∧ ((queryKnnFreqCnt us col).map (·.1)).Nodup ∧
    ∀ a c, (a, c) ∈ queryKnnFreqCnt us col ↔
      c = ((col.filterMap id).map fun nbs => (nbs.map (·.item)).count a).sum ∧ 0 < c := by
  refine ⟨valueCounts_sorted _ _, valueCounts_nodup _ _, fun a c => ?_⟩
  rw [queryKnnFreqCnt, freqCnt, valueCounts_mem]
  have : ((col.map fun l => l.map fun nbs => nbs.map (·.item)).filterMap id).flatten.count a =
      ((col.filterMap id).map fun nbs => (nbs.map (·.item)).count a).sum := by
    induction col with
    | nil => rfl
    | cons o col ih =>
      cases o with
      | none => simpa using ih
      | some nbs => simpa [List.count_append] using ih
  rw [this]

/-! ## Nulls -/

theorem fullRow_complete (q : List K) : fullRow (q.map some) = some q := by
  unfold fullRow
  induction q with
  | nil => rfl
  | cons a q ih => simp only [List.map_cons, List.mapM_cons, ih]; rfl

theorem fullRow_null {q : List (Option K)} (h : none ∈ q) : fullRow q = none := by
  unfold fullRow
  induction q with
  | nil => simp at h
  | cons a q ih =>
    cases a with
    | none => simp [List.mapM_cons]
    | some a =>
      have h' : none ∈ q := by simpa using h
      simp [List.mapM_cons, ih h']

theorem scanNaN_mem (d : KDT.Dist K) (leaves : List (Nat × List (Option K))) (q : List K) (r : K) (nb : NB K Nat) :
    nb ∈ scanNaN d leaves q r ↔ ∃ p ∈ leaves, d.distNaN p.2 q = some nb.dist ∧ nb.dist ≤ r ∧ nb.item = p.1 := by
  simp only [scanNaN, List.mem_filterMap, Option.bind_eq_some_iff]
  constructor
  · rintro ⟨p, hp, x, hx, h⟩
    split at h
    · rename_i hle
      simp only [Option.some.injEq] at h
      subst h
      exact ⟨p, hp, hx, hle, rfl⟩
    · cases h
  · rintro ⟨p, hp, h1, h2, h3⟩
    refine ⟨p, hp, nb.dist, h1, ?_⟩
    rw [if_pos h2, ← h3]

/-- **C118d** (frames of one leaf).  For every metric but `inf` a row with a null gets null and is in nobody's list. -/
theorem radius_null_never (us : USort) {d : KDT.Dist K} (hd : d ≠ .linf) (ids : List Nat) (hnd : ids.Nodup)
    (rows : List (List (Option K))) (hids : ids.length = rows.length) (r : K) (sort : Bool) (i a : Nat) (row : List (Option K))
    (ha : ids[i]? = some a) (hrow : rows[i]? = some row) (hnull : none ∈ row) :
    (radiusSmall us d ids rows r sort)[i]? = some none ∧
    ∀ nbs, some nbs ∈ radiusSmall us d ids rows r sort → ∀ nb ∈ nbs, nb.item ≠ a := by
  constructor
  · simp [radiusSmall, hrow, fullRow_null hnull]
  · intro nbs hnbs nb hnb hitem
    simp only [radiusSmall, List.mem_map] at hnbs
    obtain ⟨row', -, h⟩ := hnbs
    rw [Option.bind_eq_some_iff] at h
    obtain ⟨q, -, h⟩ := h
    split at h
    · cases h
    · simp only [Option.some.injEq] at h
      have hmem : nb ∈ scanNaN d (ids.zip rows) q r := by
        subst h
        split at hnb
        · exact (us.perm _ _).mem_iff.mp hnb
        · exact hnb
      obtain ⟨p, hp, h1, -, h3⟩ := (scanNaN_mem _ _ _ _ _).mp hmem
      have hmz : (a, row) ∈ ids.zip rows := List.mem_of_getElem? (i := i) (List.getElem?_zip_eq_some.mpr ⟨ha, hrow⟩)
      have hndz : ((ids.zip rows).map (·.1)).Nodup := by
        rw [List.map_fst_zip (by omega)]; exact hnd
      have : p = (a, row) := List.inj_on_of_nodup_map hndz hp hmz (by rw [← h3, hitem])
      subst this
      have : d.distNaN row q = none := by
        cases d <;> simp_all [Dist.distNaN, fullRow_null]
      simp [this] at h1

theorem distNaN_complete (d : KDT.Dist K) (x q : List K) : d.distNaN (x.map some) q = some (d.dist x q) := by
  cases d with
  | linf =>
    simp only [Dist.distNaN, Dist.dist, distFold, Option.some.injEq]
    generalize (0 : K) = z
    induction x generalizing q z with
    | nil => rfl
    | cons a x ih =>
      cases q with
      | nil => rfl
      | cons b q =>
        simp only [List.map_cons, List.zip_cons_cons, List.foldl_cons, Option.elim_some]
        exact ih q _
  | _ => simp only [Dist.distNaN, fullRow_complete, Option.map_some]

/-- On complete rows the scan is the ball, as the tree is. -/
theorem radiusSmall_complete (us : USort) (d : KDT.Dist K) (ids : List Nat) (rows : List (List K)) {r : K} (hr : 0 + eps < r)
    (i : Nat) (q : List K) (hq : rows[i]? = some q) :
    (radiusSmall us d ids (rows.map (·.map some)) r false)[i]? = some (some (Spec.ball d q r (Spec.labelled ids rows))) := by
  have hd := fun x => distNaN_complete d x q
  simp only [radiusSmall, List.getElem?_map, hq, Option.map_some, fullRow_complete, Option.bind_some, if_neg (not_le.mpr hr),
    Bool.false_eq_true, if_false, Option.some.injEq]
  unfold scanNaN Spec.ball Spec.all Spec.labelled
  rw [List.zip_map_right]
  generalize ids.zip rows = ps
  induction ps with
  | nil => rfl
  | cons p ps ih =>
    simp only [List.map_cons, List.filterMap_cons, Prod.map, id, hd, Option.bind_some, List.filter_cons]
    by_cases h : d.dist p.2 q ≤ r
    · simp only [if_pos h, h, decide_true, if_true]; exact congrArg _ ih
    · simp only [if_neg h, h, decide_false, Bool.false_eq_true, if_false]; exact ih

end general

/-! ## Witnesses and examples -/

section concrete

private def noMetric : List ℚ → List ℚ → ℚ := fun _ _ => 0

/-- **C118, disagreement.** With `dist="inf"` a row with a null is the neighbor of others: the missing coordinate is skipped.
Row 1 has no value in the first column, yet it is in the lists of rows 0 and 2 (whose first values are 100 apart). -/
theorem radius_inf_null_neighbor :
    (radiusSmall insertionUSort (.linf : KDT.Dist ℚ) [0, 1, 2] [[some 0, some 0], [none, some 0], [some 100, some 0]] 1 false).map
      (fun l => l.map fun nbs => nbs.map (·.item)) = [some [0, 1], none, some [1, 2]] ∧
    (radiusSmall insertionUSort (.l1 : KDT.Dist ℚ) [0, 1, 2] [[some 0, some 0], [none, some 0], [some 100, some 0]] 1 false).map
      (fun l => l.map fun nbs => nbs.map (·.item)) = [some [0], none, some [2]] := by
  decide +kernel

example : queryRadiusPtwise insertionUSort noMetric noMetric 1 [7, 8, 9] [[0], [2], [3]] 2 true "l1" =
    .ok [some [7, 8], some [8, 9, 7], some [9, 8]] := by decide +kernel

/-- Row 9 lies within the radius of one other row; its count is 2. -/
example : queryRadiusFreqCnt insertionUSort noMetric noMetric 1 [7, 8, 9] [[0], [2], [3]] 2 "l1" =
    .ok [(8, 3), (7, 2), (9, 2)] := by decide +kernel

example : Spec.others (.l1 : KDT.Dist ℚ) [[0], [2], [3]] 2 [3] 2 = 1 := by decide +kernel

/-- Isolated points: nobody else's neighbor, count 1. -/
theorem radius_freq_self :
    queryRadiusFreqCnt insertionUSort noMetric noMetric 1 [7, 8] [[0], [50]] 2 "l1" = .ok [(7, 1), (8, 1)] := by
  decide +kernel

/-- `query_knn_freq_cnt` with `k = 1`: row 2 is the nearest neighbor of no other row, but its count is 1. -/
theorem knn_freq_self :
    queryKnnFreqCnt insertionUSort ([some [⟨0, 0⟩, ⟨1, 1⟩], some [⟨0, 1⟩, ⟨1, 0⟩], some [⟨0, 2⟩, ⟨9, 1⟩]] :
      List (Option (List (NB ℚ Nat)))) = [(1, 3), (0, 2), (2, 1)] := by
  decide +kernel

end concrete

end Verif.KDT
