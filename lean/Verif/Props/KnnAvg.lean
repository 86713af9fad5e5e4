import Verif.Lemmas.KnnAvg

/-!
# Properties C09 and C52: neighbor expressions from frame to column
-/
set_option linter.unusedSectionVars false

namespace Verif.KDT
open Verif FloatOps
variable {K : Type} [Field K] [LinearOrder K] [IsStrictOrderedRing K] [LawfulFloat K]

theorem knnAggregate_spec (weighted : Bool) (minB : K) (nn : List (NB K K)) (hne : nn ≠ []) :
    knnAggregate (KNNMethod.new weighted minB) nn =
      some ((nn.map fun nb => Spec.weight weighted minB nb.dist * nb.item).sum /
        (nn.map fun nb => Spec.weight weighted minB nb.dist).sum) := by
  have he : nn.isEmpty = false := by simpa using hne
  unfold KNNMethod.new
  cases weighted with
  | false =>
    simp only [Bool.false_eq_true, if_false, knnAggregate, he, foldl_item, zero_add, Spec.weight, one_mul]
    simp
  | true =>
    simp only [if_true, Spec.weight]
    split
    · have := foldl_weighted (fun d : K => (1 + d)⁻¹) nn 0
      simp only [knnAggregate, weightedAvg, he, Bool.false_eq_true, if_false, zero_add,
        one_div] at this ⊢
      rw [this]
    · simp only [knnAggregate, weightedAvg, he, Bool.false_eq_true, if_false, foldl_weighted, zero_add,
        one_div]

/-- **C09.** `query_knn_avg` on any frame whose rows have `ncols > 0` features (nulls allowed), at least one
of them complete, `k ≥ 1` and a usable upper bound: the column has one entry per row.  An incomplete row gets
null.  For a complete row there is an exact answer `nbs` to "the `k+1` nearest complete rows within
`max_bound`" such that the entry is null iff none of them is at distance `≥ min_bound`, and otherwise is the
weighted mean of the targets of those, and lies between every lower and upper bound of these targets. -/
theorem knn_avg_convex (us : USort) (cosine hav : List K → List K → K) (ncols : Nat) (hn : 0 < ncols)
    (target : List K) (rows : List (List (Option K))) (hl : target.length = rows.length)
    (hrows : ∀ r ∈ rows, r.length = ncols) (k : Nat) (hk : 1 ≤ k) (weighted : Bool) (minB maxB : K)
    (hmax : eps < maxB) (metric : String) (hm : metric ∈ Spec.metricNames)
    (hc : ∃ r ∈ rows, none ∉ r) :
    ∃ d col, Dist.ofString cosine hav metric ncols = .ok d ∧
      knnAvg us cosine hav ncols target rows k weighted minB maxB metric = .ok col ∧
      col.length = rows.length ∧
      ∀ (i : Nat) (r : List (Option K)), rows[i]? = some r →
        (none ∈ r → col[i]? = some none) ∧
        (none ∉ r → ∃ nbs, Spec.Nearest (k + 1) maxB nbs
            (Spec.all d (r.filterMap id)
              (Spec.candidates target (List.replicate rows.length true) rows)) ∧
          let used := nbs.filter fun nb => decide (minB ≤ nb.dist)
          (used = [] → col[i]? = some none) ∧
          (used ≠ [] → ∃ v, col[i]? = some (some v) ∧
            v = (used.map fun nb => Spec.weight weighted minB nb.dist * nb.item).sum /
              (used.map fun nb => Spec.weight weighted minB nb.dist).sum ∧
            (∀ lo, (∀ nb ∈ used, lo ≤ nb.item) → lo ≤ v) ∧
            (∀ hi, (∀ nb ∈ used, nb.item ≤ hi) → v ≤ hi))) := by
  have hall : ∀ r : List (Option K), none ∉ r ↔ r.all Option.isSome = true := by
    intro r
    rw [List.all_eq_true]
    constructor
    · intro h x hx
      cases x with
      | none => exact absurd hx h
      | some x => rfl
    · intro h hx
      simpa using h none hx
  obtain ⟨d, hd1, hd2⟩ := ofString_prunable cosine hav hm ncols
  have hleaves : filteredLeaves target (keepMask none rows) rows =
      Spec.candidates target (List.replicate rows.length true) rows :=
    filteredLeaves_eq target (keepMask none rows) _ rows (keepMask_spec none rows)
  have hne : Spec.candidates target (List.replicate rows.length true) rows ≠ [] := by
    obtain ⟨r, hr, hr2⟩ := hc
    obtain ⟨i, hi, rfl⟩ := List.getElem_of_mem hr
    intro h
    have : (⟨target[i]'(by omega), rows[i].filterMap id⟩ : Leaf K K) ∈
        Spec.candidates target (List.replicate rows.length true) rows := by
      refine List.mem_map.2 ⟨(target[i]'(by omega), true, rows[i]), List.mem_filter.2 ⟨?_, ?_⟩, rfl⟩
      · rw [List.mem_iff_getElem]
        refine ⟨i, by simp; omega, by simp⟩
      · simpa using (hall _).1 hr2
    rw [h] at this
    simp at this
  obtain ⟨cfg, t, ht, hq⟩ := fromLeaves_knn us hd2 .midpoint ncols hn _ hne (candidates_row hrows)
  refine ⟨d, rows.map (knnAvgRow cfg t k minB maxB (KNNMethod.new weighted minB)), hd1, ?_, by simp, ?_⟩
  · unfold knnAvg
    rw [if_neg (by omega), if_neg, hd1]
    · simp only [hleaves, ht]
    · simp only [Spec.metricNames, List.mem_cons, List.not_mem_nil, or_false] at hm
      rcases hm with rfl | rfl | rfl | rfl | rfl <;> decide
  · intro i r hi
    have hcol : (rows.map (knnAvgRow cfg t k minB maxB (KNNMethod.new weighted minB)))[i]? =
        some (knnAvgRow cfg t k minB maxB (KNNMethod.new weighted minB) r) := by simp [hi]
    have hrl : r.length = ncols := hrows r (List.mem_of_getElem? hi)
    refine ⟨fun hnone => ?_, fun hr => ?_⟩
    · rw [hcol]
      have : r.all Option.isSome = false := by
        cases h : r.all Option.isSome with
        | false => rfl
        | true => exact absurd hnone ((hall r).2 h)
      simp [knnAvgRow, fullRow_none this]
    · have hr' := (hall r).1 hr
      obtain ⟨nbs, n1, n2⟩ := hq (k + 1) (r.filterMap id) maxB (by omega)
        (by rw [filterMap_length hr', hrl]) hmax
      refine ⟨nbs, n2, ?_⟩
      intro used
      have hrow : knnAvgRow cfg t k minB maxB (KNNMethod.new weighted minB) r =
          knnAggregate (KNNMethod.new weighted minB) used := by
        simp only [knnAvgRow, fullRow_some hr', knnRegress, n1, used]
      rw [hcol, hrow]
      refine ⟨fun h => ?_, fun h => ?_⟩
      · rw [h]
        cases KNNMethod.new weighted minB <;> simp [knnAggregate, weightedAvg]
      · refine ⟨_, by rw [knnAggregate_spec weighted minB used h], rfl, ?_⟩
        have hw : ∀ nb ∈ used, 0 < Spec.weight weighted minB nb.dist := by
          intro nb hnb
          obtain ⟨m1, m2⟩ := List.mem_filter.1 hnb
          have m2 : minB ≤ nb.dist := by simpa using m2
          obtain ⟨left, hperm, -⟩ := n2.split
          have hmem : nb ∈ Spec.all d (r.filterMap id)
              (Spec.candidates target (List.replicate rows.length true) rows) :=
            hperm.subset (List.mem_append_left _ m1)
          obtain ⟨p, -, rfl⟩ := List.mem_map.1 hmem
          have h0 : 0 ≤ d.dist p.row (r.filterMap id) := dist_nonneg hd2 _ _
          unfold Spec.weight
          split
          · split
            · have : 0 < 1 + d.dist p.row (r.filterMap id) := by linarith
              simpa using this
            · rename_i hh
              have he : (0 : K) ≤ eps := LawfulFloat.eps_nonneg
              have : 0 < d.dist p.row (r.filterMap id) := by
                have := not_le.1 hh
                linarith
              simpa using this
          · exact one_pos
        refine ⟨fun lo hlo => ?_, fun hi hhi => ?_⟩
        · obtain ⟨b, hb⟩ : ∃ b, ∀ nb ∈ used, nb.item ≤ b := by
            obtain ⟨b, hb⟩ : ∃ b, ∀ x ∈ used.map (·.item), x ≤ b := by
              generalize used.map (·.item) = l
              induction l with
              | nil => exact ⟨0, by simp⟩
              | cons a l ih =>
                obtain ⟨b, hb⟩ := ih
                refine ⟨max a b, fun x hx => ?_⟩
                rcases List.mem_cons.1 hx with rfl | hx
                · exact le_max_left _ _
                · exact le_trans (hb x hx) (le_max_right _ _)
            exact ⟨b, fun nb hnb => hb _ (List.mem_map_of_mem hnb)⟩
          exact (weighted_between _ used h hw lo b hlo hb).2.1
        · obtain ⟨b, hb⟩ : ∃ b, ∀ nb ∈ used, b ≤ nb.item := by
            obtain ⟨b, hb⟩ : ∃ b, ∀ x ∈ used.map (·.item), b ≤ x := by
              generalize used.map (·.item) = l
              induction l with
              | nil => exact ⟨0, by simp⟩
              | cons a l ih =>
                obtain ⟨b, hb⟩ := ih
                refine ⟨min a b, fun x hx => ?_⟩
                rcases List.mem_cons.1 hx with rfl | hx
                · exact min_le_left _ _
                · exact le_trans (min_le_right _ _) (hb x hx)
            exact ⟨b, fun nb hnb => hb _ (List.mem_map_of_mem hnb)⟩
          exact (weighted_between _ used h hw b hi hb hhi).2.2

/-- **C09**, unweighted case: the entry is the plain mean of the used targets. -/
theorem knn_avg_unweighted (minB : K) (nn : List (NB K K)) (hne : nn ≠ []) :
    knnAggregate (KNNMethod.new false minB) nn = some ((nn.map (·.item)).sum / (nn.length : K)) := by
  rw [knnAggregate_spec false minB nn hne]
  simp [Spec.weight]

/-- **C52.** `query_knn_ptwise` with data and evaluation masks: one entry per row; null when the row is not to
be evaluated or has a null feature, and otherwise an exact answer to "the `k+1` nearest within `max_bound`"
among the complete rows admitted by the data mask. -/
theorem knn_ptwise_nearest (us : USort) (cosine hav : List K → List K → K) (ncols : Nat) (hn : 0 < ncols)
    (ids : List Nat) (dataMask evalMask : Option (List (Option Bool))) (rows : List (List (Option K)))
    (hids : ids.length = rows.length)
    (hem : ∀ m, evalMask = some m → m.length = rows.length)
    (hrows : ∀ r ∈ rows, r.length = ncols) (k : Nat) (hk : 1 ≤ k) (bound : K)
    (hb : eps < bound) (metric : String) (hm : metric ∈ Spec.metricNames)
    (hc : Spec.candidates ids (Spec.admitted dataMask rows.length) rows ≠ []) :
    ∃ d col, Dist.ofString cosine hav metric ncols = .ok d ∧
      queryKnnPtwise us cosine hav ncols ids dataMask evalMask rows k bound metric = .ok col ∧
      col.length = rows.length ∧
      ∀ (i : Nat) (r : List (Option K)), rows[i]? = some r →
        (none ∈ r ∨ (∃ m, evalMask = some m ∧ m[i]? ≠ some (some true)) → col[i]? = some none) ∧
        (none ∉ r → (∀ m, evalMask = some m → m[i]? = some (some true)) →
          ∃ nbs, col[i]? = some (some nbs) ∧ Spec.Nearest (k + 1) bound nbs
            (Spec.all d (r.filterMap id)
              (Spec.candidates ids (Spec.admitted dataMask rows.length) rows))) := by
  have hall : ∀ r : List (Option K), none ∉ r ↔ r.all Option.isSome = true := by
    intro r
    rw [List.all_eq_true]
    constructor
    · intro h x hx
      cases x with
      | none => exact absurd hx h
      | some x => rfl
    · intro h hx
      simpa using h none hx
  obtain ⟨d, hd1, hd2⟩ := ofString_prunable cosine hav hm ncols
  have hleaves : filteredLeaves ids (keepMask dataMask rows) rows =
      Spec.candidates ids (Spec.admitted dataMask rows.length) rows :=
    filteredLeaves_eq ids _ _ rows (keepMask_spec dataMask rows)
  obtain ⟨cfg, t, ht, hq⟩ := fromLeaves_knn us hd2 .midpoint ncols hn _ hc (candidates_row hrows)
  have heml : (evalMaskOf evalMask ids.length).length = rows.length := by
    cases hE : evalMask with
    | none => simp [evalMaskOf, hids]
    | some m => simp [evalMaskOf, hem m hE]
  refine ⟨d, ((evalMaskOf evalMask ids.length).zip rows).map (knnRow cfg t k bound 0), hd1, ?_, ?_, ?_⟩
  · unfold queryKnnPtwise
    rw [if_neg (by omega), if_neg]
    · simp only [knnPtwiseWDist, hd1, hleaves, ht]
    · simp only [Spec.metricNames, List.mem_cons, List.not_mem_nil, or_false] at hm
      rcases hm with rfl | rfl | rfl | rfl | rfl <;> decide
  · simp [heml]
  · intro i r hi
    have hrl : r.length = ncols := hrows r (List.mem_of_getElem? hi)
    have hil : i < rows.length := by
      by_contra hcon
      rw [List.getElem?_eq_none (by omega)] at hi
      cases hi
    obtain ⟨e, he⟩ : ∃ e, (evalMaskOf evalMask ids.length)[i]? = some e :=
      ⟨_, List.getElem?_eq_getElem (by omega)⟩
    have hcol : (((evalMaskOf evalMask ids.length).zip rows).map (knnRow cfg t k bound 0))[i]? =
        some (knnRow cfg t k bound 0 (e, r)) := by
      rw [List.getElem?_map, List.getElem?_zip_eq_some (z := (e, r)) |>.2 ⟨he, hi⟩]
      rfl
    have he' : ∀ m, evalMask = some m → (e = true ↔ m[i]? = some (some true)) := by
      intro m hE
      rw [hE] at he
      simp only [evalMaskOf, List.getElem?_map, Option.map_eq_some_iff] at he
      obtain ⟨b, hb1, hb2⟩ := he
      rw [hb1]
      subst hb2
      rcases b with _ | (_ | _) <;> simp
    refine ⟨fun h => ?_, fun h1 h2 => ?_⟩
    · rw [hcol]
      rcases h with h | ⟨m, hE, h⟩
      · have : r.all Option.isSome = false := by
          cases h' : r.all Option.isSome with
          | false => rfl
          | true => exact absurd h ((hall r).2 h')
        cases e <;> simp [knnRow, fullRow_none this]
      · have : e = false := by
          cases hee : e with
          | false => rfl
          | true => exact absurd ((he' m hE).1 hee) h
        simp [knnRow, this]
    · have hr' := (hall r).1 h1
      have hee : e = true := by
        cases hE : evalMask with
        | none =>
          rw [hE] at he
          have := List.mem_of_getElem? he
          simp only [evalMaskOf] at this
          exact (List.mem_replicate.1 this).2
        | some m => exact (he' m hE).2 (h2 m hE)
      obtain ⟨nbs, n1, n2⟩ := hq (k + 1) (r.filterMap id) bound (by omega)
        (by rw [filterMap_length hr', hrl]) hb
      exact ⟨nbs, by rw [hcol]; simp only [knnRow, hee, if_true, fullRow_some hr', n1]; rfl, n2⟩

/-- Four rows, one with a null; `k = 1` (so two candidates, the row itself dropped by `min_bound`). -/
example : knnAvg insertionUSort (fun _ _ => 0) (fun _ _ => 0) 1 ([10, 20, 30, 40] : List ℚ)
    [[some 0], [some 1], [none], [some 5]] 1 false (1/10) 100 "l1" =
    .ok [some 20, some 10, none, some 20] := by decide +kernel

example : knnAvg insertionUSort (fun _ _ => 0) (fun _ _ => 0) 1 ([10, 20, 30, 40] : List ℚ)
    [[some 0], [some 1], [none], [some 5]] 2 true (1/10) 100 "l1" =
    .ok [some (70 / 3), some 16, none, some (140 / 9)] := by decide +kernel

example : queryKnnPtwise insertionUSort (fun _ _ => 0) (fun _ _ => 0) 1 [7, 8, 9, 10]
    (some [some true, some true, some true, none]) (some [some true, none, some true, some true])
    ([[some 0], [some 1], [none], [some 5]] : List (List (Option ℚ))) 1 100 "l1" =
    .ok [some [⟨0, 7⟩, ⟨1, 8⟩], none, none, some [⟨4, 8⟩, ⟨5, 7⟩]] := by decide +kernel

end Verif.KDT
