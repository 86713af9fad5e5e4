import Verif.Lemmas.NanTree
import Verif.Props.KnnAvg
import Verif.Props.RadiusExpr

/-!
# C152: neighbors in frames and matrices with NaN (and null) features
-/
set_option linter.unusedSectionVars false

namespace Verif.KDT
open Verif FloatOps

section general
variable {K : Type} [LinearOrder K] [Zero K] [Add K] [Sub K] [Mul K] [LawfulFloat K] {A : Type}

namespace Spec

/-- The metrics with sums, for which a missing coordinate makes the distance undefined. -/
def sumMetrics : List String := ["l1", "l2", "sql2"]

/-- Rows with their ids. -/
def tagged (ids : List A) (rows : List (List (Option K))) : List (Leaf (Option K) A) := (ids.zip rows).map fun p => ⟨p.1, p.2⟩

/-- `row` and `q` differ by at most `r` in every coordinate `row` has. -/
def CloseWhereKnown (r : K) (row : List (Option K)) (q : List K) : Prop :=
  ∀ (i : Nat) (x y : K), row[i]? = some (some x) → q[i]? = some y → fabs (x - y) ≤ r

end Spec

theorem ofString_sum (cosine hav : List K → List K → K) {name : String} (h : name ∈ Spec.sumMetrics) (dim : Nat) :
    ∃ d, Dist.ofString cosine hav name dim = .ok d ∧ d.prunable ∧ d ≠ .linf := by
  simp only [Spec.sumMetrics, List.mem_cons, List.not_mem_nil, or_false] at h
  rcases h with rfl | rfl | rfl
  · exact ⟨.l1, rfl, trivial, by simp⟩
  · by_cases hd : dim < 16
    · exact ⟨.l2, by simp [Dist.ofString, hd], trivial, by simp⟩
    · exact ⟨.l2simd, by simp [Dist.ofString, hd], trivial, by simp⟩
  · by_cases hd : dim < 16
    · exact ⟨.sql2, by simp [Dist.ofString, hd], trivial, by simp⟩
    · exact ⟨.sql2simd, by simp [Dist.ofString, hd], trivial, by simp⟩

theorem sort_perm_sorted (us : USort) (sort : Bool) (l : List (NB K A)) :
    (if sort then us.run (fun a b => decide (a.dist ≤ b.dist)) l else l).Perm l ∧
      (sort = true → (if sort then us.run (fun a b => decide (a.dist ≤ b.dist)) l else l).Pairwise fun a b => a.dist ≤ b.dist) := by
  cases sort with
  | false => exact ⟨List.Perm.refl _, by simp⟩
  | true =>
    refine ⟨us.perm _ _, fun _ => ?_⟩
    have := us.sorted (fun a b : NB K A => decide (a.dist ≤ b.dist)) (by
      intro a b c; simpa using le_trans) (by intro a b; simpa using le_total _ _) l
    simpa using this

/-- The three queries on a tree with NaN, for the metrics with sums. -/
theorem nan_tree (us : USort) (pp : PPoint) {d : KDT.Dist K} (hd : d.prunable) (hl : d ≠ .linf) (dim : Nat) (hdim : 0 < dim)
    (ps : List (Leaf (Option K) A)) (hne : ps ≠ []) (hps : ∀ p ∈ ps, p.row.length = dim) :
    ∃ cfg t, nFromLeaves us pp d .midpoint ps = some (cfg, t) ∧ cfg.dim = dim ∧
      (∀ (q : List K) (r : K) (sort : Bool), 0 + eps < r → ∃ res, nWithin us cfg t (q.map some) r sort = some (some res) ∧
        res.Perm (Spec.ball d q r (Spec.complete ps)) ∧ (sort = true → res.Pairwise fun a b => a.dist ≤ b.dist) ∧
        nWithinCount cfg t (q.map some) r = some (some res.length)) ∧
      ∀ (k : Nat) (q : List K) (bound : K), 0 < k → q.length = dim → eps < bound →
        ∃ res, nKnnBounded cfg t k (q.map some) bound 0 = some (some res) ∧
          Spec.Nearest k bound res (Spec.all d q (Spec.complete ps)) := by
  obtain ⟨t, h1, h2, h3⟩ := nFromLeaves_spec us pp d dim hdim ps hne hps
  have hw := prune_WF h2
  have hpts : t.prune.points.Perm (Spec.complete ps) := by rw [prune_points]; exact complete_perm h3
  refine ⟨_, t, h1, rfl, fun q r sort hr => ?_, fun k q bound hk hq hb => ?_⟩
  · obtain ⟨res, r1, r2⟩ := withinLoop_spec (d := d) hd q r dim t.size [(minVal, t.prune)] []
      (by simp [stackSize, prune_size]) (by intro e he; rw [List.mem_singleton.1 he]; exact .root hd hw)
    have r3 : res.Perm (Spec.ball d q r (Spec.complete ps)) := by
      refine r2.trans ?_
      simpa [stackPts] using Spec.ball_perm d q r hpts
    have hsort := sort_perm_sorted us sort res
    refine ⟨_, ?_, hsort.1.trans r3, hsort.2, ?_⟩
    · unfold nWithin
      rw [if_neg (not_le.mpr hr), (fullRow_iff _ _).2 rfl, Option.map_some, nWithinLoop_prune hl]
      change some (Option.map _ (withinLoop d q r t.size [(minVal, t.prune)] [])) = _
      rw [r1]
      rfl
    · unfold nWithinCount
      rw [if_neg (not_le.mpr hr), (fullRow_iff _ _).2 rfl, Option.map_some, nWithinCountLoop_prune hl]
      change some (withinCountLoop d q r t.size [(minVal, t.prune)] ([] : List (NB K A)).length) = _
      rw [withinCountLoop_eq, r1, hsort.1.length_eq]
      rfl
  · have r2 := knnUnchecked_inv (cfg := ⟨dim, suggestCapacity dim, d, .midpoint⟩) hd hw hk q bound (le_refl (0 : K))
    obtain ⟨res, r1, r2⟩ := r2
    refine ⟨res, ?_, ?_⟩
    · unfold nKnnBounded
      rw [if_neg (by push Not; exact ⟨by omega, by simpa using hq, hb⟩), (fullRow_iff _ _).2 rfl, Option.map_some,
        nKnnLoop_prune hl]
      unfold knnUnchecked at r1
      rw [prune_size] at r1
      exact congrArg some r1
    · have r3 := r2.perm (Spec.all_perm d q hpts)
      exact ⟨r3.sorted, r3.len, r3.bounded, by simpa only [Out, LawfulFloat.add_zero'] using r3.split⟩

theorem row_cases (row : List (Option K)) : none ∈ row ∨ ∃ q : List K, row = q.map some := by
  cases h : fullRow row with
  | none => exact .inl ((fullRow_none_iff _).1 h)
  | some v => exact .inr ⟨v, (fullRow_iff _ _).1 h⟩

theorem tagged_spec {ids : List A} {rows : List (List (Option K))} (hids : ids.length = rows.length) {ncols : Nat}
    (hrows : ∀ r ∈ rows, r.length = ncols) (hne : rows ≠ []) :
    Spec.tagged ids rows ≠ [] ∧ ∀ p ∈ Spec.tagged ids rows, p.row.length = ncols := by
  constructor
  · intro h
    have : (Spec.tagged ids rows).length = rows.length := by simp [Spec.tagged, hids]
    rw [h] at this
    exact hne (List.eq_nil_of_length_eq_zero this.symm)
  · intro p hp
    obtain ⟨x, hx, rfl⟩ := List.mem_map.1 hp
    exact hrows _ (List.of_mem_zip hx).2

/-- **C152a.**  `query_radius_ptwise` on a frame of any size with missing features, for the metrics with sums: a row with a
missing feature gets null; every other row gets exactly the ids of the complete rows within `r`, nearest first if `sort`. -/
theorem radius_nan_exact (us : USort) (pp : PPoint) (cosine hav : List K → List K → K) {ncols : Nat} (hn : 0 < ncols)
    (ids : List Nat) (rows : List (List (Option K))) (hids : ids.length = rows.length) (hne : rows ≠ [])
    (hrows : ∀ r ∈ rows, r.length = ncols) {r : K} (hr : 0 + eps < r) (sort : Bool) {metric : String}
    (hm : metric ∈ Spec.sumMetrics) :
    ∃ d col, Dist.ofString cosine hav metric ncols = .ok d ∧
      plRadiusPtwiseN us pp cosine hav ncols ids rows r sort metric = .ok col ∧ col.length = rows.length ∧
      ∀ (i : Nat) (row : List (Option K)), rows[i]? = some row →
        (none ∈ row → col[i]? = some none) ∧
        (∀ q : List K, row = q.map some → ∃ nbs : List (NB K Nat), col[i]? = some (some (nbs.map (·.item))) ∧
          nbs.Perm (Spec.ball d q r (Spec.complete (Spec.tagged ids rows))) ∧
          (sort = true → nbs.Pairwise fun a b => a.dist ≤ b.dist)) := by
  obtain ⟨d, h1, h2, h3⟩ := ofString_sum cosine hav hm ncols
  obtain ⟨t1, t2⟩ := tagged_spec hids hrows hne
  obtain ⟨cfg, t, ht, -, hw, -⟩ := nan_tree us pp h2 h3 ncols hn _ t1 t2
  refine ⟨d, rows.map fun q => ((nWithin us cfg t q r sort).bind id).map fun nbs => nbs.map (·.item), h1, ?_, by simp, ?_⟩
  · unfold plRadiusPtwiseN
    rw [h1]
    dsimp only
    unfold Spec.tagged at ht
    rw [ht]
  · intro i row hi
    rw [List.getElem?_map, hi, Option.map_some]
    refine ⟨fun hnone => ?_, fun q hq => ?_⟩
    · unfold nWithin
      rw [if_neg (not_le.mpr hr), (fullRow_none_iff _).2 hnone]
      rfl
    · obtain ⟨res, e1, e2, e3, -⟩ := hw q r sort hr
      rw [hq, e1]
      exact ⟨res, rfl, e2, e3⟩

/-- **C152b.**  `query_nb_cnt` with one radius: null for a row with a missing feature, otherwise the number of complete rows
within the radius (the row itself is one). -/
theorem nb_cnt_nan_exact (us : USort) (pp : PPoint) (cosine hav : List K → List K → K) {ncols : Nat} (hn : 0 < ncols)
    (rows : List (List (Option K))) (hne : rows ≠ []) (hrows : ∀ r ∈ rows, r.length = ncols) {r : K} (hr : 0 + eps < r)
    {metric : String} (hm : metric ∈ Spec.sumMetrics) :
    ∃ d col, Dist.ofString cosine hav metric ncols = .ok d ∧ plNbCntN us pp cosine hav ncols r rows metric = .ok col ∧
      col.length = rows.length ∧
      ∀ (i : Nat) (row : List (Option K)), rows[i]? = some row →
        (none ∈ row → col[i]? = some none) ∧
        (∀ q : List K, row = q.map some → col[i]? = some (some ((Spec.ball d q r
          (Spec.complete (rows.map fun x => (⟨(), x⟩ : Leaf (Option K) Unit)))).length))) := by
  obtain ⟨d, h1, h2, h3⟩ := ofString_sum cosine hav hm ncols
  obtain ⟨cfg, t, ht, -, hw, -⟩ := nan_tree us pp h2 h3 ncols hn (rows.map fun x => (⟨(), x⟩ : Leaf (Option K) Unit))
    (by simpa using hne) (by simpa using hrows)
  refine ⟨d, rows.map fun q => (nWithinCount cfg t q r).bind id, h1, ?_, by simp, ?_⟩
  · unfold plNbCntN
    rw [h1]
    dsimp only
    rw [ht]
  · intro i row hi
    rw [List.getElem?_map, hi, Option.map_some]
    refine ⟨fun hnone => ?_, fun q hq => ?_⟩
    · unfold nWithinCount
      rw [if_neg (not_le.mpr hr), (fullRow_none_iff _).2 hnone]
      rfl
    · obtain ⟨res, -, e2, -, e4⟩ := hw q r false hr
      rw [hq, e4, ← e2.length_eq]
      rfl

theorem maskedLeaves_complete (ids : List A) (mask : List (Option Bool)) (rows : List (List (Option K)))
    (h1 : ids.length = rows.length) (h2 : mask.length = rows.length) :
    Spec.complete (maskedLeaves ids mask rows) = Spec.candidates ids (mask.map fun b => b == some true) rows := by
  induction rows generalizing ids mask with
  | nil =>
    cases ids with
    | nil => cases mask <;> rfl
    | cons _ _ => simp at h1
  | cons row rows ih =>
    cases ids with
    | nil => simp at h1
    | cons a ids =>
      cases mask with
      | nil => simp at h2
      | cons m mask =>
        have := ih ids mask (by simpa using h1) (by simpa using h2)
        unfold maskedLeaves Spec.candidates at this ⊢
        simp only [List.zip_cons_cons, List.filterMap_cons, List.map_cons, List.filter_cons]
        cases m with
        | none => simpa using this
        | some b =>
          cases b with
          | false => simpa using this
          | true =>
            simp only [Option.getD_some, if_true, complete_cons, beq_self_eq_true, Bool.true_and]
            rcases row_cases row with hr | ⟨q, rfl⟩
            · rw [(fullRow_none_iff _).2 hr, if_neg (by
                rw [List.all_eq_true]; intro h; simpa using h none hr)]
              exact this
            · rw [(fullRow_iff _ _).2 rfl, if_pos (by simp)]
              simp only [List.map_cons, Option.elim_some]
              rw [this]
              simp

/-- **C152c.**  `query_knn_ptwise` when rows may have NaN, for the metrics with sums, whatever mask is built: a row with a missing
feature, or one not to be evaluated, gets null; every other row gets an exact answer to "the `k + 1` nearest within `max_bound`"
among the complete rows the mask admits. -/
theorem knn_nan_exact (us : USort) (pp : PPoint) (cosine hav : List K → List K → K) {ncols : Nat} (hn : 0 < ncols)
    (ids : List Nat) (keep : List (Option Bool)) (eval : List Bool) (rows : List (List (Option K)))
    (hids : ids.length = rows.length) (hk : keep.length = rows.length) (he : eval.length = rows.length)
    (hadm : ∃ i : Nat, i < rows.length ∧ keep[i]? = some (some true)) (hrows : ∀ r ∈ rows, r.length = ncols) (k : Nat) {bound : K}
    (hb : eps < bound) {metric : String} (hm : metric ∈ Spec.sumMetrics) :
    ∃ d col, Dist.ofString cosine hav metric ncols = .ok d ∧
      plKnnPtwiseN us pp cosine hav ncols ids keep eval rows k bound 0 metric = .ok col ∧ col.length = rows.length ∧
      ∀ (i : Nat) (row : List (Option K)) (ev : Bool), rows[i]? = some row → eval[i]? = some ev →
        (none ∈ row ∨ ev = false → col[i]? = some none) ∧
        (∀ q : List K, row = q.map some → ev = true → ∃ nbs, col[i]? = some (some nbs) ∧
          Spec.Nearest (k + 1) bound nbs (Spec.all d q (Spec.candidates ids (keep.map fun b => b == some true) rows))) := by
  obtain ⟨d, h1, h2, h3⟩ := ofString_sum cosine hav hm ncols
  have hml : ∀ p ∈ maskedLeaves ids keep rows, p.row.length = ncols := by
    intro p hp
    unfold maskedLeaves at hp
    rw [List.mem_filterMap] at hp
    obtain ⟨⟨f, a, row⟩, hx, e⟩ := hp
    simp only at e
    split at e
    · cases e
      exact hrows _ (List.of_mem_zip (List.of_mem_zip hx).2).2
    · cases e
  have hmn : maskedLeaves ids keep rows ≠ [] := by
    obtain ⟨i, hi, hki⟩ := hadm
    intro h
    have : (⟨ids[i]'(by omega), rows[i]⟩ : Leaf (Option K) Nat) ∈ maskedLeaves ids keep rows := by
      unfold maskedLeaves
      rw [List.mem_filterMap]
      refine ⟨(some true, ids[i]'(by omega), rows[i]), List.mem_of_getElem? (i := i) ?_, by simp⟩
      rw [List.getElem?_zip_eq_some, List.getElem?_zip_eq_some]
      exact ⟨hki, List.getElem?_eq_getElem _, List.getElem?_eq_getElem _⟩
    rw [h] at this
    simp at this
  obtain ⟨cfg, t, ht, hcd, -, hq⟩ := nan_tree us pp h2 h3 ncols hn _ hmn hml
  refine ⟨d, (eval.zip rows).map fun p => if p.1 then (nKnnBounded cfg t (k + 1) p.2 bound 0).bind id else none, h1, ?_,
    by simp [he], ?_⟩
  · unfold plKnnPtwiseN
    rw [h1]
    dsimp only
    rw [ht]
  · intro i row ev hi hev
    rw [List.getElem?_map, (List.getElem?_zip_eq_some (z := (ev, row))).2 ⟨hev, hi⟩, Option.map_some]
    refine ⟨fun hor => ?_, fun q hq' hev' => ?_⟩
    · rcases hor with hnone | rfl
      · have : (nKnnBounded cfg t (k + 1) row bound 0).bind id = none := by
          unfold nKnnBounded
          rw [(fullRow_none_iff _).2 hnone]
          split <;> rfl
        cases ev
        · rfl
        · exact congrArg some this
      · rfl
    · have hlen : q.length = ncols := by simpa [hq'] using hrows row (List.mem_of_getElem? hi)
      obtain ⟨res, e1, e2⟩ := hq (k + 1) q bound (by omega) hlen hb
      refine ⟨res, ?_, by rw [← maskedLeaves_complete ids keep rows hids hk]; exact e2⟩
      simp [hev', hq', e1]

/-- **C152d.**  `query_dist_from_kth_nb` for the metrics with sums: null for a row with a missing feature; otherwise the largest
of the distances in an exact answer to "the `k + 1` nearest complete rows within `max_bound`". -/
theorem kth_nan_exact (us : USort) (pp : PPoint) (cosine hav : List K → List K → K) {ncols : Nat} (hn : 0 < ncols)
    (rows : List (List (Option K))) (hne : rows ≠ []) (hrows : ∀ r ∈ rows, r.length = ncols) (k : Nat) {bound : K}
    (hb : eps < bound) {metric : String} (hm : metric ∈ Spec.sumMetrics) :
    ∃ d col, Dist.ofString cosine hav metric ncols = .ok d ∧
      plDistFromKthN us pp cosine hav ncols rows k bound 0 metric = .ok col ∧ col.length = rows.length ∧
      ∀ (i : Nat) (row : List (Option K)), rows[i]? = some row →
        (none ∈ row → col[i]? = some none) ∧
        (∀ q : List K, row = q.map some → ∃ nbs : List (NB K Unit), col[i]? = some (nbs.getLast?.map (·.dist)) ∧
          Spec.Nearest (k + 1) bound nbs (Spec.all d q
            (Spec.complete (rows.map fun x => (⟨(), x⟩ : Leaf (Option K) Unit))))) := by
  obtain ⟨d, h1, h2, h3⟩ := ofString_sum cosine hav hm ncols
  obtain ⟨cfg, t, ht, -, -, hq⟩ := nan_tree us pp h2 h3 ncols hn (rows.map fun x => (⟨(), x⟩ : Leaf (Option K) Unit))
    (by simpa using hne) (by simpa using hrows)
  refine ⟨d, rows.map fun q =>
        ((nKnnBounded cfg t (k + 1) q bound 0).bind id).bind fun nbs => nbs.getLast?.map (·.dist), h1, ?_, by simp, ?_⟩
  · unfold plDistFromKthN
    rw [h1]
    dsimp only
    rw [ht]
  · intro i row hi
    rw [List.getElem?_map, hi, Option.map_some]
    refine ⟨fun hnone => ?_, fun q hq' => ?_⟩
    · have : (nKnnBounded cfg t (k + 1) row bound 0).bind id = none := by
        unfold nKnnBounded
        rw [(fullRow_none_iff _).2 hnone]
        split <;> rfl
      rw [this]
      rfl
    · have hlen : q.length = ncols := by simpa [hq'] using hrows row (List.mem_of_getElem? hi)
      obtain ⟨res, e1, e2⟩ := hq (k + 1) q bound (by omega) hlen hb
      refine ⟨res, ?_, e2⟩
      rw [hq', e1]
      rfl

/-! ## The metric `inf` -/

theorem linf_close {r : K} : ∀ (a : List (Option K)) (q : List K) (z : K),
    (a.zip q).foldl (fun acc p => p.1.elim acc fun x => accInf acc (x - p.2)) z ≤ r → z ≤ r ∧ Spec.CloseWhereKnown r a q := by
  intro a
  induction a with
  | nil => intro q z h; exact ⟨by simpa using h, by intro i x y h; simp at h⟩
  | cons c a ih =>
    intro q z h
    cases q with
    | nil => exact ⟨by simpa using h, by intro i x y _ h; simp at h⟩
    | cons b q =>
      rw [List.zip_cons_cons, List.foldl_cons] at h
      obtain ⟨h1, h2⟩ := ih q _ h
      refine ⟨?_, ?_⟩
      · cases c with
        | none => exact h1
        | some c => exact le_trans (le_max_left _ _) h1
      · intro i x y hx hy
        cases i with
        | zero =>
          simp only [List.getElem?_cons_zero, Option.some.injEq] at hx hy
          subst hx hy
          exact le_trans (le_max_right _ _) h1
        | succ i => exact h2 i x y (by simpa using hx) (by simpa using hy)

/-- What a list may contain besides the ball: rows with a missing coordinate, close where they are known. -/
def Extra (r : K) (q : List K) (S : List (Leaf (Option K) A)) (nb : NB K A) : Prop :=
  ∃ p ∈ S, none ∈ p.row ∧ p.item = nb.item ∧ Spec.CloseWhereKnown r p.row q

theorem nUpdate_linf (q : List K) (r : K) (S : List (Leaf (Option K) A)) (data : List (Leaf (Option K) A))
    (hS : ∀ p ∈ data, p ∈ S) : ∀ (nbs nbs' extra : List (NB K A)), nbs.Perm (nbs' ++ extra) → (∀ x ∈ extra, Extra r q S x) →
      ∃ extra', (nUpdateNbWithin .linf q r nbs data).Perm (updateNbWithin .linf q r nbs' (Spec.complete data) ++ extra') ∧
        ∀ x ∈ extra', Extra r q S x := by
  induction data with
  | nil => intro nbs nbs' extra h he; exact ⟨extra, h, he⟩
  | cons p data ih =>
    intro nbs nbs' extra h he
    have e : nUpdateNbWithin .linf q r nbs (p :: data) = nUpdateNbWithin .linf q r
      (((.linf : KDT.Dist K).distNaN p.row q).elim nbs fun dist => if dist ≤ r then nbs ++ [⟨dist, p.item⟩] else nbs) data := rfl
    have ih' := ih (fun x hx => hS x (by simp [hx]))
    rw [e, complete_cons]
    rcases row_cases p.row with hr | ⟨v, hv⟩
    · rw [(fullRow_none_iff _).2 hr]
      simp only [Dist.distNaN, Option.elim_some, Option.elim_none]
      split
      · rename_i hle
        refine ih' _ nbs' (extra ++ [⟨(p.row.zip q).foldl (fun acc p => p.1.elim acc fun x => accInf acc (x - p.2)) 0, p.item⟩]) ?_ ?_
        · rw [← List.append_assoc]; exact h.append_right _
        · intro x hx
          rcases List.mem_append.1 hx with hx | hx
          · exact he x hx
          · rw [List.mem_singleton.1 hx]
            exact ⟨p, hS p (by simp), hr, rfl, (linf_close _ _ _ hle).2⟩
      · exact ih' _ _ _ h he
    · rw [(fullRow_iff _ _).2 hv]
      have ed : (.linf : KDT.Dist K).distNaN p.row q = some ((.linf : KDT.Dist K).dist v q) := by
        rw [hv]
        simp only [Dist.distNaN, Dist.dist, distFold, Option.some.injEq]
        generalize (0 : K) = z
        clear e h hv he ih ih'
        induction v generalizing q z with
        | nil => rfl
        | cons a x ih2 =>
          cases q with
          | nil => rfl
          | cons b q =>
            simp only [List.map_cons, List.zip_cons_cons, List.foldl_cons, Option.elim_some]
            exact ih2 q _
      rw [ed, Option.elim_some]
      change ∃ extra', List.Perm _ (updateNbWithin .linf q r (if (.linf : KDT.Dist K).dist v q ≤ r then
        nbs' ++ [⟨(.linf : KDT.Dist K).dist v q, p.item⟩] else nbs') (Spec.complete data) ++ extra') ∧ _
      split
      · refine ih' _ _ extra ?_ he
        refine (h.append_right _).trans ?_
        rw [List.append_assoc, List.append_assoc]
        exact List.perm_append_comm.append_left _
      · exact ih' _ _ _ h he

theorem nDescend_points (d : KDT.Dist K) (q : List K) (keep : K → Bool) (S : List (Leaf (Option K) A)) :
    ∀ (t : NTree K A) (s : List (K × NTree K A)), (∀ p ∈ t.points, p ∈ S) → (∀ e ∈ s, ∀ p ∈ e.2.points, p ∈ S) →
      (∀ e ∈ (nDescend d q keep t s).1, ∀ p ∈ e.2.points, p ∈ S) ∧ ∀ p ∈ (nDescend d q keep t s).2, p ∈ S := by
  intro t
  induction t with
  | leaf b data => intro s h1 h2; exact ⟨h2, h1⟩
  | node axis v b l r ihl ihr =>
    intro s h1 h2
    have hl : ∀ p ∈ l.points, p ∈ S := fun p hp => h1 p (by simp [NTree.points, hp])
    have hr : ∀ p ∈ r.points, p ∈ S := fun p hp => h1 p (by simp [NTree.points, hp])
    have push : ∀ (c : Bool) (x : K) (u : NTree K A), (∀ p ∈ u.points, p ∈ S) →
        ∀ e ∈ (if c then (x, u) :: s else s), ∀ p ∈ e.2.points, p ∈ S := by
      intro c x u hu e he
      cases c with
      | false => exact h2 e he
      | true =>
        rcases List.mem_cons.1 he with rfl | he
        · exact hu
        · exact h2 e he
    simp only [nDescend]
    split
    · exact ihl _ hl (push _ _ _ hr)
    · exact ihr _ hr (push _ _ _ hl)

theorem nWithinLoop_linf (q : List K) (r : K) (S : List (Leaf (Option K) A)) : ∀ (fuel : Nat) (s : List (K × NTree K A))
    (nbs nbs' extra : List (NB K A)) (res' : List (NB K A)), (∀ e ∈ s, ∀ p ∈ e.2.points, p ∈ S) →
      nbs.Perm (nbs' ++ extra) → (∀ x ∈ extra, Extra r q S x) → withinLoop .linf q r fuel (pruneStack s) nbs' = some res' →
      ∃ res extra', nWithinLoop .linf q r fuel s nbs = some res ∧ res.Perm (res' ++ extra') ∧ ∀ x ∈ extra', Extra r q S x := by
  intro fuel
  induction fuel with
  | zero =>
    intro s nbs nbs' extra res' hs h he hw
    cases s with
    | nil => cases hw; exact ⟨nbs, extra, rfl, h, he⟩
    | cons e s => cases hw
  | succ fuel ih =>
    intro s nbs nbs' extra res' hs h he hw
    cases s with
    | nil => cases hw; exact ⟨nbs, extra, rfl, h, he⟩
    | cons e s =>
      obtain ⟨bd, t⟩ := e
      change withinLoop .linf q r (fuel + 1) ((bd, t.prune) :: pruneStack s) nbs' = some res' at hw
      simp only [withinLoop, descend_prune] at hw
      simp only [nWithinLoop]
      have hs' : ∀ e ∈ s, ∀ p ∈ e.2.points, p ∈ S := fun e he => hs e (by simp [he])
      split at hw
      · rename_i hgt
        rw [if_pos hgt]
        exact ih s nbs nbs' extra res' hs' h he hw
      · rename_i hgt
        rw [if_neg hgt]
        obtain ⟨p1, p2⟩ := nDescend_points .linf q (fun x => decide (x ≤ r)) S t s (fun p hp => hs (bd, t) (by simp) p hp) hs'
        obtain ⟨ex, e1, e2⟩ := nUpdate_linf q r S _ p2 nbs nbs' extra h he
        exact ih _ _ _ ex res' p1 e1 e2 hw

/-- **C152e** (partial: the documentation says a row with NaN is never a neighbor).  With `dist="inf"` every complete row within
`r` is listed; what else is listed are rows with a missing feature that are within `r` in every feature they have. -/
theorem radius_nan_inf_partial (us : USort) (pp : PPoint) (cosine hav : List K → List K → K) {ncols : Nat} (hn : 0 < ncols)
    (ids : List Nat) (rows : List (List (Option K))) (hids : ids.length = rows.length) (hne : rows ≠ [])
    (hrows : ∀ r ∈ rows, r.length = ncols) {r : K} (hr : 0 + eps < r) (sort : Bool) :
    ∃ col, plRadiusPtwiseN us pp cosine hav ncols ids rows r sort "inf" = .ok col ∧ col.length = rows.length ∧
      ∀ (i : Nat) (row : List (Option K)), rows[i]? = some row →
        (none ∈ row → col[i]? = some none) ∧
        (∀ q : List K, row = q.map some → ∃ nbs extra : List (NB K Nat), col[i]? = some (some (nbs.map (·.item))) ∧
          nbs.Perm (Spec.ball .linf q r (Spec.complete (Spec.tagged ids rows)) ++ extra) ∧
          (∀ nb ∈ extra, ∃ (j a : Nat) (row' : List (Option K)), ids[j]? = some a ∧ rows[j]? = some row' ∧ nb.item = a ∧ none ∈ row' ∧
            Spec.CloseWhereKnown r row' q) ∧
          (sort = true → nbs.Pairwise fun a b => a.dist ≤ b.dist)) := by
  obtain ⟨t1, t2⟩ := tagged_spec hids hrows hne
  obtain ⟨t, ht, hwf, hpts⟩ := nFromLeaves_spec us pp (.linf : KDT.Dist K) ncols hn (Spec.tagged ids rows) t1 t2
  have hw := prune_WF hwf
  have hpts' : t.prune.points.Perm (Spec.complete (Spec.tagged ids rows)) := by rw [prune_points]; exact complete_perm hpts
  refine ⟨rows.map fun q => ((nWithin us ⟨ncols, suggestCapacity ncols, .linf, .midpoint⟩ t q r sort).bind id).map
    fun nbs => nbs.map (·.item), ?_, by simp, ?_⟩
  · unfold plRadiusPtwiseN
    rw [show Dist.ofString cosine hav "inf" ncols = .ok .linf from rfl]
    dsimp only
    unfold Spec.tagged at ht
    rw [ht]
  · intro i row hi
    rw [List.getElem?_map, hi, Option.map_some]
    refine ⟨fun hnone => ?_, fun q hq => ?_⟩
    · unfold nWithin
      rw [if_neg (not_le.mpr hr), (fullRow_none_iff _).2 hnone]
      rfl
    · obtain ⟨res', r1, r2⟩ := withinLoop_spec (d := (.linf : KDT.Dist K)) trivial q r ncols t.size [(minVal, t.prune)] []
        (by simp [stackSize, prune_size]) (by intro e he; rw [List.mem_singleton.1 he]; exact .root (d := (.linf : KDT.Dist K)) trivial hw)
      have r3 : res'.Perm (Spec.ball .linf q r (Spec.complete (Spec.tagged ids rows))) := by
        refine r2.trans ?_
        simpa [stackPts] using Spec.ball_perm .linf q r hpts'
      obtain ⟨res, extra, n1, n2, n3⟩ := nWithinLoop_linf q r t.points t.size [(minVal, t)] [] [] [] res'
        (by simp) (List.Perm.refl _) (by simp) r1
      have hsort := sort_perm_sorted us sort res
      refine ⟨_, extra, ?_, hsort.1.trans (n2.trans (r3.append_right _)), ?_, hsort.2⟩
      · unfold nWithin
        rw [if_neg (not_le.mpr hr), hq, (fullRow_iff _ _).2 rfl, Option.map_some, n1]
        rfl
      · intro nb hnb
        obtain ⟨p, hp, h1, h2, h3⟩ := n3 nb hnb
        have hp' := hpts.mem_iff.1 hp
        obtain ⟨x, hx, rfl⟩ := List.mem_map.1 hp'
        obtain ⟨j, hj⟩ := List.mem_iff_getElem?.1 hx
        rw [List.getElem?_zip_eq_some] at hj
        exact ⟨j, x.1, x.2, hj.1, hj.2, h2.symm, h1, h3⟩

/-! ## Balanced trees -/

theorem addAll_small (us : USort) (pp : PPoint) (cfg : Cfg K) : ∀ (ps data : List (Leaf (Option K) A)) (b : Box K)
    (rest : List (Leaf (Option K) A)), data.length + ps.length ≤ cfg.capacity →
    ∃ b', NTree.addAll us pp cfg (.leaf b data) (ps ++ rest) = NTree.addAll us pp cfg (.leaf b' (data ++ ps)) rest := by
  intro ps
  induction ps with
  | nil => intro data b rest _; exact ⟨b, by simp⟩
  | cons p ps ih =>
    intro data b rest h
    rw [List.length_cons] at h
    obtain ⟨b', e⟩ := ih (data ++ [p]) (b.updateN p.row) rest (by rw [List.length_append, List.length_singleton]; omega)
    refine ⟨b', ?_⟩
    rw [List.cons_append, NTree.addAll, NTree.add, if_neg (by rw [List.length_append, List.length_singleton]; omega),
      Option.bind_some, e, List.append_assoc]
    rfl

/-- **C152f** (disagreement).  `KDTree(X)` builds a balanced tree; with a NaN in the first column of one of the first
`capacity + 1` rows (11 rows below 5 columns) it panics, whatever the metric. -/
theorem balanced_nan_panics (us : USort) (pp : PPoint) (d : KDT.Dist K) {dim : Nat}
    (ps rest : List (Leaf (Option K) A)) (hl : ps.length = suggestCapacity dim + 1) (hrow : ∀ p ∈ ps, p.row.length = dim)
    (hnan : ∃ p ∈ ps, p.row.head? = some none) : nFromLeaves us pp d .median (ps ++ rest) = none := by
  obtain ⟨p0, ps', e0⟩ : ∃ p ps', ps = p :: ps' := by
    cases ps with
    | nil => simp at hl
    | cons p ps' => exact ⟨p, ps', rfl⟩
  have hd0 : p0.row.length = dim := hrow p0 (by simp [e0])
  obtain ⟨ini, lst, e1⟩ : ∃ ini lst, ps = ini ++ [lst] := by
    rcases List.eq_nil_or_concat ps with h | ⟨a, b, h⟩
    · rw [h] at hl; simp at hl
    · exact ⟨a, b, by simpa using h⟩
  have hini : ini.length = suggestCapacity dim := by
    rw [e1, List.length_append, List.length_singleton] at hl
    omega
  set cfg : Cfg K := ⟨dim, suggestCapacity dim, d, .median⟩ with hcfg
  have hf : nFromLeaves us pp d .median (ps ++ rest) =
      (NTree.addAll us pp cfg (.leaf (emptyBox dim) []) (ps ++ rest)).map fun t => (cfg, t) := by
    rw [e0, List.cons_append]
    unfold nFromLeaves
    simp only [hd0]
    rfl
  obtain ⟨b', e⟩ := addAll_small us pp cfg ini [] (emptyBox dim) (lst :: rest) (by simp [hcfg, hini])
  have hps : ps ++ rest = ini ++ lst :: rest := by rw [e1]; simp
  rw [hf, hps, e, NTree.addAll, List.nil_append, NTree.add, if_pos (by
    rw [List.length_append, List.length_singleton, hini]; simp [hcfg])]
  have hs : nSplit us pp cfg (b'.updateN lst.row) (0 % cfg.dim) (ini ++ [lst]) = none := by
    unfold nSplit
    rw [show cfg.method = .median from rfl]
    dsimp only
    rw [if_neg]
    rw [← e1, List.all_eq_true]
    intro hall
    obtain ⟨p, hp, hp'⟩ := hnan
    have h := hall p hp
    cases hrow' : p.row with
    | nil => rw [hrow'] at hp'; simp at hp'
    | cons a row =>
      rw [hrow'] at hp'
      simp only [List.head?_cons, Option.some.injEq] at hp'
      simp [nVal, hrow', hp'] at h
  rw [hs]
  rfl

end general

/-! ## Witnesses and examples -/

section concrete

/-- Binary search is not needed for the examples: the first position where the predicate fails. -/
def firstFail : PPoint where
  run p l := (l.takeWhile p).length
  le p _ := (List.takeWhile_prefix p).length_le
  part _ _ _ := rfl

private def noMetric : List ℚ → List ℚ → ℚ := fun _ _ => 0

/-- **C152, disagreement.**  With `dist="inf"` a row with a NaN is the nearest neighbor of others, against the documentation
("Any row with a null/NaN will never be a neighbor"): row 1 has no first feature, yet rows 0 and 2 have it at distance 0, nearer
than anything else. -/
theorem knn_inf_nan_neighbor :
    (match plKnnPtwiseN insertionUSort firstFail noMetric noMetric 2 [0, 1, 2, 3] [some true, some true, some true, some true]
        [true, true, true, true] [[some 0, some 0], [none, some 0], [some 9, some 0], [some 1, some 0]] 1 1000 0 "inf" with
      | .ok col => col.map fun l => l.map fun nbs => nbs.map fun nb => (nb.item, nb.dist)
      | _ => []) = [some [(0, 0), (1, 0)], none, some [(1, 0), (2, 0)], some [(1, 0), (3, 0)]] := by
  decide +kernel

/-- Twelve rows, more than one leaf of ten; rows 3 and 7 have a NaN. -/
def twelve : List (List (Option ℚ)) :=
  (List.range 12).map fun i => [if i = 3 then none else some (i : ℚ), if i = 7 then none else some 0]

/-- The column of an outcome. -/
def colOf {α : Type} : Outcome (List α) → List α
  | .ok col => col
  | _ => []

example : colOf (plRadiusPtwiseN insertionUSort firstFail noMetric noMetric 2 (List.range 12) twelve 2 true "l1") =
    [some [0, 1, 2], some [1, 0, 2], some [2, 1, 0, 4], none, some [4, 5, 2, 6], some [5, 4, 6], some [6, 5, 4, 8], none,
      some [8, 9, 6, 10], some [9, 8, 10, 11], some [10, 9, 11, 8], some [11, 10, 9]] := by decide +kernel

example : (colOf (plKnnPtwiseN insertionUSort firstFail noMetric noMetric 2 (List.range 12)
    (List.replicate 12 (some true)) (List.replicate 12 true) twelve 2 1000 0 "sql2")).map
      (fun l => l.map fun nbs => nbs.map fun nb => (nb.item, nb.dist)) =
    [some [(0, 0), (1, 1), (2, 4)], some [(1, 0), (0, 1), (2, 1)], some [(2, 0), (1, 1), (0, 4)], none,
      some [(4, 0), (5, 1), (2, 4)], some [(5, 0), (4, 1), (6, 1)], some [(6, 0), (5, 1), (4, 4)], none,
      some [(8, 0), (9, 1), (6, 4)], some [(9, 0), (8, 1), (10, 1)], some [(10, 0), (9, 1), (11, 1)],
      some [(11, 0), (10, 1), (9, 4)]] := by decide +kernel

/-- **C152, disagreement.**  With `inf` the rows 3 and 7 are listed as well, and not even consistently: row 3 has no first feature
and agrees with every row in the second, yet rows 0 and 1 do not list it while all others do.  Which rows with a NaN are
listed depends on the leaf they were put in. -/
theorem radius_inf_nan_listed :
    colOf (plRadiusPtwiseN insertionUSort firstFail noMetric noMetric 2 (List.range 12) twelve 2 true "inf") =
    [some [0, 1, 2], some [1, 0, 2], some [2, 3, 1, 0, 4], none, some [3, 4, 5, 2, 6], some [3, 5, 4, 6, 7],
      some [3, 6, 5, 7, 4, 8], none, some [3, 8, 7, 9, 6, 10], some [3, 9, 8, 10, 7, 11], some [3, 10, 9, 11, 8],
      some [3, 11, 10, 9]] := by decide +kernel

example : 12 ≠ 0 ∧ (0 : ℚ) + eps < 2 ∧ "sql2" ∈ Spec.sumMetrics ∧ (∀ r ∈ twelve, r.length = 2) ∧ none ∈ twelve[3]! := by
  decide +kernel

example : plNbCntN insertionUSort firstFail noMetric noMetric 2 2 twelve "l1" =
    .ok [some 3, some 3, some 4, none, some 4, some 3, some 4, none, some 4, some 4, some 4, some 3] := by decide +kernel

example : plDistFromKthN insertionUSort firstFail noMetric noMetric 2 twelve 1 1000 0 "l1" =
    .ok [some 1, some 1, some 1, none, some 1, some 1, some 1, none, some 1, some 1, some 1, some 1] := by decide +kernel

example : nFromLeaves insertionUSort firstFail (.l1 : KDT.Dist ℚ) .median
    ((List.range 11).map fun i => (⟨i, [if i = 6 then none else some (i : ℚ)]⟩ : Leaf (Option ℚ) Nat)) = none :=
  balanced_nan_panics (dim := 1) insertionUSort firstFail .l1
    ((List.range 11).map fun i => (⟨i, [if i = 6 then none else some (i : ℚ)]⟩ : Leaf (Option ℚ) Nat)) [] (by decide +kernel) (by decide +kernel)
    ⟨⟨6, [none]⟩, by decide +kernel, rfl⟩

end concrete

end Verif.KDT
