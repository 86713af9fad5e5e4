import Verif.Lemmas.KDHistory
import Verif.Lemmas.Arith
import Verif.Model.KnnExpr

/-!
# Properties C01–C08: neighbor search

All theorems are stated for any `LawfulFloat` arithmetic `K` (exact or monotonically rounded), any
unstable sort `us`, both split methods, and any history of `add` calls.
-/
set_option linter.unusedSectionVars false
set_option linter.unusedVariables false

namespace Verif.KDT
open Verif FloatOps

section general
variable {K : Type} [LinearOrder K] [Zero K] [Add K] [Sub K] [Mul K] [LawfulFloat K]

/-- The assumptions on a history: a non-empty rectangular first matrix with at least one column, one of the
vector-space metrics, later matrices rectangular (but possibly of the wrong width or empty). -/
structure History (us : USort) (cosine hav : List K → List K → K) (X0 : Mat K) (balanced : Bool)
    (name : String) (d : Dist K) (adds : List (Mat K)) (s : PyKDT K) : Prop where
  metric : name ∈ Spec.metricNames
  dist : Dist.ofString cosine hav name X0.ncols = .ok d
  rows : X0.rows ≠ []
  cols : 0 < X0.ncols
  rect : X0.Rect
  rects : ∀ X ∈ adds, X.Rect
  reach : ∃ s0, PyKDT.new us cosine hav X0 balanced name = .ok s0 ∧ s = s0.adds us adds

theorem History.inv {us : USort} {cosine hav : List K → List K → K} {X0 : Mat K} {balanced : Bool}
    {name : String} {d : Dist K} {adds : List (Mat K)} {s : PyKDT K}
    (h : History us cosine hav X0 balanced name d adds s) :
    d.prunable ∧ HInv X0.ncols d (Spec.rows X0 adds) s := by
  obtain ⟨d', hd', hp⟩ := ofString_prunable cosine hav h.metric X0.ncols
  rw [h.dist] at hd'
  cases hd'
  obtain ⟨s0, h1, rfl⟩ := h.reach
  obtain ⟨s0', h1', hinv⟩ := new_spec us cosine hav X0 balanced name d h.dist h.rows h.cols h.rect
  rw [h1'] at h1
  cases h1
  exact ⟨hp, adds_spec us X0 h.cols adds X0.rows s0 hinv h.rects⟩

variable {us : USort} {cosine hav : List K → List K → K} {X0 : Mat K} {balanced : Bool}
  {name : String} {d : Dist K} {adds : List (Mat K)} {s : PyKDT K}

/-- Construction succeeds on every non-empty rectangular matrix with a known metric, so histories exist. -/
theorem history_exists (us : USort) (cosine hav : List K → List K → K) (X0 : Mat K) (balanced : Bool)
    {name : String} (hm : name ∈ Spec.metricNames) (hr : X0.rows ≠ []) (hc : 0 < X0.ncols)
    (hX : X0.Rect) (adds : List (Mat K)) (ha : ∀ X ∈ adds, X.Rect) :
    ∃ d s, History us cosine hav X0 balanced name d adds s := by
  obtain ⟨d, hd, _⟩ := ofString_prunable cosine hav hm X0.ncols
  obtain ⟨s, h1, _⟩ := new_spec us cosine hav X0 balanced name d hd hr hc hX
  exact ⟨d, _, hm, hd, hr, hc, hX, ha, s, h1, rfl⟩

/-! ### C01 -/

/-- **C01.** A radius query terminates and returns, as a multiset, exactly the supplied rows at distance
`≤ r`; sorted by distance when asked.  A radius `≤ eps` is rejected. -/
theorem within_exact (h : History us cosine hav X0 balanced name d adds s) (q : List K) (r : K)
    (sort : Bool) :
    (r ≤ 0 + eps → within us s.cfg s.tree q r sort = none) ∧
    (0 + eps < r → ∃ res, within us s.cfg s.tree q r sort = some (some res) ∧
      res.Perm (Spec.ball d q r (Spec.numbered (Spec.rows X0 adds))) ∧
      (sort = true → res.Pairwise (fun a b => a.dist ≤ b.dist))) := by
  obtain ⟨hp, hinv⟩ := h.inv
  refine ⟨fun hr => by simp [within, hr], fun hr => ?_⟩
  have hd : s.cfg.d.prunable := hinv.d_eq.symm ▸ hp
  obtain ⟨res, h1, h2⟩ := withinLoop_spec hd q r X0.ncols s.tree.size [(minVal, s.tree)] []
    (by simp [stackSize]) (by
      intro e he; rw [List.mem_singleton.1 he]; exact .root hd hinv.wf)
  have h3 : res.Perm (Spec.ball d q r (Spec.numbered (Spec.rows X0 adds))) := by
    rw [hinv.d_eq] at h2
    refine h2.trans ?_
    simpa [stackPts] using Spec.ball_perm d q r hinv.pts
  cases sort with
  | false =>
    exact ⟨res, by simp [within, not_le.2 hr, h1], h3, by simp⟩
  | true =>
    refine ⟨us.run (fun a b => decide (a.dist ≤ b.dist)) res, by simp [within, not_le.2 hr, h1],
      (us.perm _ _).trans h3, fun _ => ?_⟩
    have := us.sorted (fun a b : NB K Nat => decide (a.dist ≤ b.dist))
      (by intro a b c h1 h2; simp only [decide_eq_true_eq] at *; exact le_trans h1 h2)
      (by intro a b; simp only [Bool.or_eq_true, decide_eq_true_eq]; exact le_total _ _) res
    simpa using this

/-! ### C02 -/

/-- **C02.** The neighbor count is the number of supplied rows at distance `≤ r`, and the length of the
radius query's result; both are null for the same radii. -/
theorem within_count_exact (h : History us cosine hav X0 balanced name d adds s) (q : List K) (r : K) :
    withinCount s.cfg s.tree q r =
      (if r ≤ 0 + eps then none
       else some (some (Spec.ball d q r (Spec.numbered (Spec.rows X0 adds))).length)) ∧
    ∀ sort, withinCount s.cfg s.tree q r =
      (within us s.cfg s.tree q r sort).map (fun o => o.map List.length) := by
  have key : ∀ sort, withinCount s.cfg s.tree q r =
      (within us s.cfg s.tree q r sort).map (fun o => o.map List.length) := by
    intro sort
    unfold withinCount within
    split
    · rfl
    · have := withinCountLoop_eq s.cfg.d q r s.tree.size [(minVal, s.tree)] ([] : List (NB K Nat))
      simp only [List.length_nil] at this
      rw [this]
      simp only [Option.map_some, Option.map_map, Option.some.injEq]
      congr 1
      funext nbs
      simp only [Function.comp_apply]
      split
      · exact ((us.perm _ nbs).length_eq).symm
      · rfl
  refine ⟨?_, key⟩
  rw [key false]
  obtain ⟨w1, w2⟩ := within_exact h q r false
  split
  · rename_i hr; rw [w1 hr]; rfl
  · rename_i hr
    obtain ⟨res, e1, e2, _⟩ := w2 (not_le.1 hr)
    rw [e1]
    simp [e2.length_eq]

/-! ### C03, C04 -/

/-- **C04** (and the soundness half of C03).  The search terminates; the result has at most `k` entries, in
non-decreasing order, within the bound, is a sub-multiset of the supplied rows with their distances, and
every row left out is either (up to `epsilon`) beyond the bound, or `k` rows were returned and none of them
is farther than the omitted row by more than `epsilon`. -/
theorem knn_eps (h : History us cosine hav X0 balanced name d adds s) {k : Nat} (hk : 0 < k)
    (q : List K) (bound : K) {epsilon : K} (he : 0 ≤ epsilon) :
    ∃ res, knnUnchecked s.cfg s.tree k q bound epsilon = some res ∧
      res.length ≤ k ∧
      res.Pairwise (fun a b => a.dist ≤ b.dist) ∧
      (∀ nb ∈ res, nb.dist ≤ bound) ∧
      ∃ omitted, (res ++ omitted).Perm (Spec.all d q (Spec.numbered (Spec.rows X0 adds))) ∧
        ∀ x ∈ omitted, bound ≤ x.dist + epsilon ∨
          (res.length = k ∧ ∀ t ∈ res, t.dist ≤ x.dist + epsilon) := by
  obtain ⟨hp, hinv⟩ := h.inv
  have hd : s.cfg.d.prunable := hinv.d_eq.symm ▸ hp
  obtain ⟨res, h1, h2⟩ := knnUnchecked_inv (cfg := s.cfg) hd hinv.wf hk q bound he
  rw [hinv.d_eq] at h2
  have h3 := h2.perm (Spec.all_perm d q hinv.pts)
  exact ⟨res, h1, h3.len, h3.sorted, h3.bounded, by simpa [Out] using h3.split⟩

/-- **C03.** With `epsilon = 0` the distances below the bound are exactly the `k` smallest ones. -/
theorem knn_exact (h : History us cosine hav X0 balanced name d adds s) {k : Nat} (hk : 0 < k)
    (q : List K) (bound : K) :
    ∃ res, knnUnchecked s.cfg s.tree k q bound 0 = some res ∧
      (res.map (·.dist)).filter (fun x => decide (x < bound)) =
        Spec.kSmallest d q k bound (Spec.numbered (Spec.rows X0 adds)) := by
  obtain ⟨hp, hinv⟩ := h.inv
  have hd : s.cfg.d.prunable := hinv.d_eq.symm ▸ hp
  obtain ⟨res, h1, h2⟩ := knnUnchecked_inv (cfg := s.cfg) hd hinv.wf hk q bound (le_refl (0 : K))
  rw [hinv.d_eq] at h2
  have h3 := h2.perm (Spec.all_perm d q hinv.pts)
  exact ⟨res, h1, h3.kSmallest⟩

/-- **C03**, unbounded form: when every supplied row is closer than the bound (for instance the default
infinite bound), the returned distances are the `k` smallest distances overall. -/
theorem knn_exact_unbounded (h : History us cosine hav X0 balanced name d adds s) {k : Nat} (hk : 0 < k)
    (q : List K) (bound : K) (hb : ∀ row ∈ Spec.rows X0 adds, d.dist row q < bound) :
    ∃ res, knnUnchecked s.cfg s.tree k q bound 0 = some res ∧
      res.map (·.dist) =
        (((Spec.rows X0 adds).map fun row => d.dist row q).insertionSort (· ≤ ·)).take k := by
  obtain ⟨res, h1, h2⟩ := knn_exact h hk q bound
  obtain ⟨res', h1', _, _, hbd, om, hperm, _⟩ := knn_eps h hk q bound (le_refl (0 : K))
  rw [h1] at h1'
  cases h1'
  have hmap : (Spec.all d q (Spec.numbered (Spec.rows X0 adds))).map (·.dist) =
      (Spec.rows X0 adds).map fun row => d.dist row q := by
    simp only [Spec.all, Spec.numbered, List.map_map]
    rw [show ((fun x : NB K Nat => x.dist) ∘ (fun p : Leaf K Nat => (⟨d.dist p.row q, p.item⟩ : NB K Nat)) ∘
      fun p : List K × Nat => (⟨p.2, p.1⟩ : Leaf K Nat)) = (fun row => d.dist row q) ∘ Prod.fst from rfl]
    rw [← List.map_map, List.zipIdx_map_fst]
  have hlt : ∀ x ∈ (Spec.all d q (Spec.numbered (Spec.rows X0 adds))).map (·.dist), x < bound := by
    rw [hmap]
    intro x hx
    obtain ⟨row, hr, rfl⟩ := List.mem_map.1 hx
    exact hb row hr
  refine ⟨res, h1, ?_⟩
  have hself : ((Spec.all d q (Spec.numbered (Spec.rows X0 adds))).map (·.dist)).filter
      (fun x => decide (x < bound)) = (Spec.all d q (Spec.numbered (Spec.rows X0 adds))).map (·.dist) :=
    List.filter_eq_self.2 (fun x hx => by simpa using hlt x hx)
  rw [Spec.kSmallest, hself, hmap] at h2
  rw [← h2]
  symm
  apply List.filter_eq_self.2
  intro x hx
  obtain ⟨nb, hnb, rfl⟩ := List.mem_map.1 hx
  have : nb ∈ Spec.all d q (Spec.numbered (Spec.rows X0 adds)) :=
    hperm.mem_iff.1 (List.mem_append_left _ hnb)
  simpa using hlt nb.dist (List.mem_map_of_mem this)

/-! ### C06 -/

/-- **C06.** After any history, the count is the number of accepted rows, and the stored rows are the
accepted rows numbered consecutively in the order they were supplied. -/
theorem count_and_numbering (h : History us cosine hav X0 balanced name d adds s) :
    s.count = some (Spec.rows X0 adds).length ∧
    s.tree.points.Perm (Spec.numbered (Spec.rows X0 adds)) := by
  obtain ⟨_, hinv⟩ := h.inv
  refine ⟨?_, hinv.pts⟩
  rw [PyKDT.count, countAll_spec, hinv.pts.length_eq]
  simp [Spec.numbered]

/-- **C06.** An `add` with the wrong width, or without rows, is an error; any other is accepted. -/
theorem add_accepts_iff (h : History us cosine hav X0 balanced name d adds s) (X : Mat K)
    (hX : X.Rect) : (∃ s', s.add us X = .ok s') ↔ (X.ncols = X0.ncols ∧ X.rows ≠ []) := by
  obtain ⟨_, hinv⟩ := h.inv
  constructor
  · rintro ⟨s', hs⟩
    by_contra hc
    obtain ⟨e, he⟩ := add_reject us h.cols hinv X hc
    rw [he] at hs
    cases hs
  · rintro ⟨h1, h2⟩
    obtain ⟨s', hs, _⟩ := add_spec us h.cols hinv X hX h1 h2
    exact ⟨s', hs⟩

/-! ### C08 -/

/-- **C08.** `knn` on a query matrix yields `rows * k` cells; block `i` is the result of query `i` followed
by padding. -/
theorem knn_matrix_shape (h : History us cosine hav X0 balanced name d adds s) (X : Mat K)
    (hX : X.rows ≠ []) (hc : X.ncols = X0.ncols) {k : Nat} (hk : 0 < k) {epsilon : K} (he : 0 ≤ epsilon)
    (bound : K) :
    ∃ cells, s.knn X k epsilon bound = .ok (some cells) ∧ cells.length = X.rows.length * k ∧
      ∀ i q, X.rows[i]? = some q →
        ∃ res, knnUnchecked s.cfg s.tree k q bound epsilon = some res ∧
          (cells.drop (i * k)).take k =
            res.map (fun nb => Cell.found nb.dist nb.item) ++
              List.replicate (k - res.length) Cell.pad := by
  obtain ⟨hp, hinv⟩ := h.inv
  have hall : ∀ q : List K, ∃ res, knnUnchecked s.cfg s.tree k q bound epsilon = some res ∧
      res.length ≤ k := fun q => by
    obtain ⟨res, h1, h2, _⟩ := knn_eps h hk q bound he
    exact ⟨res, h1, h2⟩
  have hempty : X.isEmpty = false := by
    have := h.cols
    simp only [Mat.isEmpty, Bool.or_eq_false_iff, List.isEmpty_eq_false_iff, beq_eq_false_iff_ne]
    exact ⟨hX, by omega⟩
  have hpad : ∀ res : List (NB K Nat), res.length ≤ k → padRow k res =
      res.map (fun nb => Cell.found nb.dist nb.item) ++ List.replicate (k - res.length) Cell.pad := by
    intro res hr; simp [padRow, hr]
  have hpl : ∀ res : List (NB K Nat), res.length ≤ k → (padRow k res).length = k := by
    intro res hr; rw [hpad res hr]; simp; omega
  -- induction over the query rows
  have key : ∀ qs : List (List K), ∃ nn,
      (qs.mapM fun q => knnUnchecked s.cfg s.tree k q bound epsilon) = some nn ∧
      (nn.flatMap (padRow k)).length = qs.length * k ∧
      ∀ (i : Nat) (q : List K), qs[i]? = some q →
        ∃ res, knnUnchecked s.cfg s.tree k q bound epsilon = some res ∧
          ((nn.flatMap (padRow k)).drop (i * k)).take k =
            res.map (fun nb => Cell.found nb.dist nb.item) ++
              List.replicate (k - res.length) Cell.pad := by
    intro qs
    induction qs with
    | nil => exact ⟨[], rfl, by simp, by simp⟩
    | cons q qs ih =>
      obtain ⟨nn, h1, h2, h3⟩ := ih
      obtain ⟨res, hr, hl⟩ := hall q
      refine ⟨res :: nn, by simp [List.mapM_cons, hr, h1], ?_, ?_⟩
      · rw [List.flatMap_cons, List.length_append, hpl res hl, h2, List.length_cons, Nat.succ_mul,
          Nat.add_comm]
      · intro i q' hi
        cases i with
        | zero =>
          simp only [List.getElem?_cons_zero, Option.some.injEq] at hi
          subst hi
          refine ⟨res, hr, ?_⟩
          rw [List.flatMap_cons, Nat.zero_mul, List.drop_zero,
            List.take_append_of_le_length (by rw [hpl res hl]), List.take_of_length_le
            (by rw [hpl res hl]), hpad res hl]
        | succ i =>
          simp only [List.getElem?_cons_succ] at hi
          obtain ⟨res', hr', he'⟩ := h3 i q' hi
          refine ⟨res', hr', ?_⟩
          rw [List.flatMap_cons, Nat.succ_mul, Nat.add_comm, ← List.drop_drop,
            List.drop_append_of_le_length (by rw [hpl res hl]),
            List.drop_of_length_le (l := padRow k res) (by rw [hpl res hl])]
          simpa using he'
  obtain ⟨nn, h1, h2, h3⟩ := key X.rows
  refine ⟨nn.flatMap (padRow k), ?_, h2, h3⟩
  simp only [PyKDT.knn, hempty, hinv.dim_eq, hc, h1]
  simp
  omega

end general

/-! ### The metrics over the reals -/

/-- Over the reals the computed distances are the textbook ones. -/
theorem dist_real (a b : List ℝ) :
    Dist.dist .l1 a b = ((a.zip b).map fun p => |p.1 - p.2|).sum ∧
    Dist.dist .sql2 a b = ((a.zip b).map fun p => (p.1 - p.2) ^ 2).sum ∧
    Dist.dist .sql2simd a b = ((a.zip b).map fun p => (p.1 - p.2) ^ 2).sum ∧
    Dist.dist .l2 a b = Real.sqrt ((a.zip b).map fun p => (p.1 - p.2) ^ 2).sum ∧
    Dist.dist .l2simd a b = Real.sqrt ((a.zip b).map fun p => (p.1 - p.2) ^ 2).sum ∧
    (∀ r, Dist.dist .linf a b ≤ r ↔ 0 ≤ r ∧ ∀ p ∈ a.zip b, |p.1 - p.2| ≤ r) := by
  have h1 : ∀ (l : List (ℝ × ℝ)) (c : ℝ), l.foldl (fun acc p => accL1 acc (p.1 - p.2)) c =
      c + (l.map fun p => |p.1 - p.2|).sum := by
    intro l
    induction l with
    | nil => simp
    | cons p l ih =>
      intro c
      rw [List.foldl_cons, ih, List.map_cons, List.sum_cons, ← add_assoc]
      rfl
  have h2 : ∀ (l : List (ℝ × ℝ)) (c : ℝ), l.foldl (fun acc p => accSq acc (p.1 - p.2)) c =
      c + (l.map fun p => (p.1 - p.2) ^ 2).sum := by
    intro l
    induction l with
    | nil => simp
    | cons p l ih =>
      intro c
      rw [List.foldl_cons, ih, List.map_cons, List.sum_cons, ← add_assoc, pow_two]
      rfl
  have h3 : ∀ (l : List (ℝ × ℝ)) (c r : ℝ), l.foldl (fun acc p => accInf acc (p.1 - p.2)) c ≤ r ↔
      c ≤ r ∧ ∀ p ∈ l, |p.1 - p.2| ≤ r := by
    intro l
    induction l with
    | nil => simp
    | cons p l ih =>
      intro c r
      rw [List.foldl_cons, ih]
      have : accInf c (p.1 - p.2) = max c |p.1 - p.2| := rfl
      rw [this, max_le_iff]
      simp [and_assoc]
  have hs : simdSq a b = distFold accSq a b := rfl
  have hf : (fsqrt : ℝ → ℝ) = Real.sqrt := rfl
  have e1 : distFold accL1 a b = ((a.zip b).map fun p => |p.1 - p.2|).sum := by
    rw [distFold, h1, zero_add]
  have e2 : distFold accSq a b = ((a.zip b).map fun p => (p.1 - p.2) ^ 2).sum := by
    rw [distFold, h2, zero_add]
  refine ⟨e1, e2, ?_, ?_, ?_, fun r => h3 _ 0 r⟩
  · simp only [Dist.dist, hs, e2]
  · simp only [Dist.dist, hf, e2]
  · simp only [Dist.dist, hs, hf, e2]

/-! ### Concrete instances (non-vacuity) and negative results -/

section concrete

private def noMetric : List ℚ → List ℚ → ℚ := fun _ _ => 0

/-- Twelve points on a line, then one more batch; the tree splits. -/
private def X0ex : Mat ℚ := ⟨1, [[0], [1], [2], [3], [4], [5], [6], [7], [8], [9], [10], [11]]⟩
private def addEx : List (Mat ℚ) := [⟨1, [[5], [100]]⟩, ⟨2, [[1, 1]]⟩]

example : ∃ d s, History insertionUSort noMetric noMetric X0ex true "l2" d addEx s :=
  history_exists _ _ _ _ _ (by simp [Spec.metricNames]) (by simp [X0ex]) (by simp [X0ex])
    (by simp [Mat.Rect, X0ex]) _ (by simp [addEx, Mat.Rect])

/-- The model runs: build, add (one batch accepted, one rejected), query. -/
example :
    (match PyKDT.new insertionUSort noMetric noMetric X0ex true "l1" with
    | .ok s0 =>
      let s := s0.adds insertionUSort addEx
      (s.count, (knnUnchecked s.cfg s.tree 3 [5] 100 0).map (·.map fun nb => (nb.dist, nb.item)),
        withinCount s.cfg s.tree [8] 1)
    | .error _ => (none, none, none)) =
    (some 14, some [(0, 5), (0, 12), (1, 6)], some (some 3)) := by decide +kernel

/-- Eleven points on a line: after the split, the query point and the point at distance exactly the bound
lie in different leaves. -/
private def Xbound : Mat ℚ := ⟨1, [[0], [1], [2], [3], [4], [5], [6], [7], [8], [9], [10]]⟩

/-- **C05 is false.**  With bound `1` the row `4` at distance exactly `1` from the query `5` is missing from
the result although fewer than `k` rows were returned (it lies across a split, where the test is strict),
while the row `6`, also at distance exactly `1`, is returned. -/
theorem knn_bound_inclusive_fails :
    (match PyKDT.new insertionUSort noMetric noMetric Xbound true "l1" with
    | .ok s => (knnUnchecked s.cfg s.tree 5 [5] 1 0).map (·.map fun nb => (nb.dist, nb.item))
    | .error _ => none) = some [(0, 5), (1, 6)] := by decide +kernel

end concrete

section partialBound
variable {K : Type} [LinearOrder K] [Zero K] [Add K] [Sub K] [Mul K] [LawfulFloat K]
variable {us : USort} {cosine hav : List K → List K → K} {X0 : Mat K} {balanced : Bool}
  {name : String} {d : Dist K} {adds : List (Mat K)} {s : PyKDT K}

/-- **C05, partial.**  With `epsilon = 0`: when fewer than `k` rows are returned, every supplied row strictly
below the bound is among them and none beyond the bound is.  (Missing from the full claim: rows at exactly
the bound may or may not be returned, see `knn_bound_inclusive_fails`.) -/
theorem knn_bound_partial (h : History us cosine hav X0 balanced name d adds s) {k : Nat} (hk : 0 < k)
    (q : List K) (bound : K) :
    ∃ res, knnUnchecked s.cfg s.tree k q bound 0 = some res ∧ (∀ nb ∈ res, nb.dist ≤ bound) ∧
      (res.length < k →
        (res.filter fun nb => decide (nb.dist < bound)).Perm
          ((Spec.all d q (Spec.numbered (Spec.rows X0 adds))).filter fun nb => decide (nb.dist < bound))) := by
  obtain ⟨res, h1, _, _, hb, om, hperm, ho⟩ := knn_eps h hk q bound (le_refl (0 : K))
  refine ⟨res, h1, hb, fun hlt => ?_⟩
  have h2 := hperm.filter (fun nb => decide (nb.dist < bound))
  have h0 : om.filter (fun nb => decide (nb.dist < bound)) = [] := by
    apply List.filter_eq_nil_iff.2
    intro x hx
    rcases ho x hx with hh | hh
    · rw [LawfulFloat.add_zero'] at hh
      simpa using hh
    · omega
  rw [List.filter_append, h0, List.append_nil] at h2
  exact h2

end partialBound

/-! ### C07 -/

section cosine

/-- Twelve rows in the plane, all of integer length. -/
private def cosRows : List (List ℚ) :=
  [[3, 4], [4, 3], [4, 3], [4, 3], [4, 3], [4, 3], [30, 40], [30, 16], [40, 30], [40, 30], [40, 30],
   [40, 30]]

/-- **C07 is false for the cosine metric**, which `query_dist_from_kth_nb` accepts: for the row `(3,4)` and
`k = 1` the nearest other row `(30,40)` is at cosine distance `0`, but the tree search answers `1/25`. -/
theorem cosine_pruning_fails :
    (match distFromKthNb insertionUSort (cosineDist (· / ·) 1) noMetric 2 cosRows 1 1000 0 "cosine" with
      | .ok col => col.head?
      | _ => none) = some (some (1 / 25)) ∧
    ((cosRows.map fun r => cosineDist (· / ·) 1 r [3, 4]).insertionSort (· ≤ ·))[1]? = some 0 := by
  decide +kernel

end cosine

section prunable
variable {K : Type} [LinearOrder K] [Zero K] [Add K] [Sub K] [Mul K] [LawfulFloat K]

/-- **C07, partial.**  For the metrics `l1`, `l2`, `sql2`, `linf`/`inf` the box distance never exceeds the
distance to a row in the box.  (Missing from the full claim: `cosine`, see `cosine_pruning_fails`, and
`haversine`.) -/
theorem box_pruning_sound_partial (cosine hav : List K → List K → K) {name : String}
    (hm : name ∈ Spec.metricNames) (dim : Nat) :
    ∃ d, Dist.ofString cosine hav name dim = .ok d ∧
      ∀ (lo hi row q : List K), List.Forall₂ (· ≤ ·) lo row → List.Forall₂ (· ≤ ·) row hi →
        boxDist d ⟨lo, hi⟩ q ≤ d.dist row q := by
  obtain ⟨d, hd, hp⟩ := ofString_prunable cosine hav hm dim
  exact ⟨d, hd, fun lo hi row q h1 h2 => boxDist_le hp ⟨h1, h2⟩ q⟩

example : List.Forall₂ (· ≤ ·) ([0, 0] : List ℚ) [1, 2] ∧ List.Forall₂ (· ≤ ·) ([1, 2] : List ℚ) [3, 3] := by
  simp; norm_num

end prunable

end Verif.KDT
