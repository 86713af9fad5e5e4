import Verif.Lemmas.KnnAvg
import Verif.Props.Confusion
import Verif.Model.LinReg

/-!
# Dispatch: names, masks and arguments around the numeric kernels

Parts of C01, C08, C12, C29 and C52 that concern how arguments select the computation.
-/
set_option linter.unusedSectionVars false

namespace Verif.KDT
open Verif FloatOps

section
variable {K : Type} [LinearOrder K] [Zero K] [Add K] [Sub K] [Mul K]

/-- **C01.** The documented metric names: six families under eight names, `haversine` only for two columns,
the vectorised variant of (squared) L2 from 16 columns on; every other name is an error. -/
theorem metric_names (cosine hav : List K → List K → K) (s : String) (dim : Nat) :
    (s = "l1" → Dist.ofString cosine hav s dim = .ok .l1) ∧
    (s = "l2" → dim < 16 → Dist.ofString cosine hav s dim = .ok .l2) ∧
    (s = "l2" → 16 ≤ dim → Dist.ofString cosine hav s dim = .ok .l2simd) ∧
    (s = "sql2" → dim < 16 → Dist.ofString cosine hav s dim = .ok .sql2) ∧
    (s = "sql2" → 16 ≤ dim → Dist.ofString cosine hav s dim = .ok .sql2simd) ∧
    (s ∈ ["linf", "inf"] → Dist.ofString cosine hav s dim = .ok .linf) ∧
    (s = "cosine" → Dist.ofString cosine hav s dim = .ok (.any cosine)) ∧
    (s ∈ ["h", "haversine"] → dim = 2 → Dist.ofString cosine hav s dim = .ok (.any hav)) ∧
    (s ∈ ["h", "haversine"] → dim ≠ 2 → ∃ e, Dist.ofString cosine hav s dim = .error e) ∧
    (s ∉ ["l1", "l2", "sql2", "linf", "inf", "cosine", "h", "haversine"] →
      ∃ e, Dist.ofString cosine hav s dim = .error e) := by
  refine ⟨?_, ?_, ?_, ?_, ?_, ?_, ?_, ?_, ?_, ?_⟩
  · rintro rfl; rfl
  · rintro rfl h; simp [Dist.ofString, h]
  · rintro rfl h; simp [Dist.ofString, not_lt.2 h]
  · rintro rfl h; simp [Dist.ofString, h]
  · rintro rfl h; simp [Dist.ofString, not_lt.2 h]
  · intro h
    simp only [List.mem_cons, List.not_mem_nil, or_false] at h
    rcases h with rfl | rfl <;> rfl
  · rintro rfl; rfl
  · intro h hd
    simp only [List.mem_cons, List.not_mem_nil, or_false] at h
    rcases h with rfl | rfl <;> simp [Dist.ofString, hd]
  · intro h hd
    simp only [List.mem_cons, List.not_mem_nil, or_false] at h
    rcases h with rfl | rfl <;> simp [Dist.ofString, hd]
  · intro h
    simp only [List.mem_cons, List.not_mem_nil, or_false, not_or] at h
    obtain ⟨h1, h2, h3, h4, h5, h6, h7, h8⟩ := h
    exact ⟨_, by simp [Dist.ofString, h1, h2, h3, h4, h5, h6, h7, h8]; rfl⟩

example : (match Dist.ofString (K := ℚ) (fun _ _ => 0) (fun _ _ => 0) "haversine" 3 with
    | .error e => e | .ok _ => "") = "Haversine distance only works with 2-d data." := by decide

end

section
variable {K : Type} [LinearOrder K] [Zero K] [Add K] [Sub K] [Mul K] [LawfulFloat K]

/-- **C08.** The object's `knn` refuses an empty query matrix, `k = 0`, and a query matrix of another width
than the tree; on the rest it never answers with an error. -/
theorem knn_matrix_rejects (s : PyKDT K) (X : Mat K) (k : Nat) (epsilon bound : K) :
    (∃ e, s.knn X k epsilon bound = .error e) ↔
      (X.rows = [] ∨ X.ncols = 0 ∨ k = 0 ∨ X.ncols ≠ s.cfg.dim) := by
  unfold PyKDT.knn Mat.isEmpty
  by_cases h1 : X.rows = []
  · simp [h1]
  · by_cases h2 : X.ncols = 0
    · simp [h2]
    · have : (X.rows.isEmpty || X.ncols == 0) = false := by simp [h1, h2]
      rw [this]
      simp only [Bool.false_eq_true, if_false, h1, h2, false_or]
      split
      · rename_i h
        simp only [Except.error.injEq, exists_eq', true_iff]
        omega
      · rename_i h
        simp only [reduceCtorEq, exists_false, false_iff]
        omega

end

example : (match (⟨⟨2, 1, .l1, .midpoint⟩, newEmpty 2⟩ : PyKDT ℚ).knn ⟨3, [[1, 2, 3]]⟩ 1 0 10 with
    | .error e => e == .badK | .ok _ => false) = true := by decide +kernel

section
variable {K : Type} [Field K] [LinearOrder K] [IsStrictOrderedRing K] [LawfulFloat K]

theorem fromLeaves_count {A : Type} (us : USort) {d : KDT.Dist K} (hd : d.prunable) (m : SplitMethod)
    (dim : Nat) (hdim : 0 < dim) (ps : List (Leaf K A)) (hne : ps ≠ [])
    (hps : ∀ p ∈ ps, p.row.length = dim) :
    ∃ cfg t, fromLeaves us d m ps = some (cfg, t) ∧ ∀ (q : List K) (r : K),
      withinCount cfg t q r =
        if r ≤ 0 + eps then none else some (some (Spec.ball d q r ps).length) := by
  obtain ⟨t, h1, h2, h3⟩ := fromLeaves_spec us d m dim hdim ps hne hps
  refine ⟨_, t, h1, fun q r => ?_⟩
  unfold withinCount
  split
  · rfl
  · obtain ⟨res, r1, r2⟩ := withinLoop_spec (d := d) hd q r dim t.size [(minVal, t)] []
      (by simp [stackSize]) (by
        intro e he; rw [List.mem_singleton.1 he]; exact .root hd h2)
    have := withinCountLoop_eq d q r t.size [(minVal, t)] ([] : List (NB K A))
    simp only [List.length_nil] at this
    rw [this, r1]
    have r3 : res.Perm (Spec.ball d q r ps) := by
      refine r2.trans ?_
      simpa [stackPts] using Spec.ball_perm d q r h3
    simp [r3.length_eq]

/-- Rows as points without a payload. -/
def Spec.plain (rows : List (List K)) : List (Leaf K Unit) := rows.map fun r => ⟨(), r⟩

/-- **C52.** `query_nb_cnt` on complete rows.  With one radius for all rows every entry is the number of rows
(the row itself included) within the radius, null if the radius is not above `eps`; a single null radius
panics.  With one radius per row (at least two rows) each row is counted with its own radius, and a null
radius gives a null count.  Any other number of radii is an error. -/
theorem nb_cnt_exact (us : USort) (cosine hav : List K → List K → K) (ncols : Nat) (hn : 0 < ncols)
    (rows : List (List K)) (hne : rows ≠ []) (hrows : ∀ r ∈ rows, r.length = ncols)
    (metric : String) (hm : metric ∈ Spec.metricNames) :
    ∃ d, Dist.ofString cosine hav metric ncols = .ok d ∧
      (∀ r, nbCnt us cosine hav ncols [some r] rows metric =
        .ok (rows.map fun q => if r ≤ 0 + eps then none
          else some (Spec.ball d q r (Spec.plain rows)).length)) ∧
      nbCnt us cosine hav ncols [none] rows metric = .panic ∧
      (∀ radius : List (Option K), radius.length ≠ 1 → radius.length = rows.length →
        ∃ col, nbCnt us cosine hav ncols radius rows metric = .ok col ∧ col.length = rows.length ∧
          ∀ (i : Nat) (q : List K), rows[i]? = some q →
            (radius[i]? = some none → col[i]? = some none) ∧
            (∀ r, radius[i]? = some (some r) → col[i]? = some (if r ≤ 0 + eps then none
              else some (Spec.ball d q r (Spec.plain rows)).length))) ∧
      (∀ radius : List (Option K), radius.length ≠ 1 → radius.length ≠ rows.length →
        ∃ e, nbCnt us cosine hav ncols radius rows metric = .err e) := by
  obtain ⟨d, hd1, hd2⟩ := ofString_prunable cosine hav hm ncols
  have hpl : (Spec.plain rows) ≠ [] := by simpa [Spec.plain] using hne
  obtain ⟨cfg, t, ht, hq⟩ := fromLeaves_count us hd2 .midpoint ncols hn (Spec.plain rows) hpl (by
    intro p hp
    obtain ⟨r, hr, rfl⟩ := List.mem_map.1 hp
    exact hrows r hr)
  have hq' : ∀ q r, (withinCount cfg t q r).bind id =
      if r ≤ 0 + eps then none else some (Spec.ball d q r (Spec.plain rows)).length := by
    intro q r
    rw [hq]
    split <;> rfl
  unfold Spec.plain at ht
  refine ⟨d, hd1, fun r => ?_, rfl, fun radius h1 h2 => ?_, fun radius h1 h2 => ?_⟩
  · simp only [nbCnt, hd1, ht, hq']
  · refine ⟨(rows.zip radius).map fun x => x.2.bind fun r =>
      if r ≤ 0 + eps then none else some (Spec.ball d x.1 r (Spec.plain rows)).length, ?_, by simp [h2], ?_⟩
    · have hfun : ∀ x : List K × Option K, (match x.2 with
            | some r => (withinCount cfg t x.1 r).bind id
            | none => none) = x.2.bind fun r =>
          if r ≤ 0 + eps then none else some (Spec.ball d x.1 r (Spec.plain rows)).length := by
        rintro ⟨q, _ | r⟩
        · rfl
        · exact hq' q r
      unfold nbCnt
      split
      · simp at h1
      · simp at h1
      · rw [if_pos h2]
        simp only [hd1, ht]
        congr 1
        exact List.map_congr_left fun x _ => hfun x
    · intro i q hi
      constructor
      · intro hr
        rw [List.getElem?_map, List.getElem?_zip_eq_some (z := (q, none)) |>.2 ⟨hi, hr⟩]
        rfl
      · intro r hr
        rw [List.getElem?_map, List.getElem?_zip_eq_some (z := (q, some r)) |>.2 ⟨hi, hr⟩]
        rfl
  · unfold nbCnt
    split
    · simp at h1
    · simp at h1
    · rw [if_neg h2]
      exact ⟨_, rfl⟩

/-- **C52.** `query_dist_from_kth_nb` on complete rows: each entry is the largest distance in an exact answer to
"the `k+1` nearest rows within the bound". -/
theorem dist_from_kth_nb_exact (us : USort) (cosine hav : List K → List K → K) (ncols : Nat) (hn : 0 < ncols)
    (rows : List (List K)) (hne : rows ≠ []) (hrows : ∀ r ∈ rows, r.length = ncols) (k : Nat) (bound : K)
    (hb : eps < bound) (metric : String) (hm : metric ∈ Spec.metricNames) :
    ∃ d col, Dist.ofString cosine hav metric ncols = .ok d ∧
      distFromKthNb us cosine hav ncols rows k bound 0 metric = .ok col ∧ col.length = rows.length ∧
      ∀ (i : Nat) (q : List K), rows[i]? = some q →
        ∃ nbs, Spec.Nearest (k + 1) bound nbs (Spec.all d q (Spec.plain rows)) ∧
          (nbs = [] → col[i]? = some none) ∧
          (nbs ≠ [] → ∃ nb ∈ nbs, col[i]? = some (some nb.dist) ∧ ∀ x ∈ nbs, x.dist ≤ nb.dist) := by
  obtain ⟨d, hd1, hd2⟩ := ofString_prunable cosine hav hm ncols
  have hpl : (Spec.plain rows) ≠ [] := by simpa [Spec.plain] using hne
  obtain ⟨cfg, t, ht, hq⟩ := fromLeaves_knn us hd2 .midpoint ncols hn (Spec.plain rows) hpl (by
    intro p hp
    obtain ⟨r, hr, rfl⟩ := List.mem_map.1 hp
    exact hrows r hr)
  have ht' := ht
  unfold Spec.plain at ht'
  refine ⟨d, rows.map fun q => match (knnBounded cfg t (k + 1) q bound 0).bind id with
        | some nbs => nbs.getLast?.map (·.dist)
        | none => none, hd1, by simp only [distFromKthNb, hd1, ht']; rfl, by simp, ?_⟩
  intro i q hi
  obtain ⟨nbs, n1, n2⟩ := hq (k + 1) q bound (by omega) (hrows q (List.mem_of_getElem? hi)) hb
  refine ⟨nbs, n2, ?_, ?_⟩
  · rintro rfl
    simp [hi, n1]
  · intro hnn
    refine ⟨nbs.getLast hnn, List.getLast_mem hnn, ?_, ?_⟩
    · simp [hi, n1, List.getLast?_eq_getLast_of_ne_nil hnn]
    · intro x hx
      have hs := n2.sorted
      rw [← List.dropLast_append_getLast hnn, List.pairwise_append] at hs
      rw [← List.dropLast_append_getLast hnn] at hx
      rcases List.mem_append.1 hx with h | h
      · exact hs.2.2 x h _ (by simp)
      · rw [List.mem_singleton.1 h]

example : nbCnt insertionUSort (fun _ _ => 0) (fun _ _ => 0) 1 [some 1, none, some 10]
    ([[0], [1], [5]] : List (List ℚ)) "l1" = .ok [some 2, none, some 3] := by decide +kernel

example : nbCnt insertionUSort (fun _ _ => 0) (fun _ _ => 0) 1 [some 4]
    ([[0], [1], [5]] : List (List ℚ)) "l1" = .ok [some 2, some 3, some 2] := by decide +kernel

example : distFromKthNb insertionUSort (fun _ _ => 0) (fun _ _ => 0) 1
    ([[0], [1], [5]] : List (List ℚ)) 1 100 0 "l1" = .ok [some 1, some 1, some 4] := by decide +kernel

end
end Verif.KDT

namespace Verif.LinReg
variable {K : Type} [Field K] [LinearOrder K]

/-- **C12.** Which penalties are active is read off the two strengths: the fit has an L1 part exactly when
`l1 > 0` and an L2 part exactly when `l2 > 0`. -/
theorem method_of_strengths (l1 l2 : K) :
    ((LRMethod.ofRegs l1 l2 = .l1 ∨ LRMethod.ofRegs l1 l2 = .elasticNet) ↔ 0 < l1) ∧
    ((LRMethod.ofRegs l1 l2 = .l2 ∨ LRMethod.ofRegs l1 l2 = .elasticNet) ↔ 0 < l2) ∧
    (LRMethod.ofRegs l1 l2 = .normal ↔ l1 ≤ 0 ∧ l2 ≤ 0) := by
  unfold LRMethod.ofRegs
  rcases le_or_gt l1 0 with h1 | h1 <;> rcases le_or_gt l2 0 with h2 | h2 <;>
    simp [h1, h2, not_lt.2, not_le.2]

example : LRMethod.ofRegs (1 / 10 : ℚ) 0 = .l1 := by decide +kernel

end Verif.LinReg

namespace Verif.Confusion
open Val

/-- **C29.** The Fowlkes–Mallows index is the geometric mean of precision and recall, as a ratio of counts. -/
theorem confusion_fowlkes_mallows (c : Counts) (h1 : 0 < c.tp + c.fn) (h2 : 0 < c.tp + c.fp) :
    (metrics .float Real.sqrt c).folkesMallows =
      .num ((c.tp : ℝ) / Real.sqrt ((c.tp + c.fp) * (c.tp + c.fn))) := by
  have h := confusion_ratios_partial Real.sqrt c
  simp only at h
  obtain ⟨e1, -, -, -, e5, -⟩ := h
  rw [if_neg (by omega)] at e1 e5
  have q1 : (0 : ℝ) < c.tp + c.fn := by exact_mod_cast h1
  have q2 : (0 : ℝ) < c.tp + c.fp := by exact_mod_cast h2
  show Val.fsqrt Real.sqrt (Val.fmul (metrics .float Real.sqrt c).precision (metrics .float Real.sqrt c).tpr) = _
  rw [e1, e5]
  have n1 : (0 : ℝ) ≤ (c.tp : ℝ) / (c.tp + c.fp) * (c.tp / (c.tp + c.fn)) := by positivity
  simp only [Val.fmul, Val.fsqrt, not_lt.2 n1, if_false, Val.num.injEq]
  rw [show (c.tp : ℝ) / (c.tp + c.fp) * (c.tp / (c.tp + c.fn)) =
    (c.tp : ℝ) ^ 2 / ((c.tp + c.fp) * (c.tp + c.fn)) by field_simp,
    Real.sqrt_div (by positivity), Real.sqrt_sq (by positivity)]

/-- **C29.** The prevalence threshold is `√FPR / (√TPR + √FPR)` whenever the two rates differ, and lies in
`[0, 1]`. -/
theorem confusion_prevalence_threshold (c : Counts) (h1 : 0 < c.tp + c.fn) (h2 : 0 < c.fp + c.tn)
    (h3 : (c.tp : ℝ) / (c.tp + c.fn) ≠ c.fp / (c.fp + c.tn)) :
    ∃ v : ℝ, (metrics .float Real.sqrt c).prevalenceThreshold = .num v ∧ 0 ≤ v ∧ v ≤ 1 ∧
      v = Real.sqrt (c.fp / (c.fp + c.tn)) /
        (Real.sqrt (c.tp / (c.tp + c.fn)) + Real.sqrt (c.fp / (c.fp + c.tn))) := by
  have h := confusion_ratios_partial Real.sqrt c
  simp only at h
  obtain ⟨e1, e2, -⟩ := h
  rw [if_neg (by omega)] at e1 e2
  have q1 : (0 : ℝ) < c.tp + c.fn := by exact_mod_cast h1
  have q2 : (0 : ℝ) < c.fp + c.tn := by exact_mod_cast h2
  have he : (metrics .float Real.sqrt c).prevalenceThreshold =
      Val.fdiv (Val.fsub (Val.fsqrt Real.sqrt (Val.fmul (metrics .float Real.sqrt c).tpr
        (metrics .float Real.sqrt c).fpr)) (metrics .float Real.sqrt c).fpr)
        (Val.fsub (metrics .float Real.sqrt c).tpr (metrics .float Real.sqrt c).fpr) := rfl
  rw [he, e1, e2]
  generalize hx : (c.tp : ℝ) / (c.tp + c.fn) = x at *
  generalize hy : (c.fp : ℝ) / (c.fp + c.tn) = y at *
  have x0 : 0 ≤ x := by rw [← hx]; positivity
  have y0 : 0 ≤ y := by rw [← hy]; positivity
  have n1 : 0 ≤ x * y := mul_nonneg x0 y0
  have hval : Real.sqrt (x * y) = Real.sqrt x * Real.sqrt y := Real.sqrt_mul x0 y
  have hs : 0 < Real.sqrt x + Real.sqrt y := by
    rcases lt_or_gt_of_ne h3 with h | h
    · have := Real.sqrt_pos.2 (lt_of_le_of_lt x0 h); positivity
    · have := Real.sqrt_pos.2 (lt_of_le_of_lt y0 h); positivity
  have hd : x - y ≠ 0 := sub_ne_zero.2 h3
  refine ⟨Real.sqrt y / (Real.sqrt x + Real.sqrt y), ?_, by positivity, ?_, rfl⟩
  · simp only [Val.fmul, Val.fsqrt, not_lt.2 n1, if_false, Val.fsub, Val.fdiv, hd, Val.num.injEq]
    rw [hval, div_eq_div_iff hd hs.ne']
    have sx := Real.mul_self_sqrt x0
    have sy := Real.mul_self_sqrt y0
    generalize Real.sqrt x = a at *
    generalize Real.sqrt y = b at *
    subst sx
    subst sy
    ring
  · rw [div_le_one hs]
    linarith [Real.sqrt_nonneg x]

example : 0 < (⟨4, 1, 1, 3⟩ : Counts).tp + (⟨4, 1, 1, 3⟩ : Counts).fn ∧
    ((4 : ℝ) / (4 + 1) ≠ 1 / (1 + 3)) := by
  refine ⟨by decide, by norm_num⟩

end Verif.Confusion
