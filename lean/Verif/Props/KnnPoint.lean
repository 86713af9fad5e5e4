import Verif.Model.KnnPoint
import Mathlib.Analysis.Real.Sqrt
import Mathlib.Tactic.Linarith
import Mathlib.Tactic.NormNum

/-!
# C117: `within_dist_from` and `is_knn_from`
-/

namespace Verif.KnnPoint
open Verif.Pl

variable {K : Type} [Field K] [LinearOrder K]

/-! ## Specification -/

namespace Spec

/-- The distance a metric name stands for, written out for complete points (`l2` is not a field function: see
`Spec.withinL2`). -/
def dist (ops : Ops K) (name : String) (p x : List K) : Option K :=
  match name with
  | "l1" => some (List.zipWith (fun a b => |a - b|) x p).sum
  | "sql2" => some (List.zipWith (fun a b => (a - b) * (a - b)) x p).sum
  | "inf" => some ((List.zipWith (fun a b => |a - b|) x p).foldr max 0)
  | "cosine" => some (1 - (List.zipWith (· * ·) x p).sum / ops.sqrt ((x.map (· ^ 2)).sum * (p.map (· ^ 2)).sum))
  | "haversine" => match x, p with
    | [a, b], [c, d] => some (ops.hav a b c d)
    | _, _ => none
  | _ => none

/-- `x` lies within Euclidean distance `r` of `p`, without a square root. -/
def withinL2 (p x : List K) (r : K) : Prop :=
  0 ≤ r ∧ (List.zipWith (fun a b => (a - b) * (a - b)) x p).sum ≤ r * r

/-- Number of values strictly below `d`. -/
def closer (ds : List K) (d : K) : Nat := ds.countP fun y => decide (y < d)

/-- The rows marked true. -/
def marked (l : List (Option Bool)) : Nat := l.countP fun b => b == some true

end Spec

/-! ## Lemmas -/

theorem filterMap_id_some {α : Type} (l : List α) : (l.map some).filterMap id = l := by
  induction l with
  | nil => rfl
  | cons a l ih => simp

omit [LinearOrder K] in
theorem diffs_complete (f : K → K) (pt x : List K) :
    (diffs f pt (x.map some)).filterMap id = List.zipWith (fun a b => f (a - b)) x pt := by
  induction pt generalizing x with
  | nil => cases x <;> rfl
  | cons p pt ih =>
    cases x with
    | nil => rfl
    | cons a x => simpa [diffs] using ih x

theorem max?_foldr [IsStrictOrderedRing K] (l : List K) (hl : l ≠ []) (h0 : ∀ a ∈ l, 0 ≤ a) :
    l.max? = some (l.foldr max 0) := by
  rw [List.max?_eq_some_iff]
  induction l with
  | nil => exact absurd rfl hl
  | cons a l ih =>
    rw [List.foldr_cons]
    by_cases h : l = []
    · subst h
      have := h0 a (by simp)
      simp [max_eq_left this]
    · obtain ⟨h1, h2⟩ := ih h fun b hb => h0 b (by simp [hb])
      constructor
      · rcases max_choice a (l.foldr max 0) with e | e <;> rw [e] <;> simp [h1]
      · intro b hb
        rcases List.mem_cons.mp hb with rfl | hb
        · exact le_max_left _ _
        · exact le_trans (h2 b hb) (le_max_right _ _)

omit [LinearOrder K] in
theorem zipWith_comm_mul (p x : List K) :
    (List.zipWith (fun a e => Option.map (fun v => a * v) e) p (x.map some)).filterMap id = List.zipWith (· * ·) x p := by
  induction p generalizing x with
  | nil => cases x <;> rfl
  | cons a p ih =>
    cases x with
    | nil => rfl
    | cons b x => simpa [mul_comm] using ih x

omit [LinearOrder K] in
theorem sq_complete (x : List K) :
    ((x.map some).map fun e => e.map fun v => v * v).filterMap id = x.map (· ^ 2) := by
  induction x with
  | nil => rfl
  | cons a x ih => simp [pow_two]

/-- On complete points the expression is the distance named. -/
theorem distOf_complete [IsStrictOrderedRing K] (ops : Ops K) {name : String} {pt : List K} (hne : pt ≠ [])
    (hname : (name = "l1" ∨ name = "sql2" ∨ name = "inf" ∨ name = "cosine") ∨ (name = "haversine" ∧ pt.length = 2)) :
    ∃ d, distOf ops name pt pt.length = .ok d ∧
      ∀ x : List K, x.length = pt.length → d (x.map some) = Spec.dist ops name pt x ∧ (d (x.map some)).isSome := by
  rcases hname with (rfl | rfl | rfl | rfl) | ⟨rfl, h2⟩
  · refine ⟨fun row => sumH (diffs (fun t => |t|) pt row), by simp [distOf, distExpr], fun x hx => ?_⟩
    simp only [Spec.dist, sumH, diffs_complete, Option.isSome_some, and_self]
  · refine ⟨fun row => sumH (diffs (fun t => t ^ 2) pt row), by simp [distOf, distExpr], fun x hx => ?_⟩
    simp only [Spec.dist, sumH, diffs_complete, pow_two, Option.isSome_some, and_self]
  · refine ⟨fun row => maxH (diffs (fun t => |t|) pt row), by simp [distOf, distExpr], fun x hx => ?_⟩
    have h : maxH (diffs (fun t => |t|) pt (x.map some)) =
        some ((List.zipWith (fun a b => |a - b|) x pt).foldr max 0) := by
      rw [maxH, diffs_complete]
      apply max?_foldr
      · cases x <;> cases pt <;> simp_all
      · intro a ha
        rw [← List.map_uncurry_zip_eq_zipWith] at ha
        obtain ⟨p, _, rfl⟩ := List.mem_map.mp ha
        exact abs_nonneg _
    simp [Spec.dist, h]
  · refine ⟨_, by simp [distOf, distExpr]; rfl, fun x hx => ?_⟩
    simp only [sumH, zipWith_comm_mul, sq_complete, opt2, Option.map_some, Spec.dist, Option.isSome_some, and_true]
    simp only [pow_two, mul_comm]
  · refine ⟨_, by simp [distOf, distExpr, h2]; rfl, fun x hx => ?_⟩
    match pt, x, h2, hx with
    | [c, d], [a, b], _, _ => simp [Spec.dist]

section rank

omit [Field K] in
theorem closer_lt_iff {s : List K} (hs : s.Pairwise (· ≤ ·)) {x : K} (hx : x ∈ s) (k : Nat) :
    (∃ y ∈ s.take k, x ≤ y) ↔ Spec.closer s x < k := by
  constructor
  · rintro ⟨y, hy, hxy⟩
    obtain ⟨i, hi, rfl⟩ := List.mem_iff_getElem.mp hy
    rw [List.length_take] at hi
    rw [List.getElem_take] at hxy
    have hsplit : s = s.take i ++ s.drop i := (List.take_append_drop i s).symm
    have h0 : Spec.closer (s.drop i) x = 0 := by
      rw [Spec.closer, List.countP_eq_zero]
      intro z hz
      obtain ⟨j, hj, rfl⟩ := List.mem_iff_getElem.mp hz
      rw [List.getElem_drop]
      have hle : s[i]'(by omega) ≤ s[i + j]'(by simp at hj; omega) := by
        rcases Nat.eq_zero_or_pos j with rfl | hpos
        · exact le_rfl
        · exact List.pairwise_iff_getElem.mp hs _ _ _ _ (by omega)
      simpa using le_trans hxy hle
    have h1 : Spec.closer s x = Spec.closer (s.take i) x + Spec.closer (s.drop i) x := by
      conv_lhs => rw [hsplit]
      simp only [Spec.closer, List.countP_append]
    have h2 : Spec.closer (s.take i) x ≤ (s.take i).length := List.countP_le_length
    rw [List.length_take] at h2
    omega
  · intro h
    by_contra hno
    push Not at hno
    have hall : Spec.closer (s.take k) x = (s.take k).length := by
      rw [Spec.closer, List.countP_eq_length]
      intro y hy
      simpa using hno y hy
    have hsub : Spec.closer (s.take k) x ≤ Spec.closer s x :=
      (List.take_sublist k s).countP_le
    rw [List.length_take] at hall
    have hn : s.length < k := by omega
    rw [List.take_of_length_le hn.le] at hno
    exact absurd (hno x hx) (lt_irrefl _)

omit [Field K] in
theorem max?_le_iff {l : List K} {m x : K} (h : l.max? = some m) : x ≤ m ↔ ∃ y ∈ l, x ≤ y := by
  obtain ⟨h1, h2⟩ := List.max?_eq_some_iff.mp h
  exact ⟨fun hx => ⟨m, h1, hx⟩, fun ⟨y, hy, hxy⟩ => le_trans hxy (h2 y hy)⟩

omit [Field K] in
theorem kthBound_spec (ds : List K) {k : Nat} (hk : 1 ≤ k) {x : K} (hx : x ∈ ds) :
    opt2 (fun a b => decide (a ≤ b)) (some x) (kthBound (ds.map some) k) = some (decide (Spec.closer ds x < k)) := by
  have hperm := List.perm_insertionSort (· ≤ ·) ds
  have hs : (ds.insertionSort (· ≤ ·)).Pairwise (· ≤ ·) := List.pairwise_insertionSort _ _
  have hx' : x ∈ ds.insertionSort (· ≤ ·) := hperm.mem_iff.mpr hx
  have hne : (ds.insertionSort (· ≤ ·)).take k ≠ [] := by
    intro h
    rcases List.take_eq_nil_iff.mp h with h | h
    · omega
    · rw [h] at hx'; simp at hx'
  rw [kthBound, filterMap_id_some]
  cases hm : ((ds.insertionSort (· ≤ ·)).take k).max? with
  | none => exact absurd (List.max?_eq_none_iff.mp hm) hne
  | some m =>
    have e : Spec.closer (ds.insertionSort (· ≤ ·)) x = Spec.closer ds x := hperm.countP_eq _
    simp only [opt2, Option.some.injEq, decide_eq_decide]
    rw [max?_le_iff hm, closer_lt_iff hs hx', e]

omit [Field K] in
/-- In a sorted list at least `k` of at least `k` values have fewer than `k` values below them. -/
theorem rank_count_ge (ds : List K) {k : Nat} (hn : k ≤ ds.length) :
    k ≤ ds.countP fun x => decide (Spec.closer ds x < k) := by
  have hperm := List.perm_insertionSort (· ≤ ·) ds
  have hs : (ds.insertionSort (· ≤ ·)).Pairwise (· ≤ ·) := List.pairwise_insertionSort _ _
  set s := ds.insertionSort (· ≤ ·) with hsdef
  have e : ∀ x, Spec.closer ds x = Spec.closer s x := fun x => (hperm.countP_eq _).symm
  simp only [e]
  rw [← hperm.countP_eq]
  have h1 : (s.take k).countP (fun x => decide (Spec.closer s x < k)) = (s.take k).length := by
    rw [List.countP_eq_length]
    intro y hy
    rw [decide_eq_true_iff, ← closer_lt_iff hs (List.mem_of_mem_take hy)]
    exact ⟨y, hy, le_rfl⟩
  have h2 := (List.take_sublist k s).countP_le (p := fun x => decide (Spec.closer s x < k))
  have h3 : s.length = ds.length := hperm.length_eq
  rw [h1, List.length_take] at h2
  omega

omit [Field K] in
theorem rank_count_eq (ds : List K) (hd : ds.Nodup) {k : Nat} (hn : k ≤ ds.length) :
    ds.countP (fun x => decide (Spec.closer ds x < k)) = k := by
  apply le_antisymm _ (rank_count_ge ds hn)
  have hperm := List.perm_insertionSort (· ≤ ·) ds
  have hs : (ds.insertionSort (· ≤ ·)).Pairwise (· ≤ ·) := List.pairwise_insertionSort _ _
  set s := ds.insertionSort (· ≤ ·) with hsdef
  have hsd : s.Nodup := hperm.nodup_iff.mpr hd
  have e : ∀ x, Spec.closer ds x = Spec.closer s x := fun x => (hperm.countP_eq _).symm
  simp only [e]
  rw [← hperm.countP_eq]
  have hsplit : s = s.take k ++ s.drop k := (List.take_append_drop k s).symm
  have h0 : (s.drop k).countP (fun x => decide (Spec.closer s x < k)) = 0 := by
    rw [List.countP_eq_zero]
    intro z hz hlt
    rw [decide_eq_true_iff, ← closer_lt_iff hs (List.mem_of_mem_drop hz)] at hlt
    obtain ⟨y, hy, hzy⟩ := hlt
    rw [hsplit] at hs hsd
    have h1 := (List.pairwise_append.mp hs).2.2 y hy z hz
    have h2 := (List.nodup_append.mp hsd).2.2 y hy z hz
    exact h2 (le_antisymm h1 hzy)
  have h1 : s.countP (fun x => decide (Spec.closer s x < k)) =
      (s.take k).countP (fun x => decide (Spec.closer s x < k)) +
      (s.drop k).countP (fun x => decide (Spec.closer s x < k)) := by
    conv_lhs => arg 2; rw [hsplit]
    rw [List.countP_append]
  have h2 : (s.take k).countP (fun x => decide (Spec.closer s x < k)) ≤ (s.take k).length := List.countP_le_length
  rw [List.length_take] at h2
  omega

end rank

/-! ## Properties -/

section props

variable [IsStrictOrderedRing K]

/-- **C117a.** For the metrics `l1`, `sql2`, `inf`, `cosine` and (in two dimensions) `haversine`, `within_dist_from` marks a
row without nulls exactly if its distance to the point is at most the radius of the row; a null radius gives null. -/
theorem within_dist_from_exact_partial (ops : Ops K) {name : String} {pt : List K} (hne : pt ≠ [])
    (hname : (name = "l1" ∨ name = "sql2" ∨ name = "inf" ∨ name = "cosine") ∨ (name = "haversine" ∧ pt.length = 2))
    (rows : List (List (Option K))) (r : List (Option K)) (hr : r.length = rows.length) :
    ∃ out : List (Option Bool), withinDistFrom ops name pt pt.length rows r = .ok out ∧ out.length = rows.length ∧
      ∀ (i : Nat) (x : List K) (ri : K), rows[i]? = some (x.map some) → x.length = pt.length →
        (r[i]? = some (some ri) → ∃ dx, Spec.dist ops name pt x = some dx ∧ out[i]? = some (some (decide (dx ≤ ri)))) ∧
        (r[i]? = some none → out[i]? = some none) := by
  obtain ⟨d, hd, hspec⟩ := distOf_complete ops hne hname
  refine ⟨List.zipWith (fun row r => opt2 (fun a b => decide (a ≤ b)) (d row) r) rows r,
    by simp only [withinDistFrom, hd, Except.map], by simp [hr], ?_⟩
  intro i x ri hrow hx
  obtain ⟨h1, h2⟩ := hspec x hx
  obtain ⟨dx, hdx⟩ := Option.isSome_iff_exists.mp h2
  constructor
  · intro hri
    refine ⟨dx, by rw [← h1, hdx], ?_⟩
    simp [List.getElem?_zipWith, hrow, hri, hdx, opt2]
  · intro hri
    simp [List.getElem?_zipWith, hrow, hri, hdx, opt2]

omit [IsStrictOrderedRing K] in
/-- **C117, disagreement.** With `dist = "l2"` the *squared* distance is compared with the radius: the answer is that of `sql2`
for every frame. -/
theorem within_dist_from_l2 (ops : Ops K) (pt : List K) (nfeat : Nat) (rows : List (List (Option K))) (r : List (Option K)) :
    withinDistFrom ops "l2" pt nfeat rows r = withinDistFrom ops "sql2" pt nfeat rows r := by
  simp [withinDistFrom, distOf, distExpr]

/-- **C117, disagreement.** A null feature does not make the answer null: in `l1`, `l2` and `sql2` it counts as if it were equal
to the coordinate of the point. -/
theorem within_dist_from_null (ops : Ops K) {name : String} (hname : name = "l1" ∨ name = "l2" ∨ name = "sql2")
    (pt : List K) (row : List (Option K)) (r : Option K) :
    withinDistFrom ops name pt pt.length [row] [r] =
      withinDistFrom ops name pt pt.length [List.zipWith (fun x e => some (e.getD x)) pt row] [r] := by
  have key : ∀ f : K → K, f 0 = 0 → sumH (diffs f pt row) =
      sumH (diffs f pt (List.zipWith (fun x e => some (e.getD x)) pt row)) := by
    intro f hf
    simp only [sumH, Option.some.injEq]
    clear r
    induction pt generalizing row with
    | nil => rfl
    | cons p pt ih =>
      cases row with
      | nil => rfl
      | cons e row =>
        have := ih row
        cases e with
        | none => simpa [diffs, hf] using this
        | some v => simpa [diffs] using this
  rcases hname with rfl | rfl | rfl
  · simp [withinDistFrom, distOf, distExpr, Except.map, ← key (fun t => |t|) abs_zero]
  · simp [withinDistFrom, distOf, distExpr, Except.map, ← key (fun t => t ^ 2) (by simp)]
  · simp [withinDistFrom, distOf, distExpr, Except.map, ← key (fun t => t ^ 2) (by simp)]

omit [IsStrictOrderedRing K] in
/-- A point of another length than the number of features, and an unknown metric, are errors in both functions. -/
theorem pt_checks (ops : Ops K) (pt : List K) (nfeat : Nat) (rows : List (List (Option K))) (r : List (Option K)) (k : Nat)
    (name : String) :
    (pt.length ≠ nfeat → withinDistFrom ops name pt nfeat rows r = .error .dimension ∧
      isKnnFrom ops name pt nfeat rows k = .error .dimension) ∧
    (pt.length = nfeat → name ∉ ["l1", "l2", "sql2", "inf", "cosine", "h", "haversine"] →
      withinDistFrom ops name pt nfeat rows r = .error .unknown ∧ isKnnFrom ops name pt nfeat rows k = .error .unknown) := by
  constructor
  · intro h
    simp [withinDistFrom, isKnnFrom, distOf, h, Except.map]
  · intro h hn
    simp only [List.mem_cons, List.not_mem_nil, or_false, not_or] at hn
    obtain ⟨h1, h2, h3, h4, h5, h6, h7⟩ := hn
    simp [withinDistFrom, isKnnFrom, distOf, distExpr, h, h1, h2, h3, h4, h5, h6, h7, Except.map]

/-- **C117b.** On rows without nulls `is_knn_from` marks row `i` exactly if fewer than `k` rows are strictly closer to the
point.  At least `k` rows are marked if there are that many, and exactly `k` if no two distances are equal. -/
theorem is_knn_from_exact_partial (ops : Ops K) {name : String} {pt : List K} (hne : pt ≠ [])
    (hname : (name = "l1" ∨ name = "sql2" ∨ name = "inf" ∨ name = "cosine") ∨ (name = "haversine" ∧ pt.length = 2))
    (xs : List (List K)) (hx : ∀ x ∈ xs, x.length = pt.length) {k : Nat} (hk : 1 ≤ k) :
    ∃ (out : List (Option Bool)) (ds : List K), isKnnFrom ops name pt pt.length (xs.map (·.map some)) k = .ok out ∧
      xs.map (Spec.dist ops name pt) = ds.map some ∧
      out = ds.map (fun d => some (decide (Spec.closer ds d < k))) ∧
      (k ≤ xs.length → k ≤ Spec.marked out) ∧ (k ≤ xs.length → ds.Nodup → Spec.marked out = k) := by
  obtain ⟨d, hd, hspec⟩ := distOf_complete ops hne hname
  set ds := xs.map fun x => (d (x.map some)).getD 0 with hds
  have hsome : ∀ x ∈ xs, d (x.map some) = some ((d (x.map some)).getD 0) := by
    intro x hxm
    obtain ⟨v, hv⟩ := Option.isSome_iff_exists.mp (hspec x (hx x hxm)).2
    rw [hv]; rfl
  have h1 : (xs.map (·.map some)).map d = ds.map some := by
    rw [hds, List.map_map, List.map_map]
    apply List.map_congr_left
    intro x hxm
    exact hsome x hxm
  have h2 : xs.map (Spec.dist ops name pt) = ds.map some := by
    rw [← h1, List.map_map]
    apply List.map_congr_left
    intro x hxm
    exact ((hspec x (hx x hxm)).1).symm
  have hout : isKnnFrom ops name pt pt.length (xs.map (·.map some)) k =
      .ok (ds.map fun x => some (decide (Spec.closer ds x < k))) := by
    simp only [isKnnFrom, hd, Except.map, h1, List.map_map]
    congr 1
    apply List.map_congr_left
    intro x hxm
    exact kthBound_spec ds hk hxm
  have hm : Spec.marked (ds.map fun x => some (decide (Spec.closer ds x < k))) =
      ds.countP (fun x => decide (Spec.closer ds x < k)) := by
    rw [Spec.marked, List.countP_map]
    apply List.countP_congr
    intro x _
    simp
  have hlen : ds.length = xs.length := by simp [hds]
  refine ⟨_, ds, hout, h2, rfl, fun h => ?_, fun h hnd => ?_⟩
  · rw [hm]; exact rank_count_ge ds (by omega)
  · rw [hm]; exact rank_count_eq ds hnd (by omega)

end props

/-- **C117c.** `l2` ranks by the squared distance, which is the same ranking: over the reals `is_knn_from` with `l2` marks
row `i` exactly if fewer than `k` rows have a smaller Euclidean distance. -/
theorem is_knn_from_l2 (ops : Ops ℝ) {pt : List ℝ} (hne : pt ≠ []) (xs : List (List ℝ))
    (hx : ∀ x ∈ xs, x.length = pt.length) {k : Nat} (hk : 1 ≤ k) :
    ∃ out, isKnnFrom ops "l2" pt pt.length (xs.map (·.map some)) k = .ok out ∧
      let ds := xs.map fun x => Real.sqrt (List.zipWith (fun a b => (a - b) * (a - b)) x pt).sum
      out = ds.map fun d => some (decide (Spec.closer ds d < k)) := by
  obtain ⟨out, ds, h1, h2, h3, -, -⟩ := is_knn_from_exact_partial ops (name := "sql2") hne (Or.inl (by simp)) xs hx hk
  refine ⟨out, by rw [← h1]; simp [isKnnFrom, distOf, distExpr], ?_⟩
  have h4 : ds = xs.map fun x => (List.zipWith (fun a b => (a - b) * (a - b)) x pt).sum := by
    have : Function.Injective (List.map (some : ℝ → Option ℝ)) :=
      List.map_injective_iff.mpr (Option.some_injective _)
    apply this
    rw [← h2, List.map_map]
    rfl
  have hnn : ∀ d ∈ ds, 0 ≤ d := by
    intro d hd
    rw [h4] at hd
    obtain ⟨x, -, rfl⟩ := List.mem_map.mp hd
    apply List.sum_nonneg
    intro a ha
    rw [← List.map_uncurry_zip_eq_zipWith] at ha
    obtain ⟨p, _, rfl⟩ := List.mem_map.mp ha
    exact mul_self_nonneg _
  have h5 : (xs.map fun x => Real.sqrt (List.zipWith (fun a b => (a - b) * (a - b)) x pt).sum) = ds.map Real.sqrt := by
    rw [h4, List.map_map]; rfl
  simp only [h5, h3, List.map_map]
  apply List.map_congr_left
  intro d hd
  have : Spec.closer (ds.map Real.sqrt) (Real.sqrt d) = Spec.closer ds d := by
    rw [Spec.closer, Spec.closer, List.countP_map]
    apply List.countP_congr
    intro y hy
    simp [Real.sqrt_lt_sqrt_iff (hnn y hy)]
  simp [this]

/-! ## Witnesses and examples -/

section concrete

private def ops0 : Ops ℚ := ⟨id, fun a b c d => |a - c| + |b - d|⟩

/-- The distance of 2 from 0 is at most 3, yet the row is not marked with `l2`; the distance of 1/2 is more than 1/3, yet the
row is marked. -/
theorem within_dist_from_l2_wrong :
    (withinDistFrom ops0 "l2" [0] 1 [[some 2], [some (1/2)]] [some 3, some (1/3)] = .ok [some false, some true]) ∧
    Spec.withinL2 [(0 : ℚ)] [2] 3 ∧ ¬ Spec.withinL2 [(0 : ℚ)] [1/2] (1/3) := by
  refine ⟨by decide +kernel, ?_, ?_⟩
  · norm_num [Spec.withinL2]
  · norm_num [Spec.withinL2]

/-- A row with a null is marked as being at the point itself, and it takes the place of the nearest neighbor. -/
theorem pt_null_wrong :
    withinDistFrom ops0 "l1" [0, 0] 2 [[none, some 0], [some 1, some 1]] [some 1, some 1] = .ok [some true, some false] ∧
    isKnnFrom ops0 "l1" [0, 0] 2 [[none, some 0], [some 1, some 1]] 1 = .ok [some true, some false] := by
  decide +kernel

example : withinDistFrom ops0 "sql2" [0, 0] 2 [[some 1, some 1], [some 2, some 0]] [some 2, some 2]
    = .ok [some true, some false] := by decide +kernel

example : withinDistFrom ops0 "inf" [0, 0] 2 [[some 1, some 1], [some 2, some 0]] [some 1, none]
    = .ok [some true, none] := by decide +kernel

example : Spec.dist ops0 "inf" [0, 0] [-3, 2] = some 3 := by decide +kernel

/-- A tie at the `k`-th distance marks more than `k` rows. -/
example : isKnnFrom ops0 "l1" [0] 1 [[some 1], [some (-1)], [some 3], [some 0]] 2
    = .ok [some true, some true, some false, some true] := by decide +kernel

example : isKnnFrom ops0 "h" [0, 0] 2 [[some 1, some 1], [some 2, some 0], [some 5, some 5]] 1
    = .ok [some true, some true, some false] := by decide +kernel

example : isKnnFrom ops0 "l1" [0, 1] 1 [[some 1]] 1 = .error .dimension := by decide +kernel

example : withinDistFrom ops0 "linf" [0] 1 [[some 1]] [some 1] = .error .unknown := by decide +kernel

end concrete

end Verif.KnnPoint
