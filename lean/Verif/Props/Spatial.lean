import Verif.Props.KDTree
import Verif.Model.Spatial

/-!
# C116: radius queries of the Python class `KDTree`
-/
set_option linter.unusedSectionVars false

namespace Verif.KDT
open Verif FloatOps

section general
variable {K : Type} [LinearOrder K] [Zero K] [Add K] [Sub K] [Mul K] [LawfulFloat K]
variable {us : USort} {cosine hav : List K → List K → K} {X0 : Mat K} {balanced : Bool}
  {name : String} {d : Dist K} {adds : List (Mat K)} {s : PyKDT K}

namespace Spec

/-- The radius that belongs to row `i`. -/
def radiusOf : Radius K → Nat → Option K
  | .scalar r, _ => some r
  | .array rs, i => rs[i]?

/-- The radii fit the queries. -/
def fits (X : QMat K) : Radius K → Prop
  | .scalar _ => True
  | .array rs => rs.length = X.rows.length

/-- An array with a single radius. -/
def single : Radius K → Prop
  | .scalar _ => False
  | .array rs => rs.length = 1

end Spec

theorem mapM_some_map (q : List K) : (q.map some).mapM id = some q := by
  induction q with
  | nil => rfl
  | cons a q ih => simp [List.mapM_cons, ih]

theorem mapM_none {q : List (Option K)} (h : none ∈ q) : q.mapM id = none := by
  induction q with
  | nil => simp at h
  | cons a q ih =>
    cases a with
    | none => simp [List.mapM_cons]
    | some a =>
      have h' : none ∈ q := by simpa using h
      simp [List.mapM_cons, ih h']

theorem withinRow_spec (h : History us cosine hav X0 balanced name d adds s) (sort : Bool) (q : List K) {r : K}
    (hr : 0 + eps < r) :
    (withinRow us s sort (q.map some) r).Perm (Spec.ball d q r (Spec.numbered (Spec.rows X0 adds))) ∧
    (sort = true → (withinRow us s sort (q.map some) r).Pairwise fun a b => a.dist ≤ b.dist) ∧
    withinCountRow s (q.map some) r = (Spec.ball d q r (Spec.numbered (Spec.rows X0 adds))).length := by
  obtain ⟨res, h1, h2, h3⟩ := (within_exact h q r sort).2 hr
  have hc := (within_count_exact h q r).1
  rw [if_neg (not_le.mpr hr)] at hc
  have e : withinRow us s sort (q.map some) r = res := by simp only [withinRow, mapM_some_map, h1, Option.getD_some]
  refine ⟨e ▸ h2, e ▸ h3, ?_⟩
  simp only [withinCountRow, mapM_some_map, hc, Option.getD_some]

/-- **C116a.** `within` with a number, or with one radius for each of several rows: entry `i` of the answer is exactly the
ball of row `i` with its own radius, sorted on demand; `within_count` is its size. -/
theorem tree_within_exact (h : History us cosine hav X0 balanced name d adds s) (X : QMat K) (hX : X.isEmpty = false)
    (r : Radius K) (hr : Spec.fits X r) (h1 : ¬ Spec.single r) (sort : Bool) :
    ∃ out cnt, treeWithin us s X r sort = .value out ∧ treeCount s X r = .value cnt ∧
      out.length = X.rows.length ∧ cnt.length = X.rows.length ∧
      ∀ i q ri, X.rows[i]? = some (q.map some) → Spec.radiusOf r i = some ri → 0 + eps < ri →
        ∃ res, out[i]? = some res ∧ cnt[i]? = some res.length ∧
          res.Perm (Spec.ball d q ri (Spec.numbered (Spec.rows X0 adds))) ∧
          (sort = true → res.Pairwise fun a b => a.dist ≤ b.dist) := by
  cases r with
  | scalar r =>
    refine ⟨_, _, by simp [treeWithin, treeWithinScalar, PyKDT.withinAll, hX, PyRes.ofExcept]; rfl,
      by simp [treeCount, treeCountScalar, PyKDT.countAllWithin, hX, PyRes.ofExcept]; rfl, by simp, by simp, ?_⟩
    intro i q ri hq hri hpos
    simp only [Spec.radiusOf, Option.some.injEq] at hri
    subst hri
    obtain ⟨e1, e2, e3⟩ := withinRow_spec h sort q hpos
    exact ⟨withinRow us s sort (q.map some) r, by simp [hq], by simp [hq, e3, e1.length_eq], e1, e2⟩
  | array rs =>
    have hlen : rs.length = X.rows.length := hr
    have hne : ¬ rs.length = 1 := h1
    have hw : treeWithin us s X (.array rs) sort = .ofExcept (s.withinVec us X rs sort) := by
      match rs, hne with
      | [], _ => rfl
      | [_], h => exact absurd rfl h
      | _ :: _ :: _, _ => rfl
    have hc : treeCount s X (.array rs) = .ofExcept (s.countVecWithin X rs) := by
      match rs, hne with
      | [], _ => rfl
      | [_], h => exact absurd rfl h
      | _ :: _ :: _, _ => rfl
    refine ⟨_, _, by rw [hw]; simp [PyKDT.withinVec, hX, hlen, PyRes.ofExcept]; rfl,
      by rw [hc]; simp [PyKDT.countVecWithin, hX, hlen, PyRes.ofExcept]; rfl, by simp [hlen], by simp [hlen], ?_⟩
    intro i q ri hq hri hpos
    have hri : rs[i]? = some ri := hri
    obtain ⟨e1, e2, e3⟩ := withinRow_spec h sort q hpos
    exact ⟨withinRow us s sort (q.map some) ri, by simp [List.getElem?_zipWith, hq, hri],
      by simp [List.getElem?_zipWith, hq, hri, e3, e1.length_eq], e1, e2⟩

/-- **C116b.** A query row with a value that is not finite has no neighbors, whatever the radius; so has a radius that is
not positive, even if the row is in the tree. Neither is an error. -/
theorem tree_within_empty (X : QMat K) (hX : X.isEmpty = false)
    (r : K) (sort : Bool) (i : Nat) (q : List (Option K)) (hq : X.rows[i]? = some q) (hbad : none ∈ q ∨ r ≤ 0) :
    ∃ out cnt, treeWithin us s X (.scalar r) sort = .value out ∧ treeCount s X (.scalar r) = .value cnt ∧
      out[i]? = some [] ∧ cnt[i]? = some 0 := by
  refine ⟨_, _, by simp [treeWithin, treeWithinScalar, PyKDT.withinAll, hX, PyRes.ofExcept]; rfl,
    by simp [treeCount, treeCountScalar, PyKDT.countAllWithin, hX, PyRes.ofExcept]; rfl, ?_⟩
  simp only [List.getElem?_map, hq, Option.map_some, Option.some.injEq]
  rcases hbad with hn | hr
  · simp [withinRow, withinCountRow, mapM_none hn]
  · have hr' : r ≤ 0 + eps := le_trans hr (LawfulFloat.le_add _ _ LawfulFloat.eps_nonneg)
    unfold withinRow withinCountRow
    cases q.mapM id with
    | none => exact ⟨rfl, rfl⟩
    | some q => simp [within, withinCount, hr']

/-- **C116c.** As many radii as rows, or an error. -/
theorem tree_within_size (X : QMat K) (hX : X.isEmpty = false) (r : Radius K) (h1 : ¬ Spec.single r) (sort : Bool)
    (hr : ¬ Spec.fits X r) : treeWithin us s X r sort = .raised .radiusSize ∧ treeCount s X r = .raised .radiusSize := by
  cases r with
  | scalar r => exact absurd trivial hr
  | array rs =>
    have hlen : ¬ rs.length = X.rows.length := hr
    match rs, h1, hlen with
    | [], _, hlen =>
      simp only [List.length_nil] at hlen
      simp [treeWithin, treeCount, PyKDT.withinVec, PyKDT.countVecWithin, hX, hlen, PyRes.ofExcept]
    | [_], h, _ => exact absurd rfl h
    | _ :: _ :: _, _, hlen =>
      simp only [List.length_cons] at hlen
      simp [treeWithin, treeCount, PyKDT.withinVec, PyKDT.countVecWithin, hX, hlen, PyRes.ofExcept]

/-- **C116, disagreement.** With an array of one radius (one query row, or a radius wrapped in an array) both functions
return Python's `None` instead of the answer. -/
theorem tree_within_single_none (X : QMat K) (hX : X.isEmpty = false) (r : Radius K) (h1 : Spec.single r) (sort : Bool) :
    treeWithin us s X r sort = .none ∧ treeCount s X r = .none := by
  cases r with
  | scalar r => exact absurd h1 id
  | array rs =>
    match rs, h1 with
    | [r], _ =>
      simp [treeWithin, treeCount, treeWithinScalar, treeCountScalar, PyKDT.withinAll, PyKDT.countAllWithin, hX,
        PyRes.ofExcept, PyRes.dropped]

/-- **C116.** A query matrix without rows or columns is an error for every kind of radius. -/
theorem tree_within_no_rows (X : QMat K) (hX : X.isEmpty = true) (r : Radius K) (sort : Bool) :
    treeWithin us s X r sort = .raised .empty ∧ treeCount s X r = .raised .empty := by
  cases r with
  | scalar r =>
    simp [treeWithin, treeCount, treeWithinScalar, treeCountScalar, PyKDT.withinAll, PyKDT.countAllWithin, hX,
      PyRes.ofExcept]
  | array rs =>
    match rs with
    | [] => simp [treeWithin, treeCount, PyKDT.withinVec, PyKDT.countVecWithin, hX, PyRes.ofExcept]
    | [r] =>
      simp [treeWithin, treeCount, treeWithinScalar, treeCountScalar, PyKDT.withinAll, PyKDT.countAllWithin, hX,
        PyRes.ofExcept, PyRes.dropped]
    | _ :: _ :: _ => simp [treeWithin, treeCount, PyKDT.withinVec, PyKDT.countVecWithin, hX, PyRes.ofExcept]

/-- **C116, disagreement.** `knn` documents that the first matrix holds the row numbers and the second the distances; it is
the other way round. -/
theorem tree_knn_order (cells : List (Cell K)) : ∃ m n, knnPair cells = (.dists m, .ids n) ∧
    m.length = cells.length ∧ n.length = cells.length ∧
    ∀ (i : Nat) (dist : K) (id : Nat), cells[i]? = some (Cell.found dist id) → m[i]? = some (some dist) ∧ n[i]? = some id := by
  refine ⟨_, _, rfl, by simp, by simp, ?_⟩
  intro i dist id hi
  simp [hi]

end general

/-! ## Examples -/

section concrete

example (us : USort) (s : PyKDT ℚ) :
    treeWithin us s ⟨2, []⟩ (.array [1, 2]) true = .raised .empty ∧ treeCount s ⟨2, []⟩ (.array [1, 2]) = .raised .empty :=
  tree_within_no_rows _ rfl _ _

private def noMetric : List ℚ → List ℚ → ℚ := fun _ _ => 0
private def Xs : Mat ℚ := ⟨1, [[0], [2], [5]]⟩

example : ∃ d s, History insertionUSort noMetric noMetric Xs true "l1" d [] s :=
  history_exists _ _ _ Xs true (by decide) (by decide) (by decide) (by simp [Mat.Rect, Xs]) [] (by simp)

private def queries : QMat ℚ := ⟨1, [[some 1], [none]]⟩

/-- Two rows, one of them NaN. -/
example : (match PyKDT.new insertionUSort noMetric noMetric Xs true "l1" with
    | .ok s => (treeCount s queries (.scalar 1), treeCount s queries (.array [4, 4]), treeCount s queries (.array [1]),
        treeCount s queries (.array [1, 2, 3]))
    | .error _ => (.none, .none, .none, .none)) =
      (.value [2, 0], .value [3, 0], .none, .raised .radiusSize) := by decide +kernel

example : Spec.fits queries (.array [4, 4]) ∧ ¬ Spec.single (.array [4, 4] : Radius ℚ) ∧ queries.isEmpty = false ∧
    Spec.single (.array [1] : Radius ℚ) := ⟨rfl, fun h => absurd (show 2 = 1 from h) (by omega), rfl, rfl⟩

end concrete

end Verif.KDT
