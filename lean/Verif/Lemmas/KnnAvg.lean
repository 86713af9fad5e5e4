import Verif.Model.KnnAvg
import Verif.Lemmas.KDQuery
import Verif.Lemmas.KDHistory
import Verif.Lemmas.Arith
import Mathlib.Algebra.Order.Field.Basic
import Mathlib.Algebra.BigOperators.Group.List.Basic
import Mathlib.Algebra.Order.BigOperators.Group.List
import Mathlib.Tactic.FieldSimp
import Mathlib.Tactic.Ring

/-!
# Lemmas: neighbor expressions
-/
set_option linter.unusedSectionVars false

namespace Verif.KDT
open Verif FloatOps

section
variable {K : Type}

theorem fullRow_none {r : List (Option K)} (h : r.all Option.isSome = false) : fullRow r = none := by
  unfold fullRow
  induction r with
  | nil => simp at h
  | cons a r ih =>
    cases a with
    | none => simp
    | some a =>
      have : r.all Option.isSome = false := by simpa using h
      simp [ih this]

theorem fullRow_some {r : List (Option K)} (h : r.all Option.isSome = true) :
    fullRow r = some (r.filterMap id) := by
  unfold fullRow
  induction r with
  | nil => rfl
  | cons a r ih =>
    cases a with
    | none => simp at h
    | some a =>
      have : r.all Option.isSome = true := by simpa using h
      simp [ih this]

theorem filterMap_length {r : List (Option K)} (h : r.all Option.isSome = true) :
    (r.filterMap id).length = r.length := by
  induction r with
  | nil => rfl
  | cons a r ih =>
    cases a with
    | none => simp at h
    | some a =>
      have : r.all Option.isSome = true := by simpa using h
      simpa using this

theorem filteredLeaves_eq {A : Type} (ids : List A) (mask : List (Option Bool)) (admit : List Bool)
    (rows : List (List (Option K)))
    (h : mask.map (·.getD false) = List.zipWith (fun a r => a && allNotNull r) admit rows) :
    filteredLeaves ids mask rows = Spec.candidates ids admit rows := by
  induction mask generalizing ids admit rows with
  | nil =>
    have : List.zipWith (fun a r => a && allNotNull r) admit rows = [] := by simpa using h.symm
    rcases List.zipWith_eq_nil_iff.1 this with h | h
    · simp [h, filteredLeaves, Spec.candidates]
    · simp [h, filteredLeaves, Spec.candidates]
  | cons m mask ih =>
    cases admit with
    | nil => simp at h
    | cons a admit =>
      cases rows with
      | nil => simp at h
      | cons r rows =>
        cases ids with
        | nil => simp [filteredLeaves, Spec.candidates]
        | cons i ids =>
          rw [List.map_cons, List.zipWith_cons_cons, List.cons.injEq] at h
          have ih' := ih ids admit rows h.2
          unfold filteredLeaves Spec.candidates at ih' ⊢
          simp only [List.zip_cons_cons, List.filterMap_cons, List.filter_cons, h.1]
          unfold allNotNull
          cases a <;> cases hr : r.all Option.isSome
          · simpa using ih'
          · simpa using ih'
          · simpa using ih'
          · simp [fullRow_some hr, ih']

theorem keepMask_spec (dataMask : Option (List (Option Bool))) (rows : List (List (Option K))) :
    (keepMask dataMask rows).map (·.getD false) =
      List.zipWith (fun a r => a && allNotNull r) (Spec.admitted dataMask rows.length) rows := by
  cases dataMask with
  | none =>
    simp only [keepMask, Spec.admitted]
    induction rows with
    | nil => rfl
    | cons r rows ih =>
      rw [List.length_cons, List.replicate_succ, List.zipWith_cons_cons, ← ih]
      simp
  | some m =>
    simp only [keepMask, Spec.admitted]
    induction m generalizing rows with
    | nil => simp
    | cons b m ih =>
      cases rows with
      | nil => simp
      | cons r rows =>
        simp only [List.zipWith_cons_cons, List.map_cons, ih]
        congr 1
        rcases b with _ | (_ | _) <;> cases allNotNull r <;> rfl

end

section
variable {K : Type} [Field K] [LinearOrder K] [IsStrictOrderedRing K]

theorem foldl_item (l : List (NB K K)) (c : K) :
    l.foldl (fun acc nb => acc + nb.item) c = c + (l.map (·.item)).sum := by
  induction l generalizing c with
  | nil => simp
  | cons a l ih => rw [List.foldl_cons, ih]; simp [add_assoc]

theorem foldl_weighted (w : K → K) (l : List (NB K K)) (c : K) :
    (l.zip (l.map fun nb => w nb.dist)).foldl (fun acc p => acc + p.2 * p.1.item) c =
      c + (l.map fun nb => w nb.dist * nb.item).sum := by
  induction l generalizing c with
  | nil => simp
  | cons a l ih => rw [List.map_cons, List.zip_cons_cons, List.foldl_cons, ih]; simp [add_assoc]

/-- A weighted mean with positive weights lies between any bounds of its items. -/
theorem weighted_between (w : K → K) (l : List (NB K K)) (hne : l ≠ []) (hw : ∀ nb ∈ l, 0 < w nb.dist)
    (lo hi : K) (hlo : ∀ nb ∈ l, lo ≤ nb.item) (hhi : ∀ nb ∈ l, nb.item ≤ hi) :
    0 < (l.map fun nb => w nb.dist).sum ∧
    lo ≤ (l.map fun nb => w nb.dist * nb.item).sum / (l.map fun nb => w nb.dist).sum ∧
    (l.map fun nb => w nb.dist * nb.item).sum / (l.map fun nb => w nb.dist).sum ≤ hi := by
  have key : ∀ l : List (NB K K), (∀ nb ∈ l, 0 < w nb.dist) → (∀ nb ∈ l, lo ≤ nb.item) →
      (∀ nb ∈ l, nb.item ≤ hi) →
      0 ≤ (l.map fun nb => w nb.dist).sum ∧
      lo * (l.map fun nb => w nb.dist).sum ≤ (l.map fun nb => w nb.dist * nb.item).sum ∧
      (l.map fun nb => w nb.dist * nb.item).sum ≤ hi * (l.map fun nb => w nb.dist).sum := by
    intro l
    induction l with
    | nil => simp
    | cons a l ih =>
      intro h1 h2 h3
      obtain ⟨i1, i2, i3⟩ := ih (fun x hx => h1 x (by simp [hx])) (fun x hx => h2 x (by simp [hx]))
        (fun x hx => h3 x (by simp [hx]))
      have p1 := h1 a (by simp)
      have p2 := mul_le_mul_of_nonneg_left (h2 a (by simp)) p1.le
      have p3 := mul_le_mul_of_nonneg_left (h3 a (by simp)) p1.le
      simp only [List.map_cons, List.sum_cons]
      refine ⟨by linarith, by linarith, by linarith⟩
  have hpos : 0 < (l.map fun nb => w nb.dist).sum := by
    obtain ⟨a, l', rfl⟩ := List.exists_cons_of_ne_nil hne
    have := (key l' (fun x hx => hw x (by simp [hx])) (fun x hx => hlo x (by simp [hx]))
      (fun x hx => hhi x (by simp [hx]))).1
    have p1 := hw a (by simp)
    simp only [List.map_cons, List.sum_cons]
    linarith
  obtain ⟨-, k2, k3⟩ := key l hw hlo hhi
  exact ⟨hpos, (le_div_iff₀ hpos).2 k2, (div_le_iff₀ hpos).2 k3⟩

end

section
variable {K : Type} [Field K] [LinearOrder K] [IsStrictOrderedRing K] [LawfulFloat K]

/-- Weight of a neighbor at distance `d` in `query_knn_avg`, as documented: equal weights, or `1/d`, or
`1/(1+d)` when the minimal distance is tiny. -/
def Spec.weight (weighted : Bool) (minB d : K) : K :=
  if weighted then (if minB ≤ eps then 1 / (1 + d) else 1 / d) else 1

end

section
variable {K : Type} [LinearOrder K] [Zero K] [Add K] [Sub K] [Mul K] [LawfulFloat K]

/-- A tree built from candidate rows answers knn queries. -/
theorem fromLeaves_knn {A : Type} (us : USort) {d : Dist K} (hd : d.prunable) (m : SplitMethod) (dim : Nat)
    (hdim : 0 < dim) (ps : List (Leaf K A)) (hne : ps ≠ []) (hps : ∀ p ∈ ps, p.row.length = dim) :
    ∃ cfg t, fromLeaves us d m ps = some (cfg, t) ∧ ∀ (k : Nat) (q : List K) (bound : K), 0 < k →
      q.length = dim → eps < bound →
      ∃ res, knnBounded cfg t k q bound 0 = some (some res) ∧
        Spec.Nearest k bound res (Spec.all d q ps) := by
  obtain ⟨t, h1, h2, h3⟩ := fromLeaves_spec us d m dim hdim ps hne hps
  refine ⟨_, t, h1, fun k q bound hk hq hb => ?_⟩
  obtain ⟨res, r1, r2⟩ := knnUnchecked_inv (cfg := ⟨dim, suggestCapacity dim, d, m⟩) hd h2 hk q bound
    (le_refl (0 : K))
  refine ⟨res, ?_, ?_⟩
  · unfold knnBounded
    rw [if_neg (by push Not; exact ⟨by omega, hq, hb⟩), r1]
  · have r3 := r2.perm (Spec.all_perm d q h3)
    exact ⟨r3.sorted, r3.len, r3.bounded, by simpa [Out, LawfulFloat.add_zero'] using r3.split⟩

theorem candidates_row {A : Type} {ids : List A} {admit : List Bool} {rows : List (List (Option K))}
    {dim : Nat} (h : ∀ r ∈ rows, r.length = dim) :
    ∀ p ∈ Spec.candidates ids admit rows, p.row.length = dim := by
  intro p hp
  obtain ⟨x, hx, rfl⟩ := List.mem_map.1 hp
  obtain ⟨h1, h2⟩ := List.mem_filter.1 hx
  have h3 := (List.of_mem_zip (a := x.1) (b := x.2) h1).2
  have h4 := (List.of_mem_zip (a := x.2.1) (b := x.2.2) h3).2
  simp only [Bool.and_eq_true] at h2
  rw [filterMap_length h2.2, h _ h4]

end

end Verif.KDT
