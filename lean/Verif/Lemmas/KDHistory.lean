import Verif.Lemmas.KDQuery
import Verif.Model.KDHistory

set_option linter.unusedSectionVars false
set_option linter.unusedVariables false

namespace Verif.KDT
open Verif FloatOps
variable {K : Type} [LinearOrder K] [Zero K] [Add K] [Sub K] [Mul K]

theorem number_eq_zipIdx (rows : List (List K)) : ∀ n,
    number n rows = (rows.zipIdx n).map fun p => (⟨p.2, p.1⟩ : Leaf K Nat) := by
  induction rows with
  | nil => intro n; rfl
  | cons r rs ih => intro n; simp [number, ih]

theorem number_numbered (rows : List (List K)) : number 0 rows = Spec.numbered rows :=
  number_eq_zipIdx rows 0

theorem number_append (a b : List (List K)) : ∀ n,
    number n (a ++ b) = number n a ++ number (n + a.length) b := by
  induction a with
  | nil => intro n; simp [number]
  | cons r rs ih => intro n; simp [number, ih, Nat.add_assoc, Nat.add_comm 1]

theorem number_length (a : List (List K)) : ∀ n, (number n a).length = a.length := by
  induction a with
  | nil => intro n; rfl
  | cons r rs ih => intro n; simp [number, ih]

theorem number_row {a : List (List K)} : ∀ n, ∀ p ∈ number n a, p.row ∈ a := by
  induction a with
  | nil => intro n p hp; simp [number] at hp
  | cons r rs ih =>
    intro n p hp
    simp only [number, List.mem_cons] at hp
    rcases hp with rfl | hp
    · simp
    · exact List.mem_cons_of_mem _ (ih _ p hp)

theorem countLoop_spec {A : Type} : ∀ (fuel : Nat) (s : List (Tree K A)) (n : Nat),
    (s.map Tree.size).sum ≤ fuel →
    countLoop fuel s n = some (n + (s.map fun t => t.points.length).sum) := by
  intro fuel
  induction fuel with
  | zero =>
    intro s n h
    cases s with
    | nil => simp [countLoop]
    | cons t s =>
      have := t.size_pos
      simp only [List.map_cons, List.sum_cons] at h
      omega
  | succ fuel ih =>
    intro s n h
    cases s with
    | nil => simp [countLoop]
    | cons t s =>
      cases t with
      | leaf b data =>
        simp only [List.map_cons, List.sum_cons, Tree.size] at h
        simp only [countLoop]
        rw [ih _ _ (by omega)]
        simp [Tree.points, Nat.add_assoc]
      | node ax v b l r =>
        simp only [List.map_cons, List.sum_cons, Tree.size] at h
        simp only [countLoop]
        rw [ih _ _ (by simp only [List.map_cons, List.sum_cons]; omega)]
        simp [Tree.points]
        omega

theorem countAll_spec {A : Type} (t : Tree K A) : t.countAll = some t.points.length := by
  unfold Tree.countAll
  rw [countLoop_spec _ _ _ (by simp)]
  simp

theorem ofString_prunable (cosine hav : List K → List K → K) {name : String}
    (h : name ∈ Spec.metricNames) (dim : Nat) :
    ∃ d, Dist.ofString cosine hav name dim = .ok d ∧ d.prunable := by
  simp only [Spec.metricNames, List.mem_cons, List.not_mem_nil, or_false] at h
  rcases h with rfl | rfl | rfl | rfl | rfl
  · exact ⟨.l1, rfl, trivial⟩
  · by_cases hd : dim < 16
    · exact ⟨.l2, by simp [Dist.ofString, hd], trivial⟩
    · exact ⟨.l2simd, by simp [Dist.ofString, hd], trivial⟩
  · by_cases hd : dim < 16
    · exact ⟨.sql2, by simp [Dist.ofString, hd], trivial⟩
    · exact ⟨.sql2simd, by simp [Dist.ofString, hd], trivial⟩
  · exact ⟨.linf, rfl, trivial⟩
  · exact ⟨.linf, rfl, trivial⟩

variable [FloatOps K]

/-- What holds of an object after any history. -/
structure HInv (dim : Nat) (d : Dist K) (rows : List (List K)) (s : PyKDT K) : Prop where
  dim_eq : s.cfg.dim = dim
  d_eq : s.cfg.d = d
  wf : s.tree.WF dim
  pts : s.tree.points.Perm (Spec.numbered rows)

theorem new_spec (us : USort) (cosine hav : List K → List K → K) (X : Mat K) (balanced : Bool)
    (name : String) (d : Dist K) (hd : Dist.ofString cosine hav name X.ncols = .ok d)
    (hne : X.rows ≠ []) (hc : 0 < X.ncols) (hX : X.Rect) :
    ∃ s, PyKDT.new us cosine hav X balanced name = .ok s ∧ HInv X.ncols d X.rows s := by
  have hempty : X.isEmpty = false := by
    simp only [Mat.isEmpty, Bool.or_eq_false_iff, List.isEmpty_eq_false_iff, beq_eq_false_iff_ne]
    exact ⟨hne, by omega⟩
  have hn : number 0 X.rows ≠ [] := by
    intro h
    have := number_length X.rows 0
    rw [h] at this
    exact hne (List.eq_nil_of_length_eq_zero this.symm)
  obtain ⟨t, h1, h2, h3⟩ := fromLeaves_spec us d (.ofBool balanced) X.ncols hc (number 0 X.rows) hn
    (fun p hp => hX _ (number_row 0 p hp))
  refine ⟨⟨⟨X.ncols, suggestCapacity X.ncols, d, .ofBool balanced⟩, t⟩, ?_, ?_⟩
  · simp only [PyKDT.new, hd, hempty, h1]
    rfl
  · exact ⟨rfl, rfl, h2, number_numbered X.rows ▸ h3⟩

theorem add_spec (us : USort) {dim : Nat} (hdim : 0 < dim) {d : Dist K} {rows : List (List K)}
    {s : PyKDT K} (h : HInv dim d rows s) (X : Mat K) (hX : X.Rect) (hc : X.ncols = dim)
    (hne : X.rows ≠ []) :
    ∃ s', s.add us X = .ok s' ∧ HInv dim d (rows ++ X.rows) s' := by
  have hempty : X.isEmpty = false := by
    simp only [Mat.isEmpty, Bool.or_eq_false_iff, List.isEmpty_eq_false_iff, beq_eq_false_iff_ne]
    exact ⟨hne, by omega⟩
  have hcount : s.tree.countAll.getD 0 = rows.length := by
    rw [countAll_spec, Option.getD_some, h.pts.length_eq]
    simp [Spec.numbered]
  have hcfg : 0 < s.cfg.dim := by rw [h.dim_eq]; exact hdim
  refine ⟨⟨s.cfg, s.tree.addAll us s.cfg (number rows.length X.rows)⟩, ?_, ?_⟩
  · simp [PyKDT.add, hempty, hc, h.dim_eq, hcount]
  · have hsp := Tree.addAll_spec us s.cfg hcfg (number rows.length X.rows) s.tree
      (fun p hp => by rw [h.dim_eq, ← hc]; exact hX _ (number_row _ p hp))
      (by rw [h.dim_eq]; exact h.wf)
    refine ⟨h.dim_eq, h.d_eq, by have := hsp.1; rwa [h.dim_eq] at this, ?_⟩
    refine hsp.2.trans ?_
    rw [← number_numbered, number_append, Nat.zero_add]
    exact ((number_numbered rows).symm ▸ h.pts).append_right _

theorem add_reject (us : USort) {dim : Nat} (hdim : 0 < dim) {d : Dist K} {rows : List (List K)}
    {s : PyKDT K} (h : HInv dim d rows s) (X : Mat K) (hr : ¬ (X.ncols = dim ∧ X.rows ≠ [])) :
    ∃ e, s.add us X = .error e := by
  unfold PyKDT.add
  split
  · exact ⟨_, rfl⟩
  · rename_i he
    split
    · exact ⟨_, rfl⟩
    · rename_i hc
      exfalso
      apply hr
      rw [h.dim_eq] at hc
      refine ⟨not_not.1 hc, ?_⟩
      rintro hrows
      simp [Mat.isEmpty, hrows] at he

theorem adds_spec (us : USort) (X0 : Mat K) (hdim : 0 < X0.ncols) {d : Dist K} :
    ∀ (Xs : List (Mat K)) (rows : List (List K)) (s : PyKDT K), HInv X0.ncols d rows s →
    (∀ X ∈ Xs, X.Rect) →
    HInv X0.ncols d (rows ++ (Xs.filter (Spec.accepted X0)).flatMap (·.rows)) (s.adds us Xs) := by
  intro Xs
  induction Xs with
  | nil => intro rows s h _; simpa [PyKDT.adds] using h
  | cons X Xs ih =>
    intro rows s h hX
    have hXs := fun Y hY => hX Y (List.mem_cons_of_mem _ hY)
    by_cases hacc : Spec.accepted X0 X = true
    · have hacc' := hacc
      simp only [Spec.accepted, Bool.and_eq_true, beq_iff_eq, Bool.not_eq_eq_eq_not, Bool.not_true,
        List.isEmpty_eq_false_iff] at hacc'
      obtain ⟨s', h1, h2⟩ := add_spec us hdim h X (hX X (by simp)) hacc'.1 hacc'.2
      have := ih _ s' h2 hXs
      simp only [PyKDT.adds, List.foldl_cons, h1] at this ⊢
      simpa [List.filter_cons, hacc] using this
    · have hr : ¬ (X.ncols = X0.ncols ∧ X.rows ≠ []) := by
        intro hh
        apply hacc
        simp [Spec.accepted, hh.1, hh.2]
      obtain ⟨e, he⟩ := add_reject us hdim h X hr
      have := ih _ s h hXs
      simp only [PyKDT.adds, List.foldl_cons, he] at this ⊢
      simpa [List.filter_cons, hacc] using this

end Verif.KDT
