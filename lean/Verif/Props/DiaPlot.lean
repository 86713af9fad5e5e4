import Verif.Model.Dia
import Mathlib.Logic.Relation

/-!
# C127: the dependency plot
-/

namespace Verif.Dia

namespace Spec

variable {N : Type}

/-- One can walk from `p` to `c` along the edges. -/
def Path (es : List (N × N)) (p c : N) : Prop := Relation.TransGen (fun a b => (a, b) ∈ es) p c

/-- The dependencies go one way: some numbering of the columns increases from child to parent.  `infer_dependency`
guarantees it, it lists each pair of columns once, in the order of its sorted columns. -/
def OneWay (deps : List (N × N)) : Prop := ∃ rank : N → Nat, ∀ c p, (c, p) ∈ deps → rank c < rank p

/-- What determines a column that determines a third, determines the third. -/
def Transitive (deps : List (N × N)) : Prop := ∀ a b c, (a, b) ∈ deps → (b, c) ∈ deps → (a, c) ∈ deps

end Spec

open Spec

variable {N : Type} [DecidableEq N]

theorem mem_parents {deps : List (N × N)} {c p : N} : p ∈ parents deps c ↔ (c, p) ∈ deps := by
  simp only [parents, List.mem_map, List.mem_filter, decide_eq_true_eq, Prod.exists]
  constructor
  · rintro ⟨a, b, ⟨h, rfl⟩, rfl⟩; exact h
  · intro h; exact ⟨c, p, ⟨h, rfl⟩, rfl⟩

theorem mem_children {deps : List (N × N)} {c p : N} : c ∈ children deps p ↔ (c, p) ∈ deps := by
  simp only [children, List.mem_map, List.mem_filter, decide_eq_true_eq, Prod.exists]
  constructor
  · rintro ⟨a, b, ⟨h, rfl⟩, rfl⟩; exact h
  · intro h; exact ⟨c, p, ⟨h, rfl⟩, rfl⟩

theorem dropStep_subset {deps : List (N × N)} {kept : List N} {p q : N} (h : q ∈ dropStep deps kept p) : q ∈ kept := by
  unfold dropStep at h
  split at h
  · exact (List.mem_filter.1 h).1
  · exact h

/-- What is dropped is dropped for a parent kept at that time. -/
theorem dropStep_dropped {deps : List (N × N)} {kept : List N} {p q : N} (hq : q ∈ kept)
    (h : q ∉ dropStep deps kept p) : q = p ∧ ∃ r ∈ kept, (r, p) ∈ deps := by
  unfold dropStep at h
  split at h
  · rename_i ha
    have : q = p := by
      by_contra hne
      exact h (List.mem_filter.2 ⟨hq, by simpa using hne⟩)
    refine ⟨this, ?_⟩
    obtain ⟨r, hr, hd⟩ := List.any_eq_true.1 ha
    exact ⟨r, hr, mem_children.1 (by simpa using hd)⟩
  · exact absurd hq h

theorem foldl_subset {deps : List (N × N)} (ps : List N) {kept : List N} {q : N}
    (h : q ∈ ps.foldl (dropStep deps) kept) : q ∈ kept := by
  induction ps generalizing kept with
  | nil => exact h
  | cons p ps ih => exact dropStep_subset (ih h)

theorem foldl_dropped {deps : List (N × N)} (ps : List N) {kept : List N} {q : N} (hq : q ∈ kept)
    (h : q ∉ ps.foldl (dropStep deps) kept) : ∃ r ∈ kept, (r, q) ∈ deps := by
  induction ps generalizing kept with
  | nil => exact absurd hq h
  | cons p ps ih =>
    by_cases hk : q ∈ dropStep deps kept p
    · obtain ⟨r, hr, hd⟩ := ih hk h
      exact ⟨r, dropStep_subset hr, hd⟩
    · obtain ⟨rfl, r, hr, hd⟩ := dropStep_dropped hq hk
      exact ⟨r, hr, hd⟩

theorem mem_edges {deps : List (N × N)} {c p : N} : (p, c) ∈ edges deps ↔ p ∈ drawnParents deps c := by
  simp only [edges, List.mem_flatMap, List.mem_map, Prod.mk.injEq, List.mem_dedup, Prod.exists]
  constructor
  · rintro ⟨a, -, q, h, rfl, rfl⟩; exact h
  · intro h
    exact ⟨c, ⟨c, p, mem_parents.1 (foldl_subset _ h), rfl⟩, p, h, rfl, rfl⟩

/-- C127: every edge drawn is a dependency found, from the determining to the determined column. -/
theorem plot_sound (deps : List (N × N)) (p c : N) (h : (p, c) ∈ edges deps) : (c, p) ∈ deps :=
  mem_parents.1 (foldl_subset _ (mem_edges.1 h))

/-- C127: every dependency found can be read off the plot, as an edge or as a path. -/
theorem plot_complete (deps : List (N × N)) (hw : OneWay deps) (p c : N) (h : (c, p) ∈ deps) :
    Path (edges deps) p c := by
  obtain ⟨rank, hr⟩ := hw
  generalize hn : rank p - rank c = n
  induction n using Nat.strong_induction_on generalizing p c with
  | _ n ih =>
    by_cases hd : p ∈ drawnParents deps c
    · exact Relation.TransGen.single (mem_edges.2 hd)
    · obtain ⟨q, hq, hqp⟩ := foldl_dropped _ (mem_parents.2 h) hd
      have hcq := mem_parents.1 hq
      have h1 := hr _ _ hcq
      have h2 := hr _ _ hqp
      have w1 := ih (rank p - rank q) (by omega) p q hqp rfl
      have w2 := ih (rank q - rank c) (by omega) q c hcq rfl
      exact Relation.TransGen.trans w1 w2

theorem plot_hasse_aux {deps : List (N × N)} (p : N) (ps : List N) {kept : List N} (hp : p ∈ ps)
    (hq : ∃ q, (q, p) ∈ deps ∧ q ∈ kept ∧ ∀ r ∈ kept, (r, q) ∉ deps) :
    p ∉ ps.foldl (dropStep deps) kept := by
  induction ps generalizing kept with
  | nil => simp at hp
  | cons a ps ih =>
    obtain ⟨q, hqp, hqk, hq⟩ := hq
    rw [List.foldl_cons]
    by_cases hpa : p = a
    · subst hpa
      intro h
      have h' := foldl_subset _ h
      unfold dropStep at h'
      rw [if_pos (List.any_eq_true.2 ⟨q, hqk, by simpa using mem_children.2 hqp⟩)] at h'
      simp at h'
    · refine ih ((List.mem_cons.1 hp).resolve_left hpa) ⟨q, hqp, ?_, fun r hr => hq r (dropStep_subset hr)⟩
      by_contra hd
      obtain ⟨rfl, r, hr, hrd⟩ := dropStep_dropped hqk hd
      exact hq r hr hrd

/-- C127: for transitive dependencies (exact ones) the plot is the least one: an edge is drawn exactly when no third
column lies between. -/
theorem plot_least (deps : List (N × N)) (hw : OneWay deps) (ht : Transitive deps) (p c : N) :
    (p, c) ∈ edges deps ↔ (c, p) ∈ deps ∧ ¬ ∃ q, (c, q) ∈ deps ∧ (q, p) ∈ deps := by
  rw [mem_edges]
  constructor
  · intro h
    refine ⟨mem_parents.1 (foldl_subset _ h), ?_⟩
    obtain ⟨rank, hr⟩ := hw
    rintro ⟨q, hcq, hqp⟩
    -- the lowest column between
    have key : ∀ n q, rank q = n → (c, q) ∈ deps → (q, p) ∈ deps →
        ∃ q', (q', p) ∈ deps ∧ q' ∈ parents deps c ∧ ∀ r ∈ parents deps c, (r, q') ∉ deps := by
      intro n
      induction n using Nat.strong_induction_on with
      | _ n ih =>
        intro q hn hcq hqp
        by_cases hex : ∃ r ∈ parents deps c, (r, q) ∈ deps
        · obtain ⟨r, hrc, hrq⟩ := hex
          exact ih (rank r) (by have := hr _ _ hrq; omega) r rfl (mem_parents.1 hrc) (ht _ _ _ hrq hqp)
        · exact ⟨q, hqp, mem_parents.2 hcq, fun r hr' hrq => hex ⟨r, hr', hrq⟩⟩
    exact plot_hasse_aux p _ (foldl_subset _ h) (key _ q rfl hcq hqp) h
  · rintro ⟨h, hno⟩
    by_contra hd
    obtain ⟨q, hq, hqp⟩ := foldl_dropped _ (mem_parents.2 h) hd
    exact hno ⟨q, mem_parents.1 hq, hqp⟩

/-- A chain `0` determined by `1`, determined by `2`, with all consequences. -/
example : OneWay [(0, 1), (0, 2), (1, 2)] ∧ Transitive [(0, 1), (0, 2), (1, 2)] ∧
    edges [(0, 1), (0, 2), (1, 2)] = [(1, 0), (2, 1)] := by
  refine ⟨⟨id, fun c p => ?_⟩, ?_, by decide⟩
  · simp only [List.mem_cons, Prod.mk.injEq, List.not_mem_nil, or_false, id_eq]
    omega
  intro a b c
  simp only [List.mem_cons, Prod.mk.injEq, List.not_mem_nil, or_false]
  omega

/-- With a threshold above zero the dependencies need not be transitive; then the edges depend on the order of the
rows: the same five dependencies in two orders. -/
theorem plot_order_wrong :
    edges [(0, 3), (0, 2), (0, 1), (2, 3), (1, 2)] = [(1, 0), (3, 2), (2, 1)] ∧
    edges [(0, 2), (0, 3), (0, 1), (2, 3), (1, 2)] = [(3, 0), (1, 0), (3, 2), (2, 1)] := by decide

end Verif.Dia
