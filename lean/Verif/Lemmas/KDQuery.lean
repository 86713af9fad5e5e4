import Verif.Lemmas.KDTree
import Verif.Spec.Neighbors
import Mathlib.Data.List.Sort
import Mathlib.Data.List.TakeWhile
import Mathlib.Data.List.Infix

/-!
# Correctness of the query loops
-/
set_option linter.unusedSectionVars false
set_option linter.unusedVariables false

namespace Verif.KDT
open Verif FloatOps

variable {K : Type} [LinearOrder K] [Zero K] [Add K] [Sub K] [Mul K] [LawfulFloat K] {A : Type}

theorem Spec.all_append (d : Dist K) (q : List K) (a b : List (Leaf K A)) :
    Spec.all d q (a ++ b) = Spec.all d q a ++ Spec.all d q b := by simp [Spec.all]

theorem Spec.ball_append (d : Dist K) (q : List K) (r : K) (a b : List (Leaf K A)) :
    Spec.ball d q r (a ++ b) = Spec.ball d q r a ++ Spec.ball d q r b := by
  simp [Spec.ball, Spec.all_append]

theorem Spec.all_perm (d : Dist K) (q : List K) {a b : List (Leaf K A)} (h : a.Perm b) :
    (Spec.all d q a).Perm (Spec.all d q b) := h.map _

theorem Spec.ball_perm (d : Dist K) (q : List K) (r : K) {a b : List (Leaf K A)} (h : a.Perm b) :
    (Spec.ball d q r a).Perm (Spec.ball d q r b) := (Spec.all_perm d q h).filter _

theorem updateNbWithin_eq (d : Dist K) (q : List K) (r : K) (data : List (Leaf K A)) :
    ∀ nbs, updateNbWithin d q r nbs data = nbs ++ Spec.ball d q r data := by
  induction data with
  | nil => intro nbs; simp [updateNbWithin, Spec.ball, Spec.all]
  | cons p data ih =>
    intro nbs
    have := ih (if d.dist p.row q ≤ r then nbs ++ [⟨d.dist p.row q, p.item⟩] else nbs)
    simp only [updateNbWithin, List.foldl_cons] at this ⊢
    rw [this]
    by_cases h : d.dist p.row q ≤ r <;> simp [h, Spec.ball, Spec.all]

/-- Rows of a well-formed tree whose box is farther than `r` contribute nothing to the ball. -/
theorem ball_eq_nil {d : Dist K} (hd : d.prunable) {dim : Nat} {q : List K} {r : K} {t : Tree K A}
    (ht : t.WF dim) (h : r < boxDist d t.box q) : Spec.ball d q r t.points = [] := by
  simp only [Spec.ball, Spec.all, List.filter_eq_nil_iff, List.mem_map, forall_exists_index,
    and_imp, forall_apply_eq_imp_iff₂, decide_eq_true_eq, not_le]
  exact fun p hp => lt_of_lt_of_le h (boxDist_le hd (ht.inBox p hp) q)

/-- What we know about a stack entry: the recorded distance is a lower bound for its rows. -/
def EntryOK (d : Dist K) (q : List K) (dim : Nat) (e : K × Tree K A) : Prop :=
  e.2.WF dim ∧ ∀ p ∈ e.2.points, e.1 ≤ d.dist p.row q

theorem EntryOK.of_box {d : Dist K} (hd : d.prunable) {q : List K} {dim : Nat} {e : K × Tree K A}
    (h : e.1 = boxDist d e.2.box q) (hw : e.2.WF dim) : EntryOK d q dim e :=
  ⟨hw, fun p hp => h ▸ boxDist_le hd (hw.inBox p hp) q⟩

theorem EntryOK.root {d : Dist K} (hd : d.prunable) {q : List K} {dim : Nat} {t : Tree K A}
    (hw : t.WF dim) : EntryOK d q dim (minVal, t) :=
  ⟨hw, fun p _ => le_trans LawfulFloat.minVal_le (dist_nonneg hd _ _)⟩

theorem stackPts_append (a b : List (K × Tree K A)) : stackPts (a ++ b) = stackPts a ++ stackPts b := by
  simp [stackPts]

theorem stackSize_append (a b : List (K × Tree K A)) :
    stackSize (a ++ b) = stackSize a + stackSize b := by simp [stackSize]

theorem ball_stack_nil {d : Dist K} (hd : d.prunable) {q : List K} {dim : Nat} {r : K}
    (s : List (K × Tree K A)) (h : ∀ e ∈ s, e.1 = boxDist d e.2.box q ∧ e.2.WF dim)
    (hk : ∀ e ∈ s, decide (e.1 ≤ r) = false) : Spec.ball d q r (stackPts s) = [] := by
  induction s with
  | nil => simp [stackPts, Spec.ball, Spec.all]
  | cons e s ih =>
    have he := h e (by simp)
    have hke := hk e (by simp)
    rw [decide_eq_false_iff_not, not_le] at hke
    have e1 : stackPts (e :: s) = e.2.points ++ stackPts s := rfl
    rw [e1, Spec.ball_append, ball_eq_nil hd he.2 (he.1 ▸ hke),
      ih (fun x hx => h x (by simp [hx])) (fun x hx => hk x (by simp [hx]))]
    rfl

theorem withinLoop_spec {d : Dist K} (hd : d.prunable) (q : List K) (r : K) (dim : Nat) :
    ∀ (fuel : Nat) (pending : List (K × Tree K A)) (nbs : List (NB K A)),
      stackSize pending ≤ fuel → (∀ e ∈ pending, EntryOK d q dim e) →
      ∃ res, withinLoop d q r fuel pending nbs = some res ∧
        res.Perm (nbs ++ Spec.ball d q r (stackPts pending)) := by
  intro fuel
  induction fuel with
  | zero =>
    intro pending nbs hf _
    cases pending with
    | nil => exact ⟨nbs, rfl, by simp [stackPts, Spec.ball, Spec.all]⟩
    | cons e s =>
      have := e.2.size_pos
      simp only [stackSize, List.map_cons, List.sum_cons] at hf
      omega
  | succ fuel ih =>
    intro pending nbs hf hok
    cases pending with
    | nil => exact ⟨nbs, by simp [withinLoop], by simp [stackPts, Spec.ball, Spec.all]⟩
    | cons e s =>
      obtain ⟨bd, t⟩ := e
      have het := hok (bd, t) (by simp)
      have hs : ∀ e ∈ s, EntryOK d q dim e := fun e he => hok e (by simp [he])
      have hsz := t.size_pos
      simp only [stackSize, List.map_cons, List.sum_cons] at hf
      have e1 : stackPts ((bd, t) :: s) = t.points ++ stackPts s := rfl
      simp only [withinLoop]
      split
      · rename_i hgt
        obtain ⟨res, h1, h2⟩ := ih s nbs (by simp only [stackSize]; omega) hs
        refine ⟨res, h1, ?_⟩
        have hnil : Spec.ball d q r t.points = [] := by
          simp only [Spec.ball, Spec.all, List.filter_eq_nil_iff, List.mem_map, forall_exists_index,
            and_imp, forall_apply_eq_imp_iff₂, decide_eq_true_eq, not_le]
          exact fun p hp => lt_of_lt_of_le hgt (het.2 p hp)
        rw [e1, Spec.ball_append, hnil]
        simpa using h2
      · obtain ⟨pu, pr, g1, g2, g3, g4, g5⟩ :=
          descend_spec d q (fun x => decide (x ≤ r)) dim t s het.1
        generalize hdd : descend d q (fun x => decide (x ≤ r)) t s = dd at g1 g2 g5
        obtain ⟨pend', data⟩ := dd
        simp only at g1 g2 ⊢
        subst g1
        obtain ⟨res, h1, h2⟩ := ih (pu ++ s) (updateNbWithin d q r nbs data)
          (by simp only [stackSize_append]; simp only [stackSize] at g5 ⊢; omega)
          (by
            intro e he
            rcases List.mem_append.1 he with he | he
            · have := g3 e (by simp [he])
              exact .of_box hd this.1 this.2
            · exact hs e he)
        refine ⟨res, h1, h2.trans ?_⟩
        rw [updateNbWithin_eq, e1, Spec.ball_append, stackPts_append, Spec.ball_append,
          List.append_assoc]
        apply List.Perm.append_left
        rw [← List.append_assoc]
        apply List.Perm.append_right
        have hp := Spec.ball_perm d q r g2
        rw [Spec.ball_append, Spec.ball_append,
          ball_stack_nil hd pr (fun e he => g3 e (by simp [he])) g4, List.append_nil] at hp
        exact hp.symm

theorem foldl_count (d : Dist K) (q : List K) (r : K) (data : List (Leaf K A)) : ∀ n : Nat,
    data.foldl (fun acc p => acc + (if d.dist p.row q ≤ r then 1 else 0)) n =
      n + (Spec.ball d q r data).length := by
  induction data with
  | nil => intro n; simp [Spec.ball, Spec.all]
  | cons p data ih =>
    intro n
    rw [List.foldl_cons, ih]
    by_cases h : d.dist p.row q ≤ r <;> simp [h, Spec.ball, Spec.all] <;> omega

/-- The counting loop returns the length of what the collecting loop returns. -/
theorem withinCountLoop_eq (d : Dist K) (q : List K) (r : K) :
    ∀ (fuel : Nat) (pending : List (K × Tree K A)) (nbs : List (NB K A)),
      withinCountLoop d q r fuel pending nbs.length =
        (withinLoop d q r fuel pending nbs).map List.length := by
  intro fuel
  induction fuel with
  | zero => intro pending nbs; cases pending <;> simp [withinCountLoop, withinLoop]
  | succ fuel ih =>
    intro pending nbs
    cases pending with
    | nil => simp [withinCountLoop, withinLoop]
    | cons e s =>
      obtain ⟨bd, t⟩ := e
      simp only [withinCountLoop, withinLoop]
      split
      · exact ih s nbs
      · rw [← ih, updateNbWithin_eq, List.length_append, foldl_count, Nat.zero_add]

/-! ## k nearest neighbors -/

/-- `x` may be left out of the result `topk`. -/
def Out (k : Nat) (bound epsilon : K) (topk : List (NB K A)) (x : NB K A) : Prop :=
  bound ≤ x.dist + epsilon ∨ (topk.length = k ∧ ∀ t ∈ topk, t.dist ≤ x.dist + epsilon)

/-- Loop invariant: the rows processed so far are those in `topk` and some left out. -/
structure KInv (k : Nat) (bound epsilon : K) (topk : List (NB K A)) (seen : List (NB K A)) : Prop where
  sorted : topk.Pairwise (fun a b => a.dist ≤ b.dist)
  len : topk.length ≤ k
  bounded : ∀ t ∈ topk, t.dist ≤ bound
  split : ∃ disc, (topk ++ disc).Perm seen ∧ ∀ x ∈ disc, Out k bound epsilon topk x

theorem takeWhile_sorted {l : List (NB K A)} (h : l.Pairwise (fun a b => a.dist ≤ b.dist)) (x : K) :
    ∀ y ∈ l.dropWhile (fun s => decide (s.dist ≤ x)), x < y.dist := by
  induction l with
  | nil => simp
  | cons a l ih =>
    have ha := List.pairwise_cons.1 h
    simp only [List.dropWhile_cons]
    split
    · exact ih ha.2
    · rename_i hx
      have hx' : x < a.dist := by simpa using hx
      intro y hy
      rcases List.mem_cons.1 hy with rfl | hy
      · exact hx'
      · exact lt_of_lt_of_le hx' (ha.1 y hy)

theorem insertIdx_partition {α : Type} (p : α → Bool) (l : List α) (x : α) :
    l.insertIdx (partitionPoint p l) x = l.takeWhile p ++ x :: l.dropWhile p := by
  unfold partitionPoint
  induction l with
  | nil => simp
  | cons a l ih =>
    simp only [List.takeWhile_cons, List.dropWhile_cons]
    split
    · simp [ih]
    · simp

theorem sorted_insert {l : List (NB K A)} (h : l.Pairwise (fun a b => a.dist ≤ b.dist)) (x : NB K A) :
    (l.insertIdx (partitionPoint (fun s => decide (s.dist ≤ x.dist)) l) x).Pairwise
      (fun a b => a.dist ≤ b.dist) := by
  rw [insertIdx_partition]
  have hl := h
  rw [← List.takeWhile_append_dropWhile (p := fun s => decide (s.dist ≤ x.dist)) (l := l)] at hl
  rw [List.pairwise_append] at hl ⊢
  have h1 := takeWhile_sorted h x.dist
  refine ⟨hl.1, List.pairwise_cons.2 ⟨fun y hy => le_of_lt (h1 y hy), hl.2.1⟩, ?_⟩
  intro a ha b hb
  have hax : a.dist ≤ x.dist := by simpa using List.mem_takeWhile_imp ha
  rcases List.mem_cons.1 hb with rfl | hb
  · exact hax
  · exact hl.2.2 a ha b hb

theorem insert_perm {α : Type} (p : α → Bool) (l : List α) (x : α) :
    (l.insertIdx (partitionPoint p l) x).Perm (x :: l) := by
  rw [insertIdx_partition]
  refine List.perm_middle.trans ?_
  rw [List.takeWhile_append_dropWhile]

/-- One element of a leaf preserves the invariant. -/
theorem topKStep_inv (d : Dist K) {k : Nat} (hk : 0 < k) (q : List K) {bound epsilon : K} (he : 0 ≤ epsilon)
    {topk seen : List (NB K A)} {cm : K} (p : Leaf K A)
    (h : KInv k bound epsilon topk seen) (hcm : ∀ t ∈ topk, t.dist ≤ cm) :
    KInv k bound epsilon (topKStep d k q bound (topk, cm) p).1 (seen ++ [⟨d.dist p.row q, p.item⟩]) ∧
    ∀ t ∈ (topKStep d k q bound (topk, cm) p).1, t.dist ≤ (topKStep d k q bound (topk, cm) p).2 := by
  obtain ⟨disc, hperm, hout⟩ := h.split
  have hself : ∀ x : K, x ≤ x + epsilon := fun x => LawfulFloat.le_add _ _ he
  unfold topKStep
  simp only
  generalize hx : (⟨d.dist p.row q, p.item⟩ : NB K A) = x
  have hxd : d.dist p.row q = x.dist := by rw [← hx]
  rw [hxd]
  split
  · rename_i hc
    obtain ⟨hcb, hc⟩ := hc
    have hins_s := sorted_insert h.sorted x
    have hins_p := insert_perm (fun s : NB K A => decide (s.dist ≤ x.dist)) topk x
    generalize hins : topk.insertIdx (partitionPoint (fun s : NB K A => decide (s.dist ≤ x.dist)) topk) x
      = ins at hins_s hins_p
    have hlen : ins.length = topk.length + 1 := by simpa using hins_p.length_eq
    have hmem : ∀ t ∈ ins, t.dist ≤ max cm x.dist ∧ t.dist ≤ bound := by
      intro t ht
      rcases List.mem_cons.1 (hins_p.mem_iff.1 ht) with rfl | ht
      · exact ⟨le_max_right _ _, hcb⟩
      · exact ⟨le_trans (hcm t ht) (le_max_left _ _), h.bounded t ht⟩
    by_cases hfull : ins.length > k
    · -- full: the last element is dropped
      have hk' : topk.length = k := by have := h.len; omega
      have hne : ins ≠ [] := by intro hn; simp [hn] at hlen
      have hsplit := List.dropLast_append_getLast hne
      generalize hz : ins.getLast hne = z at hsplit
      simp only [hfull, if_true]
      have hsub : ∀ t ∈ ins.dropLast, t ∈ ins := fun t ht => List.mem_of_mem_dropLast ht
      have hzmax : ∀ t ∈ ins.dropLast, t.dist ≤ z.dist := by
        intro t ht
        have hs := hins_s
        rw [← hsplit, List.pairwise_append] at hs
        exact hs.2.2 t ht z (by simp)
      have hdl : ins.dropLast.length = k := by simp; omega
      -- everything kept is at most the old maximum
      have hold : ∀ y : K, (∀ t ∈ topk, t.dist ≤ y) → ∀ t ∈ ins.dropLast, t.dist ≤ y := by
        intro y hy t ht
        by_cases hxy : x.dist ≤ y
        · rcases List.mem_cons.1 (hins_p.mem_iff.1 (hsub t ht)) with rfl | ht'
          · exact hxy
          · exact hy t ht'
        · -- x is larger than all old elements, so x is the element dropped
          rw [not_le] at hxy
          have htw : topk.takeWhile (fun s => decide (s.dist ≤ x.dist)) = topk := by
            rw [List.takeWhile_eq_self_iff]
            intro s hs
            simpa using le_trans (hy s hs) (le_of_lt hxy)
          have hins' : ins = topk ++ [x] := by
            rw [← hins, insertIdx_partition, htw]
            have : topk.dropWhile (fun s => decide (s.dist ≤ x.dist)) = [] := by
              have := List.takeWhile_append_dropWhile (p := fun s : NB K A => decide (s.dist ≤ x.dist))
                (l := topk)
              rw [htw] at this
              simpa using this
            rw [this]
          rw [hins', List.dropLast_concat] at ht
          exact hy t ht
      refine ⟨⟨hins_s.sublist (List.dropLast_sublist _), by omega,
        fun t ht => (hmem t (hsub t ht)).2, ⟨z :: disc, ?_, ?_⟩⟩, fun t ht => (hmem t (hsub t ht)).1⟩
      · have : (ins.dropLast ++ z :: disc) = ins ++ disc := by
          conv_rhs => rw [← hsplit]
          simp
        rw [this]
        refine (hins_p.append_right disc).trans ?_
        refine (List.Perm.cons x hperm).trans ?_
        exact (List.perm_append_singleton x seen).symm
      · intro y hy
        rcases List.mem_cons.1 hy with rfl | hy
        · exact .inr ⟨hdl, fun t ht => le_trans (hzmax t ht) (hself _)⟩
        · rcases hout y hy with ho | ho
          · exact .inl ho
          · exact .inr ⟨hdl, hold _ ho.2⟩
    · simp only [hfull, if_false]
      refine ⟨⟨hins_s, by omega, fun t ht => (hmem t ht).2, ⟨disc, ?_, ?_⟩⟩, fun t ht => (hmem t ht).1⟩
      · refine (hins_p.append_right disc).trans ?_
        refine (List.Perm.cons x hperm).trans ?_
        exact (List.perm_append_singleton x seen).symm
      · intro y hy
        rcases hout y hy with ho | ho
        · exact .inl ho
        · omega
  · rename_i hc
    refine ⟨⟨h.sorted, h.len, h.bounded, ⟨x :: disc, ?_, ?_⟩⟩, hcm⟩
    · exact List.perm_middle.trans
        ((List.Perm.cons x hperm).trans (List.perm_append_singleton x seen).symm)
    · intro y hy
      rcases List.mem_cons.1 hy with rfl | hy
      · by_cases hb : y.dist ≤ bound
        · right
          have hc' : ¬ (y.dist < cm ∨ topk.length < k) := fun hh => hc ⟨hb, hh⟩
          rw [not_or, not_lt, not_lt] at hc'
          exact ⟨le_antisymm h.len hc'.2, fun t ht => le_trans (hcm t ht) (le_trans hc'.1 (hself _))⟩
        · exact .inl (le_trans (le_of_lt (not_le.1 hb)) (hself _))
      · exact hout y hy

theorem updateTopK_inv (d : Dist K) {k : Nat} (hk : 0 < k) (q : List K) {bound epsilon : K}
    (he : 0 ≤ epsilon) (data : List (Leaf K A)) :
    ∀ (topk seen : List (NB K A)) (cm : K), KInv k bound epsilon topk seen →
      (∀ t ∈ topk, t.dist ≤ cm) →
      KInv k bound epsilon (updateTopK d k q cm bound topk data) (seen ++ Spec.all d q data) := by
  induction data with
  | nil => intro topk seen cm h _; simpa [updateTopK, Spec.all] using h
  | cons p data ih =>
    intro topk seen cm h hcm
    have hstep := topKStep_inv d hk q he p h hcm
    have hih := ih _ _ _ hstep.1 hstep.2
    simpa [updateTopK, Spec.all] using hih

theorem currentMax_ge {k : Nat} {bound epsilon : K} {topk seen : List (NB K A)} (hk : 0 < k)
    (h : KInv k bound epsilon topk seen) : ∀ t ∈ topk, t.dist ≤ currentMax k bound topk := by
  intro t ht
  unfold currentMax
  split
  · exact h.bounded t ht
  · have hne : topk ≠ [] := List.ne_nil_of_mem ht
    rw [List.getLast?_eq_some_getLast hne]
    simp only [Option.map_some, Option.getD_some]
    have hs := h.sorted
    rw [← List.dropLast_append_getLast hne] at ht
    rw [← List.dropLast_append_getLast hne, List.pairwise_append] at hs
    rcases List.mem_append.1 ht with ht | ht
    · exact hs.2.2 t ht _ (by simp)
    · rw [List.mem_singleton.1 ht]

theorem out_of_currentMax {k : Nat} {bound epsilon : K} {topk seen : List (NB K A)} (hk : 0 < k)
    (h : KInv k bound epsilon topk seen) {x : NB K A}
    (hx : currentMax k bound topk ≤ x.dist + epsilon) : Out k bound epsilon topk x := by
  by_cases hl : topk.length < k
  · left; simpa [currentMax, hl] using hx
  · right
    exact ⟨le_antisymm h.len (not_lt.1 hl), fun t ht => le_trans (currentMax_ge hk h t ht) hx⟩

theorem KInv.discard {k : Nat} {bound epsilon : K} {topk seen : List (NB K A)}
    (h : KInv k bound epsilon topk seen) (xs : List (NB K A))
    (hx : ∀ x ∈ xs, Out k bound epsilon topk x) : KInv k bound epsilon topk (seen ++ xs) := by
  obtain ⟨disc, hp, ho⟩ := h.split
  refine ⟨h.sorted, h.len, h.bounded, ⟨disc ++ xs, ?_, ?_⟩⟩
  · rw [← List.append_assoc]; exact hp.append_right xs
  · intro x hx'
    rcases List.mem_append.1 hx' with hx' | hx'
    · exact ho x hx'
    · exact hx x hx'

theorem KInv.perm {k : Nat} {bound epsilon : K} {topk seen seen' : List (NB K A)}
    (h : KInv k bound epsilon topk seen) (hp : seen.Perm seen') : KInv k bound epsilon topk seen' := by
  obtain ⟨disc, hq, ho⟩ := h.split
  exact ⟨h.sorted, h.len, h.bounded, ⟨disc, hq.trans hp, ho⟩⟩

theorem knnLoop_spec {d : Dist K} (hd : d.prunable) (q : List K) {k : Nat} (hk : 0 < k) (bound : K)
    {epsilon : K} (he : 0 ≤ epsilon) (dim : Nat) :
    ∀ (fuel : Nat) (pending : List (K × Tree K A)) (topk seen : List (NB K A)),
      stackSize pending ≤ fuel → (∀ e ∈ pending, EntryOK d q dim e) →
      KInv k bound epsilon topk seen →
      ∃ res, knnLoop d q k bound epsilon fuel pending topk = some res ∧
        KInv k bound epsilon res (seen ++ Spec.all d q (stackPts pending)) := by
  intro fuel
  have hself : ∀ x : K, x ≤ x + epsilon := fun x => LawfulFloat.le_add _ _ he
  induction fuel with
  | zero =>
    intro pending topk seen hf _ h
    cases pending with
    | nil => exact ⟨topk, rfl, by simpa [stackPts, Spec.all] using h⟩
    | cons e s =>
      have := e.2.size_pos
      simp only [stackSize, List.map_cons, List.sum_cons] at hf
      omega
  | succ fuel ih =>
    intro pending topk seen hf hok h
    cases pending with
    | nil => exact ⟨topk, by simp [knnLoop], by simpa [stackPts, Spec.all] using h⟩
    | cons e s =>
      obtain ⟨bd, t⟩ := e
      have het := hok (bd, t) (by simp)
      have hs : ∀ e ∈ s, EntryOK d q dim e := fun e he => hok e (by simp [he])
      have hsz := t.size_pos
      simp only [stackSize, List.map_cons, List.sum_cons] at hf
      have e1 : stackPts ((bd, t) :: s) = t.points ++ stackPts s := rfl
      simp only [knnLoop]
      rw [e1, Spec.all_append]
      split
      · rename_i hgt
        have hdis : KInv k bound epsilon topk (seen ++ Spec.all d q t.points) := by
          apply h.discard
          intro x hx
          obtain ⟨p, hp, rfl⟩ := List.mem_map.1 hx
          apply out_of_currentMax hk h
          exact le_trans (le_of_lt (lt_of_lt_of_le hgt (het.2 p hp))) (hself _)
        obtain ⟨res, h1, h2⟩ := ih s topk _ (by simp only [stackSize]; omega) hs hdis
        exact ⟨res, h1, by simpa using h2⟩
      · obtain ⟨pu, pr, g1, g2, g3, g4, g5⟩ :=
          descend_spec d q (fun x => decide (x + epsilon < currentMax k bound topk)) dim t s het.1
        generalize hdd : descend d q (fun x => decide (x + epsilon < currentMax k bound topk)) t s = dd
          at g1 g2 g5
        obtain ⟨pend', data⟩ := dd
        simp only at g1 g2 ⊢
        subst g1
        have hdis : KInv k bound epsilon topk (seen ++ Spec.all d q (stackPts pr)) := by
          apply h.discard
          intro x hx
          obtain ⟨p, hp, rfl⟩ := List.mem_map.1 hx
          obtain ⟨e, hepr, hpe⟩ := List.mem_flatMap.1 hp
          have h3 := g3 e (by simp [hepr])
          have h4 := g4 e hepr
          rw [decide_eq_false_iff_not, not_lt] at h4
          apply out_of_currentMax hk h
          refine le_trans h4 (LawfulFloat.add_le_add _ _ _ _ ?_ le_rfl)
          rw [h3.1]
          exact boxDist_le hd (h3.2.inBox p hpe) q
        have hupd := updateTopK_inv d hk q he data _ _ _ hdis (currentMax_ge hk h)
        obtain ⟨res, h1, h2⟩ := ih (pu ++ s) _ _
          (by simp only [stackSize_append]; simp only [stackSize] at g5 ⊢; omega)
          (by
            intro e he
            rcases List.mem_append.1 he with he | he
            · have := g3 e (by simp [he])
              exact .of_box hd this.1 this.2
            · exact hs e he)
          hupd
        refine ⟨res, h1, h2.perm ?_⟩
        have hp := Spec.all_perm d q g2
        simp only [Spec.all_append, stackPts_append, List.append_assoc] at hp ⊢
        apply List.Perm.append_left
        refine List.Perm.trans ?_ ((hp.append_right _).symm)
        simp only [List.append_assoc]
        rw [← List.append_assoc, ← List.append_assoc, ← List.append_assoc, ← List.append_assoc]
        apply List.Perm.append_right
        rw [List.append_assoc]
        refine List.perm_append_comm.trans ?_
        rw [List.append_assoc]

theorem knnUnchecked_inv {cfg : Cfg K} (hd : cfg.d.prunable) {t : Tree K A} {dim : Nat} (hw : t.WF dim)
    {k : Nat} (hk : 0 < k) (q : List K) (bound : K) {epsilon : K} (he : 0 ≤ epsilon) :
    ∃ res, knnUnchecked cfg t k q bound epsilon = some res ∧
      KInv k bound epsilon res (Spec.all cfg.d q t.points) := by
  have h0 : KInv k bound epsilon ([] : List (NB K A)) [] :=
    ⟨List.Pairwise.nil, Nat.zero_le _, by simp, ⟨[], by simp, by simp⟩⟩
  obtain ⟨res, h1, h2⟩ := knnLoop_spec hd q hk bound he dim t.size [(minVal, t)] [] []
    (by simp [stackSize]) (by
      intro e he; rw [List.mem_singleton.1 he]; exact .root hd hw) h0
  exact ⟨res, h1, by simpa [stackPts] using h2⟩

/-- From the invariant with slack zero: the distances below the bound are the `k` smallest ones. -/
theorem KInv.kSmallest {k : Nat} {bound : K} {res seen : List (NB K A)} (h : KInv k bound 0 res seen) :
    (res.map (·.dist)).filter (fun x => decide (x < bound)) =
      (((seen.map (·.dist)).filter (fun x => decide (x < bound))).insertionSort (· ≤ ·)).take k := by
  obtain ⟨disc, hp, ho⟩ := h.split
  have hz : ∀ x : K, x + 0 = x := LawfulFloat.add_zero'
  set f : K → Bool := fun x => decide (x < bound) with hf
  set R := (res.map (·.dist)).filter f with hR
  set D := (disc.map (·.dist)).filter f with hD
  set S := (seen.map (·.dist)).filter f with hS
  have hperm : (R ++ D).Perm S := by
    have := (hp.map (·.dist)).filter f
    rwa [List.map_append, List.filter_append] at this
  have hRs : R.Pairwise (· ≤ ·) := (List.pairwise_map.2 h.sorted).sublist List.filter_sublist
  have hRl : R.length ≤ k := le_trans (List.length_filter_le _ _) (by simpa using h.len)
  have hDR : ∀ y ∈ D, R.length = k ∧ ∀ x ∈ R, x ≤ y := by
    intro y hy
    obtain ⟨hy1, hy2⟩ := List.mem_filter.1 hy
    obtain ⟨nb, hnb, rfl⟩ := List.mem_map.1 hy1
    have hy2' : nb.dist < bound := by simpa [hf] using hy2
    rcases ho nb hnb with hb | hb
    · rw [hz] at hb; exact absurd hb (not_le.2 hy2')
    · have hall : ∀ x ∈ res.map (·.dist), x ≤ nb.dist := by
        intro x hx
        obtain ⟨t, ht, rfl⟩ := List.mem_map.1 hx
        have := hb.2 t ht
        rwa [hz] at this
      have hRe : R = res.map (·.dist) := by
        rw [hR, List.filter_eq_self]
        intro x hx
        simpa [hf] using lt_of_le_of_lt (hall x hx) hy2'
      exact ⟨by rw [hRe]; simpa using hb.1, by rw [hRe]; exact hall⟩
  have hsort : S.insertionSort (· ≤ ·) = R ++ D.insertionSort (· ≤ ·) := by
    apply List.Perm.eq_of_pairwise (le := (· ≤ ·))
    · exact fun a b _ _ h1 h2 => le_antisymm h1 h2
    · exact List.pairwise_insertionSort _ _
    · rw [List.pairwise_append]
      refine ⟨hRs, List.pairwise_insertionSort _ _, ?_⟩
      intro a ha b hb
      exact (hDR b ((List.perm_insertionSort _ _).mem_iff.1 hb)).2 a ha
    · exact (List.perm_insertionSort _ _).trans
        (hperm.symm.trans ((List.perm_insertionSort _ _).symm.append_left _))
  rw [hsort]
  by_cases hD0 : D = []
  · simp [hD0, List.take_of_length_le hRl]
  · obtain ⟨y, hy⟩ := List.exists_mem_of_ne_nil _ hD0
    rw [← (hDR y hy).1, List.take_left']
    rfl

end Verif.KDT
