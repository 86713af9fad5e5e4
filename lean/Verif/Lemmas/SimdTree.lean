import Verif.Lemmas.KDQuery
import Verif.Lemmas.KDHistory

/-!
# The query loops when the box distance is a lower bound only up to a slack

No law of the arithmetic is used.  `R c x` says that a row at distance `x` may be missing from a search up to `c`.
-/
set_option linter.unusedSectionVars false
set_option linter.unusedVariables false

namespace Verif.SimdTree
open Verif Verif.KDT FloatOps

variable {K : Type} [LinearOrder K] [Zero K] [Add K] [Sub K] [Mul K] [FloatOps K] {A : Type}

/-- What is needed of the slack. -/
structure Slack (d : Dist K) (q : List K) (epsilon : K) (dim : Nat) (R : K → K → Prop) : Prop where
  refl : ∀ c x, c ≤ x → R c x
  mono : ∀ c c' x, c' ≤ c → R c x → R c' x
  box : ∀ b row, row.length = dim → InBox b row → ∀ c,
    (c < boxDist d b q → R c (d.dist row q)) ∧ (¬ boxDist d b q + epsilon < c → R c (d.dist row q))
  root : ∀ c row, c < minVal → R c (d.dist row q)

theorem all_append (d : Dist K) (q : List K) (a b : List (Leaf K A)) :
    Spec.all d q (a ++ b) = Spec.all d q a ++ Spec.all d q b := by simp [Spec.all]

theorem ball_append (d : Dist K) (q : List K) (r : K) (a b : List (Leaf K A)) :
    Spec.ball d q r (a ++ b) = Spec.ball d q r a ++ Spec.ball d q r b := by
  simp [Spec.ball, all_append]

theorem all_perm (d : Dist K) (q : List K) {a b : List (Leaf K A)} (h : a.Perm b) :
    (Spec.all d q a).Perm (Spec.all d q b) := h.map _

theorem ball_perm (d : Dist K) (q : List K) (r : K) {a b : List (Leaf K A)} (h : a.Perm b) :
    (Spec.ball d q r a).Perm (Spec.ball d q r b) := (all_perm d q h).filter _

theorem updateNbWithin_eq (d : Dist K) (q : List K) (r : K) (data : List (Leaf K A)) :
    ∀ nbs, updateNbWithin d q r nbs data = nbs ++ Spec.ball d q r data := by
  induction data with
  | nil => intro nbs; simp [updateNbWithin, Spec.ball, Spec.all]
  | cons p data ih =>
    intro nbs
    have := ih (if d.dist p.row q ≤ r then nbs ++ [⟨d.dist p.row q, p.item⟩] else nbs)
    simp only [updateNbWithin, List.foldl_cons] at this ⊢
    rw [this]
    by_cases h : d.dist p.row q ≤ r <;> simp [h, Spec.ball, Spec.all]

/-- The recorded distance of a stack entry is a lower bound up to the slack. -/
def EntryOK (d : Dist K) (q : List K) (R : K → K → Prop) (dim : Nat) (e : K × Tree K A) : Prop :=
  e.2.WF dim ∧ ∀ p ∈ e.2.points, ∀ c, c < e.1 → R c (d.dist p.row q)

theorem EntryOK.of_box {d : Dist K} {q : List K} {epsilon : K} {dim : Nat} {R : K → K → Prop} (hs : Slack d q epsilon dim R)
    {e : K × Tree K A} (h : e.1 = boxDist d e.2.box q) (hw : e.2.WF dim) : EntryOK d q R dim e :=
  ⟨hw, fun p hp c hc => (hs.box _ _ (hw.row_length p hp) (hw.inBox p hp) c).1 (h ▸ hc)⟩

theorem stackPts_append (a b : List (K × Tree K A)) : stackPts (a ++ b) = stackPts a ++ stackPts b := by
  simp [stackPts]

theorem stackSize_append (a b : List (K × Tree K A)) :
    stackSize (a ++ b) = stackSize a + stackSize b := by simp [stackSize]

theorem withinLoop_spec {d : Dist K} {q : List K} {epsilon : K} {dim : Nat} {R : K → K → Prop} (hR : Slack d q epsilon dim R)
    (r : K) :
    ∀ (fuel : Nat) (pending : List (K × Tree K A)) (nbs : List (NB K A)),
      stackSize pending ≤ fuel → (∀ e ∈ pending, EntryOK d q R dim e) →
      ∃ res omitted, withinLoop d q r fuel pending nbs = some res ∧
        (res ++ omitted).Perm (nbs ++ Spec.ball d q r (stackPts pending)) ∧ ∀ x ∈ omitted, R r x.dist := by
  intro fuel
  induction fuel with
  | zero =>
    intro pending nbs hf _
    cases pending with
    | nil => exact ⟨nbs, [], rfl, by simp [stackPts, Spec.ball, Spec.all], by simp⟩
    | cons e s =>
      have := e.2.size_pos
      simp only [stackSize, List.map_cons, List.sum_cons] at hf
      omega
  | succ fuel ih =>
    intro pending nbs hf hok
    cases pending with
    | nil => exact ⟨nbs, [], by simp [withinLoop], by simp [stackPts, Spec.ball, Spec.all], by simp⟩
    | cons e s =>
      obtain ⟨bd, t⟩ := e
      have het := hok (bd, t) (by simp)
      have hs : ∀ e ∈ s, EntryOK d q R dim e := fun e he => hok e (by simp [he])
      have hsz := t.size_pos
      simp only [stackSize, List.map_cons, List.sum_cons] at hf
      have e1 : stackPts ((bd, t) :: s) = t.points ++ stackPts s := rfl
      simp only [withinLoop]
      split
      · rename_i hgt
        obtain ⟨res, om, h1, h2, h3⟩ := ih s nbs (by simp only [stackSize]; omega) hs
        refine ⟨res, om ++ Spec.ball d q r t.points, h1, ?_, ?_⟩
        · rw [e1, ball_append, ← List.append_assoc]
          refine (h2.append_right _).trans ?_
          rw [List.append_assoc]
          exact List.perm_append_comm.append_left _
        · intro x hx
          rcases List.mem_append.1 hx with hx | hx
          · exact h3 x hx
          · obtain ⟨p, hp, rfl⟩ := List.mem_map.1 (List.mem_filter.1 hx).1
            exact het.2 p hp r hgt
      · obtain ⟨pu, pr, g1, g2, g3, g4, g5⟩ :=
          descend_spec d q (fun x => decide (x ≤ r)) dim t s het.1
        generalize hdd : descend d q (fun x => decide (x ≤ r)) t s = dd at g1 g2 g5
        obtain ⟨pend', data⟩ := dd
        simp only at g1 g2 ⊢
        subst g1
        obtain ⟨res, om, h1, h2, h3⟩ := ih (pu ++ s) (updateNbWithin d q r nbs data)
          (by simp only [stackSize_append]; simp only [stackSize] at g5 ⊢; omega)
          (by
            intro e he
            rcases List.mem_append.1 he with he | he
            · have := g3 e (by simp [he])
              exact .of_box hR this.1 this.2
            · exact hs e he)
        refine ⟨res, om ++ Spec.ball d q r (stackPts pr), h1, ?_, ?_⟩
        · rw [← List.append_assoc]
          refine (h2.append_right _).trans ?_
          have hp := ball_perm d q r g2
          rw [ball_append, ball_append] at hp
          rw [updateNbWithin_eq, e1, ball_append, stackPts_append, ball_append]
          simp only [List.append_assoc]
          apply List.Perm.append_left
          refine List.Perm.trans ?_ (hp.append_right _).symm
          simp only [List.append_assoc]
          exact ((List.perm_append_comm (l₁ := Spec.ball d q r (stackPts s))).append_left _).append_left _
        · intro x hx
          rcases List.mem_append.1 hx with hx | hx
          · exact h3 x hx
          · obtain ⟨p, hp, rfl⟩ := List.mem_map.1 (List.mem_filter.1 hx).1
            obtain ⟨e, hepr, hpe⟩ := List.mem_flatMap.1 hp
            have g := g3 e (by simp [hepr])
            have hk := g4 e hepr
            rw [decide_eq_false_iff_not, not_le] at hk
            exact (hR.box _ _ (g.2.row_length p hpe) (g.2.inBox p hpe) r).1 (g.1 ▸ hk)

/-! ## k nearest neighbors -/

/-- `x` may be left out of the result `topk`. -/
def Out (R : K → K → Prop) (k : Nat) (bound : K) (topk : List (NB K A)) (x : NB K A) : Prop :=
  R bound x.dist ∨ (topk.length = k ∧ ∀ t ∈ topk, R t.dist x.dist)

/-- Loop invariant: the rows processed so far are those in `topk` and some left out. -/
structure KInv (R : K → K → Prop) (k : Nat) (bound : K) (topk : List (NB K A)) (seen : List (NB K A)) : Prop where
  sorted : topk.Pairwise (fun a b => a.dist ≤ b.dist)
  len : topk.length ≤ k
  bounded : ∀ t ∈ topk, t.dist ≤ bound
  split : ∃ disc, (topk ++ disc).Perm seen ∧ ∀ x ∈ disc, Out R k bound topk x

theorem takeWhile_sorted {l : List (NB K A)} (h : l.Pairwise (fun a b => a.dist ≤ b.dist)) (x : K) :
    ∀ y ∈ l.dropWhile (fun s => decide (s.dist ≤ x)), x < y.dist := by
  induction l with
  | nil => simp
  | cons a l ih =>
    have ha := List.pairwise_cons.1 h
    simp only [List.dropWhile_cons]
    split
    · exact ih ha.2
    · rename_i hx
      have hx' : x < a.dist := by simpa using hx
      intro y hy
      rcases List.mem_cons.1 hy with rfl | hy
      · exact hx'
      · exact lt_of_lt_of_le hx' (ha.1 y hy)

theorem sorted_insert {l : List (NB K A)} (h : l.Pairwise (fun a b => a.dist ≤ b.dist)) (x : NB K A) :
    (l.insertIdx (partitionPoint (fun s => decide (s.dist ≤ x.dist)) l) x).Pairwise
      (fun a b => a.dist ≤ b.dist) := by
  rw [insertIdx_partition]
  have hl := h
  rw [← List.takeWhile_append_dropWhile (p := fun s => decide (s.dist ≤ x.dist)) (l := l)] at hl
  rw [List.pairwise_append] at hl ⊢
  have h1 := takeWhile_sorted h x.dist
  refine ⟨hl.1, List.pairwise_cons.2 ⟨fun y hy => le_of_lt (h1 y hy), hl.2.1⟩, ?_⟩
  intro a ha b hb
  have hax : a.dist ≤ x.dist := by simpa using List.mem_takeWhile_imp ha
  rcases List.mem_cons.1 hb with rfl | hb
  · exact hax
  · exact hl.2.2 a ha b hb

/-- One element of a leaf preserves the invariant. -/
theorem topKStep_inv {R : K → K → Prop} (hrefl : ∀ c x, c ≤ x → R c x) (hmono : ∀ c c' x, c' ≤ c → R c x → R c' x)
    (d : Dist K) {k : Nat} (hk : 0 < k) (q : List K) {bound : K}
    {topk seen : List (NB K A)} {cm : K} (p : Leaf K A)
    (h : KInv R k bound topk seen) (hcm : ∀ t ∈ topk, t.dist ≤ cm) :
    KInv R k bound (topKStep d k q bound (topk, cm) p).1 (seen ++ [⟨d.dist p.row q, p.item⟩]) ∧
    ∀ t ∈ (topKStep d k q bound (topk, cm) p).1, t.dist ≤ (topKStep d k q bound (topk, cm) p).2 := by
  obtain ⟨disc, hperm, hout⟩ := h.split
  unfold topKStep
  simp only
  generalize hx : (⟨d.dist p.row q, p.item⟩ : NB K A) = x
  have hxd : d.dist p.row q = x.dist := by rw [← hx]
  rw [hxd]
  split
  · rename_i hc
    obtain ⟨hcb, hc⟩ := hc
    have hins_s := sorted_insert h.sorted x
    have hins_p := insert_perm (fun s : NB K A => decide (s.dist ≤ x.dist)) topk x
    generalize hins : topk.insertIdx (partitionPoint (fun s : NB K A => decide (s.dist ≤ x.dist)) topk) x
      = ins at hins_s hins_p
    have hlen : ins.length = topk.length + 1 := by simpa using hins_p.length_eq
    have hmem : ∀ t ∈ ins, t.dist ≤ max cm x.dist ∧ t.dist ≤ bound := by
      intro t ht
      rcases List.mem_cons.1 (hins_p.mem_iff.1 ht) with rfl | ht
      · exact ⟨le_max_right _ _, hcb⟩
      · exact ⟨le_trans (hcm t ht) (le_max_left _ _), h.bounded t ht⟩
    by_cases hfull : ins.length > k
    · -- full: the last element is dropped
      have hk' : topk.length = k := by have := h.len; omega
      have hne : ins ≠ [] := by intro hn; simp [hn] at hlen
      have hsplit := List.dropLast_append_getLast hne
      generalize hz : ins.getLast hne = z at hsplit
      simp only [hfull, if_true]
      have hsub : ∀ t ∈ ins.dropLast, t ∈ ins := fun t ht => List.mem_of_mem_dropLast ht
      have hzmax : ∀ t ∈ ins.dropLast, t.dist ≤ z.dist := by
        intro t ht
        have hs := hins_s
        rw [← hsplit, List.pairwise_append] at hs
        exact hs.2.2 t ht z (by simp)
      have hdl : ins.dropLast.length = k := by simp; omega
      -- everything kept is at most some element of the old list
      have hold : ∀ t ∈ ins.dropLast, ∃ t' ∈ topk, t.dist ≤ t'.dist := by
        intro t ht
        rcases List.mem_cons.1 (hins_p.mem_iff.1 (hsub t ht)) with rfl | ht'
        · by_contra hno
          push Not at hno
          have htw : topk.takeWhile (fun s => decide (s.dist ≤ t.dist)) = topk := by
            rw [List.takeWhile_eq_self_iff]
            intro s hs
            simpa using (hno s hs).le
          have hins' : ins = topk ++ [t] := by
            rw [← hins, insertIdx_partition, htw]
            have : topk.dropWhile (fun s => decide (s.dist ≤ t.dist)) = [] := by
              have := List.takeWhile_append_dropWhile (p := fun s : NB K A => decide (s.dist ≤ t.dist))
                (l := topk)
              rw [htw] at this
              simpa using this
            rw [this]
          rw [hins', List.dropLast_concat] at ht
          exact lt_irrefl _ (hno t ht)
        · exact ⟨t, ht', le_rfl⟩
      refine ⟨⟨hins_s.sublist (List.dropLast_sublist _), by omega,
        fun t ht => (hmem t (hsub t ht)).2, ⟨z :: disc, ?_, ?_⟩⟩, fun t ht => (hmem t (hsub t ht)).1⟩
      · have : (ins.dropLast ++ z :: disc) = ins ++ disc := by
          conv_rhs => rw [← hsplit]
          simp
        rw [this]
        refine (hins_p.append_right disc).trans ?_
        refine (List.Perm.cons x hperm).trans ?_
        exact (List.perm_append_singleton x seen).symm
      · intro y hy
        rcases List.mem_cons.1 hy with rfl | hy
        · exact .inr ⟨hdl, fun t ht => hrefl _ _ (hzmax t ht)⟩
        · rcases hout y hy with ho | ho
          · exact .inl ho
          · refine .inr ⟨hdl, fun t ht => ?_⟩
            obtain ⟨t', ht', hle⟩ := hold t ht
            exact hmono _ _ _ hle (ho.2 t' ht')
    · simp only [hfull, if_false]
      refine ⟨⟨hins_s, by omega, fun t ht => (hmem t ht).2, ⟨disc, ?_, ?_⟩⟩, fun t ht => (hmem t ht).1⟩
      · refine (hins_p.append_right disc).trans ?_
        refine (List.Perm.cons x hperm).trans ?_
        exact (List.perm_append_singleton x seen).symm
      · intro y hy
        rcases hout y hy with ho | ho
        · exact .inl ho
        · omega
  · rename_i hc
    refine ⟨⟨h.sorted, h.len, h.bounded, ⟨x :: disc, ?_, ?_⟩⟩, hcm⟩
    · exact List.perm_middle.trans
        ((List.Perm.cons x hperm).trans (List.perm_append_singleton x seen).symm)
    · intro y hy
      rcases List.mem_cons.1 hy with rfl | hy
      · by_cases hb : y.dist ≤ bound
        · right
          have hc' : ¬ (y.dist < cm ∨ topk.length < k) := fun hh => hc ⟨hb, hh⟩
          rw [not_or, not_lt, not_lt] at hc'
          exact ⟨le_antisymm h.len hc'.2, fun t ht => hrefl _ _ (le_trans (hcm t ht) hc'.1)⟩
        · exact .inl (hrefl _ _ (le_of_lt (not_le.1 hb)))
      · exact hout y hy

theorem updateTopK_inv {R : K → K → Prop} (hrefl : ∀ c x, c ≤ x → R c x) (hmono : ∀ c c' x, c' ≤ c → R c x → R c' x)
    (d : Dist K) {k : Nat} (hk : 0 < k) (q : List K) {bound : K} (data : List (Leaf K A)) :
    ∀ (topk seen : List (NB K A)) (cm : K), KInv R k bound topk seen →
      (∀ t ∈ topk, t.dist ≤ cm) →
      KInv R k bound (updateTopK d k q cm bound topk data) (seen ++ Spec.all d q data) := by
  induction data with
  | nil => intro topk seen cm h _; simpa [updateTopK, Spec.all] using h
  | cons p data ih =>
    intro topk seen cm h hcm
    have hstep := topKStep_inv hrefl hmono d hk q p h hcm
    have hih := ih _ _ _ hstep.1 hstep.2
    simpa [updateTopK, Spec.all] using hih

theorem currentMax_ge {R : K → K → Prop} {k : Nat} {bound : K} {topk seen : List (NB K A)} (hk : 0 < k)
    (h : KInv R k bound topk seen) : ∀ t ∈ topk, t.dist ≤ currentMax k bound topk := by
  intro t ht
  unfold currentMax
  split
  · exact h.bounded t ht
  · have hne : topk ≠ [] := List.ne_nil_of_mem ht
    rw [List.getLast?_eq_some_getLast hne]
    simp only [Option.map_some, Option.getD_some]
    have hs := h.sorted
    rw [← List.dropLast_append_getLast hne] at ht
    rw [← List.dropLast_append_getLast hne, List.pairwise_append] at hs
    rcases List.mem_append.1 ht with ht | ht
    · exact hs.2.2 t ht _ (by simp)
    · rw [List.mem_singleton.1 ht]

theorem out_of_currentMax {R : K → K → Prop} (hmono : ∀ c c' x, c' ≤ c → R c x → R c' x) {k : Nat} {bound : K}
    {topk seen : List (NB K A)} (hk : 0 < k) (h : KInv R k bound topk seen) {x : NB K A}
    (hx : R (currentMax k bound topk) x.dist) : Out R k bound topk x := by
  by_cases hl : topk.length < k
  · left; simpa [currentMax, hl] using hx
  · right
    exact ⟨le_antisymm h.len (not_lt.1 hl), fun t ht => hmono _ _ _ (currentMax_ge hk h t ht) hx⟩

theorem KInv.discard {R : K → K → Prop} {k : Nat} {bound : K} {topk seen : List (NB K A)}
    (h : KInv R k bound topk seen) (xs : List (NB K A))
    (hx : ∀ x ∈ xs, Out R k bound topk x) : KInv R k bound topk (seen ++ xs) := by
  obtain ⟨disc, hp, ho⟩ := h.split
  refine ⟨h.sorted, h.len, h.bounded, ⟨disc ++ xs, ?_, ?_⟩⟩
  · rw [← List.append_assoc]; exact hp.append_right xs
  · intro x hx'
    rcases List.mem_append.1 hx' with hx' | hx'
    · exact ho x hx'
    · exact hx x hx'

theorem KInv.perm {R : K → K → Prop} {k : Nat} {bound : K} {topk seen seen' : List (NB K A)}
    (h : KInv R k bound topk seen) (hp : seen.Perm seen') : KInv R k bound topk seen' := by
  obtain ⟨disc, hq, ho⟩ := h.split
  exact ⟨h.sorted, h.len, h.bounded, ⟨disc, hq.trans hp, ho⟩⟩

theorem knnLoop_spec {d : Dist K} {q : List K} {epsilon : K} {dim : Nat} {R : K → K → Prop} (hR : Slack d q epsilon dim R)
    {k : Nat} (hk : 0 < k) (bound : K) :
    ∀ (fuel : Nat) (pending : List (K × Tree K A)) (topk seen : List (NB K A)),
      stackSize pending ≤ fuel → (∀ e ∈ pending, EntryOK d q R dim e) →
      KInv R k bound topk seen →
      ∃ res, knnLoop d q k bound epsilon fuel pending topk = some res ∧
        KInv R k bound res (seen ++ Spec.all d q (stackPts pending)) := by
  intro fuel
  induction fuel with
  | zero =>
    intro pending topk seen hf _ h
    cases pending with
    | nil => exact ⟨topk, rfl, by simpa [stackPts, Spec.all] using h⟩
    | cons e s =>
      have := e.2.size_pos
      simp only [stackSize, List.map_cons, List.sum_cons] at hf
      omega
  | succ fuel ih =>
    intro pending topk seen hf hok h
    cases pending with
    | nil => exact ⟨topk, by simp [knnLoop], by simpa [stackPts, Spec.all] using h⟩
    | cons e s =>
      obtain ⟨bd, t⟩ := e
      have het := hok (bd, t) (by simp)
      have hs : ∀ e ∈ s, EntryOK d q R dim e := fun e he => hok e (by simp [he])
      have hsz := t.size_pos
      simp only [stackSize, List.map_cons, List.sum_cons] at hf
      have e1 : stackPts ((bd, t) :: s) = t.points ++ stackPts s := rfl
      simp only [knnLoop]
      rw [e1, all_append]
      split
      · rename_i hgt
        have hdis : KInv R k bound topk (seen ++ Spec.all d q t.points) := by
          apply h.discard
          intro x hx
          obtain ⟨p, hp, rfl⟩ := List.mem_map.1 hx
          exact out_of_currentMax hR.mono hk h (het.2 p hp _ hgt)
        obtain ⟨res, h1, h2⟩ := ih s topk _ (by simp only [stackSize]; omega) hs hdis
        exact ⟨res, h1, by simpa using h2⟩
      · obtain ⟨pu, pr, g1, g2, g3, g4, g5⟩ :=
          descend_spec d q (fun x => decide (x + epsilon < currentMax k bound topk)) dim t s het.1
        generalize hdd : descend d q (fun x => decide (x + epsilon < currentMax k bound topk)) t s = dd
          at g1 g2 g5
        obtain ⟨pend', data⟩ := dd
        simp only at g1 g2 ⊢
        subst g1
        have hdis : KInv R k bound topk (seen ++ Spec.all d q (stackPts pr)) := by
          apply h.discard
          intro x hx
          obtain ⟨p, hp, rfl⟩ := List.mem_map.1 hx
          obtain ⟨e, hepr, hpe⟩ := List.mem_flatMap.1 hp
          have h3 := g3 e (by simp [hepr])
          have h4 := g4 e hepr
          rw [decide_eq_false_iff_not] at h4
          apply out_of_currentMax hR.mono hk h
          rw [h3.1] at h4
          exact (hR.box _ _ (h3.2.row_length p hpe) (h3.2.inBox p hpe) _).2 h4
        have hupd := updateTopK_inv hR.refl hR.mono d hk q data _ _ _ hdis (currentMax_ge hk h)
        obtain ⟨res, h1, h2⟩ := ih (pu ++ s) _ _
          (by simp only [stackSize_append]; simp only [stackSize] at g5 ⊢; omega)
          (by
            intro e he
            rcases List.mem_append.1 he with he | he
            · have := g3 e (by simp [he])
              exact .of_box hR this.1 this.2
            · exact hs e he)
          hupd
        refine ⟨res, h1, h2.perm ?_⟩
        have hp := all_perm d q g2
        simp only [all_append, stackPts_append, List.append_assoc] at hp ⊢
        apply List.Perm.append_left
        refine List.Perm.trans ?_ ((hp.append_right _).symm)
        simp only [List.append_assoc]
        rw [← List.append_assoc, ← List.append_assoc, ← List.append_assoc, ← List.append_assoc]
        apply List.Perm.append_right
        rw [List.append_assoc]
        refine List.perm_append_comm.trans ?_
        rw [List.append_assoc]

theorem withinLoop_root {d : Dist K} {q : List K} {epsilon : K} {dim : Nat} {R : K → K → Prop} (hR : Slack d q epsilon dim R)
    (r : K) {t : Tree K A} (hw : t.WF dim) :
    ∃ res omitted, withinLoop d q r t.size [(minVal, t)] [] = some res ∧
      (res ++ omitted).Perm (Spec.ball d q r t.points) ∧ ∀ x ∈ omitted, R r x.dist := by
  obtain ⟨res, om, h1, h2, h3⟩ := withinLoop_spec hR r t.size [(minVal, t)] [] (by simp [stackSize]) (by
    intro e he
    rw [List.mem_singleton.1 he]
    exact ⟨hw, fun p _ c hc => hR.root c _ hc⟩)
  exact ⟨res, om, h1, by simpa [stackPts] using h2, h3⟩

theorem knnLoop_root {d : Dist K} {q : List K} {epsilon : K} {dim : Nat} {R : K → K → Prop} (hR : Slack d q epsilon dim R)
    {k : Nat} (hk : 0 < k) (bound : K) {t : Tree K A} (hw : t.WF dim) :
    ∃ res, knnLoop d q k bound epsilon t.size [(minVal, t)] [] = some res ∧ KInv R k bound res (Spec.all d q t.points) := by
  have h0 : KInv R k bound ([] : List (NB K A)) [] :=
    ⟨List.Pairwise.nil, Nat.zero_le _, by simp, ⟨[], by simp, by simp⟩⟩
  obtain ⟨res, h1, h2⟩ := knnLoop_spec hR hk bound t.size [(minVal, t)] [] [] (by simp [stackSize]) (by
    intro e he
    rw [List.mem_singleton.1 he]
    exact ⟨hw, fun p _ c hc => hR.root c _ hc⟩) h0
  exact ⟨res, h1, by simpa [stackPts] using h2⟩

end Verif.SimdTree
