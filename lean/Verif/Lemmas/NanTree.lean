import Verif.Model.NanTree
import Verif.Lemmas.KDQuery

/-!
# Lemmas: a tree with NaN coordinates answers like the tree of the complete rows in the same boxes
-/
set_option linter.unusedSectionVars false

namespace Verif.KDT
open Verif FloatOps

variable {K : Type} [LinearOrder K] [Zero K] [Add K] [Sub K] [Mul K] {A : Type}

/-- The complete rows. -/
def Spec.complete (l : List (Leaf (Option K) A)) : List (Leaf K A) :=
  (l.filter fun p => p.row.all Option.isSome).map fun p => ⟨p.item, p.row.filterMap id⟩

theorem fullRow_iff (r : List (Option K)) (v : List K) : fullRow r = some v ↔ r = v.map some := by
  unfold fullRow
  induction r generalizing v with
  | nil => cases v <;> simp
  | cons a r ih =>
    cases a with
    | none => cases v <;> simp [List.mapM_cons]
    | some a =>
      rw [List.mapM_cons]
      cases v with
      | nil => cases h : List.mapM id r <;> simp
      | cons b v =>
        cases h : List.mapM id r with
        | none =>
          have := ih v
          simp only [h, reduceCtorEq, false_iff] at this
          simp [this]
        | some w =>
          have := ih v
          simp only [h, Option.some.injEq] at this
          simp [this]

theorem fullRow_none_iff (r : List (Option K)) : fullRow r = none ↔ none ∈ r := by
  constructor
  · intro h
    by_contra hc
    have : r = (r.filterMap id).map some := by
      clear h
      induction r with
      | nil => rfl
      | cons a r ih =>
        cases a with
        | none => simp at hc
        | some a =>
          exact congrArg (some a :: ·) (ih (fun h => hc (by simp [h])))
    rw [(fullRow_iff r _).2 this] at h
    cases h
  · intro h
    cases h' : fullRow r with
    | none => rfl
    | some v =>
      rw [(fullRow_iff r v).1 h'] at h
      simp at h

theorem complete_cons (p : Leaf (Option K) A) (l : List (Leaf (Option K) A)) :
    Spec.complete (p :: l) = (fullRow p.row).elim (Spec.complete l) fun v => ⟨p.item, v⟩ :: Spec.complete l := by
  unfold Spec.complete
  cases h : fullRow p.row with
  | none =>
    have : p.row.all Option.isSome = false := by
      rw [fullRow_none_iff] at h
      rw [List.all_eq_false]
      exact ⟨none, h, by simp⟩
    rw [List.filter_cons, if_neg (by simp [this])]
    rfl
  | some v =>
    rw [fullRow_iff] at h
    rw [List.filter_cons, if_pos (by simp [h])]
    simp [h]

theorem complete_append (a b : List (Leaf (Option K) A)) :
    Spec.complete (a ++ b) = Spec.complete a ++ Spec.complete b := by simp [Spec.complete]

theorem complete_perm {a b : List (Leaf (Option K) A)} (h : a.Perm b) : (Spec.complete a).Perm (Spec.complete b) :=
  (h.filter _).map _

theorem mem_complete {l : List (Leaf (Option K) A)} {p : Leaf K A} (h : p ∈ Spec.complete l) :
    ∃ x ∈ l, x.item = p.item ∧ x.row = p.row.map some := by
  induction l with
  | nil => simp [Spec.complete] at h
  | cons x l ih =>
    rw [complete_cons] at h
    cases hx : fullRow x.row with
    | none =>
      rw [hx] at h
      obtain ⟨y, hy, e⟩ := ih h
      exact ⟨y, by simp [hy], e⟩
    | some v =>
      rw [hx] at h
      rcases List.mem_cons.1 h with rfl | h
      · exact ⟨x, by simp, rfl, (fullRow_iff _ _).1 hx⟩
      · obtain ⟨y, hy, e⟩ := ih h
        exact ⟨y, by simp [hy], e⟩

/-- The tree of the complete rows with the same boxes and splits. -/
def NTree.prune : NTree K A → Tree K A
  | .leaf b data => .leaf b (Spec.complete data)
  | .node axis v b l r => .node axis v b l.prune r.prune

/-- Stored rows. -/
def NTree.points : NTree K A → List (Leaf (Option K) A)
  | .leaf _ data => data
  | .node _ _ _ l r => l.points ++ r.points

theorem prune_points (t : NTree K A) : t.prune.points = Spec.complete t.points := by
  induction t with
  | leaf b data => rfl
  | node axis v b l r ihl ihr => simp [NTree.prune, Tree.points, NTree.points, ihl, ihr, complete_append]

theorem prune_box (t : NTree K A) : t.prune.box = t.box := by cases t <;> rfl

theorem prune_size (t : NTree K A) : t.prune.size = t.size := by
  induction t with
  | leaf b data => rfl
  | node axis v b l r ihl ihr => simp [NTree.prune, Tree.size, NTree.size, ihl, ihr]

/-! ## Boxes -/

theorem zipN_min : ∀ (lo : List K) (r : List (Option K)) (row : List K), lo.length = r.length →
    List.Forall₂ (· ≤ ·) lo row → List.Forall₂ (· ≤ ·) (List.zipWith (fun m x => x.elim m (min m)) lo r) row := by
  intro lo r row h h1
  induction h1 generalizing r with
  | nil => simp
  | cons hab _ ih =>
    cases r with
    | nil => simp at h
    | cons c r =>
      refine List.Forall₂.cons ?_ (ih r (by simpa using h))
      cases c with
      | none => exact hab
      | some c => exact le_trans (min_le_left _ _) hab

theorem zipN_max : ∀ (hi : List K) (r : List (Option K)) (row : List K), hi.length = r.length →
    List.Forall₂ (· ≤ ·) row hi → List.Forall₂ (· ≤ ·) row (List.zipWith (fun m x => x.elim m (max m)) hi r) := by
  intro hi r row h h1
  induction h1 generalizing r with
  | nil => simp
  | cons hab _ ih =>
    cases r with
    | nil => simp at h
    | cons c r =>
      refine List.Forall₂.cons ?_ (ih r (by simpa using h))
      cases c with
      | none => exact hab
      | some c => exact le_trans hab (le_max_left _ _)

theorem updateN_dim {b : Box K} {dim : Nat} (h : b.Dim dim) {r : List (Option K)} (hr : r.length = dim) :
    (b.updateN r).Dim dim := by
  simp [Box.Dim, Box.updateN, h.1, h.2, hr]

theorem InBox.updateN {b : Box K} {dim : Nat} (h : b.Dim dim) {r : List (Option K)} {row : List K} (hr : r.length = dim)
    (hb : InBox b row) : InBox (b.updateN r) row :=
  ⟨zipN_min _ _ _ (h.1.trans hr.symm) hb.1, zipN_max _ _ _ (h.2.trans hr.symm) hb.2⟩

theorem updateN_complete (b : Box K) (row : List K) : b.updateN (row.map some) = b.update row := by
  simp [Box.updateN, Box.update, List.zipWith_map_right]

/-- A row lies in a box if it is complete and its values do. -/
def InBoxN (b : Box K) (row : List (Option K)) : Prop := ∀ v, row = v.map some → InBox b v

theorem InBoxN.updateN {b : Box K} {dim : Nat} (h : b.Dim dim) {r row : List (Option K)} (hr : r.length = dim)
    (hb : InBoxN b row) : InBoxN (b.updateN r) row := fun v hv => (hb v hv).updateN h hr

theorem InBoxN.self {b : Box K} {dim : Nat} (h : b.Dim dim) {r : List (Option K)} (hr : r.length = dim) :
    InBoxN (b.updateN r) r := by
  intro v hv
  subst hv
  rw [updateN_complete]
  exact InBox.update_self h (by simpa using hr)

section
variable [FloatOps K]

theorem foldl_boundsN (dim : Nat) : ∀ (data : List (Leaf (Option K) A)) (b : Box K), b.Dim dim →
    (∀ p ∈ data, p.row.length = dim) →
    (data.foldl (fun b p => b.updateN p.row) b).Dim dim ∧
    (∀ row, InBoxN b row → InBoxN (data.foldl (fun b p => b.updateN p.row) b) row) ∧
    ∀ p ∈ data, InBoxN (data.foldl (fun b p => b.updateN p.row) b) p.row := by
  intro data
  induction data with
  | nil => intro b hb _; exact ⟨hb, fun _ h => h, by simp⟩
  | cons p data ih =>
    intro b hb hrow
    have hp := hrow p (by simp)
    obtain ⟨h1, h2, h3⟩ := ih (b.updateN p.row) (updateN_dim hb hp) (fun x hx => hrow x (by simp [hx]))
    refine ⟨h1, fun row h => h2 row (h.updateN hb hp), ?_⟩
    intro x hx
    rcases List.mem_cons.1 hx with rfl | hx
    · exact h2 _ (InBoxN.self hb hp)
    · exact h3 x hx

theorem nFindBounds_spec (dim : Nat) (data : List (Leaf (Option K) A)) (h : ∀ p ∈ data, p.row.length = dim) :
    (nFindBounds dim data).Dim dim ∧ ∀ p ∈ data, InBoxN (nFindBounds dim data) p.row :=
  let r := foldl_boundsN dim data (emptyBox dim) (emptyBox_dim dim) h
  ⟨r.1, r.2.2⟩

end

/-- Every stored row has `dim` coordinates and, if complete, lies in the box of every node above it. -/
def NTree.WF (dim : Nat) : NTree K A → Prop
  | .leaf b data => b.Dim dim ∧ ∀ p ∈ data, p.row.length = dim ∧ InBoxN b p.row
  | .node axis _ b l r => axis < dim ∧ b.Dim dim ∧ (∀ p ∈ l.points ++ r.points, InBoxN b p.row) ∧ l.WF dim ∧ r.WF dim

theorem prune_WF {dim : Nat} : ∀ {t : NTree K A}, t.WF dim → t.prune.WF dim
  | .leaf b data, h => by
    refine ⟨h.1, fun p hp => ?_⟩
    obtain ⟨x, hx, -, e⟩ := mem_complete hp
    obtain ⟨h1, h2⟩ := h.2 x hx
    exact ⟨by rw [← h1, e]; simp, h2 _ e⟩
  | .node axis v b l r, h => by
    obtain ⟨h1, h2, h3, h4, h5⟩ := h
    refine ⟨h1, h2, fun p hp => ?_, prune_WF h4, prune_WF h5⟩
    rw [prune_points, prune_points, ← complete_append] at hp
    obtain ⟨x, hx, -, e⟩ := mem_complete hp
    exact h3 x hx _ e

section
variable [FloatOps K]

theorem nSplit_perm {us : USort} {pp : PPoint} {cfg : Cfg K} {b : Box K} {axis : Nat} {data : List (Leaf (Option K) A)}
    {s : K × List (Leaf (Option K) A) × List (Leaf (Option K) A)} (h : nSplit us pp cfg b axis data = some s) :
    (s.2.1 ++ s.2.2).Perm data := by
  unfold nSplit at h
  cases hm : cfg.method with
  | midpoint =>
    rw [hm] at h
    simp only [Option.some.injEq] at h
    rw [← h]
    simp only [List.take_append_drop]
    exact us.perm _ _
  | median =>
    rw [hm] at h
    dsimp only at h
    split at h
    · simp only [Option.some.injEq] at h
      rw [← h]
      simp only [List.take_append_drop]
      exact us.perm _ _
    · cases h

theorem nAdd_spec (us : USort) (pp : PPoint) (cfg : Cfg K) (hdim : 0 < cfg.dim) (p : Leaf (Option K) A)
    (hp : p.row.length = cfg.dim) : ∀ (t : NTree K A) (depth : Nat) (t' : NTree K A), t.WF cfg.dim →
      t.add us pp cfg p depth = some t' → t'.WF cfg.dim ∧ t'.points.Perm (p :: t.points) := by
  intro t
  induction t with
  | leaf b data =>
    intro depth t' h ht
    have hb : (b.updateN p.row).Dim cfg.dim := updateN_dim h.1 hp
    have hall : ∀ x ∈ data ++ [p], x.row.length = cfg.dim ∧ InBoxN (b.updateN p.row) x.row := by
      intro x hx
      rcases List.mem_append.1 hx with hx | hx
      · exact ⟨(h.2 x hx).1, (h.2 x hx).2.updateN h.1 hp⟩
      · rw [List.mem_singleton.1 hx]
        exact ⟨hp, InBoxN.self h.1 hp⟩
    have hperm0 : (data ++ [p]).Perm (p :: data) := List.perm_append_singleton p data
    simp only [NTree.add] at ht
    split at ht
    · rw [Option.map_eq_some_iff] at ht
      obtain ⟨⟨v, left, right⟩, hs0, ht⟩ := ht
      have hs := nSplit_perm hs0
      simp only at hs ht
      have hmem : ∀ x ∈ left ++ right, x.row.length = cfg.dim ∧ InBoxN (b.updateN p.row) x.row :=
        fun x hx => hall x (hs.mem_iff.1 hx)
      split at ht
      · rename_i he
        have hl : left = [] := by simpa using he
        subst hl
        rw [← ht]
        refine ⟨⟨hb, fun x hx => hmem x (by simpa using hx)⟩, ?_⟩
        exact (by simpa using hs : right.Perm (data ++ [p])).trans hperm0
      · rw [← ht]
        have hl := nFindBounds_spec cfg.dim left (fun x hx => (hmem x (by simp [hx])).1)
        have hr := nFindBounds_spec cfg.dim right (fun x hx => (hmem x (by simp [hx])).1)
        refine ⟨⟨Nat.mod_lt _ hdim, hb, fun x hx => (hmem x hx).2, ⟨hl.1, ?_⟩, ⟨hr.1, ?_⟩⟩, ?_⟩
        · exact fun x hx => ⟨(hmem x (by simp [hx])).1, hl.2 x hx⟩
        · exact fun x hx => ⟨(hmem x (by simp [hx])).1, hr.2 x hx⟩
        · exact hs.trans hperm0
    · simp only [Option.some.injEq] at ht
      rw [← ht]
      exact ⟨⟨hb, hall⟩, hperm0⟩
  | node axis v b l r ihl ihr =>
    intro depth t' h ht
    obtain ⟨hax, hb, hin, hl, hr⟩ := h
    have hb' : (b.updateN p.row).Dim cfg.dim := updateN_dim hb hp
    simp only [NTree.add] at ht
    split at ht
    · rw [Option.map_eq_some_iff] at ht
      obtain ⟨l', hl', ht⟩ := ht
      obtain ⟨w, pm⟩ := ihl (depth + 1) l' hl hl'
      rw [← ht]
      have pm2 : (l'.points ++ r.points).Perm (p :: (l.points ++ r.points)) := pm.append_right _
      refine ⟨⟨hax, hb', ?_, w, hr⟩, pm2⟩
      intro x hx
      rcases List.mem_cons.1 (pm2.mem_iff.1 hx) with rfl | hx
      · exact InBoxN.self hb hp
      · exact (hin x hx).updateN hb hp
    · rw [Option.map_eq_some_iff] at ht
      obtain ⟨r', hr', ht⟩ := ht
      obtain ⟨w, pm⟩ := ihr (depth + 1) r' hr hr'
      rw [← ht]
      have pm2 : (l.points ++ r'.points).Perm (p :: (l.points ++ r.points)) :=
        (pm.append_left _).trans List.perm_middle
      refine ⟨⟨hax, hb', ?_, hl, w⟩, pm2⟩
      intro x hx
      rcases List.mem_cons.1 (pm2.mem_iff.1 hx) with rfl | hx
      · exact InBoxN.self hb hp
      · exact (hin x hx).updateN hb hp

theorem nAddAll_spec (us : USort) (pp : PPoint) (cfg : Cfg K) (hdim : 0 < cfg.dim) :
    ∀ (ps : List (Leaf (Option K) A)) (t t' : NTree K A), (∀ p ∈ ps, p.row.length = cfg.dim) → t.WF cfg.dim →
      t.addAll us pp cfg ps = some t' → t'.WF cfg.dim ∧ t'.points.Perm (t.points ++ ps) := by
  intro ps
  induction ps with
  | nil => intro t t' _ h ht; cases ht; exact ⟨h, by simp⟩
  | cons p ps ih =>
    intro t t' hps h ht
    simp only [NTree.addAll, Option.bind_eq_some_iff] at ht
    obtain ⟨t1, h1, h2⟩ := ht
    obtain ⟨w, pm⟩ := nAdd_spec us pp cfg hdim p (hps p (by simp)) t 0 t1 h h1
    obtain ⟨w2, pm2⟩ := ih t1 t' (fun x hx => hps x (by simp [hx])) w h2
    refine ⟨w2, pm2.trans ?_⟩
    exact (pm.append_right ps).trans (by simpa using (List.perm_middle (l₁ := t.points)).symm)

/-- Without the median split nothing panics. -/
theorem nAdd_some {us : USort} {pp : PPoint} {cfg : Cfg K} (hm : cfg.method = .midpoint) (p : Leaf (Option K) A) :
    ∀ (t : NTree K A) (depth : Nat), ∃ t', t.add us pp cfg p depth = some t' := by
  intro t
  induction t with
  | leaf b data =>
    intro depth
    simp only [NTree.add]
    split
    · unfold nSplit
      rw [hm]
      exact ⟨_, rfl⟩
    · exact ⟨_, rfl⟩
  | node axis v b l r ihl ihr =>
    intro depth
    simp only [NTree.add]
    split
    · obtain ⟨l', e⟩ := ihl (depth + 1)
      exact ⟨_, by rw [e]; rfl⟩
    · obtain ⟨r', e⟩ := ihr (depth + 1)
      exact ⟨_, by rw [e]; rfl⟩

theorem nAddAll_some {us : USort} {pp : PPoint} {cfg : Cfg K} (hm : cfg.method = .midpoint) :
    ∀ (ps : List (Leaf (Option K) A)) (t : NTree K A), ∃ t', t.addAll us pp cfg ps = some t'
  | [], t => ⟨t, rfl⟩
  | p :: ps, t => by
    obtain ⟨t1, h1⟩ := nAdd_some (us := us) (pp := pp) hm p t 0
    obtain ⟨t2, h2⟩ := nAddAll_some (us := us) (pp := pp) hm ps t1
    exact ⟨t2, by simp [NTree.addAll, h1, h2]⟩

theorem nFromLeaves_spec (us : USort) (pp : PPoint) (d : Dist K) (dim : Nat) (hdim : 0 < dim)
    (ps : List (Leaf (Option K) A)) (hne : ps ≠ []) (hps : ∀ p ∈ ps, p.row.length = dim) :
    ∃ t, nFromLeaves us pp d .midpoint ps = some (⟨dim, suggestCapacity dim, d, .midpoint⟩, t) ∧ t.WF dim ∧
      t.points.Perm ps := by
  cases ps with
  | nil => exact (hne rfl).elim
  | cons p ps =>
    have hp := hps p (by simp)
    obtain ⟨t, ht⟩ := nAddAll_some (us := us) (pp := pp) (cfg := (⟨dim, suggestCapacity dim, d, .midpoint⟩ : Cfg K)) rfl (p :: ps)
      (.leaf (emptyBox dim) [])
    have := nAddAll_spec us pp ⟨dim, suggestCapacity dim, d, .midpoint⟩ hdim (p :: ps) (.leaf (emptyBox dim) []) t hps
      ⟨emptyBox_dim dim, by simp⟩ ht
    refine ⟨t, ?_, this.1, by simpa [NTree.points] using this.2⟩
    unfold nFromLeaves
    simp only [hp]
    rw [ht]
    rfl

/-! ## Queries on the pruned tree -/

/-- A stack of pruned trees. -/
def pruneStack (s : List (K × NTree K A)) : List (K × Tree K A) := s.map fun e => (e.1, e.2.prune)

theorem descend_prune (d : Dist K) (q : List K) (keep : K → Bool) : ∀ (t : NTree K A) (s : List (K × NTree K A)),
    descend d q keep t.prune (pruneStack s) =
      (pruneStack (nDescend d q keep t s).1, Spec.complete (nDescend d q keep t s).2) := by
  intro t
  induction t with
  | leaf b data => intro s; rfl
  | node axis v b l r ihl ihr =>
    intro s
    simp only [NTree.prune, descend, nDescend, prune_box]
    have hpush : ∀ (c : Bool) (e : K × NTree K A), (if c then (e.1, e.2.prune) :: pruneStack s else pruneStack s) =
        pruneStack (if c then e :: s else s) := by
      intro c e; cases c <;> rfl
    by_cases hq : q.getD axis 0 < v
    · rw [if_pos hq, if_pos hq, ← ihl, ← hpush (keep (boxDist d r.box q)) (boxDist d r.box q, r)]
    · rw [if_neg hq, if_neg hq, ← ihr, ← hpush (keep (boxDist d l.box q)) (boxDist d l.box q, l)]

theorem distNaN_of_ne {d : Dist K} (hd : d ≠ .linf) (row : List (Option K)) (q : List K) :
    d.distNaN row q = (fullRow row).map fun v => d.dist v q := by
  cases d <;> first | rfl | exact absurd rfl hd

theorem nUpdateNbWithin_prune {d : Dist K} (hd : d ≠ .linf) (q : List K) (r : K) (data : List (Leaf (Option K) A)) :
    ∀ nbs, nUpdateNbWithin d q r nbs data = updateNbWithin d q r nbs (Spec.complete data) := by
  induction data with
  | nil => intro nbs; rfl
  | cons p data ih =>
    intro nbs
    have e : nUpdateNbWithin d q r nbs (p :: data) = nUpdateNbWithin d q r
      ((d.distNaN p.row q).elim nbs fun dist => if dist ≤ r then nbs ++ [⟨dist, p.item⟩] else nbs) data := rfl
    rw [e, ih, distNaN_of_ne hd, complete_cons]
    cases fullRow p.row with
    | none => rfl
    | some v => rfl

theorem nWithinLoop_prune {d : Dist K} (hd : d ≠ .linf) (q : List K) (r : K) :
    ∀ (fuel : Nat) (s : List (K × NTree K A)) (nbs : List (NB K A)),
      nWithinLoop d q r fuel s nbs = withinLoop d q r fuel (pruneStack s) nbs := by
  intro fuel
  induction fuel with
  | zero => intro s nbs; cases s <;> rfl
  | succ fuel ih =>
    intro s nbs
    cases s with
    | nil => rfl
    | cons e s =>
      obtain ⟨bd, t⟩ := e
      simp only [nWithinLoop]
      change _ = withinLoop d q r (fuel + 1) ((bd, t.prune) :: pruneStack s) nbs
      simp only [withinLoop, descend_prune]
      rw [ih, ih, nUpdateNbWithin_prune hd]

theorem nCount_fold {d : Dist K} (hd : d ≠ .linf) (q : List K) (r : K) (data : List (Leaf (Option K) A)) : ∀ n : Nat,
    data.foldl (fun acc p => acc + ((d.distNaN p.row q).elim 0 fun dist => if dist ≤ r then 1 else 0)) n =
      (Spec.complete data).foldl (fun acc p => acc + (if d.dist p.row q ≤ r then 1 else 0)) n := by
  induction data with
  | nil => intro n; rfl
  | cons p data ih =>
    intro n
    rw [List.foldl_cons, ih, distNaN_of_ne hd, complete_cons]
    cases fullRow p.row with
    | none => rfl
    | some v => rfl

theorem nWithinCountLoop_prune {d : Dist K} (hd : d ≠ .linf) (q : List K) (r : K) :
    ∀ (fuel : Nat) (s : List (K × NTree K A)) (n : Nat),
      nWithinCountLoop d q r fuel s n = withinCountLoop d q r fuel (pruneStack s) n := by
  intro fuel
  induction fuel with
  | zero => intro s n; cases s <;> rfl
  | succ fuel ih =>
    intro s n
    cases s with
    | nil => rfl
    | cons e s =>
      obtain ⟨bd, t⟩ := e
      simp only [nWithinCountLoop]
      change _ = withinCountLoop d q r (fuel + 1) ((bd, t.prune) :: pruneStack s) n
      simp only [withinCountLoop, descend_prune]
      rw [ih, ih, nCount_fold hd]

theorem nUpdateTopK_prune {d : Dist K} (hd : d ≠ .linf) (k : Nat) (q : List K) (bound : K) (data : List (Leaf (Option K) A)) :
    ∀ s, data.foldl (nTopKStep d k q bound) s = (Spec.complete data).foldl (topKStep d k q bound) s := by
  induction data with
  | nil => intro s; rfl
  | cons p data ih =>
    intro s
    rw [List.foldl_cons, ih, complete_cons]
    unfold nTopKStep
    rw [distNaN_of_ne hd]
    cases fullRow p.row with
    | none => rfl
    | some v => rfl

theorem nKnnLoop_prune {d : Dist K} (hd : d ≠ .linf) (q : List K) (k : Nat) (bound epsilon : K) :
    ∀ (fuel : Nat) (s : List (K × NTree K A)) (topk : List (NB K A)),
      nKnnLoop d q k bound epsilon fuel s topk = knnLoop d q k bound epsilon fuel (pruneStack s) topk := by
  intro fuel
  induction fuel with
  | zero => intro s n; cases s <;> rfl
  | succ fuel ih =>
    intro s topk
    cases s with
    | nil => rfl
    | cons e s =>
      obtain ⟨bd, t⟩ := e
      simp only [nKnnLoop]
      change _ = knnLoop d q k bound epsilon (fuel + 1) ((bd, t.prune) :: pruneStack s) topk
      simp only [knnLoop, descend_prune]
      rw [ih, ih]
      unfold nUpdateTopK updateTopK
      rw [nUpdateTopK_prune hd]

end

end Verif.KDT
