import Verif.Model.KDTree
import Mathlib.Data.List.Forall2
import Mathlib.Data.List.Perm.Basic
import Mathlib.Algebra.Order.Group.Nat

/-!
# Helper lemmas for the KD-tree: box bounds, tree invariant, traversal
-/

set_option linter.unusedSectionVars false
set_option linter.unusedVariables false

namespace Verif.KDT
open Verif FloatOps

variable {K : Type} [LinearOrder K] [Zero K] [Add K] [Sub K] [Mul K]
variable {A : Type}

section basic
variable [LawfulFloat K]

/-- Metrics with a sound box distance. -/
def Dist.prunable : Dist K → Prop
  | .any _ => False
  | _ => True

/-- A monotone accumulation step. -/
structure MonoAcc (f : K → K → K) : Prop where
  mono : ∀ a a' t t', a ≤ a' → fabs t ≤ fabs t' → f a t ≤ f a' t'
  grow : ∀ a t, a ≤ f a t

theorem monoAcc_l1 : MonoAcc (K := K) accL1 where
  mono a a' t t' h1 h2 := LawfulFloat.add_le_add _ _ _ _ h1 h2
  grow a t := LawfulFloat.le_add _ _ (LawfulFloat.abs_nonneg _)

theorem monoAcc_sq : MonoAcc (K := K) accSq where
  mono a a' t t' h1 h2 := LawfulFloat.add_le_add _ _ _ _ h1 (LawfulFloat.mul_self_mono _ _ h2)
  grow a t := LawfulFloat.le_add _ _ (LawfulFloat.mul_self_nonneg _)

theorem monoAcc_inf : MonoAcc (K := K) accInf where
  mono a a' t t' h1 h2 := max_le_max h1 h2
  grow a t := le_max_left _ _

theorem foldl_grow {f : K → K → K} (hf : MonoAcc f) (l : List (K × K)) :
    ∀ a a' : K, a ≤ a' → a ≤ l.foldl (fun acc p => f acc (p.1 - p.2)) a' := by
  induction l with
  | nil => intro a a' h; simpa
  | cons p l ih =>
    intro a a' h
    exact ih _ _ (le_trans h (hf.grow _ _))

/-- `row` lies in the box. -/
def InBox (b : Box K) (row : List K) : Prop :=
  List.Forall₂ (· ≤ ·) b.lo row ∧ List.Forall₂ (· ≤ ·) row b.hi

theorem boxFold_le {f : K → K → K} (hf : MonoAcc f) :
    ∀ (row lo hi q : List K) (a a' : K), a ≤ a' →
      List.Forall₂ (· ≤ ·) lo row → List.Forall₂ (· ≤ ·) row hi →
      boxFold f a lo hi q ≤ (row.zip q).foldl (fun acc p => f acc (p.1 - p.2)) a' := by
  intro row
  induction row with
  | nil =>
    intro lo hi q a a' h h1 h2
    cases h1; cases h2
    simpa [boxFold] using h
  | cons x row ih =>
    intro lo hi q a a' h h1 h2
    cases h1 with
    | cons hl h1 =>
      rename_i l lo
      cases h2 with
      | cons hh h2 =>
        rename_i hb hi
        cases q with
        | nil => simpa [boxFold] using h
        | cons p q =>
          simp only [boxFold, List.zip_cons_cons, List.foldl_cons]
          apply ih _ _ _ _ _ _ h1 h2
          split
          · rename_i hp
            apply hf.mono _ _ _ _ h
            rw [LawfulFloat.abs_sub_comm x p]
            exact LawfulFloat.abs_sub_mono _ _ _ hh (le_of_lt hp)
          · split
            · rename_i hp
              apply hf.mono _ _ _ _ h
              rw [LawfulFloat.abs_sub_comm x p]
              exact LawfulFloat.abs_sub_mono' _ _ _ (le_of_lt hp) hl
            · exact le_trans h (hf.grow _ _)

/-- The box distance is a lower bound of the distance to every row in the box. -/
theorem boxDist_le {d : Dist K} (hd : d.prunable) {b : Box K} {row : List K} (h : InBox b row)
    (q : List K) : boxDist d b q ≤ d.dist row q := by
  obtain ⟨h1, h2⟩ := h
  have hs : boxFold accSq 0 b.lo b.hi q ≤ distFold accSq row q :=
    boxFold_le monoAcc_sq _ _ _ _ _ _ le_rfl h1 h2
  have e : simdSq row q = distFold accSq row q := LawfulFloat.simd_eq row q
  cases d with
  | l1 => exact boxFold_le monoAcc_l1 _ _ _ _ _ _ le_rfl h1 h2
  | l2 => exact LawfulFloat.sqrt_mono _ _ hs
  | l2simd => simp only [boxDist, Dist.dist, e]; exact LawfulFloat.sqrt_mono _ _ hs
  | sql2 => exact hs
  | sql2simd => simp only [boxDist, Dist.dist, e]; exact hs
  | linf => exact boxFold_le monoAcc_inf _ _ _ _ _ _ le_rfl h1 h2
  | any f => exact hd.elim

theorem distFold_nonneg {f : K → K → K} (hf : MonoAcc f) (a b : List K) : 0 ≤ distFold f a b :=
  foldl_grow hf _ _ _ le_rfl

theorem dist_nonneg {d : Dist K} (hd : d.prunable) (a b : List K) : 0 ≤ d.dist a b := by
  have e : simdSq a b = distFold accSq a b := LawfulFloat.simd_eq a b
  cases d with
  | l1 => exact distFold_nonneg monoAcc_l1 _ _
  | l2 => exact LawfulFloat.sqrt_nonneg _ (distFold_nonneg monoAcc_sq _ _)
  | l2simd =>
    simp only [Dist.dist, e]; exact LawfulFloat.sqrt_nonneg _ (distFold_nonneg monoAcc_sq _ _)
  | sql2 => exact distFold_nonneg monoAcc_sq _ _
  | sql2simd => simp only [Dist.dist, e]; exact distFold_nonneg monoAcc_sq _ _
  | linf => exact distFold_nonneg monoAcc_inf _ _
  | any f => exact hd.elim

end basic

/-! ## Boxes -/

theorem forall₂_zipWith_min : ∀ (lo r row : List K), lo.length = r.length →
    List.Forall₂ (· ≤ ·) lo row → List.Forall₂ (· ≤ ·) (List.zipWith min lo r) row := by
  intro lo r row h h1
  induction h1 generalizing r with
  | nil => simp
  | cons hab _ ih =>
    cases r with
    | nil => simp at h
    | cons c r =>
      simp only [List.zipWith_cons_cons]
      exact .cons (le_trans (min_le_left _ _) hab) (ih _ (by simpa using h))

theorem forall₂_zipWith_max : ∀ (hi r row : List K), hi.length = r.length →
    List.Forall₂ (· ≤ ·) row hi → List.Forall₂ (· ≤ ·) row (List.zipWith max hi r) := by
  intro hi r row h h1
  induction h1 generalizing r with
  | nil => simp
  | cons hab _ ih =>
    cases r with
    | nil => simp at h
    | cons c r =>
      simp only [List.zipWith_cons_cons]
      exact .cons (le_trans hab (le_max_left _ _)) (ih _ (by simpa using h))

theorem forall₂_zipWith_min_self : ∀ (lo r : List K), lo.length = r.length →
    List.Forall₂ (· ≤ ·) (List.zipWith min lo r) r := by
  intro lo
  induction lo with
  | nil => intro r h; cases r <;> simp_all
  | cons a lo ih =>
    intro r h
    cases r with
    | nil => simp at h
    | cons c r => exact .cons (min_le_right _ _) (ih _ (by simpa using h))

theorem forall₂_zipWith_max_self : ∀ (hi r : List K), hi.length = r.length →
    List.Forall₂ (· ≤ ·) r (List.zipWith max hi r) := by
  intro hi
  induction hi with
  | nil => intro r h; cases r <;> simp_all
  | cons a lo ih =>
    intro r h
    cases r with
    | nil => simp at h
    | cons c r => exact .cons (le_max_right _ _) (ih _ (by simpa using h))

/-- The box has `dim` minima and `dim` maxima. -/
def Box.Dim (b : Box K) (dim : Nat) : Prop := b.lo.length = dim ∧ b.hi.length = dim

theorem Box.Dim.update {b : Box K} {dim : Nat} (h : b.Dim dim) {r : List K} (hr : r.length = dim) :
    (b.update r).Dim dim := by
  simp [Box.Dim, Box.update, h.1, h.2, hr]

theorem InBox.update {b : Box K} {dim : Nat} (h : b.Dim dim) {r row : List K} (hr : r.length = dim)
    (hb : InBox b row) : InBox (b.update r) row :=
  ⟨forall₂_zipWith_min _ _ _ (h.1.trans hr.symm) hb.1,
   forall₂_zipWith_max _ _ _ (h.2.trans hr.symm) hb.2⟩

theorem InBox.update_self {b : Box K} {dim : Nat} (h : b.Dim dim) {r : List K}
    (hr : r.length = dim) : InBox (b.update r) r :=
  ⟨forall₂_zipWith_min_self _ _ (h.1.trans hr.symm),
   forall₂_zipWith_max_self _ _ (h.2.trans hr.symm)⟩

section
variable [FloatOps K]

theorem emptyBox_dim (dim : Nat) : (emptyBox dim : Box K).Dim dim := by
  simp [Box.Dim, emptyBox]

theorem foldl_bounds (dim : Nat) : ∀ (data : List (Leaf K A)) (b : Box K), b.Dim dim →
    (∀ p ∈ data, p.row.length = dim) →
    (data.foldl (fun b p => b.update p.row) b).Dim dim ∧
    (∀ row, InBox b row → InBox (data.foldl (fun b p => b.update p.row) b) row) ∧
    ∀ p ∈ data, InBox (data.foldl (fun b p => b.update p.row) b) p.row := by
  intro data
  induction data with
  | nil => intro b hb _; simp [hb]
  | cons p data ih =>
    intro b hb hd
    have hp := hd p (by simp)
    obtain ⟨h1, h2, h3⟩ := ih (b.update p.row) (hb.update hp) (fun x hx => hd x (by simp [hx]))
    refine ⟨h1, fun row hr => h2 row (hr.update hb hp), ?_⟩
    intro x hx
    rcases List.mem_cons.1 hx with rfl | hx
    · exact h2 _ (InBox.update_self hb hp)
    · exact h3 x hx

theorem findBounds_spec (dim : Nat) (data : List (Leaf K A)) (h : ∀ p ∈ data, p.row.length = dim) :
    (findBounds dim data).Dim dim ∧ ∀ p ∈ data, InBox (findBounds dim data) p.row :=
  let r := foldl_bounds dim data (emptyBox dim) (emptyBox_dim dim) h
  ⟨r.1, r.2.2⟩

end

/-! ## The tree invariant -/

/-- The rows stored in a tree. -/
def Tree.points : Tree K A → List (Leaf K A)
  | .leaf _ data => data
  | .node _ _ _ l r => l.points ++ r.points

/-- Every stored row has `dim` coordinates and lies in the box of every node above it. -/
def Tree.WF (dim : Nat) : Tree K A → Prop
  | .leaf b data => b.Dim dim ∧ ∀ p ∈ data, p.row.length = dim ∧ InBox b p.row
  | .node axis _ b l r => axis < dim ∧ b.Dim dim ∧ (∀ p ∈ l.points ++ r.points, InBox b p.row) ∧
      l.WF dim ∧ r.WF dim

theorem Tree.WF.row_length {dim : Nat} : ∀ {t : Tree K A}, t.WF dim → ∀ p ∈ t.points,
    p.row.length = dim
  | .leaf _ _, h, p, hp => (h.2 p hp).1
  | .node _ _ _ l r, h, p, hp => by
    rcases List.mem_append.1 hp with hp | hp
    · exact h.2.2.2.1.row_length p hp
    · exact h.2.2.2.2.row_length p hp

theorem Tree.WF.inBox {dim : Nat} : ∀ {t : Tree K A}, t.WF dim → ∀ p ∈ t.points, InBox t.box p.row
  | .leaf _ _, h, p, hp => (h.2 p hp).2
  | .node _ _ _ _ _, h, p, hp => h.2.2.1 p hp

theorem splitData_perm [FloatOps K] (us : USort) (cfg : Cfg K) (b : Box K) (axis : Nat)
    (data : List (Leaf K A)) :
    ((splitData us cfg b axis data).2.1 ++ (splitData us cfg b axis data).2.2).Perm data := by
  unfold splitData
  cases cfg.method <;> simp only [List.take_append_drop] <;> exact us.perm _ _

section
variable [FloatOps K]

theorem Tree.add_spec (us : USort) (cfg : Cfg K) (hdim : 0 < cfg.dim) (p : Leaf K A)
    (hp : p.row.length = cfg.dim) : ∀ (t : Tree K A) (depth : Nat), t.WF cfg.dim →
      (t.add us cfg p depth).WF cfg.dim ∧ (t.add us cfg p depth).points.Perm (p :: t.points) := by
  intro t
  induction t with
  | leaf b data =>
    intro depth h
    have hb : (b.update p.row).Dim cfg.dim := h.1.update hp
    have hall : ∀ x ∈ data ++ [p], x.row.length = cfg.dim ∧ InBox (b.update p.row) x.row := by
      intro x hx
      rcases List.mem_append.1 hx with hx | hx
      · exact ⟨(h.2 x hx).1, (h.2 x hx).2.update h.1 hp⟩
      · rw [List.mem_singleton.1 hx]
        exact ⟨hp, InBox.update_self h.1 hp⟩
    have hperm0 : (data ++ [p]).Perm (p :: data) := List.perm_append_singleton p data
    simp only [Tree.add]
    split
    · have hs := splitData_perm us cfg (b.update p.row) (depth % cfg.dim) (data ++ [p])
      generalize hsd : splitData us cfg (b.update p.row) (depth % cfg.dim) (data ++ [p]) = sd at hs ⊢
      obtain ⟨v, left, right⟩ := sd
      simp only at hs ⊢
      have hmem : ∀ x ∈ left ++ right, x.row.length = cfg.dim ∧ InBox (b.update p.row) x.row :=
        fun x hx => hall x (hs.mem_iff.1 hx)
      split
      · rename_i he
        have hl : left = [] := by simpa using he
        subst hl
        refine ⟨⟨hb, fun x hx => hmem x (by simpa using hx)⟩, ?_⟩
        exact (by simpa using hs : right.Perm (data ++ [p])).trans hperm0
      · have hl := findBounds_spec cfg.dim left (fun x hx => (hmem x (by simp [hx])).1)
        have hr := findBounds_spec cfg.dim right (fun x hx => (hmem x (by simp [hx])).1)
        refine ⟨⟨Nat.mod_lt _ hdim, hb, fun x hx => (hmem x hx).2, ⟨hl.1, ?_⟩, ⟨hr.1, ?_⟩⟩, ?_⟩
        · exact fun x hx => ⟨(hmem x (by simp [hx])).1, hl.2 x hx⟩
        · exact fun x hx => ⟨(hmem x (by simp [hx])).1, hr.2 x hx⟩
        · exact hs.trans hperm0
    · exact ⟨⟨hb, hall⟩, hperm0⟩
  | node axis v b l r ihl ihr =>
    intro depth h
    obtain ⟨hax, hb, hin, hl, hr⟩ := h
    have hb' : (b.update p.row).Dim cfg.dim := hb.update hp
    simp only [Tree.add]
    split
    · obtain ⟨w, pm⟩ := ihl (depth + 1) hl
      have pm2 : ((l.add us cfg p (depth + 1)).points ++ r.points).Perm (p :: (l.points ++ r.points)) :=
        pm.append_right _
      refine ⟨⟨hax, hb', ?_, w, hr⟩, pm2⟩
      intro x hx
      rcases List.mem_cons.1 (pm2.mem_iff.1 hx) with rfl | hx
      · exact InBox.update_self hb hp
      · exact (hin x hx).update hb hp
    · obtain ⟨w, pm⟩ := ihr (depth + 1) hr
      have pm2 : (l.points ++ (r.add us cfg p (depth + 1)).points).Perm (p :: (l.points ++ r.points)) :=
        (pm.append_left _).trans List.perm_middle
      refine ⟨⟨hax, hb', ?_, hl, w⟩, pm2⟩
      intro x hx
      rcases List.mem_cons.1 (pm2.mem_iff.1 hx) with rfl | hx
      · exact InBox.update_self hb hp
      · exact (hin x hx).update hb hp

theorem Tree.addAll_spec (us : USort) (cfg : Cfg K) (hdim : 0 < cfg.dim) :
    ∀ (ps : List (Leaf K A)) (t : Tree K A), (∀ p ∈ ps, p.row.length = cfg.dim) → t.WF cfg.dim →
      (t.addAll us cfg ps).WF cfg.dim ∧ (t.addAll us cfg ps).points.Perm (t.points ++ ps) := by
  intro ps
  induction ps with
  | nil => intro t _ h; exact ⟨h, by simp [Tree.addAll]⟩
  | cons p ps ih =>
    intro t hps h
    obtain ⟨w, pm⟩ := t.add_spec us cfg hdim p (hps p (by simp)) 0 h
    obtain ⟨w2, pm2⟩ := ih (t.add us cfg p 0) (fun x hx => hps x (by simp [hx])) w
    refine ⟨w2, pm2.trans ?_⟩
    exact (pm.append_right ps).trans (by simpa using (List.perm_middle (l₁ := t.points)).symm)

theorem newEmpty_WF (dim : Nat) : (newEmpty dim : Tree K A).WF dim := by
  simp [newEmpty, Tree.WF, emptyBox_dim]

theorem fromLeaves_spec (us : USort) (d : Dist K) (m : SplitMethod) (dim : Nat) (hdim : 0 < dim)
    (ps : List (Leaf K A)) (hne : ps ≠ []) (hps : ∀ p ∈ ps, p.row.length = dim) :
    ∃ t, fromLeaves us d m ps = some (⟨dim, suggestCapacity dim, d, m⟩, t) ∧ t.WF dim ∧
      t.points.Perm ps := by
  cases ps with
  | nil => exact (hne rfl).elim
  | cons p ps =>
    have hp := hps p (by simp)
    refine ⟨(newEmpty dim).addAll us ⟨dim, suggestCapacity dim, d, m⟩ (p :: ps),
      by simp only [fromLeaves, hp], ?_⟩
    have := Tree.addAll_spec us ⟨dim, suggestCapacity dim, d, m⟩ hdim (p :: ps) (newEmpty dim) hps
      (newEmpty_WF dim)
    exact ⟨this.1, by simpa [newEmpty, Tree.points] using this.2⟩

end

/-! ## Traversal -/

theorem Tree.size_pos : ∀ t : Tree K A, 0 < t.size
  | .leaf _ _ => by simp [Tree.size]
  | .node _ _ _ _ _ => by simp [Tree.size]

/-- Sum of node counts of the trees on the stack. -/
def stackSize (s : List (K × Tree K A)) : Nat := (s.map (fun e => e.2.size)).sum

/-- Rows stored in the trees on the stack. -/
def stackPts (s : List (K × Tree K A)) : List (Leaf K A) := s.flatMap (fun e => e.2.points)

theorem descend_spec [FloatOps K] (d : Dist K) (q : List K) (keep : K → Bool) (dim : Nat) :
    ∀ (t : Tree K A) (pending : List (K × Tree K A)), t.WF dim →
    ∃ pushed pruned : List (K × Tree K A),
      (descend d q keep t pending).1 = pushed ++ pending ∧
      t.points.Perm ((descend d q keep t pending).2 ++ stackPts pushed ++ stackPts pruned) ∧
      (∀ e ∈ pushed ++ pruned, e.1 = boxDist d e.2.box q ∧ e.2.WF dim) ∧
      (∀ e ∈ pruned, keep e.1 = false) ∧ stackSize pushed < t.size := by
  intro t
  induction t with
  | leaf b data =>
    intro pending h
    exact ⟨[], [], by simp [descend, stackPts, stackSize, Tree.points, Tree.size]⟩
  | node axis v b l r ihl ihr =>
    intro pending h
    obtain ⟨_, _, _, hl, hr⟩ := h
    -- both directions are the same argument with the children exchanged
    have key : ∀ (near far : Tree K A), near.WF dim → far.WF dim →
        (∀ (pending : List (K × Tree K A)), near.WF dim →
          ∃ pushed pruned : List (K × Tree K A),
          (descend d q keep near pending).1 = pushed ++ pending ∧
          near.points.Perm ((descend d q keep near pending).2 ++ stackPts pushed ++ stackPts pruned) ∧
          (∀ e ∈ pushed ++ pruned, e.1 = boxDist d e.2.box q ∧ e.2.WF dim) ∧
          (∀ e ∈ pruned, keep e.1 = false) ∧ stackSize pushed < near.size) →
        (l.points ++ r.points).Perm (near.points ++ far.points) →
        near.size + far.size = l.size + r.size →
        ∃ pushed pruned : List (K × Tree K A),
          (descend d q keep near (if keep (boxDist d far.box q) then (boxDist d far.box q, far) :: pending
            else pending)).1 = pushed ++ pending ∧
          (l.points ++ r.points).Perm ((descend d q keep near (if keep (boxDist d far.box q) then
            (boxDist d far.box q, far) :: pending else pending)).2 ++ stackPts pushed ++
            stackPts pruned) ∧
          (∀ e ∈ pushed ++ pruned, e.1 = boxDist d e.2.box q ∧ e.2.WF dim) ∧
          (∀ e ∈ pruned, keep e.1 = false) ∧ stackSize pushed < l.size + r.size + 1 := by
      intro near far hn hf ih hpts hsz
      by_cases hk : keep (boxDist d far.box q) = true
      · simp only [hk, if_true]
        obtain ⟨pu, pr, e1, e2, e3, e4, e5⟩ := ih ((boxDist d far.box q, far) :: pending) hn
        refine ⟨pu ++ [(boxDist d far.box q, far)], pr, by simp [e1], ?_, ?_, e4, ?_⟩
        · refine hpts.trans ?_
          refine (e2.append_right far.points).trans ?_
          simp only [stackPts, List.flatMap_append, List.flatMap_cons, List.flatMap_nil,
            List.append_nil, List.append_assoc]
          exact (List.perm_append_comm.append_left _).append_left _
        · intro e he
          simp only [List.mem_append, List.mem_singleton] at he
          rcases he with (he | rfl) | he
          · exact e3 e (by simp [he])
          · exact ⟨rfl, hf⟩
          · exact e3 e (by simp [he])
        · simp only [stackSize, List.map_append, List.sum_append, List.map_cons, List.map_nil,
            List.sum_cons, List.sum_nil] at e5 ⊢
          omega
      · have hk' : keep (boxDist d far.box q) = false := by simpa using hk
        simp only [hk', Bool.false_eq_true, if_false]
        obtain ⟨pu, pr, e1, e2, e3, e4, e5⟩ := ih pending hn
        refine ⟨pu, (boxDist d far.box q, far) :: pr, e1, ?_, ?_, ?_, by omega⟩
        · refine hpts.trans ?_
          refine (e2.append_right far.points).trans ?_
          simp only [stackPts, List.flatMap_cons, List.append_assoc]
          exact (List.perm_append_comm.append_left _).append_left _
        · intro e he
          simp only [List.mem_append, List.mem_cons] at he
          rcases he with he | rfl | he
          · exact e3 e (by simp [he])
          · exact ⟨rfl, hf⟩
          · exact e3 e (by simp [he])
        · intro e he
          rcases List.mem_cons.1 he with rfl | he
          · exact hk'
          · exact e4 e he
    simp only [descend, Tree.points, Tree.size]
    split
    · exact key l r hl hr (fun p => ihl p) (List.Perm.refl _) rfl
    · exact key r l hr hl (fun p => ihr p) List.perm_append_comm (Nat.add_comm _ _)

end Verif.KDT
