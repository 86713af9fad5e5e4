import Verif.Model.Kendall
import Verif.Spec.Kendall
import Mathlib.Data.List.Basic
import Mathlib.Data.List.Sort
import Mathlib.Data.List.Perm.Basic
import Mathlib.Data.Nat.Choose.Basic
import Mathlib.Tactic.Ring
import Mathlib.Tactic.Linarith

namespace Verif.Kendall
open Verif
variable {α : Type}

theorem pairs_perm {P : α → α → Bool} (hs : ∀ a b, P a b = P b a) {l l' : List α} (h : l.Perm l') :
    Spec.pairs P l = Spec.pairs P l' := by
  induction h with
  | nil => rfl
  | cons a h ih => simp only [Spec.pairs, ih, h.countP_eq]
  | swap a b l => simp only [Spec.pairs, List.countP_cons, hs a b]; omega
  | trans _ _ h1 h2 => exact h1.trans h2

theorem pairs_append_singleton {P : α → α → Bool} (hs : ∀ a b, P a b = P b a) (l : List α) (v : α) :
    Spec.pairs P (l ++ [v]) = Spec.pairs P l + l.countP (P v) := by
  rw [pairs_perm hs (List.perm_append_singleton v l)]
  simp only [Spec.pairs]; omega

theorem half_succ (c : Nat) : half (c + 1) = half c + c := by
  unfold half
  rcases c with _ | c
  · rfl
  · simp only [Nat.add_sub_cancel]
    have : (c + 1 + 1) * (c + 1) = (c + 1) * c + 2 * (c + 1) := by ring
    rw [this]
    omega

theorem half_one : half 1 = 0 := rfl

theorem pairs_true (l : List α) : Spec.pairs (fun _ _ => true) l = half l.length := by
  induction l with
  | nil => simp [Spec.pairs, half]
  | cons a l ih => simp [Spec.pairs, ih, half_succ]; omega

theorem lexLe_iff (a b : Nat × Nat) : lexLe a b = true ↔ a.1 < b.1 ∨ (a.1 = b.1 ∧ a.2 ≤ b.2) := by
  simp [lexLe]

/-- Invariant of the first loop: `p` is the processed prefix, ending in the current run. -/
structure TieInv (p : List (Nat × Nat)) (s : TieState) : Prop where
  x : s.tiedX + half s.cx = Spec.pairs Spec.tiedX p
  xy : s.tiedXY + half s.cxy = Spec.pairs (fun a b => a == b) p
  cx : s.cx = p.countP (fun a => a.1 == s.xj)
  cxy : s.cxy = p.countP (fun a => a == (s.xj, s.yj))
  last : ∀ a ∈ p, lexLe a (s.xj, s.yj) = true

theorem tieStep_inv {p : List (Nat × Nat)} {s : TieState} (h : TieInv p s) (v : Nat × Nat)
    (hv : lexLe (s.xj, s.yj) v = true) : TieInv (p ++ [v]) (tieStep s v) := by
  have hlast : ∀ a ∈ p ++ [v], lexLe a v = true := by
    intro a ha
    rcases List.mem_append.1 ha with ha | ha
    · have h1 := (lexLe_iff _ _).1 (h.last a ha)
      have h2 := (lexLe_iff _ _).1 hv
      rw [lexLe_iff]
      simp only at h1 h2
      omega
    · simp only [List.mem_singleton] at ha; subst ha; simp [lexLe_iff]
  have ex : Spec.pairs Spec.tiedX (p ++ [v]) = Spec.pairs Spec.tiedX p + p.countP (fun a => a.1 == v.1) := by
    rw [pairs_append_singleton (by intro a b; simp [Spec.tiedX, Bool.beq_comm])]
    congr 2
    funext a; simp [Spec.tiedX, Bool.beq_comm]
  have exy : Spec.pairs (fun a b => a == b) (p ++ [v]) =
      Spec.pairs (fun a b => a == b) p + p.countP (fun a => a == v) := by
    rw [pairs_append_singleton (by intro a b; simp [Bool.beq_comm])]
    congr 2
    funext a; simp [Bool.beq_comm]
  have cxn : (p ++ [v]).countP (fun a => a.1 == v.1) = p.countP (fun a => a.1 == v.1) + 1 := by simp
  have cxyn : (p ++ [v]).countP (fun a => a == v) = p.countP (fun a => a == v) + 1 := by simp
  by_cases hx : v.1 = s.xj
  · by_cases hy : v.2 = s.yj
    · have hveq : v = (s.xj, s.yj) := Prod.ext hx hy
      have e1 := h.cx
      have e2 := h.cxy
      rw [← hx] at e1
      rw [← hveq] at e2
      constructor
      · simp only [tieStep, hx, hy, if_true]
        rw [ex, half_succ, ← e1, ← h.x]; omega
      · simp only [tieStep, hx, hy, if_true]
        rw [exy, half_succ, ← e2, ← h.xy]; omega
      · simp only [tieStep, hx, hy, if_true]
        rw [← hx, cxn, ← e1]
      · simp only [tieStep, hx, hy, if_true]
        rw [← hveq, cxyn, ← e2]
      · simpa only [tieStep, hx, hy, if_true, hveq] using hlast
    · have e1 := h.cx
      rw [← hx] at e1
      have e2 : p.countP (fun a => a == v) = 0 := by
        rw [List.countP_eq_zero]
        intro a ha hav
        have hav := (beq_iff_eq.1 hav)
        subst hav
        have h1 := (lexLe_iff _ _).1 (h.last a ha)
        have h2 := (lexLe_iff _ _).1 hv
        simp only at h1 h2
        omega
      constructor
      · simp only [tieStep, hx, hy, if_true, if_false]
        rw [ex, half_succ, ← e1, ← h.x]; omega
      · simp only [tieStep, hx, hy, if_true, if_false]
        rw [exy, e2, half_one, ← h.xy]
      · simp only [tieStep, hx, hy, if_true, if_false]
        rw [← hx, cxn, ← e1]
      · simp only [tieStep, hx, hy, if_true, if_false]
        rw [show (s.xj, v.2) = v from Prod.ext hx.symm rfl, cxyn, e2]
      · simp only [tieStep, hx, hy, if_true, if_false]
        rw [show (s.xj, v.2) = v from Prod.ext hx.symm rfl]
        exact hlast
  · have hgt : s.xj < v.1 := by
      have := (lexLe_iff _ _).1 hv
      simp only at this
      omega
    have e1 : p.countP (fun a => a.1 == v.1) = 0 := by
      rw [List.countP_eq_zero]
      intro a ha hav
      have h1 := (lexLe_iff _ _).1 (h.last a ha)
      have := beq_iff_eq.1 hav
      simp only at h1
      omega
    have e2 : p.countP (fun a => a == v) = 0 := by
      rw [List.countP_eq_zero]
      intro a ha hav
      have h1 := (lexLe_iff _ _).1 (h.last a ha)
      have := beq_iff_eq.1 hav
      subst this
      simp only at h1
      omega
    constructor
    · simp only [tieStep, hx, if_false]
      rw [ex, e1, half_one, ← h.x]
    · simp only [tieStep, hx, if_false]
      rw [exy, e2, half_one, ← h.xy]
    · simp only [tieStep, hx, if_false]
      rw [cxn, e1]
    · simp only [tieStep, hx, if_false]
      rw [cxyn, e2]
    · simpa only [tieStep, hx, if_false] using hlast

theorem tieFold_inv : ∀ (rest p : List (Nat × Nat)) (s : TieState), TieInv p s →
    (((s.xj, s.yj) :: rest).Pairwise fun a b => lexLe a b = true) →
    TieInv (p ++ rest) (rest.foldl tieStep s) := by
  intro rest
  induction rest with
  | nil => intro p s h _; simpa using h
  | cons v rest ih =>
    intro p s h hp
    have h1 := List.pairwise_cons.1 hp
    have h2 := tieStep_inv h v (h1.1 v (by simp))
    have h3 : ((tieStep s v).xj, (tieStep s v).yj) = v := rfl
    have := ih (p ++ [v]) (tieStep s v) h2 (by rw [h3]; exact h1.2)
    simpa using this

theorem ties_spec (p : Nat × Nat) (rest : List (Nat × Nat))
    (h : (p :: rest).Pairwise fun a b => lexLe a b = true) :
    ties p rest = (Spec.pairs Spec.tiedX (p :: rest), Spec.pairs (fun a b => a == b) (p :: rest)) := by
  have h0 : TieInv [p] ⟨0, 0, 1, 1, p.1, p.2⟩ :=
    ⟨by simp [Spec.pairs, half], by simp [Spec.pairs, half], by simp, by simp, by simp [lexLe_iff]⟩
  have := tieFold_inv rest [p] _ h0 (by simpa using h)
  simp only [ties, this.x, this.xy, List.singleton_append]

/-! ### The last loop -/

structure TieYInv (p : List Nat) (s : Nat × Nat × Nat) : Prop where
  t : s.1 + half s.2.1 = Spec.pairs (fun a b => a == b) p
  c : s.2.1 = p.countP (fun a => a == s.2.2)
  last : ∀ a ∈ p, a ≤ s.2.2

theorem tieYStep_inv {p : List Nat} {s : Nat × Nat × Nat} (h : TieYInv p s) (v : Nat) (hv : s.2.2 ≤ v) :
    TieYInv (p ++ [v]) (tieYStep s v) := by
  have ex : Spec.pairs (fun a b => a == b) (p ++ [v]) =
      Spec.pairs (fun a b => a == b) p + p.countP (fun a => a == v) := by
    rw [pairs_append_singleton (by intro a b; simp [Bool.beq_comm])]
    congr 2
    funext a; simp [Bool.beq_comm]
  have cn : (p ++ [v]).countP (fun a => a == v) = p.countP (fun a => a == v) + 1 := by simp
  have hlast : ∀ a ∈ p ++ [v], a ≤ v := by
    intro a ha
    rcases List.mem_append.1 ha with ha | ha
    · exact le_trans (h.last a ha) hv
    · exact le_of_eq (List.mem_singleton.1 ha)
  unfold tieYStep
  split
  · rename_i he
    have e := h.c
    rw [← he] at e
    refine ⟨?_, ?_, hlast⟩
    · simp only; rw [ex, half_succ, ← e, ← h.t]; omega
    · simp only; rw [cn, ← e]
  · rename_i he
    have e : p.countP (fun a => a == v) = 0 := by
      rw [List.countP_eq_zero]
      intro a ha hav
      have := h.last a ha
      have := beq_iff_eq.1 hav
      omega
    refine ⟨?_, ?_, hlast⟩
    · simp only; rw [ex, e, half_one, ← h.t]
    · simp only; rw [cn, e]

theorem tiesY_spec (l : List Nat) (h : l.Pairwise (· ≤ ·)) :
    tiesY l = Spec.pairs (fun a b => a == b) l := by
  cases l with
  | nil => rfl
  | cons v rest =>
    have key : ∀ (rest p : List Nat) (s : Nat × Nat × Nat), TieYInv p s →
        ((s.2.2 :: rest).Pairwise (· ≤ ·)) → TieYInv (p ++ rest) (rest.foldl tieYStep s) := by
      intro rest
      induction rest with
      | nil => intro p s h _; simpa using h
      | cons v rest ih =>
        intro p s h hp
        have h1 := List.pairwise_cons.1 hp
        have h2 := tieYStep_inv h v (h1.1 v (by simp))
        have h3 : (tieYStep s v).2.2 = v := by unfold tieYStep; split <;> rfl
        have := ih (p ++ [v]) (tieYStep s v) h2 (by rw [h3]; exact h1.2)
        simpa using this
    have := key rest [v] (0, 1, v) ⟨by simp [Spec.pairs, half], by simp, by simp⟩ h
    simp only [tiesY, this.t, List.singleton_append]

/-! ### Merge passes count inversions -/

/-- Inversions between two lists. -/
def cross (a b : List Nat) : Nat := (a.map fun x => b.countP fun y => decide (y < x)).sum

/-- Inversions of a list. -/
def inv (l : List Nat) : Nat := Spec.pairs (fun a b => decide (b < a)) l

theorem cross_perm {a a' b b' : List Nat} (h1 : a.Perm a') (h2 : b.Perm b') :
    cross a b = cross a' b' := by
  unfold cross
  rw [(h1.map _).sum_nat]
  congr 1
  apply List.map_congr_left
  intro x _
  exact h2.countP_eq _

theorem inv_append (a b : List Nat) : inv (a ++ b) = inv a + inv b + cross a b := by
  induction a with
  | nil => simp [inv, cross, Spec.pairs]
  | cons x a ih =>
    simp only [inv, cross, Spec.pairs, List.cons_append, List.countP_append, List.map_cons,
      List.sum_cons] at ih ⊢
    omega

theorem inv_sorted {l : List Nat} (h : l.Pairwise (· ≤ ·)) : inv l = 0 := by
  induction l with
  | nil => rfl
  | cons x l ih =>
    have h1 := List.pairwise_cons.1 h
    simp only [inv, Spec.pairs] at ih ⊢
    rw [ih h1.2, Nat.add_zero, List.countP_eq_zero]
    intro y hy
    have := h1.1 y hy
    simp; omega

theorem cross_nil_right (a : List Nat) : cross a [] = 0 := by
  induction a with
  | nil => rfl
  | cons x a ih => simp only [cross, List.map_cons, List.sum_cons, List.countP_nil] at ih ⊢; omega

theorem cross_cons_right (a : List Nat) (y : Nat) (b : List Nat) :
    cross a (y :: b) = cross a b + a.countP (fun x => decide (y < x)) := by
  induction a with
  | nil => rfl
  | cons x a ih =>
    simp only [cross, List.map_cons, List.sum_cons, List.countP_cons] at ih ⊢
    omega

theorem mergeCount_spec (a b : List Nat) (ha : a.Pairwise (· ≤ ·)) (hb : b.Pairwise (· ≤ ·)) :
    (mergeCount a b).1.Perm (a ++ b) ∧ (mergeCount a b).1.Pairwise (· ≤ ·) ∧
    (mergeCount a b).2 = cross a b := by
  induction a, b using mergeCount.induct with
  | case1 b => simp [mergeCount, hb, cross]
  | case2 a h => 
    cases a with
    | nil => simp [mergeCount, cross]
    | cons x a => simp [mergeCount, ha, cross_nil_right]
  | case3 x a y b hxy ih =>
    have ha' := List.pairwise_cons.1 ha
    have hb' := List.pairwise_cons.1 hb
    obtain ⟨h1, h2, h3⟩ := ih ha'.2 hb
    rw [mergeCount]
    simp only [hxy, if_true]
    refine ⟨by simpa using h1, ?_, ?_⟩
    · rw [List.pairwise_cons]
      refine ⟨fun z hz => ?_, h2⟩
      have hz' := h1.mem_iff.1 hz
      rcases List.mem_append.1 hz' with h | h
      · exact ha'.1 z h
      · rcases List.mem_cons.1 h with rfl | h
        · exact hxy
        · exact le_trans hxy (hb'.1 z h)
    · rw [h3]
      simp only [cross, List.map_cons, List.sum_cons]
      have : (y :: b).countP (fun z => decide (z < x)) = 0 := by
        rw [List.countP_eq_zero]
        intro z hz
        rcases List.mem_cons.1 hz with rfl | h
        · simp; omega
        · have := hb'.1 z h; simp; omega
      omega
  | case4 x a y b hxy ih =>
    have ha' := List.pairwise_cons.1 ha
    have hb' := List.pairwise_cons.1 hb
    obtain ⟨h1, h2, h3⟩ := ih ha hb'.2
    rw [mergeCount]
    simp only [hxy, if_false]
    refine ⟨?_, ?_, ?_⟩
    · exact (h1.cons y).trans List.perm_middle.symm
    · rw [List.pairwise_cons]
      refine ⟨fun z hz => ?_, h2⟩
      have hz' := h1.mem_iff.1 hz
      rcases List.mem_append.1 hz' with h | h
      · rcases List.mem_cons.1 h with rfl | h
        · omega
        · have := ha'.1 z h; omega
      · exact hb'.1 z h
    · rw [h3, cross_cons_right]
      have : (x :: a).countP (fun z => decide (y < z)) = (x :: a).length := by
        rw [List.countP_eq_length]
        intro z hz
        rcases List.mem_cons.1 hz with rfl | h
        · simp; omega
        · have := ha'.1 z h; simp; omega
      rw [this]; rfl

/-- Every aligned segment of length `seg` is sorted. -/
def SegSorted (seg : Nat) (l : List Nat) : Prop :=
  ∀ k, ((l.drop (k * seg)).take seg).Pairwise (· ≤ ·)

theorem pass_spec (seg : Nat) (hseg : 0 < seg) : ∀ (fuel : Nat) (l : List Nat), l.length ≤ fuel →
    SegSorted seg l →
    (pass seg fuel l).1.Perm l ∧ SegSorted (2 * seg) (pass seg fuel l).1 ∧
    inv l = (pass seg fuel l).2 + inv (pass seg fuel l).1 := by
  intro fuel
  induction fuel with
  | zero =>
    intro l hl hs
    have : l = [] := List.eq_nil_of_length_eq_zero (by omega)
    subst this
    simp [pass, SegSorted, inv, Spec.pairs]
  | succ fuel ih =>
    intro l hl hs
    by_cases hnil : l = []
    · subst hnil; simp [pass, SegSorted, inv, Spec.pairs]
    · have hpos : 0 < l.length := List.length_pos_of_ne_nil hnil
      obtain ⟨h1, h2, h3⟩ := mergeCount_spec (l.take seg) ((l.drop seg).take seg)
        (by simpa using hs 0) (by simpa using hs 1)
      obtain ⟨g1, g2, g3⟩ := ih (l.drop (2 * seg)) (by simp; omega) (by
        intro k
        have := hs (k + 2)
        rw [List.drop_drop]
        have e : 2 * seg + k * seg = (k + 2) * seg := by ring
        rwa [e])
      have hsplit : l = (l.take seg ++ (l.drop seg).take seg) ++ l.drop (2 * seg) := by
        conv_lhs => rw [← List.take_append_drop seg l, ← List.take_append_drop seg (l.drop seg),
          List.drop_drop]
        rw [List.append_assoc, Nat.two_mul]
      simp only [pass, hnil, if_false]
      set m := mergeCount (l.take seg) ((l.drop seg).take seg) with hm
      set r := pass seg fuel (l.drop (2 * seg)) with hr
      have hperm : (m.1 ++ r.1).Perm l := by
        conv_rhs => rw [hsplit]
        exact h1.append g1
      refine ⟨hperm, ?_, ?_⟩
      · have hlen : m.1.length = min (2 * seg) l.length := by
          rw [h1.length_eq]; simp; omega
        intro k
        by_cases hfull : 2 * seg ≤ l.length
        · have hml : m.1.length = 2 * seg := by omega
          cases k with
          | zero =>
            rw [Nat.zero_mul, List.drop_zero, List.take_append_of_le_length (by omega),
              List.take_of_length_le (by omega)]
            exact h2
          | succ k =>
            have := g2 k
            rw [show (k + 1) * (2 * seg) = 2 * seg + k * (2 * seg) by ring, ← List.drop_drop, List.drop_append_of_le_length (by omega),
              List.drop_of_length_le (l := m.1) (by omega), List.nil_append]
            exact this
        · have hrn : r.1 = [] := by
            have := g1.length_eq
            rw [List.length_drop] at this
            exact List.eq_nil_of_length_eq_zero (by omega)
          rw [hrn, List.append_nil]
          exact h2.sublist ((List.take_sublist _ _).trans (List.drop_sublist _ _))
      · rw [inv_append m.1 r.1, inv_sorted h2]
        conv_lhs => rw [hsplit]
        rw [inv_append, inv_append, inv_sorted (l := l.take seg) (by simpa using hs 0),
          inv_sorted (l := (l.drop seg).take seg) (by simpa using hs 1), g3, h3,
          cross_perm h1 g1]
        omega

theorem sortLoop_spec : ∀ (fuel seg : Nat) (s : List Nat × Nat), 0 < seg → s.1.length ≤ seg * 2 ^ fuel →
    SegSorted seg s.1 →
    (sortLoop fuel seg s).1.Perm s.1 ∧ (sortLoop fuel seg s).1.Pairwise (· ≤ ·) ∧
    (sortLoop fuel seg s).2 = s.2 + inv s.1 := by
  intro fuel
  induction fuel with
  | zero =>
    intro seg s hpos hl hs
    have h0 := hs 0
    rw [Nat.zero_mul, List.drop_zero, List.take_of_length_le (by simpa using hl)] at h0
    simp only [sortLoop]
    exact ⟨.refl _, h0, by rw [inv_sorted h0, Nat.add_zero]⟩
  | succ fuel ih =>
    intro seg s hpos hl hs
    simp only [sortLoop]
    split
    · obtain ⟨h1, h2, h3⟩ := pass_spec seg hpos s.1.length s.1 (le_refl _) hs
      obtain ⟨g1, g2, g3⟩ := ih (2 * seg) ((pass seg s.1.length s.1).1,
        s.2 + (pass seg s.1.length s.1).2) (by omega) (by
          simp only
          rw [h1.length_eq]
          calc s.1.length ≤ seg * 2 ^ (fuel + 1) := hl
            _ = 2 * seg * 2 ^ fuel := by ring) h2
      refine ⟨g1.trans h1, g2, ?_⟩
      rw [g3, h3]
      simp only
      omega
    · rename_i hseg
      have h0 := hs 0
      rw [Nat.zero_mul, List.drop_zero, List.take_of_length_le (by omega)] at h0
      exact ⟨.refl _, h0, by rw [inv_sorted h0, Nat.add_zero]⟩

theorem segSorted_one (l : List Nat) : SegSorted 1 l := by
  intro k
  rcases h : (l.drop (k * 1)).take 1 with _ | ⟨a, _ | ⟨b, t⟩⟩
  · simp
  · simp
  · have := congrArg List.length h
    simp at this
    omega

theorem sort_spec (l : List Nat) :
    (sortLoop l.length 1 (l, 0)).1.Perm l ∧ (sortLoop l.length 1 (l, 0)).1.Pairwise (· ≤ ·) ∧
    (sortLoop l.length 1 (l, 0)).2 = inv l := by
  obtain ⟨h1, h2, h3⟩ := sortLoop_spec l.length 1 (l, 0) (by omega)
    (by simp only [Nat.one_mul]; exact le_of_lt Nat.lt_two_pow_self) (segSorted_one l)
  exact ⟨h1, h2, by simpa using h3⟩

/-! ### Pair algebra -/

theorem pairs_map {β : Type} (f : α → β) (P : β → β → Bool) (l : List α) :
    Spec.pairs P (l.map f) = Spec.pairs (fun a b => P (f a) (f b)) l := by
  induction l with
  | nil => rfl
  | cons a l ih => simp [Spec.pairs, ih, List.countP_map, Function.comp_def]

theorem pairs_congr {P Q : α → α → Bool} {R : α → α → Prop} {l : List α} (hl : l.Pairwise R)
    (h : ∀ a b, R a b → P a b = Q a b) : Spec.pairs P l = Spec.pairs Q l := by
  induction l with
  | nil => rfl
  | cons a l ih =>
    have h1 := List.pairwise_cons.1 hl
    simp only [Spec.pairs]
    rw [ih h1.2, List.countP_congr (fun b hb => by rw [h a b (h1.1 b hb)])]

theorem inv_discordant {l : List (Nat × Nat)} (h : l.Pairwise fun a b => lexLe a b = true) :
    inv (l.map (·.2)) = Spec.pairs Spec.discordant l := by
  unfold inv
  rw [pairs_map]
  refine pairs_congr h fun a b hab => ?_
  have := (lexLe_iff _ _).1 hab
  rw [Bool.eq_iff_iff]
  simp only [Spec.discordant, decide_eq_true_eq, Bool.or_eq_true, Bool.and_eq_true]
  omega

theorem pairs_congr_mem {P Q : α → α → Bool} {l : List α}
    (h : ∀ a ∈ l, ∀ b ∈ l, P a b = Q a b) : Spec.pairs P l = Spec.pairs Q l := by
  induction l with
  | nil => rfl
  | cons a l ih =>
    simp only [Spec.pairs]
    rw [ih (fun a ha b hb => h a (by simp [ha]) b (by simp [hb])),
      List.countP_congr (fun b hb => by rw [h a (by simp) b (by simp [hb])])]

/-- The rank of a value in a column. -/
def rk {α : Type} [LinearOrder α] (col : List (Option α)) (x : α) : Nat :=
  1 + col.countP (below x)

theorem rk_mono {α : Type} [LinearOrder α] (col : List (Option α)) {x y : α} (h : x ≤ y) :
    rk col x ≤ rk col y := by
  unfold rk
  apply Nat.add_le_add_left
  apply List.countP_mono_left
  intro w _ hw
  cases w with
  | none => simp [below] at hw
  | some z => simp only [below, decide_eq_true_eq] at hw ⊢; exact lt_of_lt_of_le hw h

theorem rk_strict {α : Type} [LinearOrder α] {col : List (Option α)} {x y : α} (hx : some x ∈ col)
    (h : x < y) : rk col x < rk col y := by
  unfold rk
  apply Nat.add_lt_add_left
  induction col with
  | nil => simp at hx
  | cons w col ih =>
    simp only [List.countP_cons]
    have hmono : col.countP (below x) ≤ col.countP (below y) := by
      have := rk_mono col (le_of_lt h)
      unfold rk at this; omega
    by_cases hw : w = some x
    · subst hw
      simp only [below, lt_self_iff_false, decide_false, Bool.false_eq_true, if_false, h, decide_true, if_true]
      omega
    · have hx' : some x ∈ col := by
        rcases List.mem_cons.1 hx with h | h
        · exact absurd h.symm hw
        · exact h
      have := ih hx'
      have hstep : (if below x w = true then 1 else 0) ≤ (if below y w = true then 1 else 0) := by
        cases w with
        | none => simp [below]
        | some z =>
          simp only [below, decide_eq_true_eq]
          by_cases hz : z < x
          · simp [hz, lt_trans hz h]
          · simp [hz]
      omega

theorem rk_lt_iff {α : Type} [LinearOrder α] {col : List (Option α)} {x y : α} (hx : some x ∈ col) :
    rk col x < rk col y ↔ x < y := by
  constructor
  · intro h
    by_contra hc
    have := rk_mono col (not_lt.1 hc)
    omega
  · exact rk_strict hx

theorem rk_eq_iff {α : Type} [LinearOrder α] {col : List (Option α)} {x y : α} (hx : some x ∈ col)
    (hy : some y ∈ col) : rk col x = rk col y ↔ x = y := by
  constructor
  · intro h
    rcases lt_trichotomy x y with h1 | h1 | h1
    · have := rk_strict hx h1; omega
    · exact h1
    · have := rk_strict hy h1; omega
  · rintro rfl; rfl

theorem mem_complete {α β : Type} {rows : List (Option α × Option β)} {p : α × β}
    (h : p ∈ Spec.complete rows) :
    some p.1 ∈ rows.map (·.1) ∧ some p.2 ∈ rows.map (·.2) := by
  obtain ⟨r, hr, hp⟩ := List.mem_flatMap.1 h
  rcases r with ⟨_ | x, _ | y⟩
  · simp at hp
  · simp at hp
  · simp at hp
  · simp only [List.mem_singleton] at hp
    subst hp
    exact ⟨List.mem_map.2 ⟨_, hr, rfl⟩, List.mem_map.2 ⟨_, hr, rfl⟩⟩

theorem complete_ranks {α β : Type} [LinearOrder α] [LinearOrder β] (rows : List (Option α × Option β)) :
    Spec.complete ((rankMin (rows.map (·.1))).zip (rankMin (rows.map (·.2)))) =
      (Spec.complete rows).map fun p => (rk (rows.map (·.1)) p.1, rk (rows.map (·.2)) p.2) := by
  have key : ∀ (c1 : List (Option α)) (c2 : List (Option β)) (rs : List (Option α × Option β)),
      Spec.complete (((rs.map (·.1)).map fun v => v.map (rk c1)).zip
        ((rs.map (·.2)).map fun v => v.map (rk c2))) =
      (Spec.complete rs).map fun p => (rk c1 p.1, rk c2 p.2) := by
    intro c1 c2 rs
    induction rs with
    | nil => rfl
    | cons r rs ih =>
      rcases r with ⟨_ | x, _ | y⟩ <;> simp_all [Spec.complete]
  exact key _ _ rows

theorem pairs_partition (l : List (Nat × Nat)) :
    Spec.pairs (fun _ _ => true) l + Spec.pairs (fun a b => a == b) l =
      Spec.pairs Spec.concordant l + Spec.pairs Spec.discordant l +
      Spec.pairs Spec.tiedX l + Spec.pairs Spec.tiedY l := by
  induction l with
  | nil => rfl
  | cons a l ih =>
    have key : ∀ m : List (Nat × Nat), m.countP (fun _ => true) + m.countP (fun b => a == b) =
        m.countP (Spec.concordant a) + m.countP (Spec.discordant a) +
        m.countP (Spec.tiedX a) + m.countP (Spec.tiedY a) := by
      intro m
      induction m with
      | nil => rfl
      | cons b m ihm =>
        simp only [List.countP_cons, if_true]
        have hb : 1 + (if (a == b) = true then 1 else 0) =
            (if Spec.concordant a b = true then 1 else 0) + (if Spec.discordant a b = true then 1 else 0) +
            (if Spec.tiedX a b = true then 1 else 0) + (if Spec.tiedY a b = true then 1 else 0) := by
          have e : (a == b) = true ↔ a.1 = b.1 ∧ a.2 = b.2 := by
            rw [beq_iff_eq]; exact Prod.ext_iff
          simp only [e, Spec.concordant, Spec.discordant, Spec.tiedX, Spec.tiedY, Bool.or_eq_true,
            Bool.and_eq_true, decide_eq_true_eq, beq_iff_eq]
          rcases Nat.lt_trichotomy a.1 b.1 with h1 | h1 | h1 <;>
          rcases Nat.lt_trichotomy a.2 b.2 with h2 | h2 | h2 <;>
          simp [h1, h2, Nat.ne_of_lt, Nat.ne_of_gt, Nat.lt_asymm] <;> omega
        omega
    have := key l
    simp only [Spec.pairs]
    omega

end Verif.Kendall
