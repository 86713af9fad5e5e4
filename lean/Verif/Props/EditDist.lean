import Verif.Lemmas.EditDist
import Verif.Props.StrMisc
import Mathlib.Tactic.NormNum

/-!
# Edit distance expressions: theorems
-/

namespace Verif.EditDist.Spec

variable {α : Type}

/-- One edit: a character is inserted, deleted or replaced. -/
inductive Edit : List α → List α → Prop
  | ins (a b : List α) (x : α) : Edit (a ++ b) (a ++ x :: b)
  | del (a b : List α) (x : α) : Edit (a ++ x :: b) (a ++ b)
  | put (a b : List α) (x y : α) : Edit (a ++ x :: b) (a ++ y :: b)

/-- `n` edits one after the other. -/
inductive Edits : Nat → List α → List α → Prop
  | none (x : List α) : Edits 0 x x
  | more {n : Nat} {x y z : List α} (h : Edit x y) (hs : Edits n y z) : Edits (n + 1) x z

/-- `d` is the least number of edits from `x` to `y`. -/
def LeastEdits (d : Nat) (x y : List α) : Prop := Edits d x y ∧ ∀ n, Edits n x y → d ≤ n

/-- A piece of an alignment: what it covers on the left and on the right, and its cost. -/
structure Piece (α : Type) where
  left : List α
  right : List α
  cost : Nat

/-- The pieces an optimal string alignment may use. -/
inductive Allowed : Piece α → Prop
  | keep (x : α) : Allowed ⟨[x], [x], 0⟩
  | put (x y : α) : Allowed ⟨[x], [y], 1⟩
  | del (x : α) : Allowed ⟨[x], [], 1⟩
  | ins (y : α) : Allowed ⟨[], [y], 1⟩
  | swap (x y : α) : Allowed ⟨[x, y], [y, x], 1⟩

/-- `x` and `y` can be cut into allowed pieces of total cost `n`. -/
def Alignable (n : Nat) (x y : List α) : Prop :=
  ∃ ps : List (Piece α), (∀ p ∈ ps, Allowed p) ∧ ps.flatMap (·.left) = x ∧ ps.flatMap (·.right) = y ∧
    (ps.map (·.cost)).sum = n

/-- `l` is the length of the longest common subsequence. -/
def IsLcs (l : Nat) (x y : List α) : Prop :=
  (∃ z : List α, List.Sublist z x ∧ List.Sublist z y ∧ z.length = l) ∧
    ∀ z : List α, List.Sublist z x → List.Sublist z y → z.length ≤ l

/-- The number of positions at which two words differ (a missing character differs from any). -/
def mismatches [DecidableEq α] (x y : List α) : Nat :=
  ((List.range (max x.length y.length)).filter fun i => x[i]? ≠ y[i]?).length

/-- The value of `other` compared in row `i`: its only value, or its row `i`. -/
def rowOf (other : List (Option (List Char))) (i : Nat) : Option (Option (List Char)) :=
  if other.length = 1 then other[0]? else other[i]?

/-- The column `other` can be compared with `c`: a present scalar or the same length. -/
def Comparable (c other : List (Option (List Char))) : Prop :=
  (∃ r, other = [some r]) ∨ (other.length ≠ 1 ∧ c.length = other.length)

/-- The column `col` holds in each row the value related to the two strings of the row, null if one is missing. -/
def Rowwise {β : Type} (R : List Char → List Char → Option β → Prop) (c other : List (Option (List Char)))
    (col : List (Option β)) : Prop :=
  col.length = c.length ∧ ∀ i : Nat,
    (∀ x y, c[i]? = some (some x) → rowOf other i = some (some y) → ∃ v, col[i]? = some v ∧ R x y v) ∧
    (i < c.length → (c[i]? = some none ∨ rowOf other i = some none) → col[i]? = some none)

/-- The workers, if any, all run. -/
def Sched (workers : Option (Nat × List Nat)) : Prop :=
  ∀ n order, workers = some (n, order) → 0 < n ∧ ∀ i < n, i ∈ order

end Verif.EditDist.Spec

namespace Verif.EditDist
open Verif.EditDist.Spec Verif.StrMisc

section lemmas
variable {α : Type}

theorem Edits.cons {n : Nat} {x y : List α} (a : α) (h : Edits n x y) : Edits n (a :: x) (a :: y) := by
  induction h with
  | none x => exact .none _
  | more h _ ih =>
    refine .more ?_ ih
    cases h with
    | ins u v b => exact .ins (a :: u) v b
    | del u v b => exact .del (a :: u) v b
    | put u v b c => exact .put (a :: u) v b c

theorem Align.edits {n : Nat} {x y : List α} (h : Align false n x y) : Edits n x y := by
  induction h with
  | nil => exact .none _
  | keep a _ ih => exact Edits.cons a ih
  | sub a b _ ih => exact .more (.put [] _ a b) (Edits.cons b ih)
  | del a _ ih => exact .more (.del [] _ a) ih
  | ins b _ ih => exact .more (.ins [] _ b) (Edits.cons b ih)
  | swap _ _ hs => simp at hs

theorem Align.append {n : Nat} {x y : List α} (a : List α) (h : Align false n x y) :
    Align false n (a ++ x) (a ++ y) := by
  induction a with
  | nil => exact h
  | cons b a ih => exact .keep b ih

theorem Edits.align {n : Nat} {x y : List α} (h : Edits n x y) : ∃ m ≤ n, Align false m x y := by
  induction h with
  | none x => exact ⟨0, by omega, Align.refl x⟩
  | @more n x y z h _ ih =>
    obtain ⟨m, hm, h2⟩ := ih
    have h1 : Align false 1 x y := by
      cases h with
      | ins u v b => exact Align.append u (.ins b (Align.refl v))
      | del u v b => exact Align.append u (.del b (Align.refl v))
      | put u v b c => exact Align.append u (.sub b c (Align.refl v))
    obtain ⟨k, hk, h3⟩ := h1.trans h2
    exact ⟨k, by omega, h3⟩

theorem lev_least [DecidableEq α] (x y : List α) : LeastEdits (lev x y) x y := by
  refine ⟨(lev_align x y).edits, fun n h => ?_⟩
  obtain ⟨m, hm, h⟩ := Edits.align h
  exact (lev_le_align h).trans hm

theorem Align.alignable {n : Nat} {x y : List α} (h : Align true n x y) : Alignable n x y := by
  induction h with
  | nil => exact ⟨[], by simp, rfl, rfl, rfl⟩
  | keep a _ ih =>
    obtain ⟨ps, h1, h2, h3, h4⟩ := ih
    exact ⟨⟨[a], [a], 0⟩ :: ps, by simpa using ⟨.keep a, h1⟩, by simp [h2], by simp [h3], by simp [h4]⟩
  | sub a b _ ih =>
    obtain ⟨ps, h1, h2, h3, h4⟩ := ih
    exact ⟨⟨[a], [b], 1⟩ :: ps, by simpa using ⟨.put a b, h1⟩, by simp [h2], by simp [h3], by simp [h4]; omega⟩
  | del a _ ih =>
    obtain ⟨ps, h1, h2, h3, h4⟩ := ih
    exact ⟨⟨[a], [], 1⟩ :: ps, by simpa using ⟨.del a, h1⟩, by simp [h2], by simp [h3], by simp [h4]; omega⟩
  | ins b _ ih =>
    obtain ⟨ps, h1, h2, h3, h4⟩ := ih
    exact ⟨⟨[], [b], 1⟩ :: ps, by simpa using ⟨.ins b, h1⟩, by simp [h2], by simp [h3], by simp [h4]; omega⟩
  | swap a b _ _ ih =>
    obtain ⟨ps, h1, h2, h3, h4⟩ := ih
    exact ⟨⟨[a, b], [b, a], 1⟩ :: ps, by simpa using ⟨.swap a b, h1⟩, by simp [h2], by simp [h3], by
      simp [h4]; omega⟩

theorem Alignable.align {n : Nat} {x y : List α} (h : Alignable n x y) : Align true n x y := by
  obtain ⟨ps, h1, rfl, rfl, rfl⟩ := h
  induction ps with
  | nil => exact .nil
  | cons p ps ih =>
    have ih := ih fun q hq => h1 q (List.mem_cons_of_mem _ hq)
    have hp := h1 p (List.mem_cons_self ..)
    simp only [List.flatMap_cons, List.map_cons, List.sum_cons]
    cases hp with
    | keep a => rw [Nat.zero_add]; exact .keep a ih
    | put a b => rw [Nat.add_comm]; exact .sub a b ih
    | del a => rw [Nat.add_comm]; exact .del a ih
    | ins b => rw [Nat.add_comm]; exact .ins b ih
    | swap a b => rw [Nat.add_comm]; exact .swap a b rfl ih

theorem osa_symm [DecidableEq α] (x y : List α) : osa x y = osa y x :=
  Nat.le_antisymm (osa_le_align (osa_align y x).symm) (osa_le_align (osa_align x y).symm)

theorem hammingPadded_symm [DecidableEq α] (x y : List α) : hammingPadded x y = hammingPadded y x := by
  induction x generalizing y with
  | nil => cases y <;> simp [hammingPadded]
  | cons a x ih =>
    cases y with
    | nil => simp [hammingPadded]
    | cons b y =>
      rw [hammingPadded, hammingPadded, ih y]
      by_cases h : a = b
      · simp [h]
      · rw [if_neg h, if_neg (Ne.symm h)]

theorem hamming_eq [DecidableEq α] (x y : List α) :
    hamming x y = if x.length = y.length then some (hammingPadded x y) else none := by
  induction x generalizing y with
  | nil => cases y <;> simp [hamming, hammingPadded]
  | cons a x ih =>
    cases y with
    | nil => simp [hamming]
    | cons b y =>
      rw [hamming, hammingPadded, ih y]
      by_cases hl : x.length = y.length
      · by_cases h : a = b
        · simp [h, hl]
        · simp [h, hl, Nat.add_comm]
      · simp [hl]

theorem hamming_symm [DecidableEq α] (x y : List α) : hamming x y = hamming y x := by
  rw [hamming_eq, hamming_eq, hammingPadded_symm]
  by_cases h : x.length = y.length
  · rw [if_pos h, if_pos h.symm]
  · rw [if_neg h, if_neg (Ne.symm h)]

theorem hammingPadded_mismatches [DecidableEq α] (x y : List α) : hammingPadded x y = mismatches x y := by
  have hn : ∀ y : List α, mismatches ([] : List α) y = y.length := by
    intro y
    unfold mismatches
    have : (List.range (max ([] : List α).length y.length)).filter (fun i => decide (([] : List α)[i]? ≠ y[i]?)) =
        List.range y.length := by
      simp only [List.length_nil, Nat.zero_max, List.getElem?_nil]
      apply List.filter_eq_self.2
      intro i hi
      simp only [List.mem_range] at hi
      simp [hi]
    rw [this, List.length_range]
  have hn' : ∀ y : List α, mismatches y ([] : List α) = y.length := by
    intro y
    rw [← hn y]
    unfold mismatches
    rw [max_comm]
    congr 1
    apply List.filter_congr
    intro i _
    simp only [ne_eq, decide_eq_decide]
    exact not_congr eq_comm
  induction x generalizing y with
  | nil => rw [hn y]; simp [hammingPadded]
  | cons a x ih =>
    cases y with
    | nil => rw [hn']; simp [hammingPadded]
    | cons b y =>
      rw [hammingPadded, ih y]
      unfold mismatches
      have hm : max (a :: x).length (b :: y).length = max x.length y.length + 1 := by
        simp only [List.length_cons]; omega
      rw [hm, List.range_succ_eq_map, List.filter_cons, List.filter_map]
      have he : ((fun i => decide ((a :: x)[i]? ≠ (b :: y)[i]?)) ∘ Nat.succ) = fun i => decide (x[i]? ≠ y[i]?) := by
        funext i; simp
      rw [he]
      by_cases h : a = b
      · simp [h]
      · simp [h, Nat.add_comm]

theorem lev_le_hammingPadded [DecidableEq α] (x y : List α) : lev x y ≤ hammingPadded x y := by
  apply lev_le_align
  induction x generalizing y with
  | nil => rw [hammingPadded]; exact Align.insAll y
  | cons a x ih =>
    cases y with
    | nil => rw [hammingPadded]; exact Align.delAll _
    | cons b y =>
      rw [hammingPadded]
      split
      · rename_i h; subst h; rw [Nat.zero_add]; exact .keep a (ih y)
      · rw [Nat.add_comm]; exact .sub a b (ih y)

end lemmas

/-- The shape all expressions share, for a symmetric function of the two strings. -/
theorem pairwise_rowwise {β : Type} (d : List Char → List Char → Option β) (hsym : ∀ x y, d x y = d y x)
    (workers : Option (Nat × List Nat)) (hw : Sched workers) (c other : StrCol) (hc : Comparable c other) :
    ∃ col, pairwise d d workers c other = .ok col ∧ Rowwise (fun x y v => v = d x y) c other col := by
  have hrows := pairwise_rows d d workers hw c other
  rcases hc with ⟨r, rfl⟩ | ⟨h1, h2⟩
  · obtain ⟨col, e, hl, h⟩ := hrows.1 r rfl
    refine ⟨col, e, hl, fun i => ⟨fun x y hx hy => ?_, fun hi hn => ?_⟩⟩
    · simp only [rowOf, List.length_singleton, if_true, List.getElem?_cons_zero, Option.some.injEq] at hy
      subst hy
      exact ⟨_, (h i).2 x hx, hsym _ _⟩
    · rcases hn with hn | hn
      · exact (h i).1 hn
      · simp [rowOf] at hn
  · obtain ⟨col, e, hl, h⟩ := hrows.2.1 h1 h2
    refine ⟨col, e, hl, fun i => ⟨fun x y hx hy => ?_, fun hi hn => ?_⟩⟩
    · rw [rowOf, if_neg h1] at hy
      exact ⟨_, (h i).2.2 x y hx hy, rfl⟩
    · rcases hn with hn | hn
      · exact (h i).1 hn
      · rw [rowOf, if_neg h1] at hn
        exact (h i).2.1 hn

theorem rowwise_imp {β : Type} {R S : List Char → List Char → Option β → Prop} {c other : StrCol}
    {col : List (Option β)} (h : Rowwise R c other col)
    (hRS : ∀ x y v, some x ∈ c → some y ∈ other → R x y v → S x y v) : Rowwise S c other col := by
  refine ⟨h.1, fun i => ⟨fun x y hx hy => ?_, (h.2 i).2⟩⟩
  obtain ⟨v, hv, hr⟩ := (h.2 i).1 x y hx hy
  refine ⟨v, hv, hRS x y v (List.mem_of_getElem? hx) ?_ hr⟩
  unfold rowOf at hy
  split at hy
  · exact List.mem_of_getElem? hy
  · exact List.mem_of_getElem? hy

/-- Every string of the column has fewer than `2 ^ 32` characters. -/
def Short (c : StrCol) : Prop := ∀ x, some x ∈ c → x.length < 2 ^ 32

theorem lev_le_max {α : Type} [DecidableEq α] (x y : List α) : lev x y ≤ max x.length y.length := by
  refine (lev_le_hammingPadded x y).trans ?_
  rw [hammingPadded_mismatches]
  unfold mismatches
  exact (List.length_filter_le _ _).trans (by rw [List.length_range])

theorem osa_le_lev {α : Type} [DecidableEq α] (x y : List α) : osa x y ≤ lev x y := osa_le_align (lev_align x y).mono

theorem asU32_of_le {d n : Nat} (h : d ≤ n) (hn : n < 2 ^ 32) : asU32 d = d := Nat.mod_eq_of_lt (by omega)

/-! ## Levenshtein -/

/-- `str_leven` is the least number of edits, row by row, for a scalar and for a column, sequential or parallel. -/
theorem str_leven_least (workers : Option (Nat × List Nat)) (hw : Sched workers) (c other : StrCol)
    (hc : Comparable c other) (h1 : Short c) (h2 : Short other) :
    ∃ col, strLeven workers c other = .ok col ∧ Rowwise (fun x y v => ∃ d, v = some d ∧ LeastEdits d x y) c other col := by
  obtain ⟨col, e, h⟩ := pairwise_rowwise (fun x y => some (asU32 (lev x y))) (fun x y => by rw [lev_symm]) workers hw
    c other hc
  refine ⟨col, e, rowwise_imp h fun x y v hx hy hv => ⟨lev x y, ?_, lev_least x y⟩⟩
  have := h1 x hx
  have := h2 y hy
  rw [hv, asU32_of_le (lev_le_max x y) (by omega)]

/-- The least number of edits is a metric between the length difference and the longer length. -/
theorem least_edits_laws {α : Type} [DecidableEq α] (x y z : List α) (a b c : Nat) (hab : LeastEdits a x y)
    (hbc : LeastEdits b y z) (hac : LeastEdits c x z) :
    (a = 0 ↔ x = y) ∧ LeastEdits a y x ∧ c ≤ a + b ∧ x.length - y.length ≤ a ∧ y.length - x.length ≤ a ∧
    a ≤ max x.length y.length := by
  have uniq : ∀ {d : Nat} {u v : List α}, LeastEdits d u v → d = lev u v := fun h =>
    Nat.le_antisymm (h.2 _ (lev_least _ _).1) ((lev_least _ _).2 _ h.1)
  have ea := uniq hab
  have eb := uniq hbc
  have ec := uniq hac
  have hA := lev_align x y
  refine ⟨⟨fun h => ?_, fun h => ?_⟩, ?_, ?_, ?_, ?_, ?_⟩
  · exact hA.zero (by omega)
  · subst h
    have := lev_le_align (Align.refl (sw := false) x)
    omega
  · rw [ea, lev_symm]; exact lev_least y x
  · obtain ⟨k, hk, h⟩ := hA.trans (lev_align y z)
    have := lev_le_align h
    omega
  · have := hA.len; omega
  · have := hA.len; omega
  · rw [ea]; exact lev_le_max x y

/-- `filter_by_levenshtein` with a bound from zero on holds in exactly the rows whose distance is at most the bound. -/
theorem filter_by_levenshtein_partial (workers : Option (Nat × List Nat)) (hw : Sched workers) (c other : StrCol)
    (hc : Comparable c other) (bound : Nat) (hb : bound < 2 ^ 32) :
    ∃ col, filterByLeven workers bound c other = some (.ok col) ∧
      Rowwise (fun x y v => ∃ b, v = some b ∧ ∀ d, LeastEdits d x y → (b = true ↔ d ≤ bound)) c other col := by
  obtain ⟨col, e, h⟩ := pairwise_rowwise (fun x y => some (cutoff (lev x y) bound).isSome)
    (fun x y => by rw [lev_symm]) workers hw c other hc
  refine ⟨col, ?_, rowwise_imp h fun x y v _ _ hv => ⟨_, hv, fun d hd => ?_⟩⟩
  · have : litU32 |(bound : Int)| = some bound := by
      rw [abs_of_nonneg (by omega), litU32, if_pos ⟨by omega, by omega⟩, Int.toNat_natCast]
    rw [filterByLeven, this]
    simp only [Option.map_some, levenFilter, e]
  · have hd' : d = lev x y := Nat.le_antisymm (hd.2 _ (lev_least _ _).1) ((lev_least _ _).2 _ hd.1)
    rw [hd', cutoff]
    split <;> simp [*]

/-- A negative bound is read as its absolute value. -/
theorem filter_by_levenshtein_neg (workers : Option (Nat × List Nat)) (bound : Int) (c other : StrCol) :
    filterByLeven workers (-bound) c other = filterByLeven workers bound c other := by
  rw [filterByLeven, filterByLeven, abs_neg]

/-- So a distance of one passes a bound of minus one. -/
theorem filter_by_levenshtein_neg_wrong :
    filterByLeven none (-1) [some ['a']] [some ['b']] = some (.ok [some true]) := by decide +kernel

/-- `str_leven(return_sim=True)` is one minus the distance over the longer length; between zero and one; one exactly
for equal strings. -/
theorem str_leven_sim_unit {K : Type} [Field K] [LinearOrder K] [IsStrictOrderedRing K]
    (workers : Option (Nat × List Nat)) (hw : Sched workers) (c other : StrCol) (hc : Comparable c other) :
    ∃ col, strLevenSim K workers c other = .ok col ∧
      Rowwise (fun x y v => ∃ s : K, v = some s ∧ 0 ≤ s ∧ s ≤ 1 ∧ (s = 1 ↔ x = y) ∧
        ∀ d, LeastEdits d x y → s * max x.length y.length = max x.length y.length - d) c other col := by
  obtain ⟨col, e, h⟩ := pairwise_rowwise (fun x y => some (normSim (K := K) (lev x y) (max x.length y.length)))
    (fun x y => by rw [lev_symm, max_comm]) workers hw c other hc
  refine ⟨col, e, rowwise_imp h fun x y v _ _ hv => ⟨_, hv, ?_⟩⟩
  have hle := lev_le_max x y
  have hz : lev x y = 0 ↔ x = y := (least_edits_laws x y y _ _ _ (lev_least x y) (lev_least y y) (lev_least x y)).1
  have hun : ∀ d, LeastEdits d x y → d = lev x y := fun d hd =>
    Nat.le_antisymm (hd.2 _ (lev_least _ _).1) ((lev_least _ _).2 _ hd.1)
  unfold normSim
  by_cases hm : max x.length y.length = 0
  · have h0 : lev x y = 0 := by omega
    rw [if_pos hm]
    refine ⟨zero_le_one, le_refl _, by simp [hz.1 h0], fun d hd => ?_⟩
    rw [hun d hd, h0]
    push_cast
    rw [one_mul, sub_zero]
  · rw [if_neg hm]
    generalize max x.length y.length = M at hle hm ⊢
    have hM : (0 : K) < M := by exact_mod_cast Nat.pos_of_ne_zero hm
    have hq : (0 : K) ≤ (lev x y : K) / M := by positivity
    have hq1 : (lev x y : K) / M ≤ 1 := by
      rw [div_le_one hM]; exact_mod_cast hle
    refine ⟨by linarith, by linarith, ?_, fun d hd => ?_⟩
    · rw [← hz]
      constructor
      · intro h
        have : (lev x y : K) / M = 0 := by linarith
        rcases div_eq_zero_iff.1 this with h | h
        · exact_mod_cast h
        · exact absurd h hM.ne'
      · intro h; rw [h]; simp
    · rw [hun d hd, sub_mul, div_mul_cancel₀ _ hM.ne', one_mul]

/-! ## Optimal string alignment -/

/-- `str_osa` is the least cost of cutting both strings into pieces that are equal, replaced, deleted, inserted or
swapped neighbors. -/
theorem str_osa_least (workers : Option (Nat × List Nat)) (hw : Sched workers) (c other : StrCol)
    (hc : Comparable c other) (h1 : Short c) (h2 : Short other) :
    ∃ col, strOsa workers c other = .ok col ∧
      Rowwise (fun x y v => ∃ d, v = some d ∧ Alignable d x y ∧ (∀ n, Alignable n x y → d ≤ n) ∧
        (d = 0 ↔ x = y) ∧ ∀ e, LeastEdits e x y → d ≤ e ∧ e ≤ 2 * d) c other col := by
  obtain ⟨col, e, h⟩ := pairwise_rowwise (fun x y => some (asU32 (osa x y))) (fun x y => by rw [osa_symm]) workers hw
    c other hc
  refine ⟨col, e, rowwise_imp h fun x y v hx hy hv => ⟨osa x y, ?_, (osa_align x y).alignable, fun n hn =>
    osa_le_align (Alignable.align hn), ⟨fun h => (osa_align x y).zero h, fun h => ?_⟩, fun e he => ?_⟩⟩
  · have := h1 x hx
    have := h2 y hy
    rw [hv, asU32_of_le ((osa_le_lev x y).trans (lev_le_max x y)) (by omega)]
  · subst h
    have := osa_le_align (Align.refl (sw := true) x)
    omega
  · have ee : e = lev x y := Nat.le_antisymm (he.2 _ (lev_least _ _).1) ((lev_least _ _).2 _ he.1)
    obtain ⟨m, hm, hA⟩ := (osa_align x y).noSwap
    have := lev_le_align hA
    have := osa_le_lev x y
    omega

/-- Unlike `str_leven` it is not a metric: the way over a third string can be shorter. -/
theorem str_osa_no_triangle :
    strOsa none [some ['C', 'A']] [some ['A', 'B', 'C']] = .ok [some 3] ∧
    strOsa none [some ['C', 'A']] [some ['A', 'C']] = .ok [some 1] ∧
    strOsa none [some ['A', 'C']] [some ['A', 'B', 'C']] = .ok [some 1] := by
  decide +kernel

/-- `str_osa(return_sim=True)` is between zero and one, and one exactly for equal strings. -/
theorem str_osa_sim_unit {K : Type} [Field K] [LinearOrder K] [IsStrictOrderedRing K]
    (workers : Option (Nat × List Nat)) (hw : Sched workers) (c other : StrCol) (hc : Comparable c other) :
    ∃ col, strOsaSim K workers c other = .ok col ∧
      Rowwise (fun x y v => ∃ s : K, v = some s ∧ 0 ≤ s ∧ s ≤ 1 ∧ (s = 1 ↔ x = y) ∧
        ∀ d, Alignable d x y → (max x.length y.length : K) - d ≤ s * max x.length y.length) c other col := by
  obtain ⟨col, e, h⟩ := pairwise_rowwise (fun x y => some (normSim (K := K) (osa x y) (max x.length y.length)))
    (fun x y => by rw [osa_symm, max_comm]) workers hw c other hc
  refine ⟨col, e, rowwise_imp h fun x y v _ _ hv => ⟨_, hv, ?_⟩⟩
  have hle : osa x y ≤ max x.length y.length := (osa_le_lev x y).trans (lev_le_max x y)
  have hz : osa x y = 0 ↔ x = y := ⟨fun h => (osa_align x y).zero h, fun h => by
    subst h
    have := osa_le_align (Align.refl (sw := true) x)
    omega⟩
  have hmin : ∀ d, Alignable d x y → (osa x y : K) ≤ d := fun d hd => by
    exact_mod_cast osa_le_align (Alignable.align hd)
  have hmx : (max x.length y.length : K) = ((max x.length y.length : Nat) : K) := by push_cast; rfl
  rw [hmx]
  unfold normSim
  by_cases hm : max x.length y.length = 0
  · have h0 : osa x y = 0 := by omega
    rw [if_pos hm, hm]
    refine ⟨zero_le_one, le_refl _, by simp [hz.1 h0], fun d hd => ?_⟩
    push_cast
    have : (0 : K) ≤ d := by positivity
    linarith
  · rw [if_neg hm]
    generalize max x.length y.length = M at hle hm ⊢
    have hM : (0 : K) < M := by exact_mod_cast Nat.pos_of_ne_zero hm
    have hq : (0 : K) ≤ (osa x y : K) / M := by positivity
    have hq1 : (osa x y : K) / M ≤ 1 := by
      rw [div_le_one hM]; exact_mod_cast hle
    refine ⟨by linarith, by linarith, ?_, fun d hd => ?_⟩
    · rw [← hz]
      constructor
      · intro h
        have : (osa x y : K) / M = 0 := by linarith
        rcases div_eq_zero_iff.1 this with h | h
        · exact_mod_cast h
        · exact absurd h hM.ne'
      · intro h; rw [h]; simp
    · rw [sub_mul, div_mul_cancel₀ _ hM.ne', one_mul]
      have := hmin d hd
      linarith

/-! ## Longest common subsequence and `str_fuzz` -/

theorem lcsLen_isLcs {α : Type} [DecidableEq α] (x y : List α) : IsLcs (lcsLen x y) x y :=
  ⟨lcsLen_sublist x y, fun z h1 h2 => lcsLen_max x y z h1 h2⟩

theorem lcsLen_le {α : Type} [DecidableEq α] (x y : List α) : lcsLen x y ≤ min x.length y.length := by
  obtain ⟨z, h1, h2, h3⟩ := lcsLen_sublist x y
  have := h1.length_le
  have := h2.length_le
  omega

theorem isLcs_unique {α : Type} [DecidableEq α] {l : Nat} {x y : List α} (h : IsLcs l x y) : l = lcsLen x y := by
  obtain ⟨⟨z, a, b, c⟩, h2⟩ := h
  obtain ⟨z', a', b', c'⟩ := lcsLen_sublist x y
  have := lcsLen_max x y z a b
  have := h2 z' a' b'
  omega

/-- `str_lcs_seq(return_sim=False)` is the longer length minus the length of the longest common subsequence; it is at
most the number of edits, and zero exactly for equal strings. -/
theorem str_lcs_seq_exact (workers : Option (Nat × List Nat)) (hw : Sched workers) (c other : StrCol)
    (hc : Comparable c other) (h1 : Short c) (h2 : Short other) :
    ∃ col, strLcsSeq workers c other = .ok col ∧
      Rowwise (fun x y v => ∃ d, v = some d ∧ (∀ l, IsLcs l x y → d + l = max x.length y.length) ∧
        (d = 0 ↔ x = y) ∧ ∀ e, LeastEdits e x y → d ≤ e) c other col := by
  obtain ⟨col, e, h⟩ := pairwise_rowwise (fun x y => some (asU32 (lcsDist x y)))
    (fun x y => by rw [lcsDist, lcsDist, lcsLen_symm, max_comm]) workers hw c other hc
  refine ⟨col, e, rowwise_imp h fun x y v hx hy hv => ⟨lcsDist x y, ?_, fun l hl => ?_, ?_, fun e he => ?_⟩⟩
  · have := h1 x hx
    have := h2 y hy
    rw [hv, asU32_of_le (d := lcsDist x y) (n := max x.length y.length) (by unfold lcsDist; omega) (by omega)]
  · have := lcsLen_le x y
    rw [isLcs_unique hl, lcsDist]
    omega
  · obtain ⟨z, a, b, hz⟩ := lcsLen_sublist x y
    constructor
    · intro h
      unfold lcsDist at h
      have hx := a.length_le
      have hy := b.length_le
      have e1 := a.eq_of_length (by omega)
      have e2 := b.eq_of_length (by omega)
      rw [← e1, ← e2]
    · intro h
      subst h
      have := lcsLen_max x x x (List.Sublist.refl x) (List.Sublist.refl x)
      unfold lcsDist
      omega
  · obtain ⟨m, hm, hA⟩ := Edits.align he.1
    obtain ⟨z, a, b, hx, hy⟩ := hA.common
    have := lcsLen_max x y z a b
    simp only [Bool.false_eq_true, if_false] at hx hy
    unfold lcsDist
    omega

/-- `str_fuzz` is twice the length of the longest common subsequence over the total length (one for two empty
strings); between zero and one; one exactly for equal strings. -/
theorem str_fuzz_exact {K : Type} [Field K] [LinearOrder K] [IsStrictOrderedRing K]
    (workers : Option (Nat × List Nat)) (hw : Sched workers) (c other : StrCol) (hc : Comparable c other) :
    ∃ col, strFuzz K workers c other = .ok col ∧
      Rowwise (fun x y v => ∃ s : K, v = some s ∧ 0 ≤ s ∧ s ≤ 1 ∧ (s = 1 ↔ x = y) ∧
        ∀ l, IsLcs l x y → s * ((x.length : K) + y.length) = 2 * l) c other col := by
  obtain ⟨col, e, h⟩ := pairwise_rowwise (fun x y => some (ratio (K := K) x y))
    (fun x y => by rw [ratio, ratio, lcsLen_symm, Nat.add_comm]) workers hw c other hc
  refine ⟨col, e, rowwise_imp h fun x y v _ _ hv => ⟨_, hv, ?_⟩⟩
  have hle := lcsLen_le x y
  have heq : 2 * lcsLen x y = x.length + y.length ↔ x = y := by
    obtain ⟨z, a, b, hz⟩ := lcsLen_sublist x y
    constructor
    · intro h
      have hx := a.length_le
      have hy := b.length_le
      have e1 := a.eq_of_length (by omega)
      have e2 := b.eq_of_length (by omega)
      rw [← e1, ← e2]
    · intro h
      subst h
      have := lcsLen_max x x x (List.Sublist.refl x) (List.Sublist.refl x)
      omega
  unfold ratio normSim
  by_cases hm : x.length + y.length = 0
  · rw [if_pos hm]
    refine ⟨zero_le_one, le_refl _, ?_, fun l hl => ?_⟩
    · exact ⟨fun _ => heq.1 (by omega), fun _ => rfl⟩
    · have h0 : lcsLen x y = 0 := by omega
      rw [isLcs_unique hl, h0]
      have : (x.length : K) + y.length = ((x.length + y.length : Nat) : K) := by push_cast; rfl
      rw [this, hm]
      simp
  · rw [if_neg hm]
    have hc : ((x.length + y.length - 2 * lcsLen x y : Nat) : K) = (x.length : K) + y.length - 2 * lcsLen x y := by
      rw [Nat.cast_sub (by omega)]; push_cast; rfl
    have hM : (0 : K) < (x.length : K) + y.length := by exact_mod_cast Nat.pos_of_ne_zero hm
    have hv2 : (1 : K) - ((x.length + y.length - 2 * lcsLen x y : Nat) : K) / ((x.length + y.length : Nat) : K) =
        2 * lcsLen x y / ((x.length : K) + y.length) := by
      rw [hc]
      push_cast
      field_simp
      ring
    rw [hv2]
    have hl1 : (2 : K) * lcsLen x y ≤ (x.length : K) + y.length := by
      have : 2 * lcsLen x y ≤ x.length + y.length := by omega
      exact_mod_cast this
    refine ⟨by positivity, by rw [div_le_one hM]; exact hl1, ?_, fun l hl => ?_⟩
    · rw [div_eq_one_iff_eq hM.ne', ← heq]
      exact ⟨fun h => by exact_mod_cast h, fun h => by exact_mod_cast h⟩
    · rw [isLcs_unique hl, div_mul_cancel₀ _ hM.ne']

/-! ## Hamming -/

/-- `str_hamming(pad=False)` is the number of positions that differ for strings of equal length, and null for others. -/
theorem str_hamming_exact (workers : Option (Nat × List Nat)) (hw : Sched workers) (c other : StrCol)
    (hc : Comparable c other) (h1 : Short c) :
    ∃ col, strHamming workers c other = .ok col ∧
      Rowwise (fun x y v => (x.length = y.length → v = some (mismatches x y)) ∧ (x.length ≠ y.length → v = none))
        c other col := by
  obtain ⟨col, e, h⟩ := pairwise_rowwise (fun x y => (hamming x y).map asU32) (fun x y => by rw [hamming_symm]) workers
    hw c other hc
  refine ⟨col, e, rowwise_imp h fun x y v hx _ hv => ⟨fun hl => ?_, fun hl => ?_⟩⟩
  · have := h1 x hx
    rw [hv, hamming_eq, if_pos hl, hammingPadded_mismatches, Option.map_some,
      asU32_of_le (n := max x.length y.length) (by
        unfold mismatches
        exact (List.length_filter_le _ _).trans (by rw [List.length_range])) (by omega)]
  · rw [hv, hamming_eq, if_neg hl, Option.map_none]

/-- `str_hamming(pad=True)` counts the characters beyond the shorter string as different; it is at least the number
of edits. -/
theorem str_hamming_padded_exact (workers : Option (Nat × List Nat)) (hw : Sched workers) (c other : StrCol)
    (hc : Comparable c other) (h1 : Short c) (h2 : Short other) :
    ∃ col, strHammingPadded workers c other = .ok col ∧
      Rowwise (fun x y v => v = some (mismatches x y) ∧ ∀ e, LeastEdits e x y → e ≤ mismatches x y) c other col := by
  obtain ⟨col, e, h⟩ := pairwise_rowwise (fun x y => some (asU32 (hammingPadded x y)))
    (fun x y => by rw [hammingPadded_symm]) workers hw c other hc
  refine ⟨col, e, rowwise_imp h fun x y v hx hy hv => ⟨?_, fun e he => ?_⟩⟩
  · have := h1 x hx
    have := h2 y hy
    rw [hv, hammingPadded_mismatches,
      asU32_of_le (n := max x.length y.length) (by
        unfold mismatches
        exact (List.length_filter_le _ _).trans (by rw [List.length_range])) (by omega)]
  · rw [← hammingPadded_mismatches]
    exact (he.2 _ (lev_least x y).1).trans (lev_le_hammingPadded x y)

/-- `filter_by_hamming` holds in exactly the rows of equal length with at most `bound` differing positions. -/
theorem filter_by_hamming_exact (workers : Option (Nat × List Nat)) (hw : Sched workers) (c other : StrCol)
    (hc : Comparable c other) (bound : Nat) (hb : bound < 2 ^ 32) :
    ∃ col, filterByHamming workers bound c other = some (.ok col) ∧
      Rowwise (fun x y v => ∃ b, v = some b ∧ (b = true ↔ x.length = y.length ∧ mismatches x y ≤ bound)) c other col := by
  obtain ⟨col, e, h⟩ := pairwise_rowwise (fun x y => some ((hamming x y).bind fun d => cutoff d bound).isSome)
    (fun x y => by rw [hamming_symm]) workers hw c other hc
  refine ⟨col, ?_, rowwise_imp h fun x y v _ _ hv => ⟨_, hv, ?_⟩⟩
  · have : litU32 (bound : Int) = some bound := by
      rw [litU32, if_pos ⟨by omega, by omega⟩, Int.toNat_natCast]
    rw [filterByHamming, this]
    simp only [Option.map_some, hammingFilter, e]
  · rw [hamming_eq, ← hammingPadded_mismatches]
    by_cases hl : x.length = y.length
    · rw [if_pos hl, Option.bind_some, cutoff]
      split <;> simp [*]
    · rw [if_neg hl]
      simp [hl]

/-- A negative bound is an error there. -/
theorem filter_by_hamming_neg (workers : Option (Nat × List Nat)) (bound : Int) (h : bound < 0) (c other : StrCol) :
    filterByHamming workers bound c other = none := by
  rw [filterByHamming, litU32, if_neg (by omega), Option.map_none]

/-! ## Examples -/

/-- A column, a scalar and a schedule that meet the hypotheses above. -/
example : Comparable [some "kitten".toList, none] [some "sitting".toList] ∧
    Short [some "kitten".toList, none] ∧ Short [some "sitting".toList] ∧ Sched (some (2, [1, 0])) := by
  refine ⟨Or.inl ⟨_, rfl⟩, ?_, ?_, ?_⟩
  · intro x hx
    simp only [List.mem_cons, Option.some.injEq, reduceCtorEq, List.not_mem_nil, or_false] at hx
    subst hx; decide
  · intro x hx
    simp only [List.mem_cons, Option.some.injEq, List.not_mem_nil, or_false] at hx
    subst hx; decide
  · intro n order h
    simp only [Option.some.injEq, Prod.mk.injEq] at h
    obtain ⟨rfl, rfl⟩ := h
    exact ⟨by decide, by decide⟩

example : strLeven (some (2, [1, 0])) [some "kitten".toList, none, some "".toList] [some "sitting".toList] =
    .ok [some 3, none, some 7] := by decide +kernel

example : strLevenSim ℚ none [some "kitten".toList, some "sitting".toList] [some "sitting".toList] =
    .ok [some (4 / 7), some 1] := by decide +kernel

example : filterByLeven none 2 [some "kitten".toList, some "sitten".toList] [some "sitting".toList] =
    some (.ok [some false, some true]) := by decide +kernel

/-- Three words with their least numbers of edits, as `least_edits_laws` asks for. -/
example : ∃ a b c : Nat, LeastEdits a "ab".toList "ba".toList ∧ LeastEdits b "ba".toList "b".toList ∧
    LeastEdits c "ab".toList "b".toList ∧ a = 2 ∧ b = 1 ∧ c = 1 :=
  ⟨_, _, _, lev_least _ _, lev_least _ _, lev_least _ _, by decide +kernel, by decide +kernel, by decide +kernel⟩

example : strOsa none [some "ab".toList, some "abcd".toList] [some "ba".toList, some "badc".toList] =
    .ok [some 1, some 2] := by decide +kernel

example : strOsaSim ℚ none [some "ab".toList] [some "ba".toList] = .ok [some (1 / 2)] := by decide +kernel

example : strLcsSeq none [some "AGGTAB".toList] [some "GXTXAYB".toList] = .ok [some 3] := by decide +kernel

example : strFuzz ℚ none [some "abcd".toList, some [] ] [some "abd".toList, some []] =
    .ok [some (6 / 7), some 1] := by decide +kernel

example : strHamming none [some "karolin".toList, some "ab".toList] [some "kathrin".toList, some "abc".toList] =
    .ok [some 3, none] ∧
    strHammingPadded none [some "karolin".toList, some "ab".toList] [some "kathrin".toList, some "abc".toList] =
    .ok [some 3, some 1] := by decide +kernel

example : filterByHamming none 1 [some "ab".toList, some "ab".toList] [some "bb".toList, some "abc".toList] =
    some (.ok [some true, some false]) ∧ filterByHamming none (-1) [some "ab".toList] [some "ab".toList] = none := by
  decide +kernel

end Verif.EditDist
