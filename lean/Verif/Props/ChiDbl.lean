import Verif.Model.ChiDbl
import Verif.Props.PsiDbl
import Verif.Props.AucDbl
import Verif.Props.Chi2

/-!
# Chi-squared statistic in double arithmetic: theorems
-/

namespace Verif.ChiDbl
open Verif.Doubles Verif.Ieee Verif.FloatBits

variable {α β : Type}

namespace Spec

/-- The two columns are independent: every count times the number of rows is the product of the sums of its row and its column. -/
def Independent (ob : α → β → ℕ) (u1 : List α) (u2 : List β) : Prop :=
  ∀ a ∈ u1, ∀ b ∈ u2, ob a b * (u1.map fun x => (u2.map fun y => ob x y).sum).sum =
    (u2.map fun y => ob a y).sum * (u1.map fun x => ob x b).sum

/-- No row and no column of the table is empty, and there are fewer than `2^32` rows of data. -/
def Proper (ob : α → β → ℕ) (u1 : List α) (u2 : List β) : Prop :=
  (∀ a ∈ u1, ∃ b ∈ u2, 0 < ob a b) ∧ (∀ b ∈ u2, ∃ a ∈ u1, 0 < ob a b) ∧
  (u1.map fun x => (u2.map fun y => ob x y).sum).sum < 2 ^ 32

end Spec

theorem pow_rep {k : ℤ} (h : -1000 ≤ k) : rd ((2 : ℝ) ^ k) = 2 ^ k :=
  fl_rep f64 ⟨1, k, by norm_num [f64], by simp [f64]; linarith, by norm_num⟩

theorem expected_range {r c n : ℕ} (r0 : 0 < r) (c0 : 0 < c) (hr : r ≤ n) (hn : n < 2 ^ 32) (hc : c ≤ n) :
    2 ^ (-40 : ℤ) ≤ expected r c n ∧ expected r c n ≤ 2 ^ (40 : ℤ) ∧ rd (expected r c n) = expected r c n := by
  unfold expected
  have n0 : (0 : ℝ) < n := by exact_mod_cast r0.trans_le hr
  have hn' : (n : ℝ) < 2 ^ 32 := by exact_mod_cast hn
  have hc' : (c : ℝ) ≤ n := by exact_mod_cast hc
  have hr' : (r : ℝ) ≤ n := by exact_mod_cast hr
  have one : 1 ≤ rd ((c * r : ℕ) : ℝ) := rd_nat_pos (Nat.mul_pos c0 r0)
  have crp : (1 : ℝ) ≤ ((c * r : ℕ) : ℝ) := by exact_mod_cast Nat.mul_pos c0 r0
  have up : rd ((c * r : ℕ) : ℝ) ≤ 2 * ((c * r : ℕ) : ℝ) := by
    have h := ConfDbl.rd_rel (x := ((c * r : ℕ) : ℝ)) (by
      rw [abs_of_pos (by linarith)]
      exact (zpow_le_one_of_nonpos₀ (by norm_num) (by norm_num)).trans crp)
    rw [abs_of_pos (a := ((c * r : ℕ) : ℝ)) (by linarith)] at h
    have hs : (2 : ℝ) ^ (-53 : ℤ) ≤ 1 := by norm_num
    have := (abs_le.1 h).2
    generalize (2 : ℝ) ^ (-53 : ℤ) = t at *
    nlinarith
  rw [rd_nat (n := n) (by omega)]
  refine ⟨?_, ?_, ConfDbl.rd_idem _⟩
  · rw [← pow_rep (k := -40) (by norm_num)]
    refine rd_mono ?_
    rw [le_div_iff₀ n0]
    calc (2 : ℝ) ^ (-40 : ℤ) * n ≤ 2 ^ (-40 : ℤ) * 2 ^ 32 := by gcongr
      _ ≤ 1 := by norm_num
      _ ≤ _ := one
  · rw [← pow_rep (k := 40) (by norm_num)]
    refine rd_mono ?_
    rw [div_le_iff₀ n0]
    refine up.trans ?_
    push_cast
    have : (c : ℝ) * r ≤ 2 ^ 32 * n := mul_le_mul (hc'.trans hn'.le) hr' (Nat.cast_nonneg r) (by norm_num)
    norm_num at this ⊢
    linarith

/-- The contribution of a cell is a number, not negative, and 0 exactly if the expected count is the count. -/
theorem cell_spec {o r c n : ℕ} (ho : o ≤ n) (r0 : 0 < r) (c0 : 0 < c) (hr : r ≤ n) (hc : c ≤ n) (hn : n < 2 ^ 32) :
    ∃ x, cell o r c n = some x ∧ 0 ≤ x ∧ rd x = x ∧ (x = 0 ↔ expected r c n = o) := by
  obtain ⟨e1, e2, e3⟩ := expected_range r0 c0 hr hn hc
  unfold cell
  generalize expected r c n = e at *
  have ep : 0 < e := (two_zpow_pos _).trans_le e1
  have eo : rd (o : ℝ) = o := rd_nat (by omega)
  simp only [ep.ne', if_false, eo]
  refine ⟨_, rfl, rd_nonneg (div_nonneg (rd_nonneg (mul_self_nonneg _)) ep.le), ConfDbl.rd_idem _, ?_, ?_⟩
  · intro h
    by_contra hne
    have big : 2 ^ (-94 : ℤ) ≤ |rd ((o : ℝ) - e)| := by
      rcases lt_or_gt_of_ne hne with h1 | h1
      · exact (PsiDbl.sub_large eo e3 e1 h1).trans (le_abs_self _)
      · rw [← neg_sub, rd_neg, abs_neg]
        refine le_trans ?_ (le_abs_self _)
        rcases Nat.eq_zero_or_pos o with rfl | o0
        · rw [Nat.cast_zero, sub_zero, e3]
          exact (zpow_le_zpow_right₀ (by norm_num) (by norm_num)).trans e1
        · exact PsiDbl.sub_large e3 eo ((zpow_le_one_of_nonpos₀ (by norm_num) (by norm_num)).trans (by exact_mod_cast o0)) h1
    have sq : (2 : ℝ) ^ (-188 : ℤ) ≤ rd (rd ((o : ℝ) - e) * rd ((o : ℝ) - e)) := by
      rw [← pow_rep (k := -188) (by norm_num)]
      refine rd_mono ?_
      rw [← abs_mul_abs_self (rd ((o : ℝ) - e))]
      have := mul_le_mul big big (two_zpow_pos _).le (abs_nonneg _)
      rw [← zpow_add₀ (by norm_num)] at this
      exact this
    have : 0 < rd (rd (rd ((o : ℝ) - e) * rd ((o : ℝ) - e)) / e) := by
      refine PsiDbl.rd_pos ?_
      rw [le_div_iff₀ ep]
      calc (2 : ℝ) ^ (-1000 : ℤ) * e ≤ 2 ^ (-1000 : ℤ) * 2 ^ (40 : ℤ) := mul_le_mul_of_nonneg_left e2 (two_zpow_pos _).le
        _ = 2 ^ (-960 : ℤ) := by rw [← zpow_add₀ (by norm_num)]; rfl
        _ ≤ 2 ^ (-188 : ℤ) := zpow_le_zpow_right₀ (by norm_num) (by norm_num)
        _ ≤ _ := sq
    exact this.ne' h
  · intro h
    rw [h, sub_self, rd_zero, mul_zero, rd_zero, zero_div, rd_zero]

/-- With a product of the sums below `2^53`, the expected count is the count exactly if it is so without rounding. -/
theorem expected_exact {o r c n : ℕ} (n0 : 0 < n) (hn : n ≤ 2 ^ 53) (hrc : c * r < 2 ^ 53) (hr : 0 < r) (hc : 0 < c) (ho : o ≤ n) :
    expected r c n = o ↔ o * n = r * c := by
  unfold expected
  rw [rd_nat hrc.le, rd_nat hn]
  have n0' : (0 : ℝ) < n := by exact_mod_cast n0
  have hp : (1 : ℝ) ≤ ((c * r : ℕ) : ℝ) := by exact_mod_cast Nat.mul_pos hc hr
  have hlt : ((c * r : ℕ) : ℝ) < 2 ^ 53 := by exact_mod_cast hrc
  constructor
  · intro h
    have q : (2 : ℝ) ^ (-1000 : ℤ) ≤ ((c * r : ℕ) : ℝ) / n := by
      rw [le_div_iff₀ n0']
      have : (n : ℝ) ≤ 2 ^ (53 : ℤ) := by exact_mod_cast hn
      calc (2 : ℝ) ^ (-1000 : ℤ) * n ≤ 2 ^ (-1000 : ℤ) * 2 ^ (53 : ℤ) := mul_le_mul_of_nonneg_left this (two_zpow_pos _).le
        _ = 2 ^ (-947 : ℤ) := by rw [← zpow_add₀ (by norm_num)]; rfl
        _ ≤ 1 := zpow_le_one_of_nonpos₀ (by norm_num) (by norm_num)
        _ ≤ _ := hp
    have qp := (two_zpow_pos _).trans_le q
    have e := ConfDbl.rd_rel (x := ((c * r : ℕ) : ℝ) / n) (by rwa [abs_of_pos qp])
    rw [abs_of_pos qp, h] at e
    have hm : |((o * n : ℕ) : ℝ) - ((c * r : ℕ) : ℝ)| < 1 := by
      have e2 : ((o * n : ℕ) : ℝ) - ((c * r : ℕ) : ℝ) = ((o : ℝ) - ((c * r : ℕ) : ℝ) / n) * n := by
        rw [sub_mul, div_mul_cancel₀ _ n0'.ne']; push_cast; ring
      rw [e2, abs_mul, abs_of_pos n0']
      calc |(o : ℝ) - ((c * r : ℕ) : ℝ) / n| * n ≤ 2 ^ (-53 : ℤ) * (((c * r : ℕ) : ℝ) / n) * n := by gcongr
        _ = 2 ^ (-53 : ℤ) * ((c * r : ℕ) : ℝ) := by rw [mul_assoc, div_mul_cancel₀ _ n0'.ne']
        _ < 2 ^ (-53 : ℤ) * 2 ^ 53 := mul_lt_mul_of_pos_left hlt (two_zpow_pos _)
        _ = 1 := by norm_num
    have hz : |((o * n : ℕ) : ℤ) - ((c * r : ℕ) : ℤ)| < 1 := by exact_mod_cast hm
    have := Int.abs_lt_one_iff.1 hz
    have h2 : o * n = c * r := by exact_mod_cast sub_eq_zero.1 this
    rw [h2, mul_comm]
  · intro h
    have : ((c * r : ℕ) : ℝ) / n = o := by
      rw [div_eq_iff n0'.ne', mul_comm c r, ← h]; push_cast; ring
    rw [this]
    exact rd_nat (ho.trans hn)

theorem mapM_some {γ δ : Type} (l : List γ) (f : γ → Option δ) (P : γ → δ → Prop) (h : ∀ x ∈ l, ∃ y, f x = some y ∧ P x y) :
    ∃ ys, (l.map f).mapM id = some ys ∧ List.Forall₂ P l ys := by
  induction l with
  | nil => exact ⟨[], rfl, .nil⟩
  | cons x l ih =>
    obtain ⟨y, hy, hp⟩ := h x List.mem_cons_self
    obtain ⟨ys, h1, h2⟩ := ih fun z hz => h z (List.mem_cons_of_mem _ hz)
    refine ⟨y :: ys, ?_, .cons hp h2⟩
    rw [List.map_cons, List.mapM_cons, h1]
    simp [hy]

theorem forall₂_mem {γ δ : Type} {P : γ → δ → Prop} {l : List γ} {m : List δ} (h : List.Forall₂ P l m) :
    (∀ x ∈ l, ∃ y ∈ m, P x y) ∧ (∀ y ∈ m, ∃ x ∈ l, P x y) := by
  induction h with
  | nil => simp
  | cons hp _ ih =>
    constructor
    · intro x hx
      rcases List.mem_cons.1 hx with rfl | hx
      · exact ⟨_, List.mem_cons_self, hp⟩
      · obtain ⟨y, hy, h⟩ := ih.1 x hx
        exact ⟨y, List.mem_cons_of_mem _ hy, h⟩
    · intro y hy
      rcases List.mem_cons.1 hy with rfl | hy
      · exact ⟨_, List.mem_cons_self, hp⟩
      · obtain ⟨x, hx, h⟩ := ih.2 y hy
        exact ⟨x, List.mem_cons_of_mem _ hx, h⟩

theorem row_le {ob : α → β → ℕ} {u1 : List α} {u2 : List β} {a : α} (ha : a ∈ u1) : rowSum ob u2 a ≤ all ob u1 u2 :=
  List.le_sum_of_mem (List.mem_map_of_mem ha)

theorem count_le {ob : α → β → ℕ} {u2 : List β} {a : α} {b : β} (hb : b ∈ u2) : ob a b ≤ rowSum ob u2 a :=
  List.le_sum_of_mem (List.mem_map_of_mem hb)

theorem count_le' {ob : α → β → ℕ} {u1 : List α} {a : α} {b : β} (ha : a ∈ u1) : ob a b ≤ colSum ob u1 b :=
  List.le_sum_of_mem (List.mem_map_of_mem (f := fun x => ob x b) ha)

theorem col_le {ob : α → β → ℕ} {u1 : List α} {u2 : List β} {b : β} (hb : b ∈ u2) : colSum ob u1 b ≤ all ob u1 u2 :=
  List.sum_le_sum fun _ _ => count_le hb

/-- The values of the cells: one per cell, and their sum is the statistic. -/
theorem chi2_cells (ob : α → β → ℕ) (u1 : List α) (u2 : List β) (h : Spec.Proper ob u1 u2) :
    ∃ ys, chi2 ob u1 u2 = some (PsiDbl.total ys) ∧ (∀ y ∈ ys, 0 ≤ y ∧ rd y = y) ∧
      ((∀ y ∈ ys, y = 0) ↔ ∀ a ∈ u1, ∀ b ∈ u2, expected (rowSum ob u2 a) (colSum ob u1 b) (all ob u1 u2) = ob a b) := by
  obtain ⟨h1, h2, h3⟩ := h
  have e : (u1.flatMap fun a => u2.map fun b => cell (ob a b) (rowSum ob u2 a) (colSum ob u1 b) (all ob u1 u2)) =
      (u1.flatMap fun a => u2.map fun b => (a, b)).map fun p =>
        cell (ob p.1 p.2) (rowSum ob u2 p.1) (colSum ob u1 p.2) (all ob u1 u2) := by
    rw [List.map_flatMap]; simp [List.map_map, Function.comp_def]
  have hmem : ∀ p ∈ (u1.flatMap fun a => u2.map fun b => (a, b)), p.1 ∈ u1 ∧ p.2 ∈ u2 := by
    rintro ⟨a, b⟩ hp
    simpa using hp
  obtain ⟨ys, y1, y2⟩ := mapM_some (u1.flatMap fun a => u2.map fun b => (a, b))
    (fun p => cell (ob p.1 p.2) (rowSum ob u2 p.1) (colSum ob u1 p.2) (all ob u1 u2))
    (fun p x => 0 ≤ x ∧ rd x = x ∧ (x = 0 ↔ expected (rowSum ob u2 p.1) (colSum ob u1 p.2) (all ob u1 u2) = ob p.1 p.2)) (by
      rintro ⟨a, b⟩ hp
      obtain ⟨ha, hb⟩ := hmem _ hp
      obtain ⟨b', hb', p1⟩ := h1 a ha
      obtain ⟨a', ha', p2⟩ := h2 b hb
      exact cell_spec ((count_le hb).trans (row_le ha)) (p1.trans_le (count_le hb')) (p2.trans_le (count_le' ha')) (row_le ha) (col_le hb) h3)
  obtain ⟨m1, m2⟩ := forall₂_mem y2
  refine ⟨ys, ?_, fun y hy => ?_, ?_, ?_⟩
  · unfold chi2
    rw [e, y1]; rfl
  · obtain ⟨p, -, q⟩ := m2 y hy
    exact ⟨q.1, q.2.1⟩
  · intro hz a ha b hb
    obtain ⟨y, hy, q⟩ := m1 (a, b) (by simpa using ⟨ha, hb⟩)
    exact q.2.2.1 (hz y hy)
  · intro hz y hy
    obtain ⟨p, hp, q⟩ := m2 y hy
    exact q.2.2.2 (hz _ (hmem p hp).1 _ (hmem p hp).2)

/-- The statistic is a number, never negative. -/
theorem chi2_nonneg (ob : α → β → ℕ) (u1 : List α) (u2 : List β) (h : Spec.Proper ob u1 u2) :
    ∃ x, chi2 ob u1 u2 = some x ∧ 0 ≤ x := by
  obtain ⟨ys, h1, h2, -⟩ := chi2_cells ob u1 u2 h
  exact ⟨_, h1, (PsiDbl.total_spec ys h2).1⟩

/-- Up to 94906265 rows, the statistic is 0 exactly if the columns are independent. -/
theorem chi2_zero_partial (ob : α → β → ℕ) (u1 : List α) (u2 : List β) (h : Spec.Proper ob u1 u2)
    (hn : (u1.map fun x => (u2.map fun y => ob x y).sum).sum ≤ 94906265) :
    chi2 ob u1 u2 = some 0 ↔ Spec.Independent ob u1 u2 := by
  obtain ⟨ys, c1, c2, c3⟩ := chi2_cells ob u1 u2 h
  rw [c1, Option.some_inj, (PsiDbl.total_spec ys c2).2.2, c3]
  unfold Spec.Independent
  obtain ⟨h1, h2, h3⟩ := h
  refine forall₂_congr fun a ha => forall₂_congr fun b hb => ?_
  obtain ⟨b', hb', p1⟩ := h1 a ha
  obtain ⟨a', ha', p2⟩ := h2 b hb
  have r0 := p1.trans_le (count_le hb')
  have rn : rowSum ob u2 a ≤ all ob u1 u2 := row_le ha
  have cn : colSum ob u1 b ≤ all ob u1 u2 := col_le hb
  have hn' : all ob u1 u2 ≤ 94906265 := hn
  have hprod : colSum ob u1 b * rowSum ob u2 a < 2 ^ 53 :=
    lt_of_le_of_lt (Nat.mul_le_mul (cn.trans hn') (rn.trans hn')) (by norm_num)
  exact expected_exact (r0.trans_le rn) (by omega) hprod r0 (p2.trans_le (count_le' ha')) ((count_le hb).trans rn)

/-- A table of independent columns. -/
def product : Bool → Bool → ℕ := fun a b => (if a then 2 else 1) * (if b then 3 else 5)

example : Spec.Proper product [true, false] [true, false] ∧
    ([true, false].map fun x => ([true, false].map fun y => product x y).sum).sum ≤ 94906265 ∧
    Spec.Independent product [true, false] [true, false] := by
  refine ⟨⟨by simp [product], by simp [product], by decide⟩, by decide, ?_⟩
  intro a _ b _
  revert a b
  decide

/-- Independent columns with 94925793 rows. -/
def wide : Bool → Bool → ℕ
  | true, true => 94886825
  | true, false => 19450
  | false, true => 19514
  | false, false => 4

/-- The columns are independent but the statistic is not 0. -/
theorem chi2_independent_positive :
    Spec.Proper wide [true, false] [true, false] ∧ Spec.Independent wide [true, false] [true, false] ∧
    ∃ x, chi2 wide [true, false] [true, false] = some x ∧ 0 < x := by
  have hp : Spec.Proper wide [true, false] [true, false] := ⟨by simp [wide], by simp [wide], by simp [wide]⟩
  refine ⟨hp, ?_, ?_⟩
  · intro a _ b _
    cases a <;> cases b <;> simp [wide]
  · obtain ⟨ys, c1, c2, c3⟩ := chi2_cells wide [true, false] [true, false] hp
    obtain ⟨t1, -, t3⟩ := PsiDbl.total_spec ys c2
    refine ⟨_, c1, lt_of_le_of_ne t1 fun h => ?_⟩
    have := c3.1 (t3.1 h.symm) true (by simp) true (by simp)
    have e : expected (rowSum wide [true, false] true) (colSum wide [true, false] true) (all wide [true, false] [true, false]) =
        94886825 - 2 ^ (-26 : ℤ) := by
      have er : rowSum wide [true, false] true = 94906275 := by simp [rowSum, wide]
      have ec : colSum wide [true, false] true = 94906339 := by simp [colSum, wide]
      have en : all wide [true, false] [true, false] = 94925793 := by simp [all, rowSum, wide]
      rw [er, ec, en]
      unfold expected
      rw [AucDbl.rd_tie (x := ((94906339 * 94906275 : ℕ) : ℝ)) 1 4503603554188612 (by norm_num) (by norm_num) (by norm_num)
        (by norm_num) (by decide), rd_nat (n := 94925793) (by norm_num)]
      rw [ConfDbl.rd_at (-26) (94886825 * 2 ^ 26 - 1) (by norm_num) (by norm_num) (by norm_num) (by rw [abs_lt]; constructor <;> norm_num)]
      norm_num
    rw [e] at this
    simp [wide] at this

example : 94925793 = wide true true + wide true false + wide false true + wide false false := by decide

theorem mapM_none {γ : Type} (l : List (Option γ)) (h : none ∈ l) : l.mapM id = none := Chi2.mapM_id_none l h

/-- A level without rows (as a null key, which no row joins) makes the statistic NaN. -/
theorem chi2_empty_level (ob : α → β → ℕ) (u1 : List α) (u2 : List β) (a : α) (ha : a ∈ u1) (h2 : u2 ≠ [])
    (h : ∀ b ∈ u2, ob a b = 0) : chi2 ob u1 u2 = none := by
  obtain ⟨b, hb⟩ := List.exists_mem_of_ne_nil u2 h2
  have r0 : rowSum ob u2 a = 0 := by
    unfold rowSum
    rw [List.map_congr_left (g := fun _ => 0) h]
    simp
  have e0 : expected 0 (colSum ob u1 b) (all ob u1 u2) = 0 := by
    unfold expected
    rw [mul_zero, Nat.cast_zero, rd_zero, zero_div, rd_zero]
  have c0 : cell (ob a b) (rowSum ob u2 a) (colSum ob u1 b) (all ob u1 u2) = none := by
    unfold cell
    rw [r0, e0]
    simp
  unfold chi2
  rw [mapM_none _ (List.mem_flatMap.2 ⟨a, ha, List.mem_map.2 ⟨b, hb, c0⟩⟩)]
  rfl

example : ∀ b ∈ [true, false], (fun (a b : Bool) => if a then product a b else 0) false b = 0 := by simp

end Verif.ChiDbl
