import Verif.Model.Dia
import Mathlib.Tactic.Linarith
import Mathlib.Tactic.Ring
import Mathlib.Tactic.FieldSimp
import Mathlib.Tactic.Positivity
import Mathlib.Tactic.NormNum

/-!
# C126: correlation of nulls
-/

namespace Verif.Dia

namespace Spec

variable {V : Type}

/-- The column has a null and a value. -/
def Mixed (c : List (Option V)) : Prop := none ∈ c ∧ ∃ v, some v ∈ c

/-- The nulls of the two columns are in the same rows. -/
def SameNulls (c d : List (Option V)) : Prop := c.map Option.isNone = d.map Option.isNone

/-- In every row exactly one of the two columns is null. -/
def OppositeNulls (c d : List (Option V)) : Prop := c.map Option.isNone = d.map Option.isSome

end Spec

open Spec

/-- Booleans as numbers. -/
def ind (p : List Bool) : List ℝ := p.map fun b => if b then 1 else 0

theorem isNull_eq {V : Type} (c : List (Option V)) : isNull c = ind (c.map Option.isNone) := by
  simp [isNull, ind, Function.comp_def]

theorem ind_sum (p : List Bool) : (ind p).sum = (p.count true : ℝ) := by
  induction p with
  | nil => simp [ind]
  | cons b t ih =>
    simp only [ind, List.map_cons, List.sum_cons] at ih ⊢
    rw [ih]
    cases b <;> simp [add_comm]

theorem ind_sq (p : List Bool) (m : ℝ) :
    ((ind p).map fun a => (a - m) ^ 2).sum = (1 - 2 * m) * p.count true + p.length * m ^ 2 := by
  induction p with
  | nil => simp [ind]
  | cons b t ih =>
    simp only [ind, List.map_cons, List.sum_cons, List.length_cons] at ih ⊢
    rw [ih]
    cases b <;> simp <;> ring

/-- Rows where both are true. -/
def both (p q : List Bool) : Nat := (List.zipWith and p q).count true

theorem ind_prod (p q : List Bool) (h : p.length = q.length) (m k : ℝ) :
    (List.zipWith (fun a b => (a - m) * (b - k)) (ind p) (ind q)).sum =
      both p q - m * q.count true - k * p.count true + p.length * m * k := by
  induction p generalizing q with
  | nil => simp_all [ind, both]; cases q <;> simp_all
  | cons a t ih =>
    cases q with
    | nil => simp at h
    | cons b u =>
      have h' : t.length = u.length := by simpa using h
      have := ih u h'
      simp only [ind, both, List.map_cons, List.zipWith_cons_cons, List.sum_cons, List.length_cons] at this ⊢
      rw [this]
      cases a <;> cases b <;> simp <;> ring

theorem both_le (p q : List Bool) (h : p.length = q.length) :
    both p q ≤ p.count true ∧ both p q ≤ q.count true ∧
      p.count true + q.count true ≤ p.length + both p q := by
  induction p generalizing q with
  | nil => cases q <;> simp_all [both]
  | cons a t ih =>
    cases q with
    | nil => simp at h
    | cons b u =>
      obtain ⟨h1, h2, h3⟩ := ih u (by simpa using h)
      simp only [both, List.zipWith_cons_cons, List.length_cons] at *
      cases a <;> cases b <;> simp <;> omega

theorem both_same (p q : List Bool) (h : p.length = q.length) (h1 : both p q = p.count true)
    (h2 : both p q = q.count true) : p = q := by
  induction p generalizing q with
  | nil => cases q <;> simp_all
  | cons a t ih =>
    cases q with
    | nil => simp at h
    | cons b u =>
      have hl : t.length = u.length := by simpa using h
      obtain ⟨g1, g2, g3⟩ := both_le t u hl
      simp only [both, List.zipWith_cons_cons] at *
      cases a <;> cases b <;> simp at h1 h2 ⊢
      · exact ih u hl h1 h2
      · omega
      · omega
      · exact ih u hl (by omega) (by omega)

theorem both_opposite (p q : List Bool) (h : p.length = q.length) (h1 : both p q = 0)
    (h2 : p.count true + q.count true = p.length) : p = q.map (!·) := by
  induction p generalizing q with
  | nil => cases q <;> simp_all
  | cons a t ih =>
    cases q with
    | nil => simp at h
    | cons b u =>
      have hl : t.length = u.length := by simpa using h
      obtain ⟨g1, g2, g3⟩ := both_le t u hl
      simp only [both, List.zipWith_cons_cons, List.length_cons] at *
      cases a <;> cases b <;> simp at h1 h2 ⊢
      · omega
      · exact ih u hl h1 (by omega)
      · exact ih u hl h1 (by omega)

/-- The correlation in terms of counts. -/
theorem pearson_counts (p q : List Bool) (h : p.length = q.length) (n A B C : ℝ) (hn : n = p.length)
    (hA : A = p.count true) (hB : B = q.count true) (hC : C = both p q) (hA0 : 0 < A) (hAn : A < n) (hB0 : 0 < B) :
    pearson (ind p) (ind q) = (n * C - A * B) / Real.sqrt (A * (n - B) * (B * (n - A))) := by
  have hn0 : 0 < n := hA0.trans hAn
  have hlen : ((ind p).length : ℝ) = n := by simp [ind, hn]
  have hlen' : ((ind q).length : ℝ) = n := by simp [ind, hn, h]
  unfold pearson
  simp only [hlen, hlen', ind_sum, ← hA, ← hB]
  rw [ind_prod p q h, ind_sq, ind_sq, ← hA, ← hB, ← hC, ← h, ← hn]
  have e1 : (1 - 2 * (A / n)) * A + n * (A / n) ^ 2 = A * (n - A) / n := by field_simp; ring
  have e2 : (1 - 2 * (B / n)) * B + n * (B / n) ^ 2 = B * (n - B) / n := by field_simp; ring
  have e3 : C - A / n * B - B / n * A + n * (A / n) * (B / n) = (n * C - A * B) / n := by field_simp; ring
  rw [e1, e2, e3, ← Real.sqrt_mul (by have := sub_pos.2 hAn; positivity)]
  have e4 : A * (n - A) / n * (B * (n - B) / n) = (A * (n - B) * (B * (n - A))) / n ^ 2 := by field_simp
  rw [e4, Real.sqrt_div' _ (by positivity), Real.sqrt_sq hn0.le]
  field_simp

theorem corr_bounds (n A B C : ℝ) (hA0 : 0 < A) (hAn : A < n) (hB0 : 0 < B) (hBn : B < n) (hC0 : 0 ≤ C) (h1 : C ≤ A)
    (h2 : C ≤ B) (h3 : A + B ≤ n + C) :
    |(n * C - A * B) / Real.sqrt (A * (n - B) * (B * (n - A)))| ≤ 1 ∧
    ((n * C - A * B) / Real.sqrt (A * (n - B) * (B * (n - A))) = 1 ↔ C = A ∧ C = B) ∧
    ((n * C - A * B) / Real.sqrt (A * (n - B) * (B * (n - A))) = -1 ↔ C = 0 ∧ A + B = n) := by
  have hn0 : 0 < n := hA0.trans hAn
  have hP : 0 < A * (n - B) := mul_pos hA0 (sub_pos.2 hBn)
  have hQ : 0 < B * (n - A) := mul_pos hB0 (sub_pos.2 hAn)
  set P := A * (n - B) with hPd
  set Q := B * (n - A) with hQd
  set u := n * C - A * B with hu
  have hS : 0 < Real.sqrt (P * Q) := Real.sqrt_pos.2 (mul_pos hP hQ)
  have hSS : Real.sqrt (P * Q) ^ 2 = P * Q := Real.sq_sqrt (mul_pos hP hQ).le
  set S := Real.sqrt (P * Q) with hSd
  have uP : u ≤ P := by rw [hu, hPd]; nlinarith
  have uQ : u ≤ Q := by rw [hu, hQd]; nlinarith
  have uAB : -u ≤ A * B := by rw [hu]; nlinarith [mul_nonneg hn0.le hC0]
  have uNN : -u ≤ (n - A) * (n - B) := by rw [hu]; nlinarith
  have hPQ : P * Q = A * B * ((n - A) * (n - B)) := by rw [hPd, hQd]; ring
  have hNN : 0 < (n - A) * (n - B) := mul_pos (sub_pos.2 hAn) (sub_pos.2 hBn)
  have hAB : 0 < A * B := mul_pos hA0 hB0
  have sq_le : u ^ 2 ≤ S ^ 2 := by
    rw [hSS]
    rcases le_total 0 u with h | h
    · nlinarith [mul_le_mul uP uQ h hP.le]
    · rw [hPQ]
      nlinarith [mul_le_mul uAB uNN (neg_nonneg.2 h) hAB.le]
  refine ⟨?_, ?_, ?_⟩
  · rw [abs_div, abs_of_pos hS, div_le_one hS]
    exact abs_le_of_sq_le_sq sq_le hS.le
  · rw [div_eq_one_iff_eq hS.ne']
    constructor
    · intro he
      have hu0 : 0 < u := he ▸ hS
      have hsq : u * u = P * Q := by rw [← hSS, ← he]; ring
      have e1 : u = P := by
        by_contra hne
        have : u < P := lt_of_le_of_ne uP hne
        nlinarith
      have e2 : u = Q := by
        by_contra hne
        have : u < Q := lt_of_le_of_ne uQ hne
        nlinarith
      constructor
      · rw [hu, hPd] at e1
        have : n * C = n * A := by linarith
        exact mul_left_cancel₀ hn0.ne' this
      · rw [hu, hQd] at e2
        have : n * C = n * B := by linarith
        exact mul_left_cancel₀ hn0.ne' this
    · rintro ⟨e1, e2⟩
      have e3 : P = Q := by rw [hPd, hQd, ← e1, ← e2]
      have e4 : u = P := by rw [hu, hPd, ← e1, ← e2]; ring
      rw [hSd, ← e3, Real.sqrt_mul_self hP.le, e4]
  · rw [div_eq_iff hS.ne', neg_one_mul]
    constructor
    · intro he
      have hu0 : 0 < -u := by rw [he, neg_neg]; exact hS
      have hsq : (-u) * (-u) = A * B * ((n - A) * (n - B)) := by rw [← hPQ, ← hSS, he]; ring
      have e1 : -u = A * B := by
        by_contra hne
        have : -u < A * B := lt_of_le_of_ne uAB hne
        nlinarith
      have e2 : -u = (n - A) * (n - B) := by
        by_contra hne
        have : -u < (n - A) * (n - B) := lt_of_le_of_ne uNN hne
        nlinarith
      have hC : n * C = n * 0 := by rw [hu] at e1; linarith
      have hC' : C = 0 := mul_left_cancel₀ hn0.ne' hC
      refine ⟨hC', ?_⟩
      have : n * (A + B) = n * n := by rw [hu, hC'] at e2; nlinarith
      exact mul_left_cancel₀ hn0.ne' this
    · rintro ⟨e1, e2⟩
      have e3 : P * Q = (A * B) ^ 2 := by
        rw [hPQ, show n - A = B by linarith, show n - B = A by linarith]; ring
      rw [hSd, e3, Real.sqrt_sq hAB.le, hu, e1]
      ring

theorem mem_combos {γ : Type} (l : List γ) (a b : γ) :
    (a, b) ∈ CondEntropy.combos l ↔ ∃ i j : Nat, i < j ∧ l[i]? = some a ∧ l[j]? = some b := by
  induction l with
  | nil => simp [CondEntropy.combos]
  | cons x t ih =>
    simp only [CondEntropy.combos, List.mem_append, List.mem_map, Prod.mk.injEq, ih]
    constructor
    · rintro (⟨y, hy, rfl, rfl⟩ | ⟨i, j, hij, hi, hj⟩)
      · obtain ⟨j, hj⟩ := List.mem_iff_getElem?.1 hy
        exact ⟨0, j + 1, by omega, by simp, by simpa using hj⟩
      · exact ⟨i + 1, j + 1, by omega, by simpa using hi, by simpa using hj⟩
    · rintro ⟨i, j, hij, hi, hj⟩
      obtain ⟨j, rfl⟩ : ∃ k, j = k + 1 := ⟨j - 1, by omega⟩
      have hj : t[j]? = some b := by simpa using hj
      cases i with
      | zero =>
        left
        exact ⟨b, List.mem_of_getElem? hj, by simpa using hi, rfl⟩
      | succ i => right; exact ⟨i, j, by omega, by simpa using hi, hj⟩

variable {V : Type}

theorem invalid_iff (c : List (Option V)) : invalid c = false ↔ Mixed c := by
  unfold invalid Mixed
  rw [Bool.or_eq_false_iff, decide_eq_false_iff_not, decide_eq_false_iff_not]
  refine and_congr ?_ ?_
  · rw [← ne_eq, ← Nat.pos_iff_ne_zero, List.length_pos_iff_exists_mem]
    simp
  · rw [List.length_filter_eq_length_iff]
    push Not
    constructor
    · rintro ⟨v, hv, hn⟩
      cases v with
      | none => simp at hn
      | some v => exact ⟨v, hv⟩
    · rintro ⟨v, hv⟩; exact ⟨some v, hv, by simp⟩

theorem count_isNone (c : List (Option V)) : Mixed c →
    0 < (c.map Option.isNone).count true ∧ (c.map Option.isNone).count true < c.length := by
  rintro ⟨h1, v, h2⟩
  refine ⟨List.count_pos_iff.2 (List.mem_map.2 ⟨none, h1, rfl⟩), ?_⟩
  have hle := List.count_le_length (a := true) (l := c.map Option.isNone)
  rw [List.length_map] at hle
  refine lt_of_le_of_ne hle fun he => ?_
  have : (c.map Option.isNone).count true = (c.map Option.isNone).length := by simpa using he
  rw [List.count_eq_length] at this
  have := this _ (List.mem_map.2 ⟨some v, h2, rfl⟩)
  simp at this

/-- C126: the table has exactly the pairs of columns (each pair once, in the order of the columns) that both have
nulls and values. -/
theorem null_corr_pairs (f : List (String × List (Option V))) (x y : String) :
    (∃ r, (x, y, r) ∈ nullCorr f) ↔ ∃ (i j : Nat) (c d : List (Option V)),
      i < j ∧ f[i]? = some (x, c) ∧ f[j]? = some (y, d) ∧ Mixed c ∧ Mixed d := by
  unfold nullCorr
  simp only [(List.perm_insertionSort _ _).mem_iff, List.mem_map, List.mem_filter, Bool.not_eq_true',
    Bool.or_eq_false_iff, invalid_iff, Prod.mk.injEq, Prod.exists, mem_combos]
  constructor
  · rintro ⟨r, a, c, b, d, ⟨⟨i, j, hij, hi, hj⟩, hc, hd⟩, rfl, rfl, rfl⟩
    exact ⟨i, j, c, d, hij, hi, hj, hc, hd⟩
  · rintro ⟨i, j, c, d, hij, hi, hj, hc, hd⟩
    exact ⟨_, x, c, y, d, ⟨⟨i, j, hij, hi, hj⟩, hc, hd⟩, rfl, rfl, rfl⟩

/-- C126: every entry is a correlation in [-1, 1]; it is 1 exactly when the two columns are null in the same rows, and
-1 exactly when in every row exactly one of them is null. -/
theorem null_corr_values (f : List (String × List (Option V))) (n : Nat) (hn : ∀ c ∈ f, c.2.length = n) (x y : String)
    (r : ℝ) (h : (x, y, r) ∈ nullCorr f) :
    ∃ (i j : Nat) (c d : List (Option V)), i < j ∧ f[i]? = some (x, c) ∧ f[j]? = some (y, d) ∧
      |r| ≤ 1 ∧ (r = 1 ↔ SameNulls c d) ∧
      (r = -1 ↔ OppositeNulls c d) := by
  unfold nullCorr at h
  simp only [(List.perm_insertionSort _ _).mem_iff, List.mem_map, List.mem_filter, Bool.not_eq_true',
    Bool.or_eq_false_iff, invalid_iff, Prod.mk.injEq, Prod.exists, mem_combos] at h
  obtain ⟨a, c, b, d, ⟨⟨i, j, hij, hi, hj⟩, hc, hd⟩, rfl, rfl, rfl⟩ := h
  refine ⟨i, j, c, d, hij, hi, hj, ?_⟩
  have lc : c.length = n := hn _ (List.mem_of_getElem? hi)
  have ld : d.length = n := hn _ (List.mem_of_getElem? hj)
  have hl : (c.map Option.isNone).length = (d.map Option.isNone).length := by simp [lc, ld]
  obtain ⟨ca, cb⟩ := count_isNone c hc
  obtain ⟨da, db⟩ := count_isNone d hd
  obtain ⟨b1, b2, b3⟩ := both_le _ _ hl
  rw [isNull_eq, isNull_eq, pearson_counts _ _ hl (n : ℝ) _ _ _ (by simp [lc]) rfl rfl rfl (by exact_mod_cast ca)
    (by rw [← lc]; exact_mod_cast cb) (by exact_mod_cast da)]
  rw [List.length_map, lc] at b3
  obtain ⟨k1, k2, k3⟩ := corr_bounds (n : ℝ) ((c.map Option.isNone).count true) ((d.map Option.isNone).count true)
    (both (c.map Option.isNone) (d.map Option.isNone)) (by exact_mod_cast ca)
    (by rw [← lc]; exact_mod_cast cb) (by exact_mod_cast da) (by rw [← ld]; exact_mod_cast db) (by positivity)
    (by exact_mod_cast b1) (by exact_mod_cast b2) (by exact_mod_cast b3)
  have hflip : (d.map Option.isNone).map (!·) = d.map Option.isSome := by simp [Function.comp_def]
  refine ⟨k1, k2.trans ?_, k3.trans ?_⟩
  · unfold SameNulls
    constructor
    · rintro ⟨h1, h2⟩
      exact both_same _ _ hl (by exact_mod_cast h1) (by exact_mod_cast h2)
    · intro he
      rw [he]
      have : both (d.map Option.isNone) (d.map Option.isNone) = (d.map Option.isNone).count true := by
        unfold both
        rw [List.zipWith_self]
        congr 1
        exact (List.map_congr_left fun b _ => Bool.and_self b).trans (List.map_id _)
      rw [this]
      exact ⟨rfl, rfl⟩
  · unfold OppositeNulls
    constructor
    · rintro ⟨h1, h2⟩
      rw [← hflip]
      refine both_opposite _ _ hl (by exact_mod_cast h1) ?_
      rw [List.length_map, lc]
      exact_mod_cast h2
    · intro he
      rw [← hflip] at he
      have hb : ∀ q : List Bool, both (q.map (!·)) q = 0 ∧ (q.map (!·)).count true + q.count true = q.length := by
        intro q
        induction q with
        | nil => simp [both]
        | cons b t ih =>
          simp only [both, List.map_cons, List.zipWith_cons_cons] at ih ⊢
          cases b <;> simp [ih.1] <;> omega
      obtain ⟨h1, h2⟩ := hb (d.map Option.isNone)
      rw [he]
      rw [List.length_map, ld] at h2
      exact ⟨by exact_mod_cast h1, by exact_mod_cast h2⟩

/-- C126: the table is sorted by strength, strongest first. -/
theorem null_corr_sorted (f : List (String × List (Option V))) :
    (nullCorr f).Pairwise fun a b => |b.2.2| ≤ |a.2.2| := by
  unfold nullCorr
  have : Std.Total fun a b : String × String × ℝ => |b.2.2| ≤ |a.2.2| := ⟨fun a b => le_total _ _⟩
  have : IsTrans (String × String × ℝ) fun a b => |b.2.2| ≤ |a.2.2| := ⟨fun a b c h1 h2 => h2.trans h1⟩
  exact List.pairwise_insertionSort _ _

example : Mixed [none, some 1, some (2 : ℕ)] ∧ OppositeNulls [none, some 1] [some 2, none] ∧
    SameNulls [none, some 1] [none, some 5] ∧ ∀ c ∈ [("x", [none, some 1]), ("y", [none, some 5])], c.2.length = 2 :=
  ⟨⟨by simp, 1, by simp⟩, rfl, rfl, by simp⟩

end Verif.Dia
