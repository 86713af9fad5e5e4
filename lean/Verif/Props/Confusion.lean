import Verif.Model.Confusion
import Verif.Spec.Confusion
import Mathlib.Data.Rat.Defs
import Mathlib.Algebra.Order.Ring.Rat
import Mathlib.Analysis.SpecialFunctions.Pow.NNReal
import Mathlib.Tactic.FieldSimp
import Mathlib.Tactic.Ring
import Mathlib.Tactic.Linarith
import Mathlib.Tactic.CasesM

/-!
# Confusion matrix and MCC: theorems
-/
set_option linter.unusedSectionVars false

namespace Verif.Confusion

theorem confusion_foldl (slot : Nat) : ∀ (col : List (Option Nat)) (c : Counts),
    col.foldl (fun c v => bump c (v.getD slot)) c =
      ⟨c.tn + col.countP (fun v => v.getD slot % 4 == 0), c.fp + col.countP (fun v => v.getD slot % 4 == 1),
       c.fn + col.countP (fun v => v.getD slot % 4 == 2), c.tp + col.countP (fun v => v.getD slot % 4 == 3)⟩
  | [], c => by simp
  | v :: col, c => by
    rw [List.foldl_cons, confusion_foldl slot col]
    simp only [List.countP_cons]
    generalize hw : v.getD slot = w
    have h4 : w % 4 = 0 ∨ w % 4 = 1 ∨ w % 4 = 2 ∨ w % 4 = 3 := by omega
    rcases h4 with h | h | h | h <;> simp [bump, h] <;> omega

section
variable {K : Type} [LinearOrder K]

/-- Without nulls each counter is the number of rows of its kind, and every row is in exactly one of them. -/
theorem confusion_counts (slot : Nat) (t : K) (rows : List (Bool × K)) :
    let c := confusion slot (rows.map fun r => combined t (some r.1, some r.2))
    c.tp = Spec.cell t rows true true ∧ c.fn = Spec.cell t rows true false ∧
    c.fp = Spec.cell t rows false true ∧ c.tn = Spec.cell t rows false false ∧
    c.tp + c.fn + c.fp + c.tn = rows.length := by
  have hl : ∀ rows : List (Bool × K), Spec.cell t rows true true + Spec.cell t rows true false +
      Spec.cell t rows false true + Spec.cell t rows false false = rows.length := by
    intro rows
    induction rows with
    | nil => rfl
    | cons r rows ih =>
      unfold Spec.cell at ih ⊢
      obtain ⟨a, s⟩ := r
      cases a <;> by_cases h : t < s <;> simp [List.countP_cons, h] at ih ⊢ <;> omega
  have key : ∀ (a b : Bool) (k : Nat), k = 2 * a.toNat + b.toNat →
      (rows.map fun r => combined t (some r.1, some r.2)).countP (fun v => v.getD slot % 4 == k) =
        Spec.cell t rows a b := by
    intro a b k hk
    rw [List.countP_map, Spec.cell]
    apply List.countP_congr
    rintro ⟨x, s⟩ _
    subst hk
    cases a <;> cases b <;> cases x <;> by_cases h : t < s <;> simp [combined, h]
  simp only [confusion, confusion_foldl, Nat.zero_add]
  rw [key true true 3 rfl, key true false 2 rfl, key false true 1 rfl, key false false 0 rfl]
  exact ⟨rfl, rfl, rfl, rfl, hl rows⟩

example : confusion 0 ([(true, (2 : ℚ)), (false, 3), (true, 5)].map fun r => combined 2 (some r.1, some r.2)) =
    ⟨0, 1, 1, 1⟩ := by decide +kernel

/-- A null row is counted as well, in the cell of whatever its slot holds: the total is always the length. -/
theorem confusion_counts_nulls (slot : Nat) (col : List (Option Nat)) :
    let c := confusion slot col
    c.tp + c.fn + c.fp + c.tn = col.length := by
  simp only [confusion, confusion_foldl, Nat.zero_add]
  induction col with
  | nil => rfl
  | cons v col ih =>
    simp only [List.countP_cons, List.length_cons]
    generalize v.getD slot = w
    have h4 : w % 4 = 0 ∨ w % 4 = 1 ∨ w % 4 = 2 ∨ w % 4 = 3 := by omega
    rcases h4 with h | h | h | h <;> simp [h] <;> omega

/-- So the claim that only non-null rows are counted fails. -/
theorem confusion_null_counted : ∃ rows : List (Option Bool × Option ℚ), (∀ r ∈ rows, r.2 = none) ∧
    confusion 0 (rows.map (combined (1 / 2))) = ⟨1, 0, 0, 0⟩ :=
  ⟨[(some true, none)], by decide, by decide +kernel⟩

end

section
variable {K : Type} [Field K] [LinearOrder K] [IsStrictOrderedRing K]

theorem ratio_num {a b : Nat} (hb : b ≠ 0) : ratio (K := K) .float a b = .num ((a : K) / (b : K)) := by
  have : (b : K) ≠ 0 := by simpa using hb
  simp [ratio, Val.fdiv, this]

theorem ratio_nan {a b : Nat} (ha : a = 0) (hb : b = 0) : ratio (K := K) .float a b = .nan := by
  simp [ratio, Val.fdiv, ha, hb]

/-- Partial: the documented quotients of counts, under the reading of `/` as float division.  Each is NaN when
its denominator is zero.  Missing: whether polars' Rust `/` on `u32` columns is float division; under integer
division the columns are wrong, see `confusion_ratio_legacy`. -/
theorem confusion_ratios_partial (sqrt : K → K) (c : Counts) :
    let m := metrics .float sqrt c
    (m.tpr = if c.tp + c.fn = 0 then .nan else .num ((c.tp : K) / (c.tp + c.fn))) ∧
    (m.fpr = if c.fp + c.tn = 0 then .nan else .num ((c.fp : K) / (c.fp + c.tn))) ∧
    (m.fnr = if c.tp + c.fn = 0 then .nan else .num ((c.fn : K) / (c.tp + c.fn))) ∧
    (m.tnr = if c.fp + c.tn = 0 then .nan else .num ((c.tn : K) / (c.fp + c.tn))) ∧
    (m.precision = if c.tp + c.fp = 0 then .nan else .num ((c.tp : K) / (c.tp + c.fp))) ∧
    (m.fdr = if c.tp + c.fp = 0 then .nan else .num ((c.fp : K) / (c.tp + c.fp))) ∧
    (m.falseOmission = if c.fn + c.tn = 0 then .nan else .num ((c.fn : K) / (c.fn + c.tn))) ∧
    (m.npv = if c.fn + c.tn = 0 then .nan else .num ((c.tn : K) / (c.fn + c.tn))) ∧
    (m.prevalence = if c.tp + c.fn + c.fp + c.tn = 0 then .nan
      else .num (((c.tp : K) + c.fn) / (c.tp + c.fn + c.fp + c.tn))) ∧
    (m.acc = if c.tp + c.fn + c.fp + c.tn = 0 then .nan
      else .num (((c.tp : K) + c.tn) / (c.tp + c.fn + c.fp + c.tn))) ∧
    (m.threat = if c.tp + c.fn + c.fp = 0 then .nan
      else .num ((c.tp : K) / (c.tp + c.fn + c.fp))) := by
  have comp : ∀ a b : Nat, a + b ≠ 0 → (1 : K) - (a : K) / ((a + b : Nat) : K) = (b : K) / (a + b) := by
    intro a b h
    have : (a : K) + b ≠ 0 := by
      have : ((a + b : Nat) : K) ≠ 0 := Nat.cast_ne_zero.2 h
      push_cast at this; exact this
    push_cast
    field_simp
    ring
  have main : ∀ a b : Nat, ratio (K := K) .float a (a + b) =
      if a + b = 0 then .nan else .num ((a : K) / (a + b)) := by
    intro a b
    split
    · rename_i h; exact ratio_nan (by omega) h
    · rename_i h; rw [ratio_num h]; push_cast; rfl
  have main2 : ∀ a b : Nat, Val.fsub (.num 1) (ratio (K := K) .float a (a + b)) =
      if a + b = 0 then .nan else .num ((b : K) / (a + b)) := by
    intro a b
    split
    · rename_i h; rw [ratio_nan (by omega) h]; rfl
    · rename_i h; rw [ratio_num h]; simp only [Val.fsub]; rw [comp a b h]
  refine ⟨main _ _, main _ _, main2 _ _, main2 _ _, main _ _, main2 _ _, main _ _, main2 _ _, ?_, ?_, ?_⟩
  · have e : c.tp + c.fn + (c.fp + c.tn) = c.tp + c.fn + c.fp + c.tn := by omega
    show ratio .float _ _ = _
    rw [e]
    split
    · rename_i h; exact ratio_nan (by omega) h
    · rename_i h; rw [ratio_num h]; push_cast; rfl
  · have e : c.tp + c.fn + (c.fp + c.tn) = c.tp + c.fn + c.fp + c.tn := by omega
    show ratio .float _ _ = _
    rw [e]
    split
    · rename_i h; exact ratio_nan (by omega) h
    · rename_i h; rw [ratio_num h]; push_cast; rfl
  · show ratio .float _ _ = _
    split
    · rename_i h; exact ratio_nan (by omega) h
    · rename_i h; rw [ratio_num h]; push_cast; rfl

example : (metrics .float (fun x : ℚ => x) ⟨0, 1, 1, 1⟩).markedness = .num (-1 / 2) ∧
    (metrics .float (fun x : ℚ => x) ⟨0, 1, 1, 1⟩).npv = .num 0 := by decide +kernel

/-- F1, balanced accuracy, informedness and the odds ratio in closed form, all four cells being occupied. -/
theorem confusion_derived_partial (sqrt : K → K) (c : Counts) (h1 : 0 < c.tp) (h2 : 0 < c.fn)
    (h3 : 0 < c.fp) (h4 : 0 < c.tn) :
    let m := metrics .float sqrt c
    m.f1 = .num (2 * c.tp / (2 * c.tp + c.fp + c.fn)) ∧
    m.informedness = .num ((c.tp : K) / (c.tp + c.fn) + c.tn / (c.fp + c.tn) - 1) ∧
    m.balancedAccuracy = .num (((c.tp : K) / (c.tp + c.fn) + c.tn / (c.fp + c.tn)) / 2) ∧
    m.markedness = .num ((c.tp : K) / (c.tp + c.fp) + c.tn / (c.fn + c.tn) - 1) ∧
    m.dor = .num ((c.tp * c.tn : K) / (c.fp * c.fn)) := by
  have h := confusion_ratios_partial sqrt c
  simp only at h
  rw [if_neg (by omega), if_neg (by omega), if_neg (by omega), if_neg (by omega), if_neg (by omega),
    if_neg (by omega), if_neg (by omega), if_neg (by omega)] at h
  obtain ⟨e1, e2, e3, e4, e5, e6, e7, e8, -⟩ := h
  have p1 : (0 : K) < c.tp := by exact_mod_cast h1
  have p2 : (0 : K) < c.fn := by exact_mod_cast h2
  have p3 : (0 : K) < c.fp := by exact_mod_cast h3
  have p4 : (0 : K) < c.tn := by exact_mod_cast h4
  have q1 : (c.tp : K) + c.fn ≠ 0 := by positivity
  have q2 : (c.tp : K) + c.fp ≠ 0 := by positivity
  have q3 : (c.fp : K) + c.tn ≠ 0 := by positivity
  have q4 : (c.fn : K) + c.tn ≠ 0 := by positivity
  refine ⟨?_, ?_, ?_, ?_, ?_⟩
  · show Val.fdiv (Val.fmul (Val.fmul (.num 2) (metrics .float sqrt c).precision) (metrics .float sqrt c).tpr)
      (Val.fadd (metrics .float sqrt c).precision (metrics .float sqrt c).tpr) = _
    rw [e1, e5]
    have hd : (c.tp : K) / (c.tp + c.fp) + c.tp / (c.tp + c.fn) ≠ 0 := by positivity
    simp only [Val.fdiv, Val.fmul, Val.fadd, hd, if_false, Val.num.injEq]
    have : 2 * (c.tp : K) + c.fp + c.fn ≠ 0 := by positivity
    field_simp
    ring
  · show Val.fsub (Val.fadd (metrics .float sqrt c).tpr (metrics .float sqrt c).tnr) (.num 1) = _
    rw [e1, e4]; rfl
  · show Val.fdiv (Val.fadd (metrics .float sqrt c).tpr (metrics .float sqrt c).tnr) (.num 2) = _
    rw [e1, e4]
    simp [Val.fdiv, Val.fadd]
  · show Val.fsub (metrics .float sqrt c).precision (metrics .float sqrt c).falseOmission = _
    rw [e5, e7]
    simp only [Val.fsub, Val.num.injEq]
    field_simp
    ring
  · show Val.fdiv (Val.fdiv (metrics .float sqrt c).tpr (metrics .float sqrt c).fpr)
      (Val.fdiv (metrics .float sqrt c).fnr (metrics .float sqrt c).tnr) = _
    rw [e1, e2, e3, e4]
    have d1 : (c.fp : K) / (c.fp + c.tn) ≠ 0 := by positivity
    have d2 : (c.tn : K) / (c.fp + c.tn) ≠ 0 := by positivity
    have d3 : (c.fn : K) / (c.tp + c.fn) / (c.tn / (c.fp + c.tn)) ≠ 0 := by positivity
    simp only [Val.fdiv, d1, d2, d3, if_false, Val.num.injEq]
    field_simp

example : 0 < (⟨4, 3, 2, 1⟩ : Counts).tp ∧
    (metrics .float (fun x : ℚ => x) ⟨4, 3, 2, 1⟩).dor = .num (2 / 3) := by decide +kernel

/-- A zero denominator of a likelihood ratio does not give NaN under float division: `plr` is infinite. -/
theorem confusion_plr_inf : (metrics .float (fun x : ℚ => x) ⟨1, 0, 0, 1⟩).plr = .inf true := by decide +kernel

/-- Under integer division one hit and one miss give a true positive rate of 0. -/
theorem confusion_ratio_legacy : (metrics .legacy (fun x : ℚ => x) ⟨0, 1, 1, 1⟩).tpr = .num 0 := by
  decide +kernel

end

/-! ## Matthews correlation -/

section
variable {K : Type} [Field K] [LinearOrder K] [IsStrictOrderedRing K]

/-- The labels and predictions as field elements. -/
def toField (rows : List (Nat × Nat)) : List (K × K) := rows.map fun r => ((r.1 : K), (r.2 : K))

theorem mcc_counts (slot : Nat) (rows : List (Nat × Nat))
    (hb : ∀ r ∈ rows, (r.1 = 0 ∨ r.1 = 1) ∧ (r.2 = 0 ∨ r.2 = 1)) :
    let c := confusion slot (mccColumn rows)
    (rows.map fun r => ((r.1 : K) * (r.2 : K))).sum = c.tp ∧
    (rows.map fun r => (r.1 : K)).sum = c.tp + c.fn ∧ (rows.map fun r => (r.2 : K)).sum = c.tp + c.fp ∧
    (rows.map fun r => (r.1 : K) * r.1).sum = c.tp + c.fn ∧ (rows.map fun r => (r.2 : K) * r.2).sum = c.tp + c.fp ∧
    (rows.length : K) = c.tp + c.fn + c.fp + c.tn := by
  simp only [confusion, confusion_foldl, Nat.zero_add, mccColumn]
  induction rows with
  | nil => simp
  | cons r rows ih =>
    have ih := ih fun x hx => hb x (by simp [hx])
    obtain ⟨i1, i2, i3, i4, i5, i6⟩ := ih
    obtain ⟨a, b⟩ := r
    simp only [List.map_cons, List.sum_cons, List.countP_cons, List.length_cons, i1, i2, i3, i4, i5]
    push_cast
    rw [i6]
    rcases hb (a, b) (by simp) with ⟨h1 | h1, h2 | h2⟩ <;> simp only at h1 h2 <;> subst h1 <;> subst h2 <;>
      simp <;> (try constructorm* _ ∧ _) <;> ring

/-- Partial: MCC of two 0/1 columns is their Pearson correlation, as long as the two products of opposite cells
stay below `2^32` and neither column is constant.  Missing: larger counts, see `mcc_wraps`. -/
theorem mcc_pearson_partial (sqrt : K → K) (slot : Nat) (rows : List (Nat × Nat))
    (hb : ∀ r ∈ rows, (r.1 = 0 ∨ r.1 = 1) ∧ (r.2 = 0 ∨ r.2 = 1))
    (hs : sqrt (Spec.varN (rows.map fun r => (r.1 : K)) * Spec.varN (rows.map fun r => (r.2 : K))) ≠ 0)
    (hw : (confusion slot (mccColumn rows)).tp * (confusion slot (mccColumn rows)).tn < 2 ^ 32 ∧
      (confusion slot (mccColumn rows)).fn * (confusion slot (mccColumn rows)).fp < 2 ^ 32) :
    plMcc sqrt (confusion slot (mccColumn rows)) = .num (Spec.pearson sqrt (toField rows)) := by
  obtain ⟨e1, e2, e3, e4, e5, e6⟩ := mcc_counts (K := K) slot rows hb
  generalize confusion slot (mccColumn rows) = c at *
  have hv : Spec.varN (rows.map fun r => (r.1 : K)) * Spec.varN (rows.map fun r => (r.2 : K)) =
      ((c.tp + c.fn : Nat) : K) * ((c.tp + c.fp : Nat) : K) * ((c.fp + c.tn : Nat) : K) *
        ((c.fn + c.tn : Nat) : K) := by
    unfold Spec.varN
    rw [List.map_map, List.map_map, List.length_map, List.length_map]
    rw [show ((fun a : K => a * a) ∘ fun r : Nat × Nat => (r.1 : K)) = fun r => (r.1 : K) * r.1 from rfl,
      show ((fun a : K => a * a) ∘ fun r : Nat × Nat => (r.2 : K)) = fun r => (r.2 : K) * r.2 from rfl,
      e2, e3, e4, e5, e6]
    push_cast
    ring
  have hcov : Spec.covN (toField (K := K) rows) = (c.tp : K) * c.tn - c.fn * c.fp := by
    unfold Spec.covN toField
    rw [List.map_map, List.map_map, List.map_map, List.length_map]
    rw [show ((fun p : K × K => p.1 * p.2) ∘ fun r : Nat × Nat => ((r.1 : K), (r.2 : K))) =
        fun r => (r.1 : K) * r.2 from rfl,
      show ((fun p : K × K => p.1) ∘ fun r : Nat × Nat => ((r.1 : K), (r.2 : K))) = fun r => (r.1 : K) from rfl,
      show ((fun p : K × K => p.2) ∘ fun r : Nat × Nat => ((r.1 : K), (r.2 : K))) = fun r => (r.2 : K) from rfl,
      e1, e2, e3, e6]
    ring
  have hm1 : ((toField (K := K) rows).map (·.1)) = rows.map fun r => (r.1 : K) := by
    simp [toField, Function.comp_def]
  have hm2 : ((toField (K := K) rows).map (·.2)) = rows.map fun r => (r.2 : K) := by
    simp [toField, Function.comp_def]
  unfold Spec.pearson plMcc
  rw [hm1, hm2, hcov]
  rw [hv] at hs ⊢
  simp only [Val.fdiv, hs, if_false]
  rw [Nat.mod_eq_of_lt hw.1, Nat.mod_eq_of_lt hw.2]
  push_cast
  rfl

/-- 65536 true positives and 65536 true negatives, nothing else: the true coefficient is 1 and the reported one
is 0, because the product of the two counts is `2^32`. -/
theorem mcc_wraps (sqrt : K → K) (hs : sqrt ((65536 : K) ^ 4) ≠ 0) :
    plMcc sqrt ⟨65536, 0, 0, 65536⟩ = .num 0 := by
  have : (65536 : K) * 65536 * 65536 * 65536 = 65536 ^ 4 := by ring
  simp [plMcc, Val.fdiv, this, hs]

example : plMcc (fun x : ℚ => x) (confusion 0 (mccColumn [(1, 1), (0, 0), (1, 0)])) = .num (1 / 4) := by
  decide +kernel

end

/-- The `mcc` column of the full confusion matrix agrees with the phi coefficient over the reals. -/
theorem confusion_mcc_phi_partial (c : Counts) (h1 : 0 < c.tp + c.fn) (h2 : 0 < c.tp + c.fp)
    (h3 : 0 < c.fp + c.tn) (h4 : 0 < c.fn + c.tn) :
    (metrics .float Real.sqrt c).mcc =
      .num (((c.tp : ℝ) * c.tn - c.fn * c.fp) /
        Real.sqrt ((c.tp + c.fn) * (c.tp + c.fp) * (c.fp + c.tn) * (c.fn + c.tn))) := by
  have h := confusion_ratios_partial Real.sqrt c
  simp only at h
  rw [if_neg (by omega), if_neg (by omega), if_neg (by omega), if_neg (by omega), if_neg (by omega),
    if_neg (by omega), if_neg (by omega), if_neg (by omega)] at h
  obtain ⟨e1, e2, e3, e4, e5, e6, e7, e8, -⟩ := h
  have q1 : (0 : ℝ) < c.tp + c.fn := by exact_mod_cast h1
  have q2 : (0 : ℝ) < c.tp + c.fp := by exact_mod_cast h2
  have q3 : (0 : ℝ) < c.fp + c.tn := by exact_mod_cast h3
  have q4 : (0 : ℝ) < c.fn + c.tn := by exact_mod_cast h4
  show Val.fsub (Val.fsqrt Real.sqrt (Val.fmul (Val.fmul (Val.fmul (metrics .float Real.sqrt c).tpr
      (metrics .float Real.sqrt c).tnr) (metrics .float Real.sqrt c).precision) (metrics .float Real.sqrt c).npv))
    (Val.fsqrt Real.sqrt (Val.fmul (Val.fmul (Val.fmul (metrics .float Real.sqrt c).fnr
      (metrics .float Real.sqrt c).fpr) (metrics .float Real.sqrt c).falseOmission)
      (metrics .float Real.sqrt c).fdr)) = _
  rw [e1, e2, e3, e4, e5, e6, e7, e8]
  have n1 : (0 : ℝ) ≤ (c.tp : ℝ) / (c.tp + c.fn) * (c.tn / (c.fp + c.tn)) * (c.tp / (c.tp + c.fp)) *
      (c.tn / (c.fn + c.tn)) := by positivity
  have n2 : (0 : ℝ) ≤ (c.fn : ℝ) / (c.tp + c.fn) * (c.fp / (c.fp + c.tn)) * (c.fn / (c.fn + c.tn)) *
      (c.fp / (c.tp + c.fp)) := by positivity
  simp only [Val.fmul, Val.fsqrt, not_lt.2 n1, not_lt.2 n2, if_false, Val.fsub, Val.num.injEq]
  set D : ℝ := (c.tp + c.fn) * (c.tp + c.fp) * (c.fp + c.tn) * (c.fn + c.tn) with hD
  have hDp : 0 < D := by positivity
  have r1 : (c.tp : ℝ) / (c.tp + c.fn) * (c.tn / (c.fp + c.tn)) * (c.tp / (c.tp + c.fp)) *
      (c.tn / (c.fn + c.tn)) = ((c.tp : ℝ) * c.tn) ^ 2 / D := by rw [hD]; field_simp
  have r2 : (c.fn : ℝ) / (c.tp + c.fn) * (c.fp / (c.fp + c.tn)) * (c.fn / (c.fn + c.tn)) *
      (c.fp / (c.tp + c.fp)) = ((c.fn : ℝ) * c.fp) ^ 2 / D := by rw [hD]; field_simp
  rw [r1, r2, Real.sqrt_div (by positivity), Real.sqrt_div (by positivity),
    Real.sqrt_sq (by positivity), Real.sqrt_sq (by positivity)]
  ring

example : 0 < (⟨1, 0, 0, 1⟩ : Counts).tp + (⟨1, 0, 0, 1⟩ : Counts).fn ∧
    0 < (⟨1, 0, 0, 1⟩ : Counts).fn + (⟨1, 0, 0, 1⟩ : Counts).tn := by decide

end Verif.Confusion
