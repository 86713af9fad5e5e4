import Verif.Model.Dia
import Mathlib.Data.List.Nodup
import Mathlib.Data.List.Perm.Basic

/-!
# C125: validation reports
-/

namespace Verif.Dia

namespace Spec

variable {R : Type}

/-- The rule is violated by the row: its value is false. -/
def Violates (rule : (R → Option Bool) × String) (r : R) : Prop := rule.1 r = some false

end Spec

open Spec

variable {R : Type}

theorem allHorizontal_false {bs : List (Option Bool)} : allHorizontal bs = some false ↔ some false ∈ bs := by
  unfold allHorizontal
  split
  · simp_all
  · split <;> simp_all

/-- C125: a row is in the report exactly when it violates some rule (a null is no violation), with its number. -/
theorem row_validation_rows (rules : List ((R → Option Bool) × String)) (b : Bool) (rows : List R)
    (rep : List ((R × Nat) × List String)) (h : rowValidation rules b rows = some rep) (r : R) (i : Nat) :
    (∃ why, ((r, i), why) ∈ rep) ↔ rows[i]? = some r ∧ ∃ q ∈ rules, Violates q r := by
  unfold rowValidation at h
  split at h
  · obtain rfl := Option.some.inj h
    simp only [List.mem_map, List.mem_filter, decide_eq_true_eq, allHorizontal_false, Prod.mk.injEq]
    constructor
    · rintro ⟨why, ⟨r', i'⟩, ⟨hm, q, hq, hv⟩, ⟨rfl, rfl⟩, rfl⟩
      exact ⟨List.mem_zipIdx_iff_getElem?.1 hm, q, hq, hv⟩
    · rintro ⟨hr, q, hq, hv⟩
      exact ⟨_, (r, i), ⟨List.mem_zipIdx_iff_getElem?.2 hr, q, hq, hv⟩, rfl, rfl⟩
  · simp at h

/-- It raises exactly when two rules have the same name. -/
theorem row_validation_raises (rules : List ((R → Option Bool) × String)) (b : Bool) (rows : List R) :
    rowValidation rules b rows = none ↔ ¬ (rules.map Prod.snd).Nodup := by
  unfold rowValidation; split <;> simp_all

/-- The report keeps the order of the rows, and every row is in it at most once. -/
theorem row_validation_sorted (rules : List ((R → Option Bool) × String)) (b : Bool) (rows : List R)
    (rep : List ((R × Nat) × List String)) (h : rowValidation rules b rows = some rep) :
    (rep.map fun e => e.1.2).Pairwise (· < ·) := by
  unfold rowValidation at h
  split at h
  · obtain rfl := Option.some.inj h
    rw [List.map_map]
    have hz : ∀ (l : List R) (n : Nat), (l.zipIdx n).Pairwise fun a b => a.2 < b.2 := by
      intro l
      induction l with
      | nil => intro n; simp
      | cons a t ih =>
        intro n
        rw [List.zipIdx_cons, List.pairwise_cons]
        refine ⟨fun e he => ?_, ih (n + 1)⟩
        have := List.le_snd_of_mem_zipIdx he
        simp only
        omega
    rw [List.pairwise_map]
    exact (hz rows 0).filter _
  · simp at h

/-- With `all_reasons=False` the reason is the first rule violated. -/
theorem row_validation_reason (rules : List ((R → Option Bool) × String)) (rows : List R)
    (rep : List ((R × Nat) × List String)) (h : rowValidation rules false rows = some rep)
    (e : (R × Nat) × List String) (he : e ∈ rep) :
    ∃ pre q post, rules = pre ++ q :: post ∧ Violates q e.1.1 ∧ (∀ p ∈ pre, ¬ Violates p e.1.1) ∧ e.2 = [q.2] := by
  unfold rowValidation at h
  split at h
  · obtain rfl := Option.some.inj h
    simp only [List.mem_map, List.mem_filter, decide_eq_true_eq, allHorizontal_false] at he
    obtain ⟨⟨r, i⟩, ⟨-, q, hq, hv⟩, rfl⟩ := he
    simp only [reasons, Bool.false_eq_true, if_false]
    cases hf : rules.find? fun p => decide (p.1 r = some false) with
    | none =>
      rw [List.find?_eq_none] at hf
      exact absurd hv (by simpa using hf q hq)
    | some p =>
      obtain ⟨hp, pre, post, rfl, hpre⟩ := List.find?_eq_some_iff_append.1 hf
      exact ⟨pre, p, post, rfl, by simpa [Violates] using hp, fun a ha => by simpa [Violates] using hpre a ha, rfl⟩
  · simp at h

/-- With `all_reasons=True`, exactly: the sorted names of the rules that are not true. -/
theorem row_validation_all_exact (rules : List ((R → Option Bool) × String)) (rows : List R)
    (rep : List ((R × Nat) × List String)) (h : rowValidation rules true rows = some rep)
    (e : (R × Nat) × List String) (he : e ∈ rep) :
    e.2.Pairwise (· ≤ ·) ∧ e.2.Nodup ∧ ∀ n, n ∈ e.2 ↔ ∃ q ∈ rules, q.2 = n ∧ q.1 e.1.1 ≠ some true := by
  unfold rowValidation at h
  split at h
  · rename_i hnd
    obtain rfl := Option.some.inj h
    simp only [List.mem_map, List.mem_filter] at he
    obtain ⟨⟨r, i⟩, -, rfl⟩ := he
    simp only [reasons, if_true]
    refine ⟨List.pairwise_insertionSort _ _, ?_, fun n => ?_⟩
    · rw [(List.perm_insertionSort _ _).nodup_iff]
      exact hnd.sublist ((List.filter_sublist (l := rules)).map _)
    · rw [(List.perm_insertionSort _ _).mem_iff]
      simp only [List.mem_map, List.mem_filter, decide_eq_true_eq]
      constructor
      · rintro ⟨q, ⟨hq, hv⟩, rfl⟩; exact ⟨q, hq, rfl, hv⟩
      · rintro ⟨q, hq, rfl, hv⟩; exact ⟨q, ⟨hq, hv⟩, rfl⟩
  · simp at h

/-- With `all_reasons=True`, the part that holds: if no rule is null on the row, the reasons are exactly the rules
violated. -/
theorem row_validation_all_partial (rules : List ((R → Option Bool) × String)) (rows : List R)
    (rep : List ((R × Nat) × List String)) (h : rowValidation rules true rows = some rep)
    (e : (R × Nat) × List String) (he : e ∈ rep) (hn : ∀ q ∈ rules, q.1 e.1.1 ≠ none) (n : String) :
    n ∈ e.2 ↔ ∃ q ∈ rules, q.2 = n ∧ Violates q e.1.1 := by
  rw [(row_validation_all_exact rules rows rep h e he).2.2 n]
  refine exists_congr fun q => and_congr_right fun hq => and_congr_right fun _ => ?_
  have := hn q hq
  unfold Violates
  rcases hv : q.1 e.1.1 with _ | _ | _ <;> simp_all

/-- Two rules on an optional number: positive, and even. -/
def exRules : List ((Option Int × Option Int → Option Bool) × String) :=
  [(fun p => p.1.map fun x => decide (0 < x), "x > 0"), (fun p => p.2.map fun y => decide (0 < y), "y > 0")]

example : rowValidation exRules true [(some 1, some 1), (some (-1), some (-1)), (none, some 2), (some (-3), some 1)] =
    some [(((some (-1), some (-1)), 1), ["x > 0", "y > 0"]), (((some (-3), some 1), 3), ["x > 0"])] := by
  decide +kernel

example : rowValidation exRules false [(some 1, some 1), (some (-1), some (-1)), (none, some 2), (some 3, some 0)] =
    some [(((some (-1), some (-1)), 1), ["x > 0"]), (((some 3, some 0), 3), ["y > 0"])] := by
  decide +kernel

/-- A null is no violation, yet with `all_reasons=True` a row that violates one rule is also accused of every rule that
is null on it. -/
theorem row_validation_all_wrong :
    rowValidation exRules true [(some (-1), none), (some 1, none)] =
      some [(((some (-1), none), 0), ["x > 0", "y > 0"])] ∧
    rowValidation exRules false [(some (-1), none), (some 1, none)] = some [(((some (-1), none), 0), ["x > 0"])] ∧
    ¬ ∃ q ∈ exRules, q.2 = "y > 0" ∧ Violates q (some (-1), none) := by
  refine ⟨by decide +kernel, by decide +kernel, ?_⟩
  rintro ⟨q, hq, hn, hv⟩
  simp only [exRules, List.mem_cons, List.not_mem_nil, or_false] at hq
  rcases hq with rfl | rfl
  · simp at hn
  · simp [Violates] at hv

/-- C125: with rules on distinct columns the column report has exactly the rules that are false, in order. -/
theorem col_validation_partial (rules : List (String × Option Bool × String)) (hd : (rules.map Prod.fst).Nodup) :
    ∃ rep, colValidation rules = some rep ∧ rep.Sublist (rules.map fun r => (r.1, r.2.2)) ∧
      ∀ c m, (c, m) ∈ rep ↔ (c, some false, m) ∈ rules := by
  refine ⟨_, if_pos hd, (List.filter_sublist (l := rules)).map _, fun c m => ?_⟩
  simp only [List.mem_map, List.mem_filter, decide_eq_true_eq, Prod.mk.injEq]
  constructor
  · rintro ⟨⟨a, v, b⟩, ⟨hm, rfl⟩, rfl, rfl⟩; exact hm
  · intro h; exact ⟨_, ⟨h, rfl⟩, rfl, rfl⟩

example : colValidation [("x", some true, "a"), ("y", some false, "b"), ("z", none, "c")] = some [("y", "b")] := by
  decide +kernel

/-- Two rules on the same column cannot be checked in one call: both keep the name of the column. -/
theorem col_validation_wrong : colValidation [("x", some true, "min"), ("x", some false, "max")] = none := by
  decide +kernel

end Verif.Dia
