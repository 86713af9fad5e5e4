import Mathlib.Data.List.Nodup
import Verif.Model.EntryPoints

/-!
# Theorems on the entry points

The spec says when a call meets a function: same name, all required keyword arguments passed, every accessor on an
argument of its type.  The tables are finite and checked as a whole; the first theorem links the lookup of the model
with the spec for any tables.
-/

namespace Verif.EntryPoints

namespace Spec

/-- The call `c`, asking for `symbol`, can be served by `e`. -/
def Serves (e : Export) (symbol : String) (c : Call) : Prop :=
  e.name = symbol ∧ (∀ k ∈ e.required, k ∈ c.kwargs) ∧
  ∀ i t, (i, t) ∈ e.reads → ∀ l, c.args = some l → ∃ a, l[i]? = some a ∧ ∀ u, a = some u → u = t

/-- The rows `e` returns are what the flag of the call announces. -/
def RowsAsAnnounced (e : Export) (c : Call) : Prop :=
  match c.flag with
  | .scalar => e.rows = .one ∨ (e.rows = .perColumn ∧ ∃ a b, c.args = some [a, b])
  | .changes => True
  | .none => e.rows = .input
  | .elementwise => e.rows = .input

end Spec

open Spec

theorem readOk_iff (args : Option (List (Option Ty))) (i : Nat) (t : Ty) :
    readOk args i t = true ↔ ∀ l, args = some l → ∃ a, l[i]? = some a ∧ ∀ u, a = some u → u = t := by
  cases args with
  | none => simp [readOk]
  | some l =>
    cases h : l[i]? with
    | none => simp [readOk, h]
    | some a => cases a <;> simp [readOk, h]

/-- For any library without duplicate names: a call runs iff some function serves it. -/
theorem call_runs_iff (ex : List Export) (hn : (ex.map Export.name).Nodup) (f64 : Bool) (c : Call) :
    call ex f64 c = .runs ↔ ∃ e ∈ ex, Serves e (c.resolved f64) c := by
  have huniq : ∀ e ∈ ex, ∀ e' ∈ ex, e.name = e'.name → e = e' := by
    intro e he e' he' h
    exact List.inj_on_of_nodup_map hn he he' h
  cases hf : ex.find? fun e => e.name == c.resolved f64 with
  | none =>
    rw [call, hf]
    simp only [Option.elim_none, reduceCtorEq, false_iff, not_exists, not_and]
    intro e he hs
    have := List.find?_eq_none.1 hf e he
    simp only [beq_iff_eq] at this
    exact this hs.1
  | some e =>
    have hmem := List.mem_of_find?_eq_some hf
    have hname : e.name = c.resolved f64 := by simpa using List.find?_some hf
    have key : call ex f64 c = .runs ↔ Serves e (c.resolved f64) c := by
      rw [call, hf]
      simp only [Option.elim_some]
      split
      · rename_i hk
        simp only [List.all_eq_true, List.contains_iff_mem] at hk
        cases hr : e.reads.find? fun r => !readOk c.args r.1 r.2 with
        | none =>
          simp only [Option.elim_none, true_iff]
          refine ⟨hname, hk, fun i t hit => ?_⟩
          have := List.find?_eq_none.1 hr (i, t) hit
          simp only [Bool.not_eq_eq_eq_not, Bool.not_true, Bool.not_eq_false] at this
          exact (readOk_iff _ _ _).1 this
        | some r =>
          simp only [Option.elim_some, reduceCtorEq, false_iff]
          intro hs
          have h1 := List.find?_some hr
          have h2 := (readOk_iff c.args r.1 r.2).2 (hs.2.2 r.1 r.2 (List.mem_of_find?_eq_some hr))
          simp [h2] at h1
      · rename_i hk
        simp only [reduceCtorEq, false_iff]
        intro hs
        apply hk
        simp only [List.all_eq_true, List.contains_iff_mem]
        exact hs.2.1
    rw [key]
    exact ⟨fun h => ⟨e, hmem, h⟩, fun ⟨e', he', h⟩ => huniq e' he' e hmem (h.1.trans hname.symm) ▸ h⟩

theorem exports_nodup : (exports.map Export.name).Nodup := by decide +kernel

/-- Every expression reaches a function of the library that it satisfies, in both settings of the linear regression
precision; two calls excepted. -/
theorem entry_points_partial (f64 : Bool) (c : Call) (hc : c ∈ calls) (h1 : c.symbol ≠ "pl_lcs_seq_sim")
    (h2 : c.symbol ≠ "pl_rand_binomial") : ∃ e ∈ exports, Serves e (c.resolved f64) c := by
  rw [← call_runs_iff exports exports_nodup f64 c]
  have hall : ∀ f64 : Bool, (calls.all fun c => c.symbol == "pl_lcs_seq_sim" || c.symbol == "pl_rand_binomial" ||
      decide (call exports f64 c = .runs)) = true := by decide +kernel
  have := List.all_eq_true.1 (hall f64) c hc
  simpa [h1, h2] using this

/-- `str_lcs_seq` with its default `return_sim=True` asks for a symbol the library does not have; the function meant
is there under another name, which no expression uses. -/
theorem str_lcs_seq_no_symbol (f64 : Bool) :
    (∃ c ∈ calls, c.func = "str_lcs_seq" ∧ call exports f64 c = .noSymbol) ∧
    (∃ e ∈ exports, e.name = "pl_lcs_sim") ∧ ∀ c ∈ calls, c.resolved f64 ≠ "pl_lcs_sim" := by
  have h : ∀ f64 : Bool, (calls.any fun c => c.func == "str_lcs_seq" && call exports f64 c == .noSymbol) = true ∧
      (exports.any fun e => e.name == "pl_lcs_sim") = true ∧
      (calls.all fun c => c.resolved f64 != "pl_lcs_sim") = true := by decide +kernel
  obtain ⟨h1, h2, h3⟩ := h f64
  refine ⟨?_, by simpa using h2, fun c hc => ?_⟩
  · obtain ⟨c, hc, h⟩ := List.any_eq_true.1 h1
    exact ⟨c, hc, by simpa using h⟩
  · simpa using List.all_eq_true.1 h3 c hc

/-- `random_binomial` passes its number of trials with a type the function does not accept. -/
theorem random_binomial_bad_arg (f64 : Bool) :
    ∃ c ∈ calls, c.func = "random_binomial" ∧ call exports f64 c = .badArg 1 := by
  have h : ∀ f64 : Bool, (calls.any fun c => c.func == "random_binomial" && call exports f64 c == .badArg 1) = true := by
    decide +kernel
  obtain ⟨c, hc, h⟩ := List.any_eq_true.1 (h f64)
  exact ⟨c, hc, by simpa using h⟩

/-- So exactly these two calls fail. -/
theorem entry_points_exact (f64 : Bool) (c : Call) (hc : c ∈ calls) :
    (∃ e ∈ exports, Serves e (c.resolved f64) c) ↔ c.symbol ≠ "pl_lcs_seq_sim" ∧ c.symbol ≠ "pl_rand_binomial" := by
  refine ⟨fun h => ?_, fun h => entry_points_partial f64 c hc h.1 h.2⟩
  rw [← call_runs_iff exports exports_nodup f64 c] at h
  have hall : ∀ f64 : Bool, (calls.all fun c => !decide (call exports f64 c = .runs) ||
      (c.symbol != "pl_lcs_seq_sim" && c.symbol != "pl_rand_binomial")) = true := by decide +kernel
  simpa [h] using List.all_eq_true.1 (hall f64) c hc

/-- The functions for single precision are twins: same keyword arguments, same rows, both present. -/
theorem single_precision_twins (c : Call) (hc : c ∈ calls) (hl : c.linReg = true) :
    ∃ e ∈ exports, ∃ e' ∈ exports, e.name = c.symbol ∧ e'.name = c.symbol ++ "_f32" ∧ e.required = e'.required ∧
      e.rows = e'.rows ∧ e.reads = e'.reads := by
  have hall : (calls.all fun c => !c.linReg || exports.any fun e => exports.any fun e' =>
      e.name == c.symbol && e'.name == c.symbol ++ "_f32" && e.required == e'.required && e.rows == e'.rows &&
        e.reads == e'.reads) = true := by decide +kernel
  have := List.all_eq_true.1 hall c hc
  simp only [hl, Bool.not_true, Bool.false_or, List.any_eq_true, Bool.and_eq_true, beq_iff_eq] at this
  obtain ⟨e, he, e', he', ⟨⟨⟨h1, h2⟩, h3⟩, h4⟩, h5⟩ := this
  exact ⟨e, he, e', he', h1, h2, h3, h4, h5⟩

instance (e : Export) (c : Call) : Decidable (RowsAsAnnounced e c) := by
  unfold RowsAsAnnounced
  split
  · have : Decidable (∃ a b, c.args = some [a, b]) :=
      decidable_of_iff ((c.args.map List.length) = some 2) (by
        cases c.args with
        | none => simp
        | some l => simp [List.length_eq_two])
    infer_instance
  all_goals infer_instance

/-- The number of rows is as announced to polars, for all calls but four. -/
theorem rows_announced_partial (c : Call) (hc : c ∈ calls) (h : c.symbol ∉ ["pl_mann_whitney_u", "pl_lstsq_w_rcond",
      "pl_tpr_fpr", "pl_lstsq_multi_pred"]) (e : Export) (he : e ∈ exports) (hn : e.name = c.symbol) :
    RowsAsAnnounced e c := by
  have hall : (calls.all fun c => decide (c.symbol ∈ ["pl_mann_whitney_u", "pl_lstsq_w_rcond",
      "pl_tpr_fpr", "pl_lstsq_multi_pred"]) || exports.all fun e => e.name != c.symbol ||
        decide (RowsAsAnnounced e c)) = true := by decide +kernel
  have := List.all_eq_true.1 hall c hc
  simp only [h, decide_false, Bool.false_or] at this
  simpa [hn] using List.all_eq_true.1 this e he

/-- The four: one row (or another number) without the flag that says so. -/
theorem rows_announced_wrong (c : Call) (hc : c ∈ calls) (h : c.symbol ∈ ["pl_mann_whitney_u", "pl_lstsq_w_rcond",
      "pl_tpr_fpr", "pl_lstsq_multi_pred"]) (e : Export) (he : e ∈ exports) (hn : e.name = c.symbol) :
    ¬ RowsAsAnnounced e c ∧ e.rows ≠ .input ∧ c.flag = .none := by
  have hall : (calls.all fun c => !decide (c.symbol ∈ ["pl_mann_whitney_u", "pl_lstsq_w_rcond",
      "pl_tpr_fpr", "pl_lstsq_multi_pred"]) || exports.all fun e => e.name != c.symbol ||
        decide (¬ RowsAsAnnounced e c ∧ e.rows ≠ .input ∧ c.flag = .none)) = true := by decide +kernel
  have := List.all_eq_true.1 hall c hc
  simp only [h, decide_true, Bool.not_true, Bool.false_or] at this
  have := List.all_eq_true.1 this e he
  rw [Bool.or_eq_true] at this
  rcases this with h | h
  · simp [hn] at h
  · exact of_decide_eq_true h

/-- The tables have entries of every kind the theorems speak of. -/
example : calls.length = 116 ∧ exports.length = 118 ∧ (calls.any fun c => c.linReg) = true ∧
    (calls.any fun c => c.symbol == "pl_mann_whitney_u") = true ∧
    call exports true ⟨"f", "pl_knn_avg", false, none, ["k", "metric"], .none⟩ = .badKwargs ∧
    call exports true ⟨"f", "pl_jaro", false, some [none, none], [], .none⟩ = .badArg 2 ∧
    call exports false ⟨"f", "pl_lstsq", true, none, ["bias", "null_policy", "solver", "l1_reg", "l2_reg", "tol"],
      .none⟩ = .runs := by
  decide +kernel

end Verif.EntryPoints
