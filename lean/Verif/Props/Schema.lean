import Verif.Model.Schema

/-!
# C123: the data types announced to polars are the data types returned
-/

namespace Verif.Schema

namespace Spec

/-- What a caller of a lazy frame relies on: whenever a result comes back, its type (with the names of the fields) is
the type in the schema computed beforehand from the input types. -/
def Honest (declared : List (String × Ty) → Option Out) (returned : Ctx → Option Out) : Prop :=
  ∀ (c : Ctx) (o : Out), returned c = some o → declared c.fields = some o

end Spec

open Spec

/-- Pairs that agree whatever the inputs are. -/
def agrees : Decl → Ret → Bool
  | .fixed a, .fixed b => a = b
  | .first, .sameNumber => true
  | .float, .floatOnly => true
  | .float, .f64Only => true
  | .listOfFirst, .lists => true
  | .chi2Full, .chi2Full => true
  | _, _ => false

theorem honest_of_agrees (d : Decl) (r : Ret) (h : agrees d r = true) : Honest (declared d) (returned r) := by
  rintro ⟨fields, k, t, p, se⟩ o hr
  cases d <;> cases r <;> simp only [agrees, Bool.false_eq_true, decide_eq_true_eq] at h
  · simp_all [declared, returned]
  all_goals
    rcases fields with _ | ⟨⟨n, ty⟩, fs⟩
    · simp [returned] at hr
    · simp only [returned, declared, List.head?_cons, Option.bind_some, Option.map_some] at hr ⊢
      try (cases ty <;> simp_all [isInt])

/-- The functions whose announced and returned types can differ. -/
def dishonest : List String :=
  ["pl_logit", "pl_expit", "pl_gamma", "pl_exp2", "pl_fract", "pl_next_up", "pl_next_down",
    "pl_principal_components", "pl_psi_discrete_report", "pl_combo_b", "pl_tpr_fpr", "pl_fuzz", "pl_rand_str",
    "pl_lstsq_multi", "pl_lstsq_multi_pred", "pl_lin_reg_report", "pl_recursive_lstsq", "pl_rolling_lstsq",
    "pl_lstsq_multi_f32", "pl_lstsq_multi_pred_f32", "pl_lin_reg_report_f32", "pl_recursive_lstsq_f32",
    "pl_rolling_lstsq_f32"]

theorem entries_agree : ∀ e ∈ entries, e.name ∈ dishonest ∨ agrees e.decl e.ret = true := by decide +kernel

/-- C123, the part that holds: for every function of the library outside the list above, whatever the inputs, the type
announced is the type returned. -/
theorem schema_partial (e : Entry) (he : e ∈ entries) (hd : e.name ∉ dishonest) :
    Honest (declared e.decl) (returned e.ret) :=
  honest_of_agrees _ _ ((entries_agree e he).resolve_left hd)

example : ⟨"pl_combinations", .listOfFirst, .lists⟩ ∈ entries ∧ "pl_combinations" ∉ dishonest ∧
    returned .lists ⟨[("x", .i32), ("k", .i64)], 0, 0, false, ""⟩ = some (.plain (.list .i32)) := by decide +kernel

/-- Two inputs `x` (integers) and `y`, one component, one target, no positive, `hc0` standard errors. -/
def badCtx : Ctx := ⟨[("x", .i64), ("y", .f64)], 1, 1, false, "hc0"⟩

theorem dishonest_differ : ∀ e ∈ entries, e.name ∈ dishonest →
    (returned e.ret badCtx).isSome = true ∧ declared e.decl badCtx.fields ≠ returned e.ret badCtx := by decide +kernel

/-- The list is exact: for each function in it the announced type is wrong on some inputs. -/
theorem schema_exact (e : Entry) (he : e ∈ entries) :
    Honest (declared e.decl) (returned e.ret) ↔ e.name ∉ dishonest := by
  refine ⟨fun h hd => ?_, schema_partial e he⟩
  obtain ⟨h1, h2⟩ := dishonest_differ e he hd
  obtain ⟨o, ho⟩ := Option.isSome_iff_exists.mp h1
  exact h2 ((h badCtx o ho).trans ho.symm)

example : ∃ e ∈ entries, e.name ∈ dishonest ∧ e.name = "pl_fuzz" := by decide +kernel

/-- `logit`, `expit`, `gamma`, `exp2`, `fract`, `next_up`, `next_down`: they accept columns of 8 to 64 bit integers and of
floats; the schema says 64 bit floats for integer columns and the result has 32 bit floats; for float columns the schema
is right. -/
theorem float_functions (c : Ctx) (n : String) (t : Ty) (h : c.fields.head? = some (n, t)) :
    (t ∈ [.u8, .u16, .u32, .u64, .i8, .i16, .i32, .i64] →
      returned .floatInt32 c = some (.plain .f32) ∧ declared .float c.fields = some (.plain .f64)) ∧
    (t ∈ [.f32, .f64] → returned .floatInt32 c = some (.plain t) ∧ declared .float c.fields = some (.plain t)) ∧
    (t ∉ [.u8, .u16, .u32, .u64, .i8, .i16, .i32, .i64, .f32, .f64] → returned .floatInt32 c = none) := by
  rcases c with ⟨_ | ⟨⟨n', ty⟩, fs⟩, k, _, p, se⟩
  · cases h
  · simp only [List.head?_cons, Option.some.injEq, Prod.mk.injEq] at h
    obtain ⟨rfl, rfl⟩ := h
    cases ty <;> simp [returned, declared, isInt]

theorem float_functions_names : ∀ n ∈ ["pl_logit", "pl_expit", "pl_gamma", "pl_exp2", "pl_fract", "pl_next_up",
    "pl_next_down"], ⟨n, .float, .floatInt32⟩ ∈ entries := by decide +kernel

example : returned .floatInt32 ⟨[("x", .i64)], 0, 0, false, ""⟩ = some (.plain .f32) ∧
    declared .float [("x", .i64)] = some (.plain .f64) := by decide +kernel

/-- The regression report: the schema is right unless robust standard errors are asked for. -/
theorem report_schema (p : Ty) (c : Ctx) :
    declared (.fixed (.struct (reportFields p "std_err"))) c.fields = returned (.report p) c ↔
      c.stdErr ∉ ["hc0", "hc1", "hc2", "hc3"] := by
  simp only [declared, returned, reportFields, seName]
  by_cases h0 : c.stdErr = "hc0"
  · simp [h0]
  by_cases h1 : c.stdErr = "hc1"
  · simp [h1]
  by_cases h2 : c.stdErr = "hc2"
  · simp [h2]
  by_cases h3 : c.stdErr = "hc3"
  · simp [h3]
  simp [h0, h1, h2, h3]

example : "se" ∉ ["hc0", "hc1", "hc2", "hc3"] ∧
    ⟨"pl_lin_reg_report", .fixed (.struct (reportFields .f64 "std_err")), .report .f64⟩ ∈ entries := by decide +kernel

/-- The ROC table: the schema is right unless the actual column has no positive. -/
theorem tpr_fpr_schema (c : Ctx) :
    declared (.fixed (.struct [("threshold", .f64), ("tpr", .f64), ("fpr", .f64)])) c.fields = returned .tprFpr c ↔
      c.positives = true := by
  cases h : c.positives <;> simp [declared, returned, h]

example : ⟨"pl_tpr_fpr", .fixed (.struct [("threshold", .f64), ("tpr", .f64), ("fpr", .f64)]), .tprFpr⟩ ∈ entries := by
  decide +kernel

/-- Principal components: the inputs are the number asked for and the features (`_pl_pca.py`), and at most as many
components as features can be asked for, so the schema always has too many fields. -/
theorem components_schema (c : Ctx) (hk : c.k < c.fields.length) :
    declared .components c.fields ≠ returned .components c := by
  intro h
  have := congrArg (fun o => match o with | some (Out.struct fs) => fs.length | _ => 0) h
  simp [declared, returned, pcFields] at this
  omega

example : (⟨[("k", .u32), ("x", .f64), ("y", .f64)], 2, 0, false, ""⟩ : Ctx).k <
    (⟨[("k", .u32), ("x", .f64), ("y", .f64)], 2, 0, false, ""⟩ : Ctx).fields.length := by decide

/-- Several targets: the predictions never have the announced names. -/
theorem multi_pred_schema (p : Ty) (c : Ctx) :
    declared (.fixed (.struct [("pred", p), ("resid", p)])) c.fields ≠ returned (.predsPerTarget p) c := by
  simp only [declared, returned, ne_eq, Option.some.injEq, Out.struct.injEq]
  intro h
  cases hl : c.fields.take c.targets with
  | nil => simp [hl] at h
  | cons f fs =>
    simp only [hl, List.flatMap_cons, List.cons_append, List.cons.injEq, Prod.mk.injEq] at h
    have := congrArg String.length h.1.1
    simp [String.length_append] at this
    have h4 : "pred".length = 4 := by decide
    have h5 : "_pred".length = 5 := by decide
    omega

example : returned (.predsPerTarget .f64) ⟨[("y1", .f64), ("y2", .f64), ("x", .f64)], 0, 2, false, ""⟩ =
    some (.struct [("y1_pred", .f64), ("y1_resid", .f64), ("y2_pred", .f64), ("y2_resid", .f64)]) := by decide +kernel

end Verif.Schema
