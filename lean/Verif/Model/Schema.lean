/-!
# Declared and returned data types of the expressions

`#[polars_expr(output_type=...)]` and `#[polars_expr(output_type_func=...)]` tell polars the data type of the result
before anything is computed: the schema of a lazy frame.  The body decides what comes back.  The table below has both
for every function marked `#[polars_expr]` (the marks are at the lines given in `Verif/Model/EntryPoints.lean`).

Simplifications: only what the data type of the result depends on is modelled: the names and types of the inputs, the
number of components or targets asked for, the kind of standard error, whether the actual column has a positive; error
returns for other reasons are not modelled. `FieldsMapper::map_to_float_dtype` is polars code: 32 bit floats stay, all
other types become 64 bit floats. The ratios of the confusion matrix are 64 bit floats (see C07 for the other reading
of `/`).
-/

namespace Verif.Schema

/-- Data types of columns. -/
inductive Ty
  | u8 | u16 | u32 | u64 | i8 | i16 | i32 | i64 | i128 | f32 | f64 | bool | str
  /-- any other type, by its name -/
  | named (s : String)
  | list (t : Ty)
  | array (t : Ty) (n : Nat)
  deriving DecidableEq, Repr

/-- The data type of a result: a plain one, or a structure of named fields. -/
inductive Out
  | plain (t : Ty)
  | struct (fs : List (String × Ty))
  deriving DecidableEq, Repr

/-- What the data type of a result can depend on. -/
structure Ctx where
  /-- names and types of the inputs -/
  fields : List (String × Ty)
  /-- number of components asked for (`principal_components`) -/
  k : Nat
  /-- number of targets (`last_target_idx`) -/
  targets : Nat
  /-- the actual column has a positive (`pl_tpr_fpr`) -/
  positives : Bool
  /-- the argument `std_err` of the report -/
  stdErr : String

/-- The integer types matched in src/num_ext/float_extras.rs (e.g. 72-79). -/
def isInt : Ty → Bool
  | .u8 => true | .u16 => true | .u32 => true | .u64 => true
  | .i8 => true | .i16 => true | .i32 => true | .i64 => true
  | _ => false

/-- The name of the standard error column, `StandardError` (src/num_ext/linear_regression.rs:108-132). -/
def seName (s : String) : String :=
  if s = "hc0" then "hc0_se" else if s = "hc1" then "hc1_se" else if s = "hc2" then "hc2_se"
  else if s = "hc3" then "hc3_se" else "std_err"

/-- The fields of a report with a given name for the standard errors (src/num_ext/linear_regression.rs:55-67). -/
def reportFields (p : Ty) (se : String) : List (String × Ty) :=
  [("features", .str), ("beta", p), (se, p), ("t", p), ("p>|t|", p), ("0.025", p), ("0.975", p), ("r2", p),
    ("adj_r2", p)]

/-- The names `pc1`, `pc2`, ... (src/num_ext/pca.rs:30-38). -/
def pcFields (n : Nat) : List (String × Ty) := (List.range n).map fun i => ("pc" ++ toString (i + 1), .f64)

/-- Declared types: a fixed one, or one of the functions of the input fields. -/
inductive Decl
  | fixed (o : Out)
  /-- `first_field_output` (src/utils/mod.rs:165-167) -/
  | first
  /-- `float_output` (src/utils/mod.rs:204-206) -/
  | float
  /-- `itertools_output` (src/num_ext/iterations.rs:11-16) -/
  | listOfFirst
  /-- `chi2_full_output` (src/stats/chi2.rs:6-15) -/
  | chi2Full
  /-- `principal_components_output` (src/num_ext/pca.rs:30-38) -/
  | components
  deriving DecidableEq

/-- `simple_stats_output` (src/stats/mod.rs:13-18) -/
def statsFields : List (String × Ty) := [("statistic", .f64), ("pvalue", .f64)]

def declared : Decl → List (String × Ty) → Option Out
  | .fixed o, _ => some o
  | .first, fs => fs.head?.map fun f => .plain f.2
  | .float, fs => fs.head?.map fun f => .plain (if f.2 = .f32 then .f32 else .f64)
  | .listOfFirst, fs => fs.head?.map fun f => .plain (.list f.2)
  | .chi2Full, fs => (fs[0]?).bind fun a => (fs[1]?).map fun b =>
      .struct [("statistic", .f64), ("pvalue", .f64), ("dof", .u32), a, b, ("E[freq]", .f64)]
  | .components, fs => some (.struct (pcFields fs.length))

/-- Returned types; `none` in `returned` is an error. -/
inductive Ret
  | fixed (o : Out)
  /-- `pl_trunc` (src/num_ext/float_extras.rs:172-196): numbers stay what they are -/
  | sameNumber
  /-- `pl_logit` and the like (src/num_ext/float_extras.rs:67-170, 198-271): integers become 32 bit floats -/
  | floatInt32
  /-- `pl_haversine`, `pl_perturb`, `pl_jitter` (src/num_ext/haversine.rs:55-77, src/stats/sample.rs:93-160): floats
  only -/
  | floatOnly
  /-- `pl_xlogy` (src/num_ext/float_extras.rs:273-281): 64 bit floats only -/
  | f64Only
  /-- `pl_combinations`, `pl_product` (src/num_ext/iterations.rs:88-145) -/
  | lists
  /-- `pl_chi2_full` (src/stats/chi2.rs:93-136) -/
  | chi2Full
  /-- `pl_principal_components` (src/num_ext/pca.rs:81-132) -/
  | components
  /-- `pl_lstsq_multi` (src/num_ext/linear_regression.rs:349-395): one list per target -/
  | coeffsPerTarget (p : Ty)
  /-- `pl_lstsq_multi_pred` (src/num_ext/linear_regression.rs:398-438): two columns per target -/
  | predsPerTarget (p : Ty)
  /-- `pl_lin_reg_report` (src/num_ext/linear_regression.rs:576-732): the standard errors under their own name -/
  | report (p : Ty)
  /-- `pl_tpr_fpr` (src/num_ext/tp_fp.rs:156-182): without a positive two columns only -/
  | tprFpr
  deriving DecidableEq

def returned : Ret → Ctx → Option Out
  | .fixed o, _ => some o
  | .sameNumber, c => c.fields.head?.bind fun f =>
      if isInt f.2 || f.2 = .f32 || f.2 = .f64 then some (.plain f.2) else none
  | .floatInt32, c => c.fields.head?.bind fun f =>
      if isInt f.2 then some (.plain .f32) else if f.2 = .f32 || f.2 = .f64 then some (.plain f.2) else none
  | .floatOnly, c => c.fields.head?.bind fun f => if f.2 = .f32 || f.2 = .f64 then some (.plain f.2) else none
  | .f64Only, c => c.fields.head?.bind fun f => if f.2 = .f64 then some (.plain .f64) else none
  | .lists, c => c.fields.head?.bind fun f =>
      if isInt f.2 || f.2 = .i128 || f.2 = .f32 || f.2 = .f64 || f.2 = .str then some (.plain (.list f.2)) else none
  | .chi2Full, c => (c.fields[0]?).bind fun a => (c.fields[1]?).map fun b =>
      .struct [("statistic", .f64), ("pvalue", .f64), ("dof", .u32), a, b, ("E[freq]", .f64)]
  | .components, c => some (.struct (pcFields c.k))
  | .coeffsPerTarget p, c => some (.struct ((c.fields.take c.targets).map fun f => (f.1, .list p)))
  | .predsPerTarget p, c => some (.struct ((c.fields.take c.targets).flatMap fun f =>
      [(f.1 ++ "_pred", p), (f.1 ++ "_resid", p)]))
  | .report p, c => some (.struct (reportFields p (seName c.stdErr)))
  | .tprFpr, c => some (.struct (if c.positives then [("threshold", .f64), ("tpr", .f64), ("fpr", .f64)]
      else [("tpr", .f64), ("fpr", .f64)]))

/-- A function, what it declares and what it returns. -/
structure Entry where
  name : String
  decl : Decl
  ret : Ret
  deriving DecidableEq

/-- The ratios and counts of `bcm_output` and of the final `select` (src/num_ext/tp_fp.rs:245-302, 362-388). -/
def confusionFields : List (String × Ty) :=
  [("tp", .u32), ("tn", .u32), ("fp", .u32), ("fn", .u32)] ++
  ["tpr", "tnr", "fpr", "fnr", "prevalence", "prevalence_threshold", "informedness", "precision",
    "false_omission_rate", "plr", "nlr", "acc", "balanced_accuracy", "f1", "folkes_mallows_index", "mcc",
    "threat_score", "markedness", "fdr", "npv", "dor"].map fun s => (s, .f64)

/-- An entry whose declared and returned types are the same fixed one, both read off the source. -/
def same (name : String) (o : Out) : Entry := ⟨name, .fixed o, .fixed o⟩

/-- All functions marked `#[polars_expr]`, with file and line of the mark. -/
def entries : List Entry := [
  -- src/num_ext/benford.rs:18
  same "pl_benford_law" (.plain (.list .u32)),
  -- src/num_ext/cond_entropy.rs:4
  same "pl_conditional_entropy" (.plain .f64),
  -- src/num_ext/convolve.rs:192
  same "pl_convolve" (.plain .f64),
  -- src/num_ext/entrophies.rs:17
  same "pl_approximate_entropy" (.plain .f64),
  -- src/num_ext/entrophies.rs:100
  same "pl_sample_entropy" (.plain .f64),
  -- src/num_ext/entrophies.rs:213
  same "pl_knn_entropy" (.plain .f64),
  -- src/num_ext/fft.rs:14
  same "pl_rfft" (.plain (.array .f64 2)),
  -- src/num_ext/float_extras.rs:67
  ⟨"pl_logit", .float, .floatInt32⟩,
  -- src/num_ext/float_extras.rs:94
  ⟨"pl_expit", .float, .floatInt32⟩,
  -- src/num_ext/float_extras.rs:120
  ⟨"pl_gamma", .float, .floatInt32⟩,
  -- src/num_ext/float_extras.rs:146
  ⟨"pl_exp2", .float, .floatInt32⟩,
  -- src/num_ext/float_extras.rs:172
  ⟨"pl_trunc", .first, .sameNumber⟩,
  -- src/num_ext/float_extras.rs:198
  ⟨"pl_fract", .float, .floatInt32⟩,
  -- src/num_ext/float_extras.rs:219
  ⟨"pl_next_up", .float, .floatInt32⟩,
  -- src/num_ext/float_extras.rs:246
  ⟨"pl_next_down", .float, .floatInt32⟩,
  -- src/num_ext/float_extras.rs:273
  ⟨"pl_xlogy", .float, .f64Only⟩,
  -- src/num_ext/float_extras.rs:283
  same "pl_diagamma" (.plain .f64),
  -- src/num_ext/gcd_lcm.rs:6
  same "pl_gcd" (.plain .i32),
  -- src/num_ext/gcd_lcm.rs:24
  same "pl_lcm" (.plain .i32),
  -- src/num_ext/haversine.rs:55
  ⟨"pl_haversine", .float, .floatOnly⟩,
  -- src/num_ext/isotonic_regression.rs:73
  same "pl_isotonic_regression" (.plain .f64),
  -- src/num_ext/iterations.rs:88
  ⟨"pl_combinations", .listOfFirst, .lists⟩,
  -- src/num_ext/iterations.rs:116
  ⟨"pl_product", .listOfFirst, .lists⟩,
  -- src/num_ext/jaccard.rs:57
  same "pl_list_jaccard" (.plain .f64),
  -- src/num_ext/jaccard.rs:90
  same "pl_jaccard" (.plain .f64),
  -- src/num_ext/knn.rs:88
  same "pl_knn_avg" (.plain .f64),
  -- src/num_ext/knn.rs:215
  same "pl_dist_from_kth_nb" (.plain .f64),
  -- src/num_ext/knn.rs:275
  same "pl_knn_ptwise" (.plain (.list .u32)),
  -- src/num_ext/knn.rs:442
  same "pl_knn_ptwise_w_dist" (.struct [("idx", .list .u32), ("dist", .list .f64)]),
  -- src/num_ext/knn.rs:555
  same "pl_query_radius_ptwise" (.plain (.list .u32)),
  -- src/num_ext/knn.rs:666
  same "pl_nb_cnt" (.plain .u32),
  -- src/num_ext/lempel_ziv.rs:5
  same "pl_lempel_ziv_complexity" (.plain .u32),
  -- src/num_ext/linear_regression.rs:289
  same "pl_lstsq" (.plain (.list .f64)),
  -- src/num_ext/linear_regression.rs:349
  ⟨"pl_lstsq_multi", .fixed (.plain (.list .f64)), .coeffsPerTarget .f64⟩,
  -- src/num_ext/linear_regression.rs:398
  ⟨"pl_lstsq_multi_pred", .fixed (.struct [("pred", .f64), ("resid", .f64)]), .predsPerTarget .f64⟩,
  -- src/num_ext/linear_regression.rs:440
  same "pl_lstsq_w_rcond" (.struct [("coeffs", .list .f64), ("singular_values", .list .f64)]),
  -- src/num_ext/linear_regression.rs:495
  same "pl_lstsq_pred" (.struct [("pred", .f64), ("resid", .f64)]),
  -- src/num_ext/linear_regression.rs:576
  ⟨"pl_lin_reg_report", .fixed (.struct (reportFields .f64 "std_err")), .report .f64⟩,
  -- src/num_ext/linear_regression.rs:734
  same "pl_wls_report" (.struct (reportFields .f64 "std_err")),
  -- src/num_ext/linear_regression.rs:867
  ⟨"pl_recursive_lstsq",
    .fixed (.struct [("coeffs", .list .f64), ("prediction", .f64)]),
    .fixed (.struct [("coeffs", .list .f64), ("pred", .f64)])⟩,
  -- src/num_ext/linear_regression.rs:957
  ⟨"pl_rolling_lstsq",
    .fixed (.struct [("coeffs", .list .f64), ("prediction", .f64)]),
    .fixed (.struct [("coeffs", .list .f64), ("pred", .f64)])⟩,
  -- src/num_ext/linear_regression_f32.rs:231
  same "pl_lstsq_f32" (.plain (.list .f32)),
  -- src/num_ext/linear_regression_f32.rs:291
  ⟨"pl_lstsq_multi_f32", .fixed (.plain (.list .f32)), .coeffsPerTarget .f32⟩,
  -- src/num_ext/linear_regression_f32.rs:344
  ⟨"pl_lstsq_multi_pred_f32", .fixed (.struct [("pred", .f32), ("resid", .f32)]), .predsPerTarget .f32⟩,
  -- src/num_ext/linear_regression_f32.rs:390
  same "pl_lstsq_w_rcond_f32" (.struct [("coeffs", .list .f32), ("singular_values", .list .f32)]),
  -- src/num_ext/linear_regression_f32.rs:444
  same "pl_lstsq_pred_f32" (.struct [("pred", .f32), ("resid", .f32)]),
  -- src/num_ext/linear_regression_f32.rs:525
  ⟨"pl_lin_reg_report_f32", .fixed (.struct (reportFields .f32 "std_err")), .report .f32⟩,
  -- src/num_ext/linear_regression_f32.rs:682
  same "pl_wls_report_f32" (.struct (reportFields .f32 "std_err")),
  -- src/num_ext/linear_regression_f32.rs:815
  ⟨"pl_recursive_lstsq_f32",
    .fixed (.struct [("coeffs", .list .f32), ("prediction", .f32)]),
    .fixed (.struct [("coeffs", .list .f32), ("pred", .f32)])⟩,
  -- src/num_ext/linear_regression_f32.rs:905
  ⟨"pl_rolling_lstsq_f32",
    .fixed (.struct [("coeffs", .list .f32), ("prediction", .f32)]),
    .fixed (.struct [("coeffs", .list .f32), ("pred", .f32)])⟩,
  -- src/num_ext/pca.rs:40
  same "pl_singular_values" (.plain (.list .f64)),
  -- src/num_ext/pca.rs:81
  ⟨"pl_principal_components", .components, .components⟩,
  -- src/num_ext/pca.rs:134
  same "pl_pca" (.struct [("singular_value", .f64), ("weight_vector", .list .f64)]),
  -- src/num_ext/psi.rs:75
  same "pl_psi_w_bps" (.struct [("<=", .f64), ("baseline_pct", .f64), ("actual_pct", .f64), ("psi_bin", .f64)]),
  -- src/num_ext/psi.rs:97
  same "pl_psi_report" (.struct [("<=", .f64), ("baseline_pct", .f64), ("actual_pct", .f64), ("psi_bin", .f64)]),
  -- src/num_ext/psi.rs:120
  ⟨"pl_psi_discrete_report",
    .fixed (.struct [("<=", .f64), ("baseline_pct", .f64), ("actual_pct", .f64), ("psi_bin", .f64)]),
    .fixed (.struct [("baseline_category", .str), ("actual_category", .str),
      ("baseline_pct", .f64), ("actual_pct", .f64), ("psi_bin", .f64)])⟩,
  -- src/num_ext/subseq_sim.rs:22
  same "pl_subseq_sim_cnt_l2" (.plain .u32),
  -- src/num_ext/subseq_sim.rs:68
  same "pl_subseq_sim_cnt_zl2" (.plain .u32),
  -- src/num_ext/target_encode.rs:51
  same "pl_target_encode" (.struct [("value", .str), ("to", .f64)]),
  -- src/num_ext/tp_fp.rs:90
  ⟨"pl_combo_b",
    .fixed (.struct [("precision", .f64), ("recall", .f64), ("f", .f64), ("avg_precision", .f64), ("roc_auc", .f64)]),
    .fixed (.struct [("precision", .f64), ("recall", .f64), ("f", .f64),
      ("average_precision", .f64), ("roc_auc", .f64)])⟩,
  -- src/num_ext/tp_fp.rs:156
  ⟨"pl_tpr_fpr", .fixed (.struct [("threshold", .f64), ("tpr", .f64), ("fpr", .f64)]), .tprFpr⟩,
  -- src/num_ext/tp_fp.rs:195
  same "pl_mcc" (.plain .f64),
  -- src/num_ext/tp_fp.rs:215
  same "pl_roc_auc" (.plain .f64),
  -- src/num_ext/tp_fp.rs:305
  same "pl_binary_confusion_matrix" (.struct confusionFields),
  -- src/num_ext/trapz.rs:26
  same "pl_trapz" (.plain .f64),
  -- src/num_ext/woe_iv.rs:53
  same "pl_woe_discrete" (.struct [("value", .str), ("woe", .f64)]),
  -- src/num_ext/woe_iv.rs:64
  same "pl_iv" (.struct [("value", .str), ("iv", .f64)]),
  -- src/stats/chi2.rs:71
  same "pl_chi2" (.struct statsFields),
  -- src/stats/chi2.rs:93
  ⟨"pl_chi2_full", .chi2Full, .chi2Full⟩,
  -- src/stats/fstats.rs:13
  same "pl_f_test" (.struct statsFields),
  -- src/stats/kendall_tau.rs:7
  same "pl_kendall_tau" (.plain .f64),
  -- src/stats/ks.rs:59
  same "pl_ks_2samp" (.struct statsFields),
  -- src/stats/mann_whitney_u.rs:24
  same "pl_mann_whitney_u" (.struct statsFields),
  -- src/stats/normal_test.rs:54
  same "pl_normal_test" (.struct statsFields),
  -- src/stats/sample.rs:18
  same "pl_rand_int" (.plain .i32),
  -- src/stats/sample.rs:39
  same "pl_rand_binomial" (.plain .u64),
  -- src/stats/sample.rs:55
  same "pl_rand_exp" (.plain .f64),
  -- src/stats/sample.rs:76
  same "pl_random" (.plain .f64),
  -- src/stats/sample.rs:93
  ⟨"pl_perturb", .float, .floatOnly⟩,
  -- src/stats/sample.rs:126
  ⟨"pl_jitter", .float, .floatOnly⟩,
  -- src/stats/sample.rs:162
  same "pl_rand_normal" (.plain .f64),
  -- src/stats/sample.rs:187
  ⟨"pl_rand_str", .fixed (.plain .f64), .fixed (.plain .str)⟩,
  -- src/stats/t_test.rs:92
  same "pl_ttest_2samp" (.struct statsFields),
  -- src/stats/t_test.rs:119
  same "pl_welch_t" (.struct statsFields),
  -- src/stats/t_test.rs:146
  same "pl_ttest_1samp" (.struct statsFields),
  -- src/stats/xi_corr.rs:26
  same "pl_xi_corr" (.plain .f64),
  -- src/stats/xi_corr.rs:31
  same "pl_xi_corr_w_p" (.struct statsFields),
  -- src/str_ext/fuzz.rs:15
  ⟨"pl_fuzz", .fixed (.plain .u32), .fixed (.plain .f64)⟩,
  -- src/str_ext/hamming.rs:24
  same "pl_hamming" (.plain .u32),
  -- src/str_ext/hamming.rs:113
  same "pl_hamming_padded" (.plain .u32),
  -- src/str_ext/hamming.rs:169
  same "pl_hamming_filter" (.plain .bool),
  -- src/str_ext/inflections.rs:4
  same "pl_to_camel" (.plain .str),
  -- src/str_ext/inflections.rs:11
  same "pl_to_snake" (.plain .str),
  -- src/str_ext/inflections.rs:18
  same "pl_to_pascal" (.plain .str),
  -- src/str_ext/inflections.rs:25
  same "pl_to_constant" (.plain .str),
  -- src/str_ext/is_stopword.rs:7
  same "pl_is_stopword" (.plain .bool),
  -- src/str_ext/jaro.rs:28
  same "pl_jaro" (.plain .f64),
  -- src/str_ext/jaro.rs:48
  same "pl_jw" (.plain .f64),
  -- src/str_ext/lcs_seq.rs:18
  same "pl_lcs_seq" (.plain .u32),
  -- src/str_ext/lcs_seq.rs:38
  same "pl_lcs_sim" (.plain .f64),
  -- src/str_ext/levenshtein.rs:45
  same "pl_levenshtein" (.plain .u32),
  -- src/str_ext/levenshtein.rs:65
  same "pl_levenshtein_filter" (.plain .bool),
  -- src/str_ext/levenshtein.rs:130
  same "pl_levenshtein_sim" (.plain .f64),
  -- src/str_ext/levenshtein.rs:150
  same "pl_d_levenshtein" (.plain .u32),
  -- src/str_ext/levenshtein.rs:175
  same "pl_d_levenshtein_sim" (.plain .f64),
  -- src/str_ext/nearest_str.rs:59
  same "pl_nearest_str" (.plain .str),
  -- src/str_ext/osa.rs:18
  same "pl_osa" (.plain .u32),
  -- src/str_ext/osa.rs:38
  same "pl_osa_sim" (.plain .f64),
  -- src/str_ext/overlap.rs:21
  same "pl_overlap_coeff" (.plain .f64),
  -- src/str_ext/snowball_stem.rs:17
  same "pl_snowball_stem" (.plain .str),
  -- src/str_ext/sorensen_dice.rs:21
  same "pl_sorensen_dice" (.plain .f64),
  -- src/str_ext/str_cleaning.rs:26
  same "remove_non_ascii" (.plain .str),
  -- src/str_ext/str_cleaning.rs:34
  same "remove_diacritics" (.plain .str),
  -- src/str_ext/str_cleaning.rs:47
  same "normalize_string" (.plain .str),
  -- src/str_ext/str_cleaning.rs:65
  same "map_words" (.plain .str),
  -- src/str_ext/str_cleaning.rs:80
  same "normalize_whitespace" (.plain .str),
  -- src/str_ext/str_jaccard.rs:22
  same "pl_str_jaccard" (.plain .f64),
  -- src/str_ext/tversky.rs:24
  same "pl_tversky_sim" (.plain .f64)]

end Verif.Schema
