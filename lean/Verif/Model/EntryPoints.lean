/-!
# Entry points: what the Python expressions ask for and what the compiled library offers

Every expression is a call of `pl_plugin(symbol=..., args=[...], kwargs={...})`
(python/polars_ds/_utils.py:17-39); the library is searched for the symbol, `kwargs` is decoded into the
structure the function declares and each argument is read with an accessor for one data type.  The two tables
below are the calls of the Python sources and the functions marked `#[polars_expr]` of the Rust sources (commented
out code is not listed).

Simplifications: only the names of the keyword arguments are kept, not their values; an argument whose data type
is not fixed by the Python code is `none`, a list of arguments built at run time is `none` as a whole.
`pl_haversine` chooses its accessors by the type of its first argument and has none listed.
-/

namespace Verif.EntryPoints

/-- The data types of the accessors `inputs[i].f64()` etc. and of `pl.lit(_, dtype)` / `.cast(dtype)`. -/
inductive Ty | f64 | f32 | u32 | u64 | i32 | bool | str
  deriving DecidableEq, Repr

/-- How many rows a function returns: one; as many as its data columns have; one per data column; another number. -/
inductive Rows | one | input | perColumn | other
  deriving DecidableEq, Repr

/-- The flag of a call on the number of rows (python/polars_ds/_utils.py:17-39): `none` and `is_elementwise` announce
as many rows as the inputs have, `returns_scalar` one row, `changes_length` any number. -/
inductive Flag | none | elementwise | scalar | changes
  deriving DecidableEq, Repr

/-- A function marked `#[polars_expr]`: its name, the fields of its keyword structure without `#[serde(default)]`,
the accessors it uses (position, type), the rows it returns. -/
structure Export where
  name : String
  required : List String
  reads : List (Nat × Ty)
  rows : Rows

/-- A call of `pl_plugin`: the Python function, the symbol, whether the symbol passes through
`_lin_reg_expr_symbol`, the data types of the arguments, the names of the keyword arguments, the flag on the rows. -/
structure Call where
  func : String
  symbol : String
  linReg : Bool
  args : Option (List (Option Ty))
  kwargs : List String
  flag : Flag

/-- python/polars_ds/config.py:22-26 -/
def linRegExprSymbol (f64 : Bool) (x : String) : String := if f64 then x else x ++ "_f32"

/-- The symbol a call asks for, by the setting `LIN_REG_EXPR_F64` (python/polars_ds/config.py:7). -/
def Call.resolved (f64 : Bool) (c : Call) : String := if c.linReg then linRegExprSymbol f64 c.symbol else c.symbol

/-- How a call can end before any data is looked at. -/
inductive Fate
  /-- the library has no such symbol -/
  | noSymbol
  /-- decoding the keyword arguments fails -/
  | badKwargs
  /-- an accessor meets another data type, or the argument is missing -/
  | badArg (i : Nat)
  | runs
  deriving DecidableEq, Repr

/-- An accessor of type `t` at position `i`: fails on an argument of another type and past the end. -/
def readOk (args : Option (List (Option Ty))) (i : Nat) (t : Ty) : Bool :=
  args.all fun l => (l[i]?).any fun a => a.all (· == t)

/-- One call: symbol lookup, decoding of the keyword arguments (all required fields must be there, others are
ignored or defaulted), accessors in order (pyo3-polars derive macro; the serde derive of the keyword structures,
e.g. src/num_ext/knn.rs:30-60). -/
def call (exports : List Export) (f64 : Bool) (c : Call) : Fate :=
  (exports.find? fun e => e.name == c.resolved f64).elim .noSymbol fun e =>
    if e.required.all fun k => c.kwargs.contains k then
      (e.reads.find? fun r => !readOk c.args r.1 r.2).elim .runs fun r => .badArg r.1
    else .badKwargs

/-- The functions marked `#[polars_expr]`, with file and line of the mark. -/
def exports : List Export := [
  ⟨"pl_benford_law", [], [], .one⟩,  -- src/num_ext/benford.rs:18
  ⟨"pl_conditional_entropy", [], [], .one⟩,  -- src/num_ext/cond_entropy.rs:4
  ⟨"pl_convolve", ["mode", "method", "parallel"], [(0, .f64), (1, .f64)], .other⟩,  -- src/num_ext/convolve.rs:192
  ⟨"pl_approximate_entropy", ["k", "metric"], [(0, .f64)], .one⟩,  -- src/num_ext/entrophies.rs:17
  ⟨"pl_sample_entropy", ["k", "metric"], [(0, .f64)], .one⟩,  -- src/num_ext/entrophies.rs:100
  ⟨"pl_knn_entropy", ["k", "metric"], [], .one⟩,  -- src/num_ext/entrophies.rs:213
  ⟨"pl_rfft", [], [(0, .f64), (1, .u32), (2, .bool)], .other⟩,  -- src/num_ext/fft.rs:14
  ⟨"pl_logit", [], [], .input⟩,  -- src/num_ext/float_extras.rs:67
  ⟨"pl_expit", [], [], .input⟩,  -- src/num_ext/float_extras.rs:94
  ⟨"pl_gamma", [], [], .input⟩,  -- src/num_ext/float_extras.rs:120
  ⟨"pl_exp2", [], [], .input⟩,  -- src/num_ext/float_extras.rs:146
  ⟨"pl_trunc", [], [], .input⟩,  -- src/num_ext/float_extras.rs:172
  ⟨"pl_fract", [], [], .input⟩,  -- src/num_ext/float_extras.rs:198
  ⟨"pl_next_up", [], [], .input⟩,  -- src/num_ext/float_extras.rs:219
  ⟨"pl_next_down", [], [], .input⟩,  -- src/num_ext/float_extras.rs:246
  ⟨"pl_xlogy", [], [(0, .f64), (1, .f64)], .input⟩,  -- src/num_ext/float_extras.rs:273
  ⟨"pl_diagamma", [], [], .input⟩,  -- src/num_ext/float_extras.rs:283
  ⟨"pl_gcd", [], [(0, .i32), (1, .i32)], .input⟩,  -- src/num_ext/gcd_lcm.rs:6
  ⟨"pl_lcm", [], [(0, .i32), (1, .i32)], .input⟩,  -- src/num_ext/gcd_lcm.rs:24
  ⟨"pl_haversine", [], [], .input⟩,  -- src/num_ext/haversine.rs:55
  ⟨"pl_isotonic_regression", ["has_weights", "increasing"], [(0, .f64), (1, .f64)], .input⟩,  -- src/num_ext/isotonic_regression.rs:73
  ⟨"pl_combinations", ["k"], [], .other⟩,  -- src/num_ext/iterations.rs:88
  ⟨"pl_product", [], [], .other⟩,  -- src/num_ext/iterations.rs:116
  ⟨"pl_list_jaccard", [], [], .input⟩,  -- src/num_ext/jaccard.rs:57
  ⟨"pl_jaccard", [], [(2, .bool)], .one⟩,  -- src/num_ext/jaccard.rs:90
  ⟨"pl_knn_avg", ["k", "metric", "min_bound"], [(0, .f64), (1, .bool)], .input⟩,  -- src/num_ext/knn.rs:88
  ⟨"pl_dist_from_kth_nb", ["k", "metric"], [], .input⟩,  -- src/num_ext/knn.rs:215
  ⟨"pl_knn_ptwise", ["k", "metric"], [(0, .u32), (1, .bool), (2, .bool)], .input⟩,  -- src/num_ext/knn.rs:275
  ⟨"pl_knn_ptwise_w_dist", ["k", "metric"], [(0, .u32), (1, .bool), (2, .bool)], .input⟩,  -- src/num_ext/knn.rs:442
  ⟨"pl_query_radius_ptwise", ["r", "metric", "parallel", "sort"], [(0, .u32)], .input⟩,  -- src/num_ext/knn.rs:555
  ⟨"pl_nb_cnt", ["k", "metric"], [(0, .f64)], .input⟩,  -- src/num_ext/knn.rs:666
  ⟨"pl_lempel_ziv_complexity", [], [(0, .bool)], .one⟩,  -- src/num_ext/lempel_ziv.rs:5
  ⟨"pl_lstsq", ["bias", "null_policy", "solver", "l1_reg", "l2_reg", "tol"], [], .one⟩,  -- src/num_ext/linear_regression.rs:289
  ⟨"pl_lstsq_multi", ["bias", "null_policy", "solver", "last_target_idx", "l2_reg"], [], .one⟩,  -- src/num_ext/linear_regression.rs:349
  ⟨"pl_lstsq_multi_pred", ["bias", "null_policy", "solver", "last_target_idx", "l2_reg"], [], .other⟩,  -- src/num_ext/linear_regression.rs:398
  ⟨"pl_lstsq_w_rcond", ["bias", "null_policy", "solver", "l1_reg", "l2_reg", "tol"], [], .one⟩,  -- src/num_ext/linear_regression.rs:440
  ⟨"pl_lstsq_pred", ["bias", "null_policy", "solver", "l1_reg", "l2_reg", "tol"], [], .input⟩,  -- src/num_ext/linear_regression.rs:495
  ⟨"pl_lin_reg_report", ["bias", "null_policy", "solver", "l1_reg", "l2_reg", "tol"], [], .other⟩,  -- src/num_ext/linear_regression.rs:576
  ⟨"pl_wls_report", ["bias", "null_policy", "solver", "l1_reg", "l2_reg", "tol"], [], .other⟩,  -- src/num_ext/linear_regression.rs:734
  ⟨"pl_recursive_lstsq", ["null_policy", "n", "bias", "lambda", "min_size"], [], .input⟩,  -- src/num_ext/linear_regression.rs:867
  ⟨"pl_rolling_lstsq", ["null_policy", "n", "bias", "lambda", "min_size"], [], .input⟩,  -- src/num_ext/linear_regression.rs:957
  ⟨"pl_lstsq_f32", ["bias", "null_policy", "solver", "l1_reg", "l2_reg", "tol"], [], .one⟩,  -- src/num_ext/linear_regression_f32.rs:231
  ⟨"pl_lstsq_multi_f32", ["bias", "null_policy", "solver", "last_target_idx", "l2_reg"], [], .one⟩,  -- src/num_ext/linear_regression_f32.rs:291
  ⟨"pl_lstsq_multi_pred_f32", ["bias", "null_policy", "solver", "last_target_idx", "l2_reg"], [], .other⟩,  -- src/num_ext/linear_regression_f32.rs:344
  ⟨"pl_lstsq_w_rcond_f32", ["bias", "null_policy", "solver", "l1_reg", "l2_reg", "tol"], [], .one⟩,  -- src/num_ext/linear_regression_f32.rs:390
  ⟨"pl_lstsq_pred_f32", ["bias", "null_policy", "solver", "l1_reg", "l2_reg", "tol"], [], .input⟩,  -- src/num_ext/linear_regression_f32.rs:444
  ⟨"pl_lin_reg_report_f32", ["bias", "null_policy", "solver", "l1_reg", "l2_reg", "tol"], [], .other⟩,  -- src/num_ext/linear_regression_f32.rs:525
  ⟨"pl_wls_report_f32", ["bias", "null_policy", "solver", "l1_reg", "l2_reg", "tol"], [], .other⟩,  -- src/num_ext/linear_regression_f32.rs:682
  ⟨"pl_recursive_lstsq_f32", ["null_policy", "n", "bias", "lambda", "min_size"], [], .input⟩,  -- src/num_ext/linear_regression_f32.rs:815
  ⟨"pl_rolling_lstsq_f32", ["null_policy", "n", "bias", "lambda", "min_size"], [], .input⟩,  -- src/num_ext/linear_regression_f32.rs:905
  ⟨"pl_singular_values", [], [], .one⟩,  -- src/num_ext/pca.rs:40
  ⟨"pl_principal_components", [], [(0, .u32)], .input⟩,  -- src/num_ext/pca.rs:81
  ⟨"pl_pca", [], [], .other⟩,  -- src/num_ext/pca.rs:134
  ⟨"pl_psi_w_bps", [], [(0, .f64), (1, .f64), (2, .f64)], .other⟩,  -- src/num_ext/psi.rs:75
  ⟨"pl_psi_report", [], [(0, .f64), (1, .f64), (2, .u32)], .other⟩,  -- src/num_ext/psi.rs:97
  ⟨"pl_psi_discrete_report", [], [], .other⟩,  -- src/num_ext/psi.rs:120
  ⟨"pl_subseq_sim_cnt_l2", ["threshold", "parallel"], [(0, .f64), (1, .f64)], .one⟩,  -- src/num_ext/subseq_sim.rs:22
  ⟨"pl_subseq_sim_cnt_zl2", ["threshold", "parallel"], [(0, .f64), (1, .f64), (2, .f64), (3, .f64)], .one⟩,  -- src/num_ext/subseq_sim.rs:68
  ⟨"pl_target_encode", ["min_samples_leaf", "smoothing"], [(2, .f64)], .other⟩,  -- src/num_ext/target_encode.rs:51
  ⟨"pl_combo_b", [], [(2, .f64)], .one⟩,  -- src/num_ext/tp_fp.rs:90
  ⟨"pl_tpr_fpr", [], [], .other⟩,  -- src/num_ext/tp_fp.rs:156
  ⟨"pl_mcc", [], [(0, .u32)], .one⟩,  -- src/num_ext/tp_fp.rs:195
  ⟨"pl_roc_auc", [], [], .one⟩,  -- src/num_ext/tp_fp.rs:215
  ⟨"pl_binary_confusion_matrix", [], [(0, .u32)], .one⟩,  -- src/num_ext/tp_fp.rs:305
  ⟨"pl_trapz", [], [(0, .f64), (1, .f64)], .one⟩,  -- src/num_ext/trapz.rs:26
  ⟨"pl_woe_discrete", [], [], .other⟩,  -- src/num_ext/woe_iv.rs:53
  ⟨"pl_iv", [], [], .other⟩,  -- src/num_ext/woe_iv.rs:64
  ⟨"pl_chi2", [], [], .one⟩,  -- src/stats/chi2.rs:71
  ⟨"pl_chi2_full", [], [], .other⟩,  -- src/stats/chi2.rs:93
  ⟨"pl_f_test", [], [], .perColumn⟩,  -- src/stats/fstats.rs:13
  ⟨"pl_kendall_tau", [], [], .one⟩,  -- src/stats/kendall_tau.rs:7
  ⟨"pl_ks_2samp", [], [(0, .f64), (1, .f64), (2, .f64)], .one⟩,  -- src/stats/ks.rs:59
  ⟨"pl_mann_whitney_u", [], [(0, .f64), (1, .f64), (2, .f64), (3, .f64), (4, .str)], .one⟩,  -- src/stats/mann_whitney_u.rs:24
  ⟨"pl_normal_test", [], [(0, .f64), (1, .f64), (2, .u32)], .one⟩,  -- src/stats/normal_test.rs:54
  ⟨"pl_rand_int", [], [(0, .u32), (1, .i32), (2, .i32), (3, .u64)], .input⟩,  -- src/stats/sample.rs:18
  ⟨"pl_rand_binomial", [], [(0, .u32), (1, .u32), (2, .f64), (3, .u64)], .input⟩,  -- src/stats/sample.rs:39
  ⟨"pl_rand_exp", [], [(0, .u32), (1, .f64), (2, .u64)], .input⟩,  -- src/stats/sample.rs:55
  ⟨"pl_random", [], [(0, .u32), (1, .f64), (2, .f64), (3, .u64)], .input⟩,  -- src/stats/sample.rs:76
  ⟨"pl_perturb", [], [(1, .f64), (2, .f64), (3, .u64)], .input⟩,  -- src/stats/sample.rs:93
  ⟨"pl_jitter", [], [(1, .f64), (2, .u64)], .input⟩,  -- src/stats/sample.rs:126
  ⟨"pl_rand_normal", [], [(0, .u32), (1, .f64), (2, .f64), (3, .u64)], .input⟩,  -- src/stats/sample.rs:162
  ⟨"pl_rand_str", [], [(0, .u32), (1, .u32), (2, .u32), (3, .u64)], .input⟩,  -- src/stats/sample.rs:187
  ⟨"pl_ttest_2samp", [], [(0, .f64), (1, .f64), (2, .f64), (3, .f64), (4, .u64), (5, .str)], .one⟩,  -- src/stats/t_test.rs:92
  ⟨"pl_welch_t", [], [(0, .f64), (1, .f64), (2, .f64), (3, .f64), (4, .u64), (5, .u64), (6, .str)], .one⟩,  -- src/stats/t_test.rs:119
  ⟨"pl_ttest_1samp", [], [(0, .f64), (1, .f64), (2, .f64), (3, .u64), (4, .str)], .one⟩,  -- src/stats/t_test.rs:146
  ⟨"pl_xi_corr", [], [], .one⟩,  -- src/stats/xi_corr.rs:26
  ⟨"pl_xi_corr_w_p", [], [], .one⟩,  -- src/stats/xi_corr.rs:31
  ⟨"pl_fuzz", [], [(0, .str), (1, .str), (2, .bool)], .input⟩,  -- src/str_ext/fuzz.rs:15
  ⟨"pl_hamming", [], [(0, .str), (1, .str), (2, .bool)], .input⟩,  -- src/str_ext/hamming.rs:24
  ⟨"pl_hamming_padded", [], [(0, .str), (1, .str), (2, .bool)], .input⟩,  -- src/str_ext/hamming.rs:113
  ⟨"pl_hamming_filter", [], [(0, .str), (1, .str), (2, .u32), (3, .bool)], .input⟩,  -- src/str_ext/hamming.rs:169
  ⟨"pl_to_camel", [], [(0, .str)], .input⟩,  -- src/str_ext/inflections.rs:4
  ⟨"pl_to_snake", [], [(0, .str)], .input⟩,  -- src/str_ext/inflections.rs:11
  ⟨"pl_to_pascal", [], [(0, .str)], .input⟩,  -- src/str_ext/inflections.rs:18
  ⟨"pl_to_constant", [], [(0, .str)], .input⟩,  -- src/str_ext/inflections.rs:25
  ⟨"pl_is_stopword", [], [(0, .str)], .input⟩,  -- src/str_ext/is_stopword.rs:7
  ⟨"pl_jaro", [], [(0, .str), (1, .str), (2, .bool)], .input⟩,  -- src/str_ext/jaro.rs:28
  ⟨"pl_jw", [], [(0, .str), (1, .str), (2, .f64), (3, .bool)], .input⟩,  -- src/str_ext/jaro.rs:48
  ⟨"pl_lcs_seq", [], [(0, .str), (1, .str), (2, .bool)], .input⟩,  -- src/str_ext/lcs_seq.rs:18
  ⟨"pl_lcs_sim", [], [(0, .str), (1, .str), (2, .bool)], .input⟩,  -- src/str_ext/lcs_seq.rs:38
  ⟨"pl_levenshtein", [], [(0, .str), (1, .str), (2, .bool)], .input⟩,  -- src/str_ext/levenshtein.rs:45
  ⟨"pl_levenshtein_filter", [], [(0, .str), (1, .str), (2, .u32), (3, .bool)], .input⟩,  -- src/str_ext/levenshtein.rs:65
  ⟨"pl_levenshtein_sim", [], [(0, .str), (1, .str), (2, .bool)], .input⟩,  -- src/str_ext/levenshtein.rs:130
  ⟨"pl_d_levenshtein", [], [(0, .str), (1, .str), (2, .bool)], .input⟩,  -- src/str_ext/levenshtein.rs:150
  ⟨"pl_d_levenshtein_sim", [], [(0, .str), (1, .str), (2, .bool)], .input⟩,  -- src/str_ext/levenshtein.rs:175
  ⟨"pl_nearest_str", ["word", "metric", "threshold"], [(0, .str)], .one⟩,  -- src/str_ext/nearest_str.rs:59
  ⟨"pl_osa", [], [(0, .str), (1, .str), (2, .bool)], .input⟩,  -- src/str_ext/osa.rs:18
  ⟨"pl_osa_sim", [], [(0, .str), (1, .str), (2, .bool)], .input⟩,  -- src/str_ext/osa.rs:38
  ⟨"pl_overlap_coeff", [], [(0, .str), (1, .str), (2, .u32), (3, .bool)], .input⟩,  -- src/str_ext/overlap.rs:21
  ⟨"pl_snowball_stem", [], [(0, .str), (1, .bool)], .input⟩,  -- src/str_ext/snowball_stem.rs:17
  ⟨"pl_sorensen_dice", [], [(0, .str), (1, .str), (2, .u32), (3, .bool)], .input⟩,  -- src/str_ext/sorensen_dice.rs:21
  ⟨"remove_non_ascii", [], [(0, .str)], .input⟩,  -- src/str_ext/str_cleaning.rs:26
  ⟨"remove_diacritics", [], [(0, .str)], .input⟩,  -- src/str_ext/str_cleaning.rs:34
  ⟨"normalize_string", ["form"], [(0, .str)], .input⟩,  -- src/str_ext/str_cleaning.rs:47
  ⟨"map_words", ["mapping"], [(0, .str)], .input⟩,  -- src/str_ext/str_cleaning.rs:65
  ⟨"normalize_whitespace", [], [(0, .str)], .input⟩,  -- src/str_ext/str_cleaning.rs:80
  ⟨"pl_str_jaccard", [], [(0, .str), (1, .str), (2, .u32), (3, .bool)], .input⟩,  -- src/str_ext/str_jaccard.rs:22
  ⟨"pl_tversky_sim", [], [(0, .str), (1, .str), (2, .u32), (3, .f64), (4, .f64), (5, .bool)], .input⟩]  -- src/str_ext/tversky.rs:24

/-- The calls of `pl_plugin`, with file and line. -/
def calls : List Call := [
  ⟨"product", "pl_product", false, some [none, none], [], .changes⟩,  -- python/polars_ds/exprs/expr_iter.py:78
  ⟨"combinations", "pl_combinations", false, some [none], ["k"], .changes⟩,  -- python/polars_ds/exprs/expr_iter.py:143
  ⟨"query_dist_from_kth_nb", "pl_dist_from_kth_nb", false, none, ["k", "metric", "parallel", "skip_eval", "max_bound", "epsilon"], .none⟩,  -- python/polars_ds/exprs/expr_knn.py:86
  ⟨"query_knn_ptwise", "pl_knn_ptwise_w_dist", false, none, ["k", "metric", "parallel", "skip_eval", "max_bound", "epsilon"], .none⟩,  -- python/polars_ds/exprs/expr_knn.py:190
  ⟨"query_knn_ptwise", "pl_knn_ptwise", false, none, ["k", "metric", "parallel", "skip_eval", "max_bound", "epsilon"], .none⟩,  -- python/polars_ds/exprs/expr_knn.py:196
  ⟨"query_knn_avg", "pl_knn_avg", false, none, ["k", "metric", "weighted", "parallel", "min_bound", "max_bound"], .none⟩,  -- python/polars_ds/exprs/expr_knn.py:330
  ⟨"query_radius_ptwise", "pl_query_radius_ptwise", false, none, ["r", "metric", "parallel", "sort"], .none⟩,  -- python/polars_ds/exprs/expr_knn.py:521
  ⟨"query_nb_cnt", "pl_nb_cnt", false, none, ["k", "metric", "parallel", "skip_eval", "skip_data"], .none⟩,  -- python/polars_ds/exprs/expr_knn.py:600
  ⟨"lin_reg", "pl_lstsq_pred", true, none, ["bias", "null_policy", "l1_reg", "l2_reg", "solver", "tol", "weighted"], .none⟩,  -- python/polars_ds/exprs/expr_linear.py:226
  ⟨"lin_reg", "pl_lstsq", true, none, ["bias", "null_policy", "l1_reg", "l2_reg", "solver", "tol", "weighted"], .scalar⟩,  -- python/polars_ds/exprs/expr_linear.py:233
  ⟨"lin_reg", "pl_lstsq_multi_pred", true, none, ["bias", "null_policy", "solver", "last_target_idx", "l2_reg"], .none⟩,  -- python/polars_ds/exprs/expr_linear.py:192
  ⟨"lin_reg", "pl_lstsq_multi", true, none, ["bias", "null_policy", "solver", "last_target_idx", "l2_reg"], .scalar⟩,  -- python/polars_ds/exprs/expr_linear.py:199
  ⟨"lin_reg_w_rcond", "pl_lstsq_w_rcond", true, none, ["bias", "null_policy", "l1_reg", "l2_reg", "solver", "tol"], .none⟩,  -- python/polars_ds/exprs/expr_linear.py:319
  ⟨"recursive_lin_reg", "pl_recursive_lstsq", true, none, ["null_policy", "n", "bias", "lambda", "min_size"], .none⟩,  -- python/polars_ds/exprs/expr_linear.py:406
  ⟨"rolling_lin_reg", "pl_rolling_lstsq", true, none, ["null_policy", "n", "bias", "lambda", "min_size"], .none⟩,  -- python/polars_ds/exprs/expr_linear.py:504
  ⟨"lin_reg_report", "pl_lin_reg_report", true, none, ["bias", "null_policy", "l1_reg", "l2_reg", "solver", "tol", "std_err"], .changes⟩,  -- python/polars_ds/exprs/expr_linear.py:598
  ⟨"lin_reg_report", "pl_wls_report", true, none, ["bias", "null_policy", "l1_reg", "l2_reg", "solver", "tol", "std_err"], .changes⟩,  -- python/polars_ds/exprs/expr_linear.py:598
  ⟨"query_log_loss", "pl_xlogy", false, some [some .f64, some .f64], [], .elementwise⟩,  -- python/polars_ds/exprs/metrics.py:204
  ⟨"query_log_loss", "pl_xlogy", false, some [none, none], [], .elementwise⟩,  -- python/polars_ds/exprs/metrics.py:209
  ⟨"query_roc_auc", "pl_roc_auc", false, some [some .u32, none], [], .scalar⟩,  -- python/polars_ds/exprs/metrics.py:363
  ⟨"query_tpr_fpr", "pl_tpr_fpr", false, some [some .u32, none], [], .none⟩,  -- python/polars_ds/exprs/metrics.py:385
  ⟨"query_confusion_matrix", "pl_binary_confusion_matrix", false, some [none], [], .scalar⟩,  -- python/polars_ds/exprs/metrics.py:470
  ⟨"query_binary_metrics", "pl_combo_b", false, some [some .u32, none, some .f64], [], .scalar⟩,  -- python/polars_ds/exprs/metrics.py:511
  ⟨"query_mcc", "pl_mcc", false, some [some .u32], [], .scalar⟩,  -- python/polars_ds/exprs/metrics.py:612
  ⟨"gcd", "pl_gcd", false, some [some .i32, some .i32], [], .elementwise⟩,  -- python/polars_ds/exprs/num.py:207
  ⟨"lcm", "pl_lcm", false, some [some .i32, some .i32], [], .elementwise⟩,  -- python/polars_ds/exprs/num.py:230
  ⟨"haversine", "pl_haversine", false, some [none, none, none, none], [], .elementwise⟩,  -- python/polars_ds/exprs/num.py:261
  ⟨"singular_values", "pl_singular_values", false, none, [], .scalar⟩,  -- python/polars_ds/exprs/num.py:299
  ⟨"pca", "pl_pca", false, none, [], .changes⟩,  -- python/polars_ds/exprs/num.py:329
  ⟨"principal_components", "pl_principal_components", false, none, [], .none⟩,  -- python/polars_ds/exprs/num.py:361
  ⟨"jaccard_row", "pl_list_jaccard", false, some [none, none], [], .elementwise⟩,  -- python/polars_ds/exprs/num.py:377
  ⟨"jaccard_col", "pl_jaccard", false, some [none, none, some .bool], [], .scalar⟩,  -- python/polars_ds/exprs/num.py:398
  ⟨"psi", "pl_psi_report", false, some [none, none, none], [], .changes⟩,  -- python/polars_ds/exprs/num.py:474
  ⟨"psi_discrete", "pl_psi_discrete_report", false, some [none, none, none, none], [], .changes⟩,  -- python/polars_ds/exprs/num.py:537
  ⟨"psi_w_breakpoints", "pl_psi_w_bps", false, some [none, none, none], [], .changes⟩,  -- python/polars_ds/exprs/num.py:588
  ⟨"woe", "pl_woe_discrete", false, some [some .str, none], [], .changes⟩,  -- python/polars_ds/exprs/num.py:623
  ⟨"woe_discrete", "pl_woe_discrete", false, some [some .str, none], [], .changes⟩,  -- python/polars_ds/exprs/num.py:650
  ⟨"info_value", "pl_iv", false, some [some .str, none], [], .changes⟩,  -- python/polars_ds/exprs/num.py:693
  ⟨"info_value_discrete", "pl_iv", false, some [some .str, none], [], .changes⟩,  -- python/polars_ds/exprs/num.py:723
  ⟨"integrate_trapz", "pl_trapz", false, some [some .f64, some .f64], [], .scalar⟩,  -- python/polars_ds/exprs/num.py:747
  ⟨"convolve", "pl_convolve", false, some [some .f64, none], ["mode", "method", "parallel"], .changes⟩,  -- python/polars_ds/exprs/num.py:804
  ⟨"gamma", "pl_gamma", false, some [none], [], .elementwise⟩,  -- python/polars_ds/exprs/num.py:828
  ⟨"expit", "pl_expit", false, some [none], [], .elementwise⟩,  -- python/polars_ds/exprs/num.py:839
  ⟨"logit", "pl_logit", false, some [none], [], .elementwise⟩,  -- python/polars_ds/exprs/num.py:851
  ⟨"exp2", "pl_exp2", false, some [none], [], .elementwise⟩,  -- python/polars_ds/exprs/num.py:862
  ⟨"fract", "pl_fract", false, some [none], [], .elementwise⟩,  -- python/polars_ds/exprs/num.py:873
  ⟨"trunc", "pl_trunc", false, some [none], [], .elementwise⟩,  -- python/polars_ds/exprs/num.py:884
  ⟨"xlogy", "pl_xlogy", false, some [some .f64, some .f64], [], .elementwise⟩,  -- python/polars_ds/exprs/num.py:911
  ⟨"rfft", "pl_rfft", false, some [none, some .u32, some .bool], [], .changes⟩,  -- python/polars_ds/exprs/num.py:962
  ⟨"target_encode", "pl_target_encode", false, some [none, none, none], ["min_samples_leaf", "smoothing"], .changes⟩,  -- python/polars_ds/exprs/num.py:995
  ⟨"isotonic_regression", "pl_isotonic_regression", false, none, ["has_weights", "increasing"], .none⟩,  -- python/polars_ds/exprs/num.py:1026
  ⟨"next_up", "pl_next_up", false, some [none], [], .elementwise⟩,  -- python/polars_ds/exprs/num.py:1043
  ⟨"next_down", "pl_next_down", false, some [none], [], .elementwise⟩,  -- python/polars_ds/exprs/num.py:1057
  ⟨"digamma", "pl_diagamma", false, some [none], [], .elementwise⟩,  -- python/polars_ds/exprs/num.py:1068
  ⟨"ttest_ind", "pl_ttest_2samp", false, some [none, none, none, none, some .u64, some .str], [], .scalar⟩,  -- python/polars_ds/exprs/stats.py:85
  ⟨"ttest_ind", "pl_welch_t", false, some [none, none, none, none, some .u64, some .u64, some .str], [], .scalar⟩,  -- python/polars_ds/exprs/stats.py:99
  ⟨"ttest_1samp", "pl_ttest_1samp", false, some [none, some .f64, none, some .u64, some .str], [], .scalar⟩,  -- python/polars_ds/exprs/stats.py:129
  ⟨"ttest_ind_from_stats", "pl_ttest_2samp", false, some [none, some .f64, none, some .f64, none, some .str], [], .scalar⟩,  -- python/polars_ds/exprs/stats.py:172
  ⟨"ttest_ind_from_stats", "pl_welch_t", false, some [none, some .f64, none, some .f64, some .u64, some .u64, some .str], [], .scalar⟩,  -- python/polars_ds/exprs/stats.py:185
  ⟨"ks_2samp", "pl_ks_2samp", false, some [none, none, some .f64], [], .scalar⟩,  -- python/polars_ds/exprs/stats.py:235
  ⟨"f_test", "pl_f_test", false, some [none, none], [], .scalar⟩,  -- python/polars_ds/exprs/stats.py:258
  ⟨"f_test", "pl_f_test", false, none, [], .changes⟩,  -- python/polars_ds/exprs/stats.py:260
  ⟨"chi2", "pl_chi2_full", false, some [none, none], [], .changes⟩,  -- python/polars_ds/exprs/stats.py:282
  ⟨"chi2", "pl_chi2", false, some [none, none], [], .scalar⟩,  -- python/polars_ds/exprs/stats.py:286
  ⟨"mann_whitney_u", "pl_mann_whitney_u", false, some [none, none, none, none, some .str], [], .none⟩,  -- python/polars_ds/exprs/stats.py:331
  ⟨"perturb", "pl_perturb", false, some [none, some .f64, some .f64, some .u64], [], .elementwise⟩,  -- python/polars_ds/exprs/stats.py:398
  ⟨"jitter", "pl_jitter", false, some [none, some .f64, some .u64], [], .elementwise⟩,  -- python/polars_ds/exprs/stats.py:428
  ⟨"normal_test", "pl_normal_test", false, some [none, none, some .u32], [], .scalar⟩,  -- python/polars_ds/exprs/stats.py:480
  ⟨"random", "pl_random", false, some [none, none, none, some .u64], [], .elementwise⟩,  -- python/polars_ds/exprs/stats.py:510
  ⟨"random_int", "pl_rand_int", false, some [none, some .i32, some .i32, some .u64], [], .elementwise⟩,  -- python/polars_ds/exprs/stats.py:565
  ⟨"random_str", "pl_rand_str", false, some [none, some .u32, some .u32, some .u64], [], .elementwise⟩,  -- python/polars_ds/exprs/stats.py:602
  ⟨"random_binomial", "pl_rand_binomial", false, some [none, some .i32, some .f64, some .u64], [], .elementwise⟩,  -- python/polars_ds/exprs/stats.py:634
  ⟨"random_exp", "pl_rand_exp", false, some [none, some .f64, some .u64], [], .elementwise⟩,  -- python/polars_ds/exprs/stats.py:661
  ⟨"random_normal", "pl_rand_normal", false, some [none, none, none, some .u64], [], .elementwise⟩,  -- python/polars_ds/exprs/stats.py:692
  ⟨"kendall_tau", "pl_kendall_tau", false, some [none, none], [], .scalar⟩,  -- python/polars_ds/exprs/stats.py:942
  ⟨"xi_corr", "pl_xi_corr_w_p", false, none, [], .scalar⟩,  -- python/polars_ds/exprs/stats.py:1018
  ⟨"xi_corr", "pl_xi_corr", false, none, [], .scalar⟩,  -- python/polars_ds/exprs/stats.py:1024
  ⟨"filter_by_levenshtein", "pl_levenshtein_filter", false, some [none, none, some .u32, some .bool], [], .none⟩,  -- python/polars_ds/exprs/string.py:67
  ⟨"filter_by_hamming", "pl_hamming_filter", false, some [none, none, some .u32, some .bool], [], .none⟩,  -- python/polars_ds/exprs/string.py:104
  ⟨"str_hamming", "pl_hamming_padded", false, some [none, none, some .bool], [], .none⟩,  -- python/polars_ds/exprs/string.py:137
  ⟨"str_hamming", "pl_hamming", false, some [none, none, some .bool], [], .none⟩,  -- python/polars_ds/exprs/string.py:142
  ⟨"is_stopword", "pl_is_stopword", false, some [none], [], .elementwise⟩,  -- python/polars_ds/exprs/string.py:152
  ⟨"to_camel_case", "pl_to_camel", false, some [none], [], .elementwise⟩,  -- python/polars_ds/exprs/string.py:161
  ⟨"to_snake_case", "pl_to_snake", false, some [none], [], .elementwise⟩,  -- python/polars_ds/exprs/string.py:170
  ⟨"to_pascal_case", "pl_to_pascal", false, some [none], [], .elementwise⟩,  -- python/polars_ds/exprs/string.py:179
  ⟨"to_constant_case", "pl_to_constant", false, some [none], [], .elementwise⟩,  -- python/polars_ds/exprs/string.py:188
  ⟨"str_nearest", "pl_nearest_str", false, some [none], ["word", "metric", "threshold"], .scalar⟩,  -- python/polars_ds/exprs/string.py:224
  ⟨"str_snowball", "pl_snowball_stem", false, some [none, some .bool], [], .elementwise⟩,  -- python/polars_ds/exprs/string.py:249
  ⟨"str_jaccard", "pl_str_jaccard", false, some [none, none, some .u32, some .bool], [], .none⟩,  -- python/polars_ds/exprs/string.py:304
  ⟨"str_overlap_coeff", "pl_overlap_coeff", false, some [none, none, some .u32, some .bool], [], .none⟩,  -- python/polars_ds/exprs/string.py:342
  ⟨"str_sorensen_dice", "pl_sorensen_dice", false, some [none, none, some .u32, some .bool], [], .none⟩,  -- python/polars_ds/exprs/string.py:380
  ⟨"str_tversky_sim", "pl_tversky_sim", false, some [none, none, some .u32, some .f64, some .f64, some .bool], [], .none⟩,  -- python/polars_ds/exprs/string.py:434
  ⟨"str_jw", "pl_jw", false, some [none, none, some .f64, some .bool], [], .none⟩,  -- python/polars_ds/exprs/string.py:470
  ⟨"str_jaro", "pl_jaro", false, some [none, none, some .bool], [], .elementwise⟩,  -- python/polars_ds/exprs/string.py:496
  ⟨"str_d_leven", "pl_d_levenshtein_sim", false, some [none, none, some .bool], [], .none⟩,  -- python/polars_ds/exprs/string.py:526
  ⟨"str_d_leven", "pl_d_levenshtein", false, some [none, none, some .bool], [], .none⟩,  -- python/polars_ds/exprs/string.py:531
  ⟨"str_leven", "pl_levenshtein_sim", false, some [none, none, some .bool], [], .none⟩,  -- python/polars_ds/exprs/string.py:560
  ⟨"str_leven", "pl_levenshtein", false, some [none, none, some .bool], [], .none⟩,  -- python/polars_ds/exprs/string.py:565
  ⟨"str_lcs_seq", "pl_lcs_seq_sim", false, some [none, none, some .bool], [], .none⟩,  -- python/polars_ds/exprs/string.py:596
  ⟨"str_lcs_seq", "pl_lcs_seq", false, some [none, none, some .bool], [], .none⟩,  -- python/polars_ds/exprs/string.py:601
  ⟨"str_osa", "pl_osa_sim", false, some [none, none, some .bool], [], .none⟩,  -- python/polars_ds/exprs/string.py:630
  ⟨"str_osa", "pl_osa", false, some [none, none, some .bool], [], .none⟩,  -- python/polars_ds/exprs/string.py:635
  ⟨"str_fuzz", "pl_fuzz", false, some [none, none, some .bool], [], .none⟩,  -- python/polars_ds/exprs/string.py:657
  ⟨"replace_non_ascii", "remove_non_ascii", false, some [none], [], .elementwise⟩,  -- python/polars_ds/exprs/string.py:836
  ⟨"remove_diacritics", "remove_diacritics", false, some [none], [], .elementwise⟩,  -- python/polars_ds/exprs/string.py:871
  ⟨"normalize_string", "normalize_string", false, some [none], ["form"], .elementwise⟩,  -- python/polars_ds/exprs/string.py:929
  ⟨"map_words", "map_words", false, some [none], ["mapping"], .elementwise⟩,  -- python/polars_ds/exprs/string.py:965
  ⟨"normalize_whitespace", "normalize_whitespace", false, some [none], [], .elementwise⟩,  -- python/polars_ds/exprs/string.py:1006
  ⟨"query_first_digit_cnt", "pl_benford_law", false, some [none], [], .scalar⟩,  -- python/polars_ds/exprs/ts_features.py:224
  ⟨"query_similar_count", "pl_subseq_sim_cnt_l2", false, some [some .f64, none], ["threshold", "parallel"], .scalar⟩,  -- python/polars_ds/exprs/ts_features.py:281
  ⟨"query_similar_count", "pl_subseq_sim_cnt_zl2", false, none, ["threshold", "parallel"], .scalar⟩,  -- python/polars_ds/exprs/ts_features.py:300
  ⟨"query_lempel_ziv", "pl_lempel_ziv_complexity", false, some [none], [], .scalar⟩,  -- python/polars_ds/exprs/ts_features.py:326
  ⟨"query_cond_entropy", "pl_conditional_entropy", false, some [none, none], [], .scalar⟩,  -- python/polars_ds/exprs/ts_features.py:511
  ⟨"query_sample_entropy", "pl_sample_entropy", false, none, ["k", "metric", "parallel"], .scalar⟩,  -- python/polars_ds/exprs/ts_features.py:558
  ⟨"query_approx_entropy", "pl_approximate_entropy", false, none, ["k", "metric", "parallel"], .scalar⟩,  -- python/polars_ds/exprs/ts_features.py:622
  ⟨"query_knn_entropy", "pl_knn_entropy", false, none, ["k", "metric", "parallel", "skip_eval", "skip_data"], .scalar⟩]  -- python/polars_ds/exprs/ts_features.py:667

end Verif.EntryPoints
