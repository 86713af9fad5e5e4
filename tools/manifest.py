"""Generate MANIFEST.json and check that every theorem it names exists in the Lean sources."""
import json, os, re
ROOT = os.path.dirname(os.path.dirname(os.path.abspath(__file__)))
C = []
def c(prop, status, theorems, note=""):
    C.append(dict(property=prop, status=status, theorems=theorems, note=note))

K = "Verif.KDT."
V = "Verif."
c("C01", "proved", [K+"within_exact", K+"dist_real", K+"metric_names"], "From 16 columns on this assumes that the vectorised kernel adds in the order of the loop; other orders are treated in C162.")
c("C02", "proved", [K+"within_count_exact"], "From 16 columns on this assumes that the vectorised kernel adds in the order of the loop; other orders are treated in C162.")
c("C03", "proved", [K+"knn_exact", K+"knn_exact_unbounded"], "From 16 columns on this assumes that the vectorised kernel adds in the order of the loop; other orders are treated in C162.")
c("C04", "proved", [K+"knn_eps"], "From 16 columns on this assumes that the vectorised kernel adds in the order of the loop; other orders are treated in C162.")
c("C05", "partial", [K+"knn_bound_partial", K+"knn_bound_inclusive_fails"],
  "The code violates the full claim: a row exactly at the bound is missed across a split.")
c("C06", "proved", [K+"count_and_numbering", K+"add_accepts_iff"])
c("C07", "partial", [K+"box_pruning_sound_partial", K+"cosine_pruning_fails", "Verif.Haversine.haversine_box_unsound", "Verif.Haversine.haversine_within_misses"],
  "The code violates the claim for cosine and for haversine across the date line.")
c("C08", "proved", [K+"knn_matrix_shape", K+"knn_matrix_rejects"])
c("C10", "proved", [V+"parallel_eq_sequential", V+"split_offsets_partition", V+"knn_expr_parallel"])
c("C11", "proved", [V+"row_major_any_interleaving", V+"row_major_rejects"])
c("C23", "proved", ["Verif.Iso."+t for t in ("isotonic_optimal", "isotonic_unique", "isotonic_rejects")])
c("C24", "proved", ["Verif.Kendall."+t for t in ("kendall_pairwise", "kendall_range", "kendall_symm", "kendall_expr_pairwise")])
c("C25", "proved", ["Verif.KS."+t for t in ("ks_is_sup", "ks_symm", "ks_binary")])
c("C26", "partial", ["Verif.MWU."+t for t in ("tie_sum_partial", "tie_sum_untied_max_partial", "tie_sum_wrong", "mann_whitney_constant_variance")],
  "The code violates the claim when the largest value is tied.")
c("C51", "proved", ["Verif.MWU.mann_whitney_counts_pairs"])
c("C09", "proved", [K+"knn_avg_convex", K+"knn_avg_unweighted"])
c("C52", "proved", [K+"knn_ptwise_nearest", K+"nb_cnt_exact", K+"dist_from_kth_nb_exact"])
R = "Verif.Roc."
c("C27", "partial", [R+t for t in ("roc_auc_partial", "roc_auc_deficit", "roc_auc_wrong", "roc_auc_undefined", "roc_rejects")],
  "The code violates the claim when the top score is shared by both classes: the last triangle is left out.")
c("C28", "partial", [R+t for t in ("avg_precision_partial", "avg_precision_wrong")],
  "The code violates the claim: the term of the top score is left out.")
F = "Verif.Confusion."
c("C29", "partial", [F+t for t in ("confusion_counts", "confusion_counts_nulls", "confusion_null_counted", "confusion_ratios_partial", "confusion_derived_partial", "confusion_plr_inf", "confusion_ratio_legacy", "confusion_fowlkes_mallows", "confusion_prevalence_threshold")],
  "Null rows are counted; the quotients are proved under the reading of polars' / as float division.")
c("C30", "partial", ["Verif.Trapz."+t for t in ("trapz_additive_partial", "trapz_affine_partial", "trapz_uniform_partial", "trapz_single_point_wrong", "trapz_rejects")],
  "The code violates the claim for a single point.")
c("C53", "partial", [R+t for t in ("binary_metrics_partial", "binary_metrics_panics")],
  "The code panics when the threshold is above every score.")
c("C54", "partial", [F+t for t in ("mcc_pearson_partial", "mcc_wraps", "confusion_mcc_phi_partial")],
  "The code violates the claim when a product of opposite cells reaches 2^32.")
L = "Verif.LinReg."
c("C12", "proved", [L+"lin_reg_optimal", L+"lin_reg_bias_optimal", L+"negative_penalty", L+"method_of_strengths"],
  "Exact arithmetic; the faer decompositions are any solver that solves an invertible system.")
c("C13", "proved", [L+t for t in ("weighted_optimal", "weighted_bias_optimal", "multi_target_columns", "multi_target_columns_bias")])
O = "Verif.Online."
c("C14", "proved", [O+t for t in ("online_refit", "online_refit_bias", "online_add_remove", "online_scale")],
  "Exact arithmetic. The scale c is the row weight 1/c, so +1 adds and -1 removes.")
c("C15", "partial", [O+"recursive_prefix_partial", O+"recursive_penalises_bias", O+"recursive_rolling_panic"],
  "With l2_reg > 0 the code penalises the bias column, so with a bias the coefficients are not the batch ridge fit; start_with above the number of rows panics.")
c("C16", "partial", [O+"rolling_window_partial", O+"rolling_square_window_fails", O+"recursive_rolling_panic"],
  "Without penalty the code removes the old row before adding the new one, so every n-1 consecutive rows must have full rank; a window equal to the number of features gives NaN.")
c("C17", "partial", [O+"rolling_skip_partial", O+"rolling_skip_no_recovery"],
  "Without penalty one window of valid rows that is not of full rank leaves NaN for the rest of the column.")
c("C18", "partial", [O+"recursive_skip_partial", O+"recursive_pred_wrong_row", O+"recursive_ignore_length"],
  "The code violates the claim: predictions use the features of an earlier valid row when start_with > 1.")
D = "Verif.CD."
c("C19", "proved", [D+t for t in ("cd_coord_min", "cd_sweep_le", "cd_loop_le", "cd_result_le", "cd_fixed_iff", "cd_bias_min", "cd_bias_sweep")],
  "Exact arithmetic.")
c("C55", "partial", [D+"cd_stop_gap_partial", D+"cd_bias_premature_stop"],
  "Holds without bias. With bias the stopping rule ignores the intercept and can stop far from a minimum.")
N = "Verif.NullPolicy."
c("C20", "partial", [N+"lstsq_pred_aligned_partial", N+"treats_total", N+"lstsq_pred_ignore_length", N+"multi_target_nulls", N+"policy_parse", N+"scored_row"],
  "Proved for raise, skip and fill. The code violates the claim for ignore: with a null anywhere the output has length one.")
c("C56", "partial", [N+"weighted_aligned_partial", N+"weighted_dropped_error"],
  "Holds when nothing is missing. As soon as a row is dropped the call fails, and a null weight panics.")
B = "Verif.LRObject."
c("C21", "partial", [B+t for t in ("set_get_predict_partial", "history_no_panic_partial", "set_bias_lost", "py_bias_none", "py_bias_en", "unfitted_bias_panics", "unfitted_no_bias", "rust_from_values_wrong")],
  "The code violates the claim: LR.bias() returns nothing, an unfitted object with a bias panics, a bias of at most machine epsilon is lost.")
c("C57", "partial", [B+"online_rebuild_partial", B+"online_rebuild_bias_rejected"],
  "Holds without bias; with a bias the right inverse is rejected.")
c("C22", "partial", ["Verif.Rcond."+t for t in ("rcond_directions", "rcond_cutoff_partial", "rcond_full", "rcond_cutoff_wrong")],
  "The code compares squared singular values with the threshold for singular values.")
c("C31", "proved", ["Verif.Convolve.convolve_modes", "Verif.Convolve.convolve_methods_agree"],
  "realfft is a contract: inverse(forward a * forward b) is n times the circular convolution. Exact arithmetic. The parallel branch of the direct method maps the same function over the same windows.")
c("C32", "proved", ["Verif.Combos.combinations_complete", "Verif.Combos.combinations_unique", "Verif.Combos.count_combinations_choose", "Verif.Combos.product_complete"],
  "itertools' combinations is modelled by its documented order. The capacity computation is modelled without wrap-around.")
c("C33", "partial", ["Verif.Split.split_ratio_partition_partial", "Verif.Split.split_ratio_fails_iff", "Verif.Split.split_ratios_disjoint_partial", "Verif.Split.split_ratios_lost", "Verif.Split.split_ratios_loses_row"],
  "No row is used twice. A single ratio keeps every row but fails if a part would be empty. A list of ratios loses rows unless every n*ratio is whole; the number lost is exact. n*ratio is exact in split_ratio_fails_iff and split_ratios_lost; the other theorems hold for every rounding.")
c("C34", "partial", ["Verif.StrSim.set_definitions_partial", "Verif.StrSim.similarity_range", "Verif.StrSim.similarity_symmetric", "Verif.StrSim.similarity_self", "Verif.StrSim.tversky_special", "Verif.StrSim.empty_string_nan"],
  "Everything holds except that an empty string gives NaN for all four functions.")
c("C35", "partial", ["Verif.StrMisc.nearest_first_min_partial", "Verif.StrMisc.nearest_null_slot"],
  "Proved for columns without nulls. The stored string of a null slot takes part in the search. rapidfuzz is a contract: the distance with a cut-off is the distance if it is at most the cut-off.")
c("C36", "proved", ["Verif.Stopword.table_sorted", "Verif.Stopword.is_stopword_iff", "Verif.Stopword.is_stopword_col", "Verif.Stopword.snowball_cases", "Verif.Stopword.binary_search_mem"],
  "The table is copied from the source. Rust's binary search is modelled as in the standard library.")
c("C40", "partial", ["Verif.Partition.partition_complete_partial", "Verif.Partition.partition_lossless_iff", "Verif.Partition.partition_separator_free", "Verif.Partition.partition_loses_rows_separator", "Verif.Partition.partition_loses_rows_null"],
  "Rows are lost exactly when two keys that occur have the same joined name; the separator inside a key or a null next to the string None are such cases.")
c("C47", "partial", ["Verif.StrMisc.pairwise_rows", "Verif.StrMisc.pairwise_scalar_repeat", "Verif.StrMisc.pairwise_null_scalar", "Verif.StrMisc.pairwise_first_not_scalar"],
  "Alignment, nulls and errors for every metric, number of workers and completion order. Scalar and repeated-column forms agree for symmetric metrics. A null scalar panics instead of giving nulls.")
c("C50", "proved", ["Verif.StrMisc.words_iff", "Verif.StrMisc.normalize_whitespace_words", "Verif.StrMisc.map_words_words", "Verif.StrMisc.map_words_empty", "Verif.StrMisc.remove_non_ascii_spec"],
  "For every notion of white space that contains the space.")
c("C58", "proved", ["Verif.Split.sample_size", "Verif.Split.downsample_exact", "Verif.Split.downsample_several", "Verif.Split.volume_neutral_equal"],
  "shuffle is an arbitrary permutation of the row numbers (per group where the code uses over). Conditions without nulls; volume_neutral without controls.")
c("C59", "partial", ["Verif.Split.random_cols_valid_partial", "Verif.Split.random_cols_seed_ignored", "Verif.Split.random_cols_keep_outside"],
  "Valid and reachable when keep is a set of existing columns. The seed is not used, and a kept column outside the list can make the call fail.")

c("C37","partial",["Verif.Psi.psi_counts_bins","Verif.Psi.custom_breakpoints_bins","Verif.Psi.psi_bin_nonneg","Verif.Psi.psi_report_nonneg","Verif.Psi.psi_report_shares","Verif.Psi.psi_baseline_bins","Verif.Psi.psi_panics_iff","Verif.Psi.psi_new_bins_partial","Verif.Psi.psi_constant_baseline_panics"],
  "psi() panics when a new value lies above the last observed break, for instance when the baseline is constant; in all other cases the bins, counts and signs are as claimed. psi_w_breakpoints has no such case.")
c("C38","proved",["Verif.LZ.complexity_parse","Verif.LZ.parse_unique","Verif.LZ.complexity_bounds"],
  "The count is kept in a u32; nulls are read as false.")
c("C39","partial",["Verif.Jaccard.jaccard_col_sets_partial","Verif.Jaccard.jaccard_row_sets","Verif.Jaccard.jaccard_laws","Verif.Jaccard.jaccard_count_null_wrong","Verif.Jaccard.jaccard_null_slot_counted"],
  "Columns with nulls are wrong (count_null gives 3 or infinity for equal columns; the value stored under a null is counted). Two empty sets give NaN.")
c("C41","partial",["Verif.Benford.leading_unique","Verif.Benford.int_index_leading","Verif.Benford.float_index_leading","Verif.Benford.benford_int_counts_partial","Verif.Benford.benford_float_counts_partial","Verif.Benford.benford_null_counted"],
  "Null slots are counted under the value stored there. The decimal text of a float is a contract.")
c("C42","partial",["Verif.GcdLcm.gcd_correct","Verif.GcdLcm.lcm_correct","Verif.GcdLcm.gcd_mul_lcm","Verif.GcdLcm.lcm_wraps","Verif.GcdLcm.binary_rows","Verif.GcdLcm.binary_scalar","Verif.GcdLcm.columns_value"],
  "gcd of -2^31 with itself or zero wraps to -2^31; lcm wraps silently; a null scalar panics. The num crate is a contract.")
c("C43","partial",["Verif.Chi2.chi2_textbook_partial","Verif.Chi2.chi2_expected_sum","Verif.Chi2.chi2_nonneg_zero","Verif.Chi2.chi2_null_nan"],
  "Any null in either column gives NaN; without nulls the claim holds in full. The p-value is C109.")
c("C44","partial",["Verif.FTest.ss_decomposition","Verif.FTest.f_test_textbook_partial","Verif.FTest.f_test_null_value","Verif.FTest.f_test_null_key"],
  "Null values and null group keys distort the statistic; without nulls the claim holds in full. The p-value is C137.")
c("C45","proved",["Verif.Woe.counts_events","Verif.Woe.shares_formula","Verif.Woe.iv_nonneg","Verif.Woe.woe_order","Verif.Woe.shares_sum"],
  "Arithmetic over the reals. The shares add up to 1 only with two categories (shares_sum).")
c("C46","proved",["Verif.Woe.alpha_mem","Verif.Woe.encode_between","Verif.Woe.encode_monotone","Verif.Woe.encoded_iff"],
  "Arithmetic over the reals.")
c("C60","partial",["Verif.Psi.psi_discrete_formula_partial","Verif.Psi.psi_discrete_zero_partial","Verif.Psi.psi_discrete_null"],
  "The join does not match null keys, so a null category appears twice; without nulls the claim holds.")
c("C61","partial",["Verif.Woe.woe_non_finite_fails","Verif.Woe.counts_events"],
  "False: the feature is filtered but the target is not, so any such value is a length error. Without such values the report is as claimed.")
c("C62","partial",["Verif.Woe.encode_null_missing","Verif.Woe.encoded_iff"],
  "False: rows with a null category are dropped; exactly the non-null categories are encoded.")

c("C48","partial",["Verif.Subseq.similar_count_l2","Verif.Subseq.similar_count_zl2_partial","Verif.Subseq.similar_count_rejects","Verif.Subseq.ratio_windows","Verif.Subseq.zl2_long_query"],
  "Holds except that the parallel z-normalised count panics when the query is longer than the target by two or more (the sequential one answers 0).")
c("C49","partial",["Verif.Entropy.template_counts","Verif.Entropy.template_nan_iff","Verif.Entropy.approx_entropy_value","Verif.Entropy.sample_entropy_pairs_partial","Verif.Entropy.sample_entropy_wraps","Verif.Entropy.sample_entropy_wrong","Verif.Entropy.sample_entropy_tiny_radius","Verif.Entropy.null_radius","Verif.Entropy.sample_entropy_args"],
  "The per-template counts are exact. Sample entropy adds them in u32, which wraps from 65538 rows on; a radius up to machine epsilon gives a value that does not depend on the data.")
c("C63","proved",["Verif.Entropy.knn_entropy_distances"],
  "The final formula (digamma, volume of the ball) is C142.")
c("C64","partial",["Verif.Weighted.weighted_mean_balance", "Verif.Weighted.weighted_mean_between", "Verif.Weighted.weighted_mean_normalized", "Verif.Weighted.weighted_mean_expand", "Verif.Weighted.weighted_var_expand", "Verif.Weighted.weighted_cov_cauchy", "Verif.Weighted.weighted_corr_wrong", "Verif.Weighted.weighted_corr_out_of_range", "Verif.Weighted.weighted_corr_partial", "Verif.Weighted.weighted_cosine_range", "Verif.Weighted.weighted_cosine_self", "Verif.Weighted.cosine_sim_scaled", "Verif.Weighted.cosine_sim_wrong", "Verif.Weighted.cosine_sim_partial", "Verif.Weighted.weighted_hmean_ignores_data", "Verif.Weighted.weighted_hmean_wrong", "Verif.Weighted.weighted_hmean_partial", "Verif.Weighted.weighted_gmean_bounds", "Verif.Weighted.hmean_gmean_mean", "Verif.Weighted.weighted_mean_null_wrong"],
  "Means, variance, covariance and weighted cosine hold on null-free columns. weighted_corr, cosine_sim and weighted_hmean return other quantities; a null value keeps its weight in the denominator.")
c("C65","proved",["Verif.Weighted.bicor_range", "Verif.Weighted.bicor_self", "Verif.Weighted.bicor_value"],
  "The median and the median absolute deviation are parameters.")
c("C66","partial",["Verif.TTest.one_sided_sum", "Verif.TTest.two_sided_double", "Verif.TTest.pOf_neg", "Verif.TTest.t_test_eq_f_test", "Verif.TTest.welch_correct", "Verif.TTest.welch_swap", "Verif.TTest.welch_small_panics", "Verif.TTest.one_sample_correct", "Verif.TTest.student_equal_counts_partial", "Verif.TTest.student_unequal_wrong", "Verif.TTest.alternative_unknown", "Verif.BetaTail.student_p_value_partial"],
  "With equal_var=True the count of the first column is used for both, so unequal numbers of values give another statistic. The p-values as tail probabilities are C136; student_p_value_partial is that for equal_var=True with equal numbers of values.")
c("C67","partial",["Verif.Xi.xi_correct", "Verif.Xi.xi_range", "Verif.Xi.xi_untied", "Verif.Xi.xi_untied_max", "Verif.Xi.xi_monotone", "Verif.Xi.xi_invariant", "Verif.Xi.xi_seed_irrelevant", "Verif.Xi.xi_null_wrong"],
  "Everything holds on null-free rows; a null y counts as a row and cuts the chain of differences. The p-value is C135.")
c("C68","proved",["Verif.CondEntropy.cond_entropy_chain", "Verif.CondEntropy.cond_entropy_nonneg", "Verif.CondEntropy.cond_entropy_zero_iff", "Verif.CondEntropy.cond_entropy_le", "Verif.CondEntropy.dependency_order", "Verif.CondEntropy.combos_cover"],
  "Exact real arithmetic; the warnings and dtype filter of infer_dependency are not modelled.")
c("C69","proved",["Verif.Fft.rfft_correct", "Verif.Fft.rfft_rejects"],
  "The realfft crate is used through its documented contract (leading N/2+1 coefficients). Empty input is excluded.")
c("C70","partial",["Verif.Haversine.hav_eq_angle", "Verif.Haversine.hav_symm", "Verif.Haversine.hav_range", "Verif.Haversine.hav_zero_iff", "Verif.Haversine.hav_triangle", "Verif.Haversine.hav_turn", "Verif.Haversine.haversine_rows", "Verif.Haversine.haversine_broadcast", "Verif.Haversine.haversine_scalar_null"],
  "The distance is proved in full; a scalar null y panics and a scalar x is rejected.")
c("C71","partial",["Verif.Metrics.loss_totals", "Verif.Metrics.loss_means_partial", "Verif.Metrics.l1_counts_unscored", "Verif.Metrics.loss_understated"],
  "The sums are exact; the normalised losses divide by the number of known actuals, so the claim is proved when every known actual has a prediction and refuted otherwise (the loss is then understated).")
c("C72","proved",["Verif.Metrics.l1_sq_le_l2", "Verif.Metrics.lInf_bounds", "Verif.Metrics.lInf_none", "Verif.Metrics.huber_between", "Verif.Metrics.logCosh_between", "Verif.Metrics.loss_zero_iff", "Verif.Metrics.loss_symm"],
  "Over the reals (exact arithmetic).")
c("C73","partial",["Verif.Metrics.r2_value_partial", "Verif.Metrics.r2_le_one", "Verif.Metrics.r2_mean_prediction", "Verif.Metrics.r2_constant", "Verif.Metrics.r2_null_pred", "Verif.Metrics.adjR2_overstated"],
  "The adjusted version violates the claim for every imperfect fit; R2 violates it with null predictions.")
c("C74","partial",["Verif.Metrics.smape_unit_partial", "Verif.Metrics.smape_value", "Verif.Metrics.smape_zero_row", "Verif.Metrics.mape_value", "Verif.Metrics.wmape_value"],
  "sMAPE is NaN as soon as one row has actual and prediction zero.")
c("C75","proved",["Verif.Metrics.logLoss_value", "Verif.Metrics.logLoss_zero", "Verif.Metrics.logLoss_best_constant"],
  "Over the reals; a label given probability zero (infinite loss) is outside the model.")
c("C76","partial",["Verif.Metrics.fairness_value", "Verif.Metrics.fairness_symm", "Verif.Metrics.pPct_unit_partial", "Verif.Metrics.pPct_nan", "Verif.Metrics.pPct_symm"],
  "The p-percent score is NaN for two groups without any positive prediction, the perfectly fair case.")
c("C77","partial",["Verif.Ndcg.ideal_is_max", "Verif.Ndcg.ndcg_unit", "Verif.Ndcg.ndcg_perfect", "Verif.Ndcg.ties_value", "Verif.Ndcg.ties_order_free", "Verif.Ndcg.modes_agree", "Verif.Ndcg.sequential_order_free", "Verif.Ndcg.sequential_order_matters", "Verif.Ndcg.group_col_ignored", "Verif.Ndcg.calculate_mean_partial", "Verif.Ndcg.zero_cutoff"],
  "The group column must be called example_id, the default mode depends on the sort's tie order, and k = 0 means no limit.")
c("C78","proved",["Verif.NumExpr.expit_spec", "Verif.NumExpr.logit_expit", "Verif.NumExpr.expit_logit", "Verif.NumExpr.logit_edges"],
  "Exact reals, not rounded.")
c("C79","partial",["Verif.NumExpr.trunc_fract_spec", "Verif.NumExpr.fract_rows_partial", "Verif.NumExpr.fract_loses_nulls"],
  "Holds except that fract of an integer column turns nulls into zeros.")
c("C80","proved",["Verif.NumExpr.sinc_spec", "Verif.NumExpr.sinc_zero"],
  "At zero the exact-real value is within 1e-39 of one.")
c("C81","proved",["Verif.NumExpr.horizontal_norms", "Verif.NumExpr.horizontal_norm_order"],
  "")
c("C82","partial",["Verif.NumExpr.monotone_checks_partial", "Verif.NumExpr.monotone_checks_null"],
  "Holds without nulls; a null between two values hides their order.")
c("C83","partial",["Verif.NumExpr.center_spec", "Verif.NumExpr.mad_spec", "Verif.NumExpr.z_normalize_spec", "Verif.NumExpr.z_normalize_constant", "Verif.NumExpr.softmax_partial", "Verif.NumExpr.softmax_overflow"],
  "Softmax has no maximum subtraction: in floating point it is NaN once a value exceeds the overflow threshold of exp. `query_mad(use_mean=False)` is C131.")
c("C84","partial",["Verif.NumExpr.detrend_linear_partial", "Verif.NumExpr.detrend_null_error", "Verif.NumExpr.detrend_single"],
  "Holds without nulls from two rows on. A null makes the index column too short (shape error); a single row gives null instead of 0.")
c("C85","partial",["Verif.Pca.singular_values_total", "Verif.Pca.components_orthogonal", "Verif.Pca.components_optimal", "Verif.Pca.principal_components_partial", "Verif.Pca.principal_components_wide", "Verif.Pca.explained_var_wrong", "Verif.Pca.explained_var_single", "Verif.Pca.explained_ratio", "Verif.Pca.centered_clean", "Verif.Pca.centering_null_wrong"],
  "The decomposition itself (faer) is a contract. The explained variance divides by the number of features minus one; nulls break the centering; more features than rows panics.")
c("C86","partial",["Verif.TsFeat.longest_streak", "Verif.TsFeat.avg_streak", "Verif.TsFeat.avg_le_longest", "Verif.TsFeat.streak_runs", "Verif.TsFeat.streak_not_full_column"],
  "`query_streak` returns one row per run, false runs included, not a full column.")
c("C87","partial",["Verif.TsFeat.tras_reverse", "Verif.TsFeat.tras_value", "Verif.TsFeat.c3_value_partial", "Verif.TsFeat.c3_reverse", "Verif.TsFeat.c3_short", "Verif.TsFeat.c3_null_counted", "Verif.TsFeat.auto_corr_reverse", "Verif.TsFeat.auto_corr_value", "Verif.TsFeat.auto_corr_zero", "Verif.TsFeat.auto_corr_bound_partial", "Verif.TsFeat.auto_corr_exceeds_one", "Verif.TsFeat.auto_corr_nan", "Verif.TsFeat.auto_corr_affine"],
  "The autocorrelation is bounded by n/(n - lag), not by 1, and does exceed 1; c3 divides by the number of rows including nulls and wraps around for series shorter than two lags.")
c("C88","proved",["Verif.TsFeat.mean_abs_change_value", "Verif.TsFeat.mean_abs_change_bound", "Verif.TsFeat.abs_energy", "Verif.TsFeat.cid_value", "Verif.TsFeat.cid_zero_iff", "Verif.TsFeat.cid_affine", "Verif.TsFeat.cid_reverse", "Verif.TsFeat.cid_norm_affine"],
  "Exact arithmetic.")
c("C89","partial",["Verif.TsFeat.mean_n_abs_max", "Verif.TsFeat.mean_n_abs_max_edges", "Verif.TsFeat.mid_range", "Verif.TsFeat.range_count", "Verif.TsFeat.range_count_split", "Verif.TsFeat.count_uniques", "Verif.TsFeat.count_uniques_not_distinct"],
  "`query_count_uniques` counts values that occur exactly once.")
c("C90","proved",["Verif.PermEntropy.query_entropy_value", "Verif.PermEntropy.query_entropy_range"],
  "`normalize=False` is not covered.")
c("C91","partial",["Verif.PermEntropy.permute_entropy_monotone", "Verif.PermEntropy.permute_entropy_args", "Verif.PermEntropy.permute_entropy_range", "Verif.PermEntropy.permute_entropy_increasing_partial", "Verif.PermEntropy.permute_entropy_delay_null", "Verif.PermEntropy.permute_entropy_delay_ignored"],
  "Monotone series give 0 for tau = 1 only; for tau > 1 the windows consist of neighbors, start every tau rows, and the last ones contain nulls from beyond the end.")
c("C92","proved",["Verif.TsFeat.ar_rows", "Verif.TsFeat.ar_optimal", "Verif.TsFeat.ar_lag_zero", "Verif.TsFeat.ar_recovers", "Verif.TsFeat.ar_recovers_bias"],
  "Null policies are those of C20 and not repeated; the linear solver is the contract of C12.")
c("C93","proved",["Verif.PermEntropy.rank_feature_monotone", "Verif.PermEntropy.rank_feature_range", "Verif.PermEntropy.rank_feature_value", "Verif.PermEntropy.copula_monotone", "Verif.PermEntropy.transfer_rows", "Verif.PermEntropy.transfer_entropy_value"],
  "The KNN entropy of the features is a parameter here (see C63).")
c("C94","proved",["Verif.Pipeline.transform_training", "Verif.Pipeline.transform_separate"],
  "Polars' frame operations are as stated in Model/Pipeline.lean; SQL steps are assumed to return frames with distinct column names.")
c("C95","proved",["Verif.Pipeline.transform_rowwise", "Verif.Pipeline.transform_batches", "Verif.Transforms.builtin_fits", "Verif.Transforms.builtin_rowwise"],
  "A user expression that looks at other rows (an aggregate in `append_expr`) is outside; such steps are excluded by hypothesis.")
c("C96","partial",["Verif.Pipeline.excluded_kept", "Verif.Pipeline.target_kept", "Verif.Pipeline.convert_changes_target", "Verif.Pipeline.one_hot_drops_target"],
  "Holds for fitted steps; `cast_bools`, `nan_to_null`, `int_to_float` and the drop after `one_hot_encode` ignore the exclusions.")
c("C97","partial",["Verif.Pipeline.step_round_trip", "Verif.Pipeline.json_round_trip", "Verif.Pipeline.append_expr_step", "Verif.Pipeline.select_names_rejected"],
  "Polars' expression serialisation is a contract (`Codec`); the round trip is proved, the documented inputs of `select` are not all accepted.")
c("C98","partial",["Verif.Pipeline.ensure_in_iff", "Verif.Pipeline.ensure_in_training_partial", "Verif.Pipeline.ensure_in_lowercase"],
  "Fails with `lowercase=True` or `uppercase=True`: the recorded names are the renamed ones but the check is made before renaming.")
c("C99","partial",["Verif.Pipeline.rename_partial", "Verif.Pipeline.rename_loses"],
  "Holds when the new names are new; swaps, chains and identities lose columns.")
c("C100","partial",["Verif.Transforms.impute_mean", "Verif.Transforms.impute_median", "Verif.Transforms.conditional_impute_mean", "Verif.Transforms.impute_fails"],
  "`mode` raises on every frame, and so does any statistic of a column without a known value.")
c("C101","proved",["Verif.Transforms.center_value", "Verif.Transforms.center_mean_zero", "Verif.Transforms.center_null", "Verif.Transforms.scale_standard_value", "Verif.Transforms.scale_standard_moments", "Verif.Transforms.scale_standard_constant", "Verif.Transforms.scale_min_max_value", "Verif.Transforms.scale_min_max_range", "Verif.Transforms.scale_min_max_constant", "Verif.Transforms.scale_abs_max_value", "Verif.Transforms.scale_abs_max_range"],
  "Exact arithmetic; the square root is any function with sqrt(x)^2 = x on non-negative x.")
c("C102","proved",["Verif.Transforms.quantiles_checked", "Verif.Transforms.robust_scale_value", "Verif.Transforms.winsorize_value"],
  "Polars' `quantile` is a parameter of the model.")
c("C103","partial",["Verif.Transforms.levels_spec", "Verif.Transforms.one_hot_indicators", "Verif.Transforms.one_hot_exactly_one", "Verif.Transforms.one_hot_single", "Verif.Transforms.one_hot_loses_flag", "Verif.Transforms.one_hot_names_collide"],
  "Columns with a single distinct value are not encoded (and then dropped); generated names may collide with each other or with existing columns.")
c("C104","proved",["Verif.Transforms.rank_hot_value"],
  "")
c("C105","partial",["Verif.Transforms.encode_value", "Verif.Transforms.default_values", "Verif.Transforms.encode_tables", "Verif.Transforms.encode_null_default"],
  "The number learned for null is never used: `replace_strict` maps null to the default. `iv_encode` uses the same code path with another table.")
c("C106","proved",["Verif.Transforms.combs_multisets", "Verif.Transforms.polynomial_features"],
  "`interaction_only` keeps a*a*b, a reading of the name that the documentation allows.")
c("C107","proved",["Verif.Transforms.linear_impute_value"],
  "The coefficients are those of the least squares of C12, here any function; a null feature counts as 0 in the prediction because `sum_horizontal` skips nulls.")
c("C108","partial",["Verif.NormalTest.skew_value", "Verif.NormalTest.skew_order", "Verif.NormalTest.kurt_value_partial", "Verif.NormalTest.kurt_order", "Verif.NormalTest.kurt_sign_lost", "Verif.NormalTest.kurt_negative", "Verif.NormalTest.normal_value_partial", "Verif.NormalTest.normal_edges", "Verif.NormalTest.normal_affine", "Verif.NormalTest.normal_perm"],
  "Real arithmetic. The kurtosis part holds where the denominator under the cube root is positive, which is shown for every kurtosis from the expected one on; where it is negative the code drops the sign and the statistic is proved to be another number.")
c("C109","partial",["Verif.Gamma.chi2_even", "Verif.Gamma.chi2_tail", "Verif.Gamma.chi2_body", "Verif.Gamma.chi2_any_tail", "Verif.Gamma.chi2_any", "Verif.Gamma.chi2_tiny_wrong", "Verif.Gamma.chi2_edge", "Verif.Gamma.lower_add_upper"],
  "Real arithmetic; `ln_gamma` is the code's own approximation (C140). Proved for every number of degrees of freedom and every statistic from 3e-15 on. The code violates the claim for odd degrees of freedom below that: a statistic below 2.2e-15 gives exactly 1, off by 3e-8 for one degree of freedom (chi2_tiny_wrong).")
c("C110","partial",["Verif.Random.random_range", "Verif.Random.random_seeded", "Verif.Random.random_prefix", "Verif.Random.random_int_range", "Verif.Random.random_str_range", "Verif.Random.random_exp_range", "Verif.Random.random_exp_negative", "Verif.Random.random_normal_scale", "Verif.Random.plugin_binomial_range", "Verif.Random.seeded_all", "Verif.Random.random_binomial_fails", "Verif.Random.random_int_expr", "Verif.Random.random_int_bounds", "Verif.Random.random_str_dtype", "Verif.Random.random_successive"],
  "What the distributions of rand and rand_distr return is a contract (`Lawful`). `random_binomial` never succeeds; expression or integer arguments allowed by the signatures fail; the string plugin declares the wrong type.")
c("C111","partial",["Verif.Random.perturb_range", "Verif.Random.perturb_other", "Verif.Random.perturb_zero", "Verif.Random.jitter_scale", "Verif.Random.jitter_rejects", "Verif.Random.random_null_rows", "Verif.Random.random_null_only_removes", "Verif.Random.random_null_pct"],
  "Arithmetic of an ordered field (no rounding). `perturb(epsilon=0)` panics; an integer `std` for `jitter` raises.")
c("C112","proved",["Verif.Snowball.stem_eq_porter2", "Verif.Snowball.snowball_eq", "Verif.Snowball.parsesF64_iff", "Verif.Snowball.infinity_stems_to_nothing", "Verif.Snowball.stem_length", "Verif.Snowball.snowball_col"],
  "The specification (Verif/Spec/Porter2.lean) is the Porter2 algorithm on lists of characters. Rust's f64 parser is represented by its documented grammar. The documentation says numbers become empty; the code also empties the words inf, infinity and nan (infinity_stems_to_nothing).")
c("C113","partial",["Verif.LrReport.report_coefficients", "Verif.LrReport.report_std_err", "Verif.LrReport.report_hc0_hc1", "Verif.LrReport.report_hc3_hc2", "Verif.LrReport.report_hc3_isolated", "Verif.LrReport.report_inference", "Verif.LrReport.report_panics_iff", "Verif.LrReport.report_r2", "Verif.LrReport.report_adj_r2", "Verif.LrReport.report_constant_is_ttest", "Verif.LrReport.report_r2_constant", "Verif.LrReport.report_fields", "Verif.LrReport.report_names", "Verif.LrReport.report_kind"],
  "Coefficients, the five standard errors, t, p and the intervals are proved. The code violates the rest: r2 and adj_r2 are wrong on all data that is not fitted perfectly (report_r2, report_adj_r2), a saturated model panics, HC2/HC3 are lost with a row of leverage one, and the struct has an undeclared field name for HC errors. ppf (the t quantile) is a parameter here, see C141; p as a tail probability is C136.")
c("C114","partial",["Verif.LrReport.wls_coefficients", "Verif.LrReport.wls_is_scaled_ols", "Verif.LrReport.wls_dropped_row_panics"],
  "Equality with the scaled report is proved for every column but r2 and adj_r2, which the code computes from unweighted residuals. The code panics when a row is dropped or a weight is null (wls_dropped_row_panics).")
c("C115","partial",["Verif.SimpleLr.simple_fit_bias_optimal", "Verif.SimpleLr.simple_fit_bias_isSome", "Verif.SimpleLr.simple_fit_plain_optimal", "Verif.SimpleLr.simple_preds", "Verif.SimpleLr.simple_null_target_shrinks", "Verif.SimpleLr.simple_nulls_wrong"],
  "Proved (unique optimum, existence, predictions) for data in which each row is complete or null in all columns. The code violates the claim when only one of the columns is null in a row (simple_null_target_shrinks, simple_nulls_wrong).")
c("C116","partial",["Verif.KDT.tree_within_exact", "Verif.KDT.tree_within_empty", "Verif.KDT.tree_within_size", "Verif.KDT.tree_within_single_none", "Verif.KDT.tree_knn_order", "Verif.KDT.tree_within_no_rows"],
  "Exactness proved for a number and for one radius per row; the code violates the claim for an array of one radius (returns None) and returns distances before row numbers in knn (tree_within_single_none, tree_knn_order).")
c("C117","partial",["Verif.KnnPoint.within_dist_from_exact_partial", "Verif.KnnPoint.is_knn_from_exact_partial", "Verif.KnnPoint.is_knn_from_l2", "Verif.KnnPoint.pt_checks", "Verif.KnnPoint.within_dist_from_l2", "Verif.KnnPoint.within_dist_from_null", "Verif.KnnPoint.within_dist_from_l2_wrong", "Verif.KnnPoint.pt_null_wrong"],
  "Proved for complete rows and all metrics but l2 in within_dist_from; the code violates the claim for within_dist_from with l2 (squared distance compared with the radius) and for rows with nulls (a null counts as the coordinate of the point).")
c("C118","partial",["Verif.KDT.radius_ptwise_exact", "Verif.KDT.radius_ptwise_rejects", "Verif.KDT.radius_freq_cnt_plus_one", "Verif.KDT.knn_freq_cnt_counts", "Verif.KDT.radius_null_never", "Verif.KDT.radiusSmall_complete", "Verif.KDT.radius_inf_null_neighbor", "Verif.KDT.radius_freq_self", "Verif.KDT.knn_freq_self", "Verif.KDT.radius_nan_exact"],
  "Lists proved exact on complete frames. The code violates the claim: both counts include the row itself, and with dist=inf a row with a null is a neighbor (its missing coordinate is skipped). Frames with nulls of any size are covered for the other metrics by radius_nan_exact (claim C152).")
c("C119","partial",["Verif.EditDist.str_leven_least", "Verif.EditDist.least_edits_laws", "Verif.EditDist.filter_by_levenshtein_partial", "Verif.EditDist.filter_by_levenshtein_neg", "Verif.EditDist.filter_by_levenshtein_neg_wrong", "Verif.EditDist.str_leven_sim_unit", "Verif.EditDist.str_osa_least", "Verif.EditDist.str_osa_no_triangle", "Verif.EditDist.str_osa_sim_unit", "Verif.EditDist.str_lcs_seq_exact", "Verif.EditDist.str_fuzz_exact", "Verif.EditDist.str_hamming_exact", "Verif.EditDist.str_hamming_padded_exact", "Verif.EditDist.filter_by_hamming_exact", "Verif.EditDist.filter_by_hamming_neg"],
  "The distances of the rapidfuzz crate are modelled by their textbook recursions, not its bit-parallel code. A negative bound of filter_by_levenshtein is read as its absolute value, so the claim fails for it.")
c("C120","partial",["Verif.StrExpr.similar_to_vocab_partial", "Verif.StrExpr.similar_to_vocab_order", "Verif.StrExpr.similar_to_vocab_jw", "Verif.StrExpr.similar_to_vocab_null", "Verif.StrExpr.similar_to_vocab_names", "Verif.StrExpr.similar_to_vocab_osa_partial"],
  "Proved for lv and present strings. The code violates the claim for metric jw (raises TypeError) and for nulls with avg (counts as similarity 0).")
c("C121","partial",["Verif.StrExpr.tokenize_stem_all", "Verif.StrExpr.tokenize_stem_wrong", "Verif.StrExpr.extract_numbers_cut", "Verif.StrExpr.extract_numbers_separate", "Verif.StrExpr.extract_numbers_number", "Verif.StrExpr.extract_numbers_list", "Verif.StrExpr.extract_numbers_sign", "Verif.StrExpr.extract_numbers_sign_wrong", "Verif.StrExpr.extract_numbers_join", "Verif.StrExpr.extract_numbers_joined", "Verif.StrExpr.collapse_spaces", "Verif.StrExpr.collapse_spaces_words", "Verif.StrExpr.collapse_spaces_ends", "Verif.StrExpr.replace_non_ascii_spec", "Verif.StrExpr.remove_diacritics_ascii"],
  "Proved for unsigned numbers, whitespace and ASCII cleaning. The code violates the claim: stems are not unique and stop words become empty strings; signs are dropped; only_spaces keeps a space at the ends. The canonical decomposition is a parameter.")
c("C122","partial",["Verif.EntryPoints.call_runs_iff", "Verif.EntryPoints.entry_points_partial", "Verif.EntryPoints.entry_points_exact", "Verif.EntryPoints.str_lcs_seq_no_symbol", "Verif.EntryPoints.random_binomial_bad_arg", "Verif.EntryPoints.single_precision_twins", "Verif.EntryPoints.rows_announced_partial", "Verif.EntryPoints.rows_announced_wrong"],
  "Proved for all calls but two, and for all row counts but those of four calls. The code violates the claim: str_lcs_seq with its default return_sim=True asks for a symbol that does not exist, random_binomial passes 32 bit signed integers where unsigned ones are read; mann_whitney_u, lin_reg_w_rcond, query_tpr_fpr and lin_reg with several targets return other row counts than announced. The tables are read off the sources; arguments whose type is the user's column count as right.")
c("C123","partial",["Verif.Schema.schema_partial", "Verif.Schema.schema_exact", "Verif.Schema.float_functions", "Verif.Schema.float_functions_names", "Verif.Schema.report_schema", "Verif.Schema.tpr_fpr_schema", "Verif.Schema.components_schema", "Verif.Schema.multi_pred_schema"],
  "Proved for all exported functions but 23, and the list is proved exact: each of them announces another type on some inputs. For integer columns, robust standard errors and ROC tables the exact condition is proved.")
c("C124","partial",["Verif.Dia.infer_k_distinct_spec", "Verif.Dia.infer_k_distinct_raises", "Verif.Dia.infer_const_binary", "Verif.Dia.infer_k_distinct_unique", "Verif.Dia.infer_binary_null", "Verif.Dia.infer_high_null_partial", "Verif.Dia.infer_high_null_wrong", "Verif.Dia.infer_discrete_partial", "Verif.Dia.infer_discrete_wrong", "Verif.Dia.infer_prob_exact", "Verif.Dia.infer_prob_partial", "Verif.Dia.infer_prob_wrong", "Verif.Dia.cache_partial", "Verif.Dia.cache_wrong"],
  "infer_k_distinct, infer_const, infer_binary proved in full. The code violates the rest: infer_high_null includes the exact threshold, infer_discrete drops boolean and categorical columns, infer_prob looks at the first row of a list column only, and the cached list is handed out itself, so a caller changing it changes later answers.")
c("C125","partial",["Verif.Dia.row_validation_rows", "Verif.Dia.row_validation_raises", "Verif.Dia.row_validation_sorted", "Verif.Dia.row_validation_reason", "Verif.Dia.row_validation_all_exact", "Verif.Dia.row_validation_all_partial", "Verif.Dia.row_validation_all_wrong", "Verif.Dia.col_validation_partial", "Verif.Dia.col_validation_wrong"],
  "Proved for the rows, the single reason, and all reasons where no rule is null. The code violates the claim for all_reasons with nulls (null rules are listed as violated) and for two column rules on one column (an error).")
c("C126","proved",["Verif.Dia.null_corr_pairs", "Verif.Dia.null_corr_values", "Verif.Dia.null_corr_sorted"],
  "Over the reals, not floating point; Pearson's correlation is polars code, modelled by its formula.")
c("C127","proved",["Verif.Dia.plot_sound", "Verif.Dia.plot_complete", "Verif.Dia.plot_least", "Verif.Dia.plot_order_wrong"],
  "For dependencies that are not transitive (threshold above zero) the drawn edges depend on the order of rows (plot_order_wrong), paths remain.")
c("C128","partial",["Verif.Dia.special_values_total", "Verif.Dia.histogram_total", "Verif.Dia.histogram_no_empty", "Verif.Dia.histogram_length", "Verif.Dia.histogram_partial", "Verif.Dia.histogram_wrong", "Verif.Dia.outliers_mono"],
  "The histogram is proved right when no bin is empty and no value is within 1e-5 above the last cut; totals and the bound on bars always. The code violates the claim otherwise: empty bins are left out, and the last cut is moved.")
c("C129","partial",["Verif.MultiMetrics.multi_auc_partial", "Verif.MultiMetrics.multi_auc_bounds", "Verif.MultiMetrics.multi_auc_absent", "Verif.MultiMetrics.multi_auc_wrong", "Verif.MultiMetrics.two_class_auc", "Verif.MultiMetrics.gini_partial", "Verif.MultiMetrics.gini_undefined"],
  "Proved where every class has a row and no class shares its top score with a row of another label. The code violates the rest: it inherits the wrong AUC at a shared top score (C27), and a class without a row makes both averages NaN even though its weight is 0.")
c("C130","partial",["Verif.MultiMetrics.cross_entropy_value", "Verif.MultiMetrics.cross_entropy_nonneg", "Verif.MultiMetrics.cross_entropy_one_hot", "Verif.MultiMetrics.cross_entropy_out_of_range", "Verif.MultiMetrics.cross_entropy_negative", "Verif.MultiMetrics.cross_entropy_null_pred"],
  "Proved for complete rows with positive probabilities, over the reals. The code violates the last two parts: a label -1 silently stands for the last class, and a row with null predictions counts in the denominator, so the loss is understated.")
c("C131","partial",["Verif.MultiMetrics.mase_freq", "Verif.MultiMetrics.mase_value", "Verif.MultiMetrics.mase_naive", "Verif.MultiMetrics.mase_scale", "Verif.MultiMetrics.mad_value", "Verif.MultiMetrics.mad_majority", "Verif.MultiMetrics.mase_int_train"],
  "Over the reals, training values without nulls. Missing: a training loss given as a Python int is not taken as a number but as a column of one row, and the result is null (mase_int_train).")
c("C132","partial",["Verif.LrFrame.fit_df_rows", "Verif.LrFrame.fit_df_raise", "Verif.LrFrame.bad_policy", "Verif.LrFrame.fit_rows_partial", "Verif.LrFrame.fit_raise", "Verif.LrFrame.fit_inf_changed", "Verif.LrFrame.df_np_agree", "Verif.LrFrame.fit_df_same_rows", "Verif.LrFrame.fit_fill_inf"],
  "Proved in full for frames. For matrices the filling policies are as documented exactly if no row with a target has an infinite feature: numpy's nan_to_num also replaces infinities by the largest finite floats (fit_inf_changed).")
c("C133","partial",["Verif.LrFrame.predict_df_partial", "Verif.LrFrame.predict_df_predict", "Verif.LrFrame.predict_df_null", "Verif.LrFrame.predict_df_short", "Verif.LrFrame.fit_df_state", "Verif.LrFrame.fit_df_failed_partial", "Verif.LrFrame.fit_df_failed_names", "Verif.LrFrame.own_names_lost", "Verif.LrFrame.report_raises", "Verif.LrFrame.fit_df_fit", "Verif.LrFrame.fit_state", "Verif.LrFrame.fit_df_names"],
  "Proved for complete rows and matching names. The code violates the rest: null features are counted as 0, surplus coefficients are left out silently, a fit that fails in the solver has already replaced the names, passing the object's own name list empties it, and show_report raises on nulls under every null policy.")
c("C134","partial",["Verif.Normal.sf_accuracy", "Verif.Normal.sf_abs", "Verif.Normal.sf_far", "Verif.Normal.sf_range", "Verif.Normal.sf_pos", "Verif.Normal.sf_reflect", "Verif.Normal.sf_mean", "Verif.Normal.sf_antitone_partial", "Verif.Normal.sf_not_antitone", "Verif.Normal.sf_error_large"],
  "Proved against Mathlib's Gaussian measure: relative error at most 1.04e-10 of the smaller tail, absolute error at most 5.21e-11, exact reflection, range, positivity. The precision expected of a double and monotonicity fail: the branch constants are cut after ten digits, so the relative error reaches 1.02e-10 (sf_error_large) and the function jumps up at z = 2.25 (sf_not_antitone).")
c("C135","partial",["Verif.MWU.mwu_swap", "Verif.MWU.mwu_invariant", "Verif.MWU.mwu_var_pos", "Verif.MWU.mwu_variance_partial", "Verif.NormalP.mwu_p_range", "Verif.NormalP.mwu_p_swap", "Verif.NormalP.mwu_p_partial", "Verif.NormalP.mwu_p_empty_wrong", "Verif.NormalP.mwu_p_wrong", "Verif.NormalP.xi_p_value", "Verif.NormalP.xi_p_zero", "Verif.NormalP.xi_p_nan"],
  "xi: proved in full up to 1.05e-10. Mann-Whitney: proved up to 1.05e-10 when the largest pooled value occurs once; with a tied largest value the p-value is wrong (too large by more than 0.008 for 1,1 against 0,0) and an empty sample gives p = 0.")
c("C136","proved",["Verif.BetaTail.t_density", "Verif.BetaTail.t_p_value", "Verif.BetaTail.one_sample_p_value", "Verif.BetaTail.welch_df", "Verif.BetaTail.welch_p_value", "Verif.BetaTail.report_p_value", "Verif.BetaTail.wls_report_p_value"],
  "Over the reals, with the code's own ln_gamma (C140); the 140 rounds, the stopping test and the clamps of the continued fraction are those of the code. The exponential of a difference of logarithms loses digits in doubles for large degrees of freedom; that is not modelled. An infinite df does not occur on these paths.")
c("C137","partial",["Verif.BetaTail.f_density", "Verif.BetaTail.f_bounds", "Verif.BetaTail.f_median", "Verif.BetaTail.f_p_value_partial", "Verif.BetaTail.f_test_p_value_partial", "Verif.BetaTail.f_p_value_negative"],
  "Proved for at most 201 groups and any number of rows. For many groups it is false: with 10^8 degrees of freedom on both sides and a statistic of one the p-value is below -1/3 instead of 1/2 (f_p_value_negative). Between 201 groups and that size nothing is proved.")
c("C138","partial",["Verif.Plots.tpr_fpr_correct", "Verif.Plots.roc_curve", "Verif.Plots.roc_label", "Verif.Plots.roc_label_partial", "Verif.Plots.roc_label_constant", "Verif.Plots.roc_many", "Verif.Plots.roc_duplicate_name", "Verif.Plots.roc_actual_name", "Verif.Plots.roc_rejected"],
  "The curves are proved for all inputs with distinct names other than __actual__. The label is proved only when the top score is not shared by the two classes; otherwise it is wrong by the amount in roc_label, and a constant prediction is labelled -1/2 (roc_label_constant). Equal names drop a prediction (roc_duplicate_name) and the name __actual__ draws a perfect curve (roc_actual_name).")
c("C139","proved",["Verif.Plots.bad_share", "Verif.Plots.bad_share_empty", "Verif.Plots.bad_shares"],
  "Proved for every frame with at least one row and for every grouping. An empty frame without `over` fails with a division by zero (bad_share_empty).")
c("C140","proved",["Verif.LnGamma.ln_gamma_accuracy", "Verif.LnGamma.exp_ln_gamma", "Verif.LnGamma.ln_gamma_factorial"],
  "Over the reals; the rounding of the floating point operations, which is far larger for large arguments, is not modelled. Arguments that are not positive are not used by the callers.")
c("C141","partial",["Verif.StudentPpf.ppf_accuracy_partial", "Verif.StudentPpf.report_interval_partial", "Verif.StudentPpf.ppf_never_returns", "Verif.StudentPpf.reports_never_return", "Verif.StudentPpf.ppf_ends", "Verif.StudentPpf.ppf_outside", "Verif.StudentPpf.inverse_mirror", "Verif.StudentPpf.tolerance_bounds", "Verif.StudentPpf.weighted_interval_partial"],
  "Proved: for 2 to 37000 degrees of freedom the search ends, and the tail probability of the returned quantile is 0.025 up to 2e-13 + n^2/(2e14). The code violates the property from 14.5 million degrees of freedom on, where the search never ends (ppf_never_returns, reports_never_return). Missing: one degree of freedom, and 37001 to 14.5 million. Rounding is not modelled; overflow of the exponential is.")
c("C142","partial",["Verif.Digamma.digamma_positive", "Verif.Digamma.digamma_negative_partial", "Verif.Digamma.digamma_harmonic", "Verif.Digamma.digamma_special", "Verif.Digamma.digamma_minus_infinity", "Verif.Digamma.knn_entropy_value", "Verif.Digamma.knn_entropy_refused"],
  "Proved over the reals: within 3e-15 for x > 1e-6, within 4e-12 for 0 < x <= 1e-6, within 3e-15 for negative x unless x is within about five units in the last place above an integer; the entropy is within 6e-15 of the estimate. The code violates the property for large negative arguments, where numbers halfway between poles count as integers (digamma_minus_infinity). Rounding is not modelled.")
c("C143","proved",["Verif.TTest.from_stats_welch", "Verif.TTest.from_stats_student", "Verif.TTest.from_stats_value", "Verif.TTest.from_stats_refused", "Verif.TTest.from_stats_ignores_count"],
  "Over the reals; NaN in the column is not represented.")
c("C144","proved",["Verif.Spread.symm_ratio_value", "Verif.Spread.symm_ratio_range", "Verif.Spread.symm_ratio_symmetric", "Verif.Spread.symm_ratio_edges", "Verif.Spread.cv_value", "Verif.Spread.cv_edges", "Verif.Spread.cv_scale", "Verif.Spread.cv_range"],
  "Over the reals; NaN entries are not represented. The aggregations of polars are modelled from their documentation.")
c("C145","partial",["Verif.RowWise.row_by_row_iff", "Verif.RowWise.row_by_row_filters", "Verif.RowWise.gcd_lcm_pieces_partial", "Verif.RowWise.gcd_lcm_filter_panics", "Verif.RowWise.string_metric_pieces_partial", "Verif.RowWise.string_metric_filter_panics", "Verif.RowWise.haversine_pieces_partial", "Verif.RowWise.haversine_filter_panics", "Verif.RowWise.unary_row_by_row", "Verif.RowWise.random_restarts", "Verif.RowWise.random_not_elementwise"],
  "Partial because the statement fails for single rows with a null on the right and for random columns (both proved with witnesses). Of the string metrics only `str_jaro` is announced as element-wise.")
c("C146","partial",["Verif.LinPlot.plot_line", "Verif.LinPlot.plot_r2_range", "Verif.LinPlot.plot_r2_negative", "Verif.LinPlot.plot_r2_unweighted", "Verif.LinPlot.plot_names"],
  "Over the reals; Altair's rendering, colours and number formatting are not modelled. Rows with a null in only one of the columns inherit the disagreement of C115.")
c("C147","proved",["Verif.Calibration.calibration_points", "Verif.Calibration.calibration_balanced", "Verif.Calibration.calibration_refused", "Verif.Calibration.calibration_constant_refused", "Verif.Calibration.calibration_nulls"],
  "Over the reals; `qcut` of polars is modelled from its documentation (linear quantiles, bins closed on the right, repeated breaks are an error). NaN scores are not represented. Names of the scores are treated as in C138.")
c("C148","proved",["Verif.FloatBits.next_up_f64", "Verif.FloatBits.next_up_f32", "Verif.FloatBits.next_down_f64", "Verif.FloatBits.next_down_f32", "Verif.FloatBits.next_down_next_up", "Verif.FloatBits.next_int", "Verif.FloatBits.next_int_exact", "Verif.FloatBits.next_up_int_skips"],
  "The bit operations are those of the Rust standard library (not in the repository); the cast of integers is to the nearest float, ties to even. The documentation announces that integers are treated as f32.")
c("C149","proved",["Verif.Ieee.fl_is_nearest", "Verif.Ieee.fl_laws", "Verif.Ieee.fl_ties_even", "Verif.Ieee.dist_no_overflow", "Verif.Ieee.knn_double", "Verif.Ieee.within_double", "Verif.Ieee.distances_collide"],
  "The rounding function is defined on the reals and proved to return the nearest of the finite floats given by their bit patterns (model of C148), the one with even bits on a tie. Overflow to infinity is excluded by the size of the coordinates. l2 and sql2 from 16 columns on use another order of summation (SIMD lanes) and are not covered; cosine distances are not either.")
c("C150","proved",["Verif.Doubles.similarity_double", "Verif.Doubles.tversky_double", "Verif.Doubles.lev_sim_double", "Verif.Doubles.tau_double", "Verif.Doubles.tau_double_one", "Verif.Doubles.ks_double", "Verif.Doubles.min_max_double"],
  "Rounding as in C149. The differences hi - lo of min-max scaling are assumed not to overflow (bounds below 2^1022).")
c("C151","proved",["Verif.FloatFns.expit_float", "Verif.FloatFns.expit_double_saturates", "Verif.FloatFns.expit_int", "Verif.FloatFns.logit_float", "Verif.FloatFns.exp2_int", "Verif.FloatFns.exp2_double", "Verif.FloatFns.gamma_int", "Verif.FloatFns.gamma_double"],
  "The library functions exp, ln, exp2 and gamma are parameters with stated accuracy assumptions. The two zeros are identified.")
c("C152","partial",["Verif.KDT.radius_nan_exact", "Verif.KDT.nb_cnt_nan_exact", "Verif.KDT.knn_nan_exact", "Verif.KDT.kth_nan_exact", "Verif.KDT.radius_nan_inf_partial", "Verif.KDT.knn_inf_nan_neighbor", "Verif.KDT.radius_inf_nan_listed", "Verif.KDT.balanced_nan_panics"],
  "Proved for l1, l2 and sql2. The code violates the claim for inf, where a missing coordinate is skipped: rows with NaN are neighbors, and which ones depends on the leaf they landed in. Balanced trees (the default of KDTree) panic on a NaN in the column they split.")
c("C153","partial",["Verif.Pipeline.call_appends", "Verif.Pipeline.failed_call_partial", "Verif.Pipeline.one_hot_half_done", "Verif.Pipeline.history_partial", "Verif.Pipeline.pipeline_snapshot", "Verif.Pipeline.materialize_extends", "Verif.Pipeline.branches_share", "Verif.Pipeline.from_dict_spec", "Verif.Pipeline.from_dict_materialize", "Verif.Pipeline.append_fit_needs_target", "Verif.Pipeline.append_expr_columns", "Verif.Pipeline.call_assigns", "Verif.Pipeline.from_dict_raises"],
  "The code violates the claim for one_hot_encode with columns that drop refuses (the encoding is recorded before the exception) and for dictionaries naming materialize or a plain attribute. Which columns pl.all().exclude refuses is left to polars.")
c("C154","proved",["Verif.Iso.isotonic_any_arithmetic", "Verif.Iso.isotonic_strict", "Verif.Iso.isotonic_double", "Verif.Iso.isotonic_ties_move"],
  "The error bound covers wrong pooling decisions caused by rounding. isotonic_ties_move records that ties are pooled and may come back as another double. Weights that are not whole numbers are covered by the first two theorems only.")
c("C155","partial",["Verif.CorrTable.infer_corr_raises", "Verif.CorrTable.infer_corr_pairs", "Verif.CorrTable.infer_corr_order", "Verif.CorrTable.infer_corr_symmetric", "Verif.CorrTable.pearson_symmetric", "Verif.CorrTable.infer_corr_constant_first", "Verif.CorrTable.infer_corr_xi_order", "Verif.CorrTable.dia_corr_cells", "Verif.CorrTable.dia_corr_ignores_expressions"],
  "Proved: one row per pair, the order among defined correlations, independence of the column order for symmetric methods. The code violates the rest: it raises with fewer than two columns (infer_corr_raises), undefined correlations come first (infer_corr_order, infer_corr_constant_first), the xi table depends on the order of the columns (infer_corr_xi_order), and expressions in subset are ignored (dia_corr_ignores_expressions).")
c("C156","partial",["Verif.StrStats.report_raises", "Verif.StrStats.row_counts", "Verif.StrStats.most_frequent", "Verif.StrStats.most_frequent_share", "Verif.StrStats.most_frequent_null", "Verif.StrStats.length_extremes", "Verif.StrStats.length_means", "Verif.StrStats.bytes_against_chars"],
  "Proved for every row of the report. The code violates the last sentence: it raises without a string column and for a column named count (report_raises); null counts as a value, so most_freq may be null (most_frequent_null) and n_unique is one larger (row_counts). The two quantile columns are not modelled.")
c("C157","partial",["Verif.ConfDbl.mcc_double", "Verif.ConfDbl.mcc_double_extreme", "Verif.ConfDbl.mcc_double_range_partial", "Verif.ConfDbl.mcc_double_above", "Verif.ConfDbl.mcc_double_below", "Verif.ConfDbl.metrics_double_shares", "Verif.ConfDbl.metrics_double_sums", "Verif.ConfDbl.metrics_double_f1", "Verif.ConfDbl.metrics_double_mcc", "Verif.ConfDbl.metrics_double_threshold"],
  "query_mcc leaves [-1, 1] for some perfect predictions of more than about 2^53 in the product of three margins (witness of 11640123 rows); inside that bound the range and the exact value are proved. Likelihood ratios and the odds ratio are not stated; / on u32 columns is read as the division of doubles.")
c("C158","partial",["Verif.AucDbl.auc_double", "Verif.AucDbl.auc_double_special", "Verif.AucDbl.auc_double_rejects", "Verif.AucDbl.auc_double_perfect_wrong", "Verif.AucDbl.trapz_double", "Verif.AucDbl.trapz_dx_double", "Verif.AucDbl.combo_double", "Verif.AucDbl.combo_double_panics", "Verif.AucDbl.trapz_double_rejects", "Verif.AucDbl.auc_double_above_one"],
  "A perfect ranking need not give 1 (witness of 13 rows, every order of adding gives 1 - 2^-53). The exact area leaves out the triangle at a shared top score (see C27). The AUC can exceed 1 (auc_double_above_one: 29 rows, adding from left to right gives 1 + 2^-52), but not by more than the stated distance.")
c("C159","partial",["Verif.IntCols.abs_losses_exact_partial", "Verif.IntCols.l_inf_row_iff", "Verif.IntCols.l1_unsigned_exchange", "Verif.IntCols.abs_losses_negative", "Verif.IntCols.l2_sum_iff", "Verif.IntCols.l2_exact_partial", "Verif.IntCols.l2_zero_for_wrong", "Verif.IntCols.smape_exact_partial", "Verif.IntCols.smape_out_of_range", "Verif.IntCols.wmape_exact_partial"],
  "The code violates the claim: unsigned differences wrap (l_inf_row_iff, l1_unsigned_exchange), the losses can be negative (abs_losses_negative), wrong predictions can have a squared error of 0 and an R2 of 1 (l2_zero_for_wrong). Proved: the values are right whenever the differences, products and sums are numbers of the type, and for 32 and 64 bits query_l2 is right only then (l2_sum_iff). Assumes polars' integer semantics: wrap around, sum of small types in 64 bits. Columns of different types are not covered.")
c("C160","partial",["Verif.IntCols.min_max_train_iff", "Verif.IntCols.min_max_new_unsigned", "Verif.IntCols.min_max_new_exact_partial", "Verif.IntCols.abs_max_exact_partial", "Verif.IntCols.abs_max_least", "Verif.IntCols.poly_iff", "Verif.IntCols.energy_iff", "Verif.IntCols.mid_range_iff", "Verif.IntCols.slope_exact_partial", "Verif.IntCols.slope_wrong"],
  "The code violates the claim: see min_max_train_iff, min_max_new_unsigned, abs_max_least, poly_iff, energy_iff, mid_range_iff, slope_wrong. Proved: exactly when min_max on the training column, polynomial features, the mid range and (32 and 64 bits) the energy are right, and sufficient conditions for the rest. Assumes polars' integer semantics and that a Python integer takes the type of the column it fits in.")
c("C161","partial",["Verif.ScaleDbl.min_max_double", "Verif.ScaleDbl.robust_double", "Verif.ScaleDbl.abs_max_double", "Verif.ScaleDbl.center_double", "Verif.ScaleDbl.standard_double", "Verif.ScaleDbl.center_const", "Verif.ScaleDbl.abs_max_no_training"],
  "The code violates the last part: the mean of three equal doubles can differ from them, so that a constant column is centred to 1 and, where the standard deviation is 0, standard scaling gives infinities (center_const). The rest is proved. The standard deviation and the quantiles are any doubles: how polars computes them is not modelled. No overflow.")
c("C162","partial",["Verif.SimdTree.within_simd_partial", "Verif.SimdTree.knn_simd_partial", "Verif.SimdTree.within_simd_misses"],
  "The code violates the claim: with a kernel of four lanes a search whose radius is the computed distance of a row loses that row (within_simd_misses). What holds for every order of adding: nothing wrong or double is returned, and a row that is lost lies at the radius (or at the k-th distance, or at the bound) up to 8 n roundings of its distance, an underflow term and the tolerance. The kernel is any function that adds the squares of the rounded differences in some order. No overflow.")
c("C163","partial",["Verif.KnnDbl.knn_avg_double_partial", "Verif.KnnDbl.knn_avg_whole", "Verif.KnnDbl.knn_avg_leaves"],
  "The code violates the last part: a row whose only neighbor has the target 7 gets 7 - 2^-50 with weights, and three equal targets 7000000000000006 are averaged to 7000000000000005 without (knn_avg_leaves). What holds: the entry differs from the exact weighted mean by at most 8n+9 roundings of the largest target and so stays within the range up to as much; with whole targets whose magnitudes add up to 2^53 and without weights it is the correctly rounded mean and within the range. Rows of 16 columns or more under l2 and sql2 are in C162. The sequential branch; the target without nulls. No overflow.")
c("C164","partial",["Verif.LossDbl.l1_double", "Verif.LossDbl.l2_double", "Verif.LossDbl.l_inf_double", "Verif.LossDbl.smape_double", "Verif.LossDbl.r2_double", "Verif.LossDbl.whole_double", "Verif.LossDbl.losses_mislead", "Verif.LossDbl.r2_constant_double"],
  "The code violates parts of the claim: the squared error of 2^-600 for 0 is 0, a mean absolute error can underflow to 0, three errors of 7000000000000010 have the mean 7000000000000011, and R2 is 1 for wrong predictions (losses_mislead). Proved for every order of adding: error bounds of l1 and l2, sign, symmetry, the zero of the unnormalised l1 and of l_inf, the zero of l2 unless an error is below 2^-537, the range of smape, R2 at most 1 and its values for perfect and for constant predictions; on whole numbers with squared errors adding up to 2^53 the sums are exact and the means rounded once. Two zeros in a row make smape NaN (C74). polars' dot is modelled as the sum of the rounded products. No overflow.")
c("C165","partial",["Verif.Compat.compat_is_frame", "Verif.Compat.compat_eq_frame", "Verif.Compat.compat_rejects", "Verif.Compat.compat_names", "Verif.Compat.compat_same_name", "Verif.Compat.compat_auto_corr", "Verif.Compat.compat_multi_auc", "Verif.Compat.compat_random", "Verif.Compat.compat_transfer", "Verif.Compat.random_null_one_row"],
  "Proved for every expression that does not use pl.len(); in general the call behaves like a frame with the arrays as columns but zero rows. The code therefore violates the claim for the functions that use pl.len(): query_auto_corr is always NaN, query_multi_roc_auc (weighted) is never a number, random columns are empty, random_null fails, query_transfer_entropy compares columns of different lengths. Two polars columns of one name (such as two unnamed ones) fail in the regressions. polars is not modelled beyond: operators compute from the named columns they get.")
c("C166","partial",["Verif.LrNames.names_good", "Verif.LrNames.names_irrelevant", "Verif.LrNames.names_duplicate", "Verif.LrNames.arrays_fail", "Verif.LrNames.literal_lost", "Verif.LrNames.literal_target", "Verif.LrNames.multi_names", "Verif.LrNames.alias_names"],
  "Proved for different names none of which is literal when a constant is added; then the matrix is that of C20 for every null policy. The code violates the claim otherwise: the constant column is called literal and overwrites a feature or a target of that name, which is what polars calls 1 - pl.col('y'); two arrays have the same empty name and fail; a column and an expression starting with it fail. The output names of expressions follow polars' documented rule. Names of the form ^…$ (patterns for polars) are not modelled.")
c("C167","partial",["Verif.NdcgNames.names_good_partial", "Verif.NdcgNames.rank_rejected", "Verif.NdcgNames.ones_rejected", "Verif.NdcgNames.discount_always_one", "Verif.NdcgNames.name_changes_result", "Verif.NdcgNames.score_missing"],
  "Proved when no column is called rank and the relevance column is not called ones, discount or discount_mask: the value is that of C77, which has no names (scores without ties inside a group, ignore_ties=False). Otherwise the code violates the claim. ignore_ties=True, which adds more working columns, is modelled without names in C77 only.")
c("C168","partial",["Verif.OnlineDbl.step_accurate_partial", "Verif.OnlineDbl.frozen_forever", "Verif.OnlineDbl.large_row_freezes", "Verif.OnlineDbl.online_lost", "Verif.OnlineDbl.rolling_lost", "Verif.OnlineDbl.rolling_lost_exists", "Verif.OnlineDbl.rolling_wrong", "Verif.OnlineDbl.recursive_lost", "Verif.OnlineDbl.recursive_wrong"],
  "Violated by the code: one row whose feature is 2^27 times larger than the others makes the stored inverse exactly zero, and from then on no row changes anything. Proved for moderate rows: one addition gives the new inverse up to twelve half-ulps of the old inverse. One feature, no bias; overflow is not modelled; solving a 1 x 1 system is taken as one rounded division.")
c("C169","partial",["Verif.SplitDbl.rows_of_ratio_partial", "Verif.SplitDbl.two_ratios_accepted", "Verif.SplitDbl.ratio_29_of_100", "Verif.SplitDbl.split_58_42", "Verif.SplitDbl.three_ratios_rejected"],
  "Proved: with up to six decimals and any frame the number of rows is right, except that it can be one less when n * ratio is whole; two ratios that add up to 1 are always accepted. The exception and the sum of three ratios violate the claim (witnesses). The documentation warns about ratios with too many decimals only.")
c("C170","partial",["Verif.Downsample.downsample_counts_partial", "Verif.Downsample.downsample_all", "Verif.Downsample.null_rows_lost", "Verif.Downsample.doc_list_rejected", "Verif.Downsample.volume_neutral_controls", "Verif.Downsample.control_names_ignored", "Verif.Downsample.downsample_rejects", "Verif.Downsample.single_control"],
  "Proved: the counts for true, false and null conditions, several conditions without nulls, and volume_neutral with any number of controls. Violated by the code: null conditions are sampled too, lists as in the documentation are rejected, and controls given by name are ignored.")
c("C171","partial",["Verif.LossEdge.log_loss_cases", "Verif.LossEdge.log_loss_negative", "Verif.LossEdge.log_loss_empty", "Verif.LossEdge.mape_cases", "Verif.LossEdge.mape_perfect_nan", "Verif.LossEdge.log_loss_labels", "Verif.LossEdge.xlogy_zero"],
  "Proved: the value in every case. Violated by the code: predictions above 1 on positive labels give negative losses instead of NaN, and query_mape of perfect predictions is NaN if a value is zero. Finite values are exact reals; infinite predictions are outside.")
c("C172","partial",["Verif.Profile.five_numbers", "Verif.Profile.median_below_min", "Verif.Profile.profile_counts", "Verif.Profile.outliers_spec", "Verif.Profile.histogram_total", "Verif.Profile.histogram_bins_partial", "Verif.Profile.histogram_constant", "Verif.Profile.histogram_infinite", "Verif.Profile.gap_lost", "Verif.Profile.last_bin_short", "Verif.Profile.histogram_int8_partial", "Verif.Profile.histogram_int8_wrong"],
  "Proved: counts, quartiles, outliers, the total of the bars and which values each bar counts. Violated by the code: the median shown is rounded and can be below the minimum, empty bins are left out, the last bin is shorter, one infinite value leaves a single bar, Int8 columns wrap. Exact arithmetic; mean and standard deviation are left out; polars' quantile, cut and value_counts are modelled by their documentation.")
c("C173","partial",["Verif.FrameNames.split_one_partial", "Verif.FrameNames.split_list_partial", "Verif.FrameNames.split_keeps_columns", "Verif.FrameNames.split_loses_column", "Verif.FrameNames.split_id_taken", "Verif.FrameNames.split_loses_witness", "Verif.FrameNames.report_with_id", "Verif.FrameNames.report_with_index", "Verif.FrameNames.report_index_taken", "Verif.FrameNames.report_rule_name"],
  "Proved for frames without `__id` and `__tt` (splits) and, for reports, exactly which names are accepted. Violated by the code: a column `__tt` is lost without an error, a column `__id` makes every split fail, `__index__` every report with row numbers; a rule called like a kept column, or an identifier repeated among the kept columns, fails. Rows lost to rounding are the subject of C33 and C169. Left out: explanations polars reads as patterns, reports without rules.")
c("C174","partial",["Verif.IntSeries.float_values", "Verif.IntSeries.c3_exact_partial", "Verif.IntSeries.c3_exact_wide_partial", "Verif.IntSeries.tras_exact_partial", "Verif.IntSeries.tras_unsigned_nonneg", "Verif.IntSeries.tras_unsigned_wrong", "Verif.IntSeries.cov_exact_partial", "Verif.IntSeries.products_wrong", "Verif.IntSeries.cid_exact_partial", "Verif.IntSeries.cid_nan", "Verif.IntSeries.change_exact_partial", "Verif.IntSeries.change_wrong", "Verif.IntSeries.top_exact_partial", "Verif.IntSeries.top_wrong"],
  "Proved whenever the final products, squares, steps (and sums) are numbers of the data type, whatever the intermediate results; always for mean_abs_change of UInt8, UInt16 and UInt32. Violated otherwise: negative products of positive series, an asymmetry statistic that is never negative on unsigned columns, NaN complexity, the greatest step counted as 1, the value of greatest magnitude not found. polars' integer arithmetic, and the data types of sum and diff, are trusted; floats are exact rationals.")
c("C175","proved",["Verif.TargetDbl.encode_range", "Verif.TargetDbl.encode_constant", "Verif.TargetDbl.encode_mono", "Verif.TargetDbl.weight_mono", "Verif.TargetDbl.encode_accuracy", "Verif.TargetDbl.encode_ends"],
  "The exponential function of the platform is arbitrary except for its sign (and, for the weight, that it does not decrease). The target is a column of zeros and ones, as the documentation asks, so sums are exact; a smoothing of 0 is the positive zero.")
c("C176","partial",["Verif.HavDbl.hav_range_partial", "Verif.HavDbl.hav_self", "Verif.HavDbl.hav_symm_partial", "Verif.HavDbl.antipode_a", "Verif.HavDbl.antipode_nan", "Verif.HavDbl.havA_accuracy", "Verif.HavDbl.nan_near_antipode", "Verif.HavDbl.symm_wrong"],
  "The full claim (a number, and the same in both directions, for all points) is false: for the NaN by antipode_nan, and for the order of the points by symm_wrong: the two cosines are multiplied one after the other.")
c("C177","proved",["Verif.PsiDbl.contribution_sign", "Verif.PsiDbl.psi_nonneg", "Verif.PsiDbl.psi_zero", "Verif.PsiDbl.iv_sign", "Verif.PsiDbl.contribution_accuracy", "Verif.PsiDbl.psi_asymmetric", "Verif.PsiDbl.psi_zero_different"],
  "The logarithm of the platform is a parameter with a bound of its relative error; a total count of 0 is left to the exact model.")
c("C178","partial",["Verif.ChiDbl.chi2_nonneg", "Verif.ChiDbl.chi2_zero_partial", "Verif.ChiDbl.chi2_independent_positive", "Verif.ChiDbl.chi2_empty_level"],
  "The full claim (0 exactly for independent columns, for all numbers of rows) is false, shown by chi2_independent_positive with 94925793 rows; between the two numbers of rows nothing is claimed.")
c("C179","proved",["Verif.CondEntDbl.cond_entropy_dbl"],
  "The sum is taken from the first group to the last; the logarithm of the platform is a parameter with a bound of its relative error. A zero of either sign counts as 0.")
#--- end of table

def names():
    out = set()
    for d, _, fs in os.walk(os.path.join(ROOT, "lean", "Verif")):
        for f in fs:
            if not f.endswith(".lean"):
                continue
            ns = []
            for line in open(os.path.join(d, f)):
                m = re.match(r"namespace (\S+)", line)
                if m:
                    ns.append(m.group(1))
                    continue
                m = re.match(r"section\s*(\S*)|noncomputable section", line)
                if m:
                    ns.append(None)
                    continue
                if re.match(r"end(\s|$)", line) and ns:
                    ns.pop()
                    continue
                m = re.match(r"(?:@\[[^\]]*\]\s*)?(?:protected |private |noncomputable )*(?:theorem|lemma) (\S+)", line)
                if m:
                    out.add(".".join([n for n in ns if n] + [m.group(1)]))
    return out

if __name__ == "__main__":
    have = names()
    props = [json.loads(l)["id"] for l in open(os.path.join(ROOT, "properties.jsonl"))]
    for e in C:
        assert e["property"] in props, e
        for t in e["theorems"]:
            assert t in have, ("missing theorem", t)
    done = [e["property"] for e in C]
    assert len(done) == len(set(done))
    print("claims", len(C), "missing", [p for p in props if p not in done])
    json.dump({"claims": C}, open(os.path.join(ROOT, "MANIFEST.json"), "w"), indent=1)
