{
 "claims": [
  {
   "property": "C01",
   "status": "proved",
   "theorems": [
    "Verif.KDT.within_exact",
    "Verif.KDT.dist_real",
    "Verif.KDT.metric_names"
   ],
   "note": "From 16 columns on this assumes that the vectorised kernel adds in the order of the loop; other orders are treated in C162."
  },
  {
   "property": "C02",
   "status": "proved",
   "theorems": [
    "Verif.KDT.within_count_exact"
   ],
   "note": "From 16 columns on this assumes that the vectorised kernel adds in the order of the loop; other orders are treated in C162."
  },
  {
   "property": "C03",
   "status": "proved",
   "theorems": [
    "Verif.KDT.knn_exact",
    "Verif.KDT.knn_exact_unbounded"
   ],
   "note": "From 16 columns on this assumes that the vectorised kernel adds in the order of the loop; other orders are treated in C162."
  },
  {
   "property": "C04",
   "status": "proved",
   "theorems": [
    "Verif.KDT.knn_eps"
   ],
   "note": "From 16 columns on this assumes that the vectorised kernel adds in the order of the loop; other orders are treated in C162."
  },
  {
   "property": "C05",
   "status": "partial",
   "theorems": [
    "Verif.KDT.knn_bound_partial",
    "Verif.KDT.knn_bound_inclusive_fails"
   ],
   "note": "The code violates the full claim: a row exactly at the bound is missed across a split."
  },
  {
   "property": "C06",
   "status": "proved",
   "theorems": [
    "Verif.KDT.count_and_numbering",
    "Verif.KDT.add_accepts_iff"
   ],
   "note": ""
  },
  {
   "property": "C07",
   "status": "partial",
   "theorems": [
    "Verif.KDT.box_pruning_sound_partial",
    "Verif.KDT.cosine_pruning_fails",
    "Verif.Haversine.haversine_box_unsound",
    "Verif.Haversine.haversine_within_misses"
   ],
   "note": "The code violates the claim for cosine and for haversine across the date line."
  },
  {
   "property": "C08",
   "status": "proved",
   "theorems": [
    "Verif.KDT.knn_matrix_shape",
    "Verif.KDT.knn_matrix_rejects"
   ],
   "note": ""
  },
  {
   "property": "C10",
   "status": "proved",
   "theorems": [
    "Verif.parallel_eq_sequential",
    "Verif.split_offsets_partition",
    "Verif.knn_expr_parallel"
   ],
   "note": ""
  },
  {
   "property": "C11",
   "status": "proved",
   "theorems": [
    "Verif.row_major_any_interleaving",
    "Verif.row_major_rejects"
   ],
   "note": ""
  },
  {
   "property": "C23",
   "status": "proved",
   "theorems": [
    "Verif.Iso.isotonic_optimal",
    "Verif.Iso.isotonic_unique",
    "Verif.Iso.isotonic_rejects"
   ],
   "note": ""
  },
  {
   "property": "C24",
   "status": "proved",
   "theorems": [
    "Verif.Kendall.kendall_pairwise",
    "Verif.Kendall.kendall_range",
    "Verif.Kendall.kendall_symm",
    "Verif.Kendall.kendall_expr_pairwise"
   ],
   "note": ""
  },
  {
   "property": "C25",
   "status": "proved",
   "theorems": [
    "Verif.KS.ks_is_sup",
    "Verif.KS.ks_symm",
    "Verif.KS.ks_binary"
   ],
   "note": ""
  },
  {
   "property": "C26",
   "status": "partial",
   "theorems": [
    "Verif.MWU.tie_sum_partial",
    "Verif.MWU.tie_sum_untied_max_partial",
    "Verif.MWU.tie_sum_wrong",
    "Verif.MWU.mann_whitney_constant_variance"
   ],
   "note": "The code violates the claim when the largest value is tied."
  },
  {
   "property": "C51",
   "status": "proved",
   "theorems": [
    "Verif.MWU.mann_whitney_counts_pairs"
   ],
   "note": ""
  },
  {
   "property": "C09",
   "status": "proved",
   "theorems": [
    "Verif.KDT.knn_avg_convex",
    "Verif.KDT.knn_avg_unweighted"
   ],
   "note": ""
  },
  {
   "property": "C52",
   "status": "proved",
   "theorems": [
    "Verif.KDT.knn_ptwise_nearest",
    "Verif.KDT.nb_cnt_exact",
    "Verif.KDT.dist_from_kth_nb_exact"
   ],
   "note": ""
  },
  {
   "property": "C27",
   "status": "partial",
   "theorems": [
    "Verif.Roc.roc_auc_partial",
    "Verif.Roc.roc_auc_deficit",
    "Verif.Roc.roc_auc_wrong",
    "Verif.Roc.roc_auc_undefined",
    "Verif.Roc.roc_rejects"
   ],
   "note": "The code violates the claim when the top score is shared by both classes: the last triangle is left out."
  },
  {
   "property": "C28",
   "status": "partial",
   "theorems": [
    "Verif.Roc.avg_precision_partial",
    "Verif.Roc.avg_precision_wrong"
   ],
   "note": "The code violates the claim: the term of the top score is left out."
  },
  {
   "property": "C29",
   "status": "partial",
   "theorems": [
    "Verif.Confusion.confusion_counts",
    "Verif.Confusion.confusion_counts_nulls",
    "Verif.Confusion.confusion_null_counted",
    "Verif.Confusion.confusion_ratios_partial",
    "Verif.Confusion.confusion_derived_partial",
    "Verif.Confusion.confusion_plr_inf",
    "Verif.Confusion.confusion_ratio_legacy",
    "Verif.Confusion.confusion_fowlkes_mallows",
    "Verif.Confusion.confusion_prevalence_threshold"
   ],
   "note": "Null rows are counted; the quotients are proved under the reading of polars' / as float division."
  },
  {
   "property": "C30",
   "status": "partial",
   "theorems": [
    "Verif.Trapz.trapz_additive_partial",
    "Verif.Trapz.trapz_affine_partial",
    "Verif.Trapz.trapz_uniform_partial",
    "Verif.Trapz.trapz_single_point_wrong",
    "Verif.Trapz.trapz_rejects"
   ],
   "note": "The code violates the claim for a single point."
  },
  {
   "property": "C53",
   "status": "partial",
   "theorems": [
    "Verif.Roc.binary_metrics_partial",
    "Verif.Roc.binary_metrics_panics"
   ],
   "note": "The code panics when the threshold is above every score."
  },
  {
   "property": "C54",
   "status": "partial",
   "theorems": [
    "Verif.Confusion.mcc_pearson_partial",
    "Verif.Confusion.mcc_wraps",
    "Verif.Confusion.confusion_mcc_phi_partial"
   ],
   "note": "The code violates the claim when a product of opposite cells reaches 2^32."
  },
  {
   "property": "C12",
   "status": "proved",
   "theorems": [
    "Verif.LinReg.lin_reg_optimal",
    "Verif.LinReg.lin_reg_bias_optimal",
    "Verif.LinReg.negative_penalty",
    "Verif.LinReg.method_of_strengths"
   ],
   "note": "Exact arithmetic; the faer decompositions are any solver that solves an invertible system."
  },
  {
   "property": "C13",
   "status": "proved",
   "theorems": [
    "Verif.LinReg.weighted_optimal",
    "Verif.LinReg.weighted_bias_optimal",
    "Verif.LinReg.multi_target_columns",
    "Verif.LinReg.multi_target_columns_bias"
   ],
   "note": ""
  },
  {
   "property": "C14",
   "status": "proved",
   "theorems": [
    "Verif.Online.online_refit",
    "Verif.Online.online_refit_bias",
    "Verif.Online.online_add_remove",
    "Verif.Online.online_scale"
   ],
   "note": "Exact arithmetic. The scale c is the row weight 1/c, so +1 adds and -1 removes."
  },
  {
   "property": "C15",
   "status": "partial",
   "theorems": [
    "Verif.Online.recursive_prefix_partial",
    "Verif.Online.recursive_penalises_bias",
    "Verif.Online.recursive_rolling_panic"
   ],
   "note": "With l2_reg > 0 the code penalises the bias column, so with a bias the coefficients are not the batch ridge fit; start_with above the number of rows panics."
  },
  {
   "property": "C16",
   "status": "partial",
   "theorems": [
    "Verif.Online.rolling_window_partial",
    "Verif.Online.rolling_square_window_fails",
    "Verif.Online.recursive_rolling_panic"
   ],
   "note": "Without penalty the code removes the old row before adding the new one, so every n-1 consecutive rows must have full rank; a window equal to the number of features gives NaN."
  },
  {
   "property": "C17",
   "status": "partial",
   "theorems": [
    "Verif.Online.rolling_skip_partial",
    "Verif.Online.rolling_skip_no_recovery"
   ],
   "note": "Without penalty one window of valid rows that is not of full rank leaves NaN for the rest of the column."
  },
  {
   "property": "C18",
   "status": "partial",
   "theorems": [
    "Verif.Online.recursive_skip_partial",
    "Verif.Online.recursive_pred_wrong_row",
    "Verif.Online.recursive_ignore_length"
   ],
   "note": "The code violates the claim: predictions use the features of an earlier valid row when start_with > 1."
  },
  {
   "property": "C19",
   "status": "proved",
   "theorems": [
    "Verif.CD.cd_coord_min",
    "Verif.CD.cd_sweep_le",
    "Verif.CD.cd_loop_le",
    "Verif.CD.cd_result_le",
    "Verif.CD.cd_fixed_iff",
    "Verif.CD.cd_bias_min",
    "Verif.CD.cd_bias_sweep"
   ],
   "note": "Exact arithmetic."
  },
  {
   "property": "C55",
   "status": "partial",
   "theorems": [
    "Verif.CD.cd_stop_gap_partial",
    "Verif.CD.cd_bias_premature_stop"
   ],
   "note": "Holds without bias. With bias the stopping rule ignores the intercept and can stop far from a minimum."
  },
  {
   "property": "C20",
   "status": "partial",
   "theorems": [
    "Verif.NullPolicy.lstsq_pred_aligned_partial",
    "Verif.NullPolicy.treats_total",
    "Verif.NullPolicy.lstsq_pred_ignore_length",
    "Verif.NullPolicy.multi_target_nulls",
    "Verif.NullPolicy.policy_parse",
    "Verif.NullPolicy.scored_row"
   ],
   "note": "Proved for raise, skip and fill. The code violates the claim for ignore: with a null anywhere the output has length one."
  },
  {
   "property": "C56",
   "status": "partial",
   "theorems": [
    "Verif.NullPolicy.weighted_aligned_partial",
    "Verif.NullPolicy.weighted_dropped_error"
   ],
   "note": "Holds when nothing is missing. As soon as a row is dropped the call fails, and a null weight panics."
  },
  {
   "property": "C21",
   "status": "partial",
   "theorems": [
    "Verif.LRObject.set_get_predict_partial",
    "Verif.LRObject.history_no_panic_partial",
    "Verif.LRObject.set_bias_lost",
    "Verif.LRObject.py_bias_none",
    "Verif.LRObject.py_bias_en",
    "Verif.LRObject.unfitted_bias_panics",
    "Verif.LRObject.unfitted_no_bias",
    "Verif.LRObject.rust_from_values_wrong"
   ],
   "note": "The code violates the claim: LR.bias() returns nothing, an unfitted object with a bias panics, a bias of at most machine epsilon is lost."
  },
  {
   "property": "C57",
   "status": "partial",
   "theorems": [
    "Verif.LRObject.online_rebuild_partial",
    "Verif.LRObject.online_rebuild_bias_rejected"
   ],
   "note": "Holds without bias; with a bias the right inverse is rejected."
  },
  {
   "property": "C22",
   "status": "partial",
   "theorems": [
    "Verif.Rcond.rcond_directions",
    "Verif.Rcond.rcond_cutoff_partial",
    "Verif.Rcond.rcond_full",
    "Verif.Rcond.rcond_cutoff_wrong"
   ],
   "note": "The code compares squared singular values with the threshold for singular values."
  },
  {
   "property": "C31",
   "status": "proved",
   "theorems": [
    "Verif.Convolve.convolve_modes",
    "Verif.Convolve.convolve_methods_agree"
   ],
   "note": "realfft is a contract: inverse(forward a * forward b) is n times the circular convolution. Exact arithmetic. The parallel branch of the direct method maps the same function over the same windows."
  },
  {
   "property": "C32",
   "status": "proved",
   "theorems": [
    "Verif.Combos.combinations_complete",
    "Verif.Combos.combinations_unique",
    "Verif.Combos.count_combinations_choose",
    "Verif.Combos.product_complete"
   ],
   "note": "itertools' combinations is modelled by its documented order. The capacity computation is modelled without wrap-around."
  },
  {
   "property": "C33",
   "status": "partial",
   "theorems": [
    "Verif.Split.split_ratio_partition_partial",
    "Verif.Split.split_ratio_fails_iff",
    "Verif.Split.split_ratios_disjoint_partial",
    "Verif.Split.split_ratios_lost",
    "Verif.Split.split_ratios_loses_row"
   ],
   "note": "No row is used twice. A single ratio keeps every row but fails if a part would be empty. A list of ratios loses rows unless every n*ratio is whole; the number lost is exact. n*ratio is exact in split_ratio_fails_iff and split_ratios_lost; the other theorems hold for every rounding."
  },
  {
   "property": "C34",
   "status": "partial",
   "theorems": [
    "Verif.StrSim.set_definitions_partial",
    "Verif.StrSim.similarity_range",
    "Verif.StrSim.similarity_symmetric",
    "Verif.StrSim.similarity_self",
    "Verif.StrSim.tversky_special",
    "Verif.StrSim.empty_string_nan"
   ],
   "note": "Everything holds except that an empty string gives NaN for all four functions."
  },
  {
   "property": "C35",
   "status": "partial",
   "theorems": [
    "Verif.StrMisc.nearest_first_min_partial",
    "Verif.StrMisc.nearest_null_slot"
   ],
   "note": "Proved for columns without nulls. The stored string of a null slot takes part in the search. rapidfuzz is a contract: the distance with a cut-off is the distance if it is at most the cut-off."
  },
  {
   "property": "C36",
   "status": "proved",
   "theorems": [
    "Verif.Stopword.table_sorted",
    "Verif.Stopword.is_stopword_iff",
    "Verif.Stopword.is_stopword_col",
    "Verif.Stopword.snowball_cases",
    "Verif.Stopword.binary_search_mem"
   ],
   "note": "The table is copied from the source. Rust's binary search is modelled as in the standard library."
  },
  {
   "property": "C40",
   "status": "partial",
   "theorems": [
    "Verif.Partition.partition_complete_partial",
    "Verif.Partition.partition_lossless_iff",
    "Verif.Partition.partition_separator_free",
    "Verif.Partition.partition_loses_rows_separator",
    "Verif.Partition.partition_loses_rows_null"
   ],
   "note": "Rows are lost exactly when two keys that occur have the same joined name; the separator inside a key or a null next to the string None are such cases."
  },
  {
   "property": "C47",
   "status": "partial",
   "theorems": [
    "Verif.StrMisc.pairwise_rows",
    "Verif.StrMisc.pairwise_scalar_repeat",
    "Verif.StrMisc.pairwise_null_scalar",
    "Verif.StrMisc.pairwise_first_not_scalar"
   ],
   "note": "Alignment, nulls and errors for every metric, number of workers and completion order. Scalar and repeated-column forms agree for symmetric metrics. A null scalar panics instead of giving nulls."
  },
  {
   "property": "C50",
   "status": "proved",
   "theorems": [
    "Verif.StrMisc.words_iff",
    "Verif.StrMisc.normalize_whitespace_words",
    "Verif.StrMisc.map_words_words",
    "Verif.StrMisc.map_words_empty",
    "Verif.StrMisc.remove_non_ascii_spec"
   ],
   "note": "For every notion of white space that contains the space."
  },
  {
   "property": "C58",
   "status": "proved",
   "theorems": [
    "Verif.Split.sample_size",
    "Verif.Split.downsample_exact",
    "Verif.Split.downsample_several",
    "Verif.Split.volume_neutral_equal"
   ],
   "note": "shuffle is an arbitrary permutation of the row numbers (per group where the code uses over). Conditions without nulls; volume_neutral without controls."
  },
  {
   "property": "C59",
   "status": "partial",
   "theorems": [
    "Verif.Split.random_cols_valid_partial",
    "Verif.Split.random_cols_seed_ignored",
    "Verif.Split.random_cols_keep_outside"
   ],
   "note": "Valid and reachable when keep is a set of existing columns. The seed is not used, and a kept column outside the list can make the call fail."
  },
  {
   "property": "C37",
   "status": "partial",
   "theorems": [
    "Verif.Psi.psi_counts_bins",
    "Verif.Psi.custom_breakpoints_bins",
    "Verif.Psi.psi_bin_nonneg",
    "Verif.Psi.psi_report_nonneg",
    "Verif.Psi.psi_report_shares",
    "Verif.Psi.psi_baseline_bins",
    "Verif.Psi.psi_panics_iff",
    "Verif.Psi.psi_new_bins_partial",
    "Verif.Psi.psi_constant_baseline_panics"
   ],
   "note": "psi() panics when a new value lies above the last observed break, for instance when the baseline is constant; in all other cases the bins, counts and signs are as claimed. psi_w_breakpoints has no such case."
  },
  {
   "property": "C38",
   "status": "proved",
   "theorems": [
    "Verif.LZ.complexity_parse",
    "Verif.LZ.parse_unique",
    "Verif.LZ.complexity_bounds"
   ],
   "note": "The count is kept in a u32; nulls are read as false."
  },
  {
   "property": "C39",
   "status": "partial",
   "theorems": [
    "Verif.Jaccard.jaccard_col_sets_partial",
    "Verif.Jaccard.jaccard_row_sets",
    "Verif.Jaccard.jaccard_laws",
    "Verif.Jaccard.jaccard_count_null_wrong",
    "Verif.Jaccard.jaccard_null_slot_counted"
   ],
   "note": "Columns with nulls are wrong (count_null gives 3 or infinity for equal columns; the value stored under a null is counted). Two empty sets give NaN."
  },
  {
   "property": "C41",
   "status": "partial",
   "theorems": [
    "Verif.Benford.leading_unique",
    "Verif.Benford.int_index_leading",
    "Verif.Benford.float_index_leading",
    "Verif.Benford.benford_int_counts_partial",
    "Verif.Benford.benford_float_counts_partial",
    "Verif.Benford.benford_null_counted"
   ],
   "note": "Null slots are counted under the value stored there. The decimal text of a float is a contract."
  },
  {
   "property": "C42",
   "status": "partial",
   "theorems": [
    "Verif.GcdLcm.gcd_correct",
    "Verif.GcdLcm.lcm_correct",
    "Verif.GcdLcm.gcd_mul_lcm",
    "Verif.GcdLcm.lcm_wraps",
    "Verif.GcdLcm.binary_rows",
    "Verif.GcdLcm.binary_scalar",
    "Verif.GcdLcm.columns_value"
   ],
   "note": "gcd of -2^31 with itself or zero wraps to -2^31; lcm wraps silently; a null scalar panics. The num crate is a contract."
  },
  {
   "property": "C43",
   "status": "partial",
   "theorems": [
    "Verif.Chi2.chi2_textbook_partial",
    "Verif.Chi2.chi2_expected_sum",
    "Verif.Chi2.chi2_nonneg_zero",
    "Verif.Chi2.chi2_null_nan"
   ],
   "note": "Any null in either column gives NaN; without nulls the claim holds in full. The p-value is C109."
  },
  {
   "property": "C44",
   "status": "partial",
   "theorems": [
    "Verif.FTest.ss_decomposition",
    "Verif.FTest.f_test_textbook_partial",
    "Verif.FTest.f_test_null_value",
    "Verif.FTest.f_test_null_key"
   ],
   "note": "Null values and null group keys distort the statistic; without nulls the claim holds in full. The p-value is C137."
  },
  {
   "property": "C45",
   "status": "proved",
   "theorems": [
    "Verif.Woe.counts_events",
    "Verif.Woe.shares_formula",
    "Verif.Woe.iv_nonneg",
    "Verif.Woe.woe_order",
    "Verif.Woe.shares_sum"
   ],
   "note": "Arithmetic over the reals. The shares add up to 1 only with two categories (shares_sum)."
  },
  {
   "property": "C46",
   "status": "proved",
   "theorems": [
    "Verif.Woe.alpha_mem",
    "Verif.Woe.encode_between",
    "Verif.Woe.encode_monotone",
    "Verif.Woe.encoded_iff"
   ],
   "note": "Arithmetic over the reals."
  },
  {
   "property": "C60",
   "status": "partial",
   "theorems": [
    "Verif.Psi.psi_discrete_formula_partial",
    "Verif.Psi.psi_discrete_zero_partial",
    "Verif.Psi.psi_discrete_null"
   ],
   "note": "The join does not match null keys, so a null category appears twice; without nulls the claim holds."
  },
  {
   "property": "C61",
   "status": "partial",
   "theorems": [
    "Verif.Woe.woe_non_finite_fails",
    "Verif.Woe.counts_events"
   ],
   "note": "False: the feature is filtered but the target is not, so any such value is a length error. Without such values the report is as claimed."
  },
  {
   "property": "C62",
   "status": "partial",
   "theorems": [
    "Verif.Woe.encode_null_missing",
    "Verif.Woe.encoded_iff"
   ],
   "note": "False: rows with a null category are dropped; exactly the non-null categories are encoded."
  },
  {
   "property": "C48",
   "status": "partial",
   "theorems": [
    "Verif.Subseq.similar_count_l2",
    "Verif.Subseq.similar_count_zl2_partial",
    "Verif.Subseq.similar_count_rejects",
    "Verif.Subseq.ratio_windows",
    "Verif.Subseq.zl2_long_query"
   ],
   "note": "Holds except that the parallel z-normalised count panics when the query is longer than the target by two or more (the sequential one answers 0)."
  },
  {
   "property": "C49",
   "status": "partial",
   "theorems": [
    "Verif.Entropy.template_counts",
    "Verif.Entropy.template_nan_iff",
    "Verif.Entropy.approx_entropy_value",
    "Verif.Entropy.sample_entropy_pairs_partial",
    "Verif.Entropy.sample_entropy_wraps",
    "Verif.Entropy.sample_entropy_wrong",
    "Verif.Entropy.sample_entropy_tiny_radius",
    "Verif.Entropy.null_radius",
    "Verif.Entropy.sample_entropy_args"
   ],
   "note": "The per-template counts are exact. Sample entropy adds them in u32, which wraps from 65538 rows on; a radius up to machine epsilon gives a value that does not depend on the data."
  },
  {
   "property": "C63",
   "status": "proved",
   "theorems": [
    "Verif.Entropy.knn_entropy_distances"
   ],
   "note": "The final formula (digamma, volume of the ball) is C142."
  },
  {
   "property": "C64",
   "status": "partial",
   "theorems": [
    "Verif.Weighted.weighted_mean_balance",
    "Verif.Weighted.weighted_mean_between",
    "Verif.Weighted.weighted_mean_normalized",
    "Verif.Weighted.weighted_mean_expand",
    "Verif.Weighted.weighted_var_expand",
    "Verif.Weighted.weighted_cov_cauchy",
    "Verif.Weighted.weighted_corr_wrong",
    "Verif.Weighted.weighted_corr_out_of_range",
    "Verif.Weighted.weighted_corr_partial",
    "Verif.Weighted.weighted_cosine_range",
    "Verif.Weighted.weighted_cosine_self",
    "Verif.Weighted.cosine_sim_scaled",
    "Verif.Weighted.cosine_sim_wrong",
    "Verif.Weighted.cosine_sim_partial",
    "Verif.Weighted.weighted_hmean_ignores_data",
    "Verif.Weighted.weighted_hmean_wrong",
    "Verif.Weighted.weighted_hmean_partial",
    "Verif.Weighted.weighted_gmean_bounds",
    "Verif.Weighted.hmean_gmean_mean",
    "Verif.Weighted.weighted_mean_null_wrong"
   ],
   "note": "Means, variance, covariance and weighted cosine hold on null-free columns. weighted_corr, cosine_sim and weighted_hmean return other quantities; a null value keeps its weight in the denominator."
  },
  {
   "property": "C65",
   "status": "proved",
   "theorems": [
    "Verif.Weighted.bicor_range",
    "Verif.Weighted.bicor_self",
    "Verif.Weighted.bicor_value"
   ],
   "note": "The median and the median absolute deviation are parameters."
  },
  {
   "property": "C66",
   "status": "partial",
   "theorems": [
    "Verif.TTest.one_sided_sum",
    "Verif.TTest.two_sided_double",
    "Verif.TTest.pOf_neg",
    "Verif.TTest.t_test_eq_f_test",
    "Verif.TTest.welch_correct",
    "Verif.TTest.welch_swap",
    "Verif.TTest.welch_small_panics",
    "Verif.TTest.one_sample_correct",
    "Verif.TTest.student_equal_counts_partial",
    "Verif.TTest.student_unequal_wrong",
    "Verif.TTest.alternative_unknown",
    "Verif.BetaTail.student_p_value_partial"
   ],
   "note": "With equal_var=True the count of the first column is used for both, so unequal numbers of values give another statistic. The p-values as tail probabilities are C136; student_p_value_partial is that for equal_var=True with equal numbers of values."
  },
  {
   "property": "C67",
   "status": "partial",
   "theorems": [
    "Verif.Xi.xi_correct",
    "Verif.Xi.xi_range",
    "Verif.Xi.xi_untied",
    "Verif.Xi.xi_untied_max",
    "Verif.Xi.xi_monotone",
    "Verif.Xi.xi_invariant",
    "Verif.Xi.xi_seed_irrelevant",
    "Verif.Xi.xi_null_wrong"
   ],
   "note": "Everything holds on null-free rows; a null y counts as a row and cuts the chain of differences. The p-value is C135."
  },
  {
   "property": "C68",
   "status": "proved",
   "theorems": [
    "Verif.CondEntropy.cond_entropy_chain",
    "Verif.CondEntropy.cond_entropy_nonneg",
    "Verif.CondEntropy.cond_entropy_zero_iff",
    "Verif.CondEntropy.cond_entropy_le",
    "Verif.CondEntropy.dependency_order",
    "Verif.CondEntropy.combos_cover"
   ],
   "note": "Exact real arithmetic; the warnings and dtype filter of infer_dependency are not modelled."
  },
  {
   "property": "C69",
   "status": "proved",
   "theorems": [
    "Verif.Fft.rfft_correct",
    "Verif.Fft.rfft_rejects"
   ],
   "note": "The realfft crate is used through its documented contract (leading N/2+1 coefficients). Empty input is excluded."
  },
  {
   "property": "C70",
   "status": "partial",
   "theorems": [
    "Verif.Haversine.hav_eq_angle",
    "Verif.Haversine.hav_symm",
    "Verif.Haversine.hav_range",
    "Verif.Haversine.hav_zero_iff",
    "Verif.Haversine.hav_triangle",
    "Verif.Haversine.hav_turn",
    "Verif.Haversine.haversine_rows",
    "Verif.Haversine.haversine_broadcast",
    "Verif.Haversine.haversine_scalar_null"
   ],
   "note": "The distance is proved in full; a scalar null y panics and a scalar x is rejected."
  },
  {
   "property": "C71",
   "status": "partial",
   "theorems": [
    "Verif.Metrics.loss_totals",
    "Verif.Metrics.loss_means_partial",
    "Verif.Metrics.l1_counts_unscored",
    "Verif.Metrics.loss_understated"
   ],
   "note": "The sums are exact; the normalised losses divide by the number of known actuals, so the claim is proved when every known actual has a prediction and refuted otherwise (the loss is then understated)."
  },
  {
   "property": "C72",
   "status": "proved",
   "theorems": [
    "Verif.Metrics.l1_sq_le_l2",
    "Verif.Metrics.lInf_bounds",
    "Verif.Metrics.lInf_none",
    "Verif.Metrics.huber_between",
    "Verif.Metrics.logCosh_between",
    "Verif.Metrics.loss_zero_iff",
    "Verif.Metrics.loss_symm"
   ],
   "note": "Over the reals (exact arithmetic)."
  },
  {
   "property": "C73",
   "status": "partial",
   "theorems": [
    "Verif.Metrics.r2_value_partial",
    "Verif.Metrics.r2_le_one",
    "Verif.Metrics.r2_mean_prediction",
    "Verif.Metrics.r2_constant",
    "Verif.Metrics.r2_null_pred",
    "Verif.Metrics.adjR2_overstated"
   ],
   "note": "The adjusted version violates the claim for every imperfect fit; R2 violates it with null predictions."
  },
  {
   "property": "C74",
   "status": "partial",
   "theorems": [
    "Verif.Metrics.smape_unit_partial",
    "Verif.Metrics.smape_value",
    "Verif.Metrics.smape_zero_row",
    "Verif.Metrics.mape_value",
    "Verif.Metrics.wmape_value"
   ],
   "note": "sMAPE is NaN as soon as one row has actual and prediction zero."
  },
  {
   "property": "C75",
   "status": "proved",
   "theorems": [
    "Verif.Metrics.logLoss_value",
    "Verif.Metrics.logLoss_zero",
    "Verif.Metrics.logLoss_best_constant"
   ],
   "note": "Over the reals; a label given probability zero (infinite loss) is outside the model."
  },
  {
   "property": "C76",
   "status": "partial",
   "theorems": [
    "Verif.Metrics.fairness_value",
    "Verif.Metrics.fairness_symm",
    "Verif.Metrics.pPct_unit_partial",
    "Verif.Metrics.pPct_nan",
    "Verif.Metrics.pPct_symm"
   ],
   "note": "The p-percent score is NaN for two groups without any positive prediction, the perfectly fair case."
  },
  {
   "property": "C77",
   "status": "partial",
   "theorems": [
    "Verif.Ndcg.ideal_is_max",
    "Verif.Ndcg.ndcg_unit",
    "Verif.Ndcg.ndcg_perfect",
    "Verif.Ndcg.ties_value",
    "Verif.Ndcg.ties_order_free",
    "Verif.Ndcg.modes_agree",
    "Verif.Ndcg.sequential_order_free",
    "Verif.Ndcg.sequential_order_matters",
    "Verif.Ndcg.group_col_ignored",
    "Verif.Ndcg.calculate_mean_partial",
    "Verif.Ndcg.zero_cutoff"
   ],
   "note": "The group column must be called example_id, the default mode depends on the sort's tie order, and k = 0 means no limit."
  },
  {
   "property": "C78",
   "status": "proved",
   "theorems": [
    "Verif.NumExpr.expit_spec",
    "Verif.NumExpr.logit_expit",
    "Verif.NumExpr.expit_logit",
    "Verif.NumExpr.logit_edges"
   ],
   "note": "Exact reals, not rounded."
  },
  {
   "property": "C79",
   "status": "partial",
   "theorems": [
    "Verif.NumExpr.trunc_fract_spec",
    "Verif.NumExpr.fract_rows_partial",
    "Verif.NumExpr.fract_loses_nulls"
   ],
   "note": "Holds except that fract of an integer column turns nulls into zeros."
  },
  {
   "property": "C80",
   "status": "proved",
   "theorems": [
    "Verif.NumExpr.sinc_spec",
    "Verif.NumExpr.sinc_zero"
   ],
   "note": "At zero the exact-real value is within 1e-39 of one."
  },
  {
   "property": "C81",
   "status": "proved",
   "theorems": [
    "Verif.NumExpr.horizontal_norms",
    "Verif.NumExpr.horizontal_norm_order"
   ],
   "note": ""
  },
  {
   "property": "C82",
   "status": "partial",
   "theorems": [
    "Verif.NumExpr.monotone_checks_partial",
    "Verif.NumExpr.monotone_checks_null"
   ],
   "note": "Holds without nulls; a null between two values hides their order."
  },
  {
   "property": "C83",
   "status": "partial",
   "theorems": [
    "Verif.NumExpr.center_spec",
    "Verif.NumExpr.mad_spec",
    "Verif.NumExpr.z_normalize_spec",
    "Verif.NumExpr.z_normalize_constant",
    "Verif.NumExpr.softmax_partial",
    "Verif.NumExpr.softmax_overflow"
   ],
   "note": "Softmax has no maximum subtraction: in floating point it is NaN once a value exceeds the overflow threshold of exp. `query_mad(use_mean=False)` is C131."
  },
  {
   "property": "C84",
   "status": "partial",
   "theorems": [
    "Verif.NumExpr.detrend_linear_partial",
    "Verif.NumExpr.detrend_null_error",
    "Verif.NumExpr.detrend_single"
   ],
   "note": "Holds without nulls from two rows on. A null makes the index column too short (shape error); a single row gives null instead of 0."
  },
  {
   "property": "C85",
   "status": "partial",
   "theorems": [
    "Verif.Pca.singular_values_total",
    "Verif.Pca.components_orthogonal",
    "Verif.Pca.components_optimal",
    "Verif.Pca.principal_components_partial",
    "Verif.Pca.principal_components_wide",
    "Verif.Pca.explained_var_wrong",
    "Verif.Pca.explained_var_single",
    "Verif.Pca.explained_ratio",
    "Verif.Pca.centered_clean",
    "Verif.Pca.centering_null_wrong"
   ],
   "note": "The decomposition itself (faer) is a contract. The explained variance divides by the number of features minus one; nulls break the centering; more features than rows panics."
  },
  {
   "property": "C86",
   "status": "partial",
   "theorems": [
    "Verif.TsFeat.longest_streak",
    "Verif.TsFeat.avg_streak",
    "Verif.TsFeat.avg_le_longest",
    "Verif.TsFeat.streak_runs",
    "Verif.TsFeat.streak_not_full_column"
   ],
   "note": "`query_streak` returns one row per run, false runs included, not a full column."
  },
  {
   "property": "C87",
   "status": "partial",
   "theorems": [
    "Verif.TsFeat.tras_reverse",
    "Verif.TsFeat.tras_value",
    "Verif.TsFeat.c3_value_partial",
    "Verif.TsFeat.c3_reverse",
    "Verif.TsFeat.c3_short",
    "Verif.TsFeat.c3_null_counted",
    "Verif.TsFeat.auto_corr_reverse",
    "Verif.TsFeat.auto_corr_value",
    "Verif.TsFeat.auto_corr_zero",
    "Verif.TsFeat.auto_corr_bound_partial",
    "Verif.TsFeat.auto_corr_exceeds_one",
    "Verif.TsFeat.auto_corr_nan",
    "Verif.TsFeat.auto_corr_affine"
   ],
   "note": "The autocorrelation is bounded by n/(n - lag), not by 1, and does exceed 1; c3 divides by the number of rows including nulls and wraps around for series shorter than two lags."
  },
  {
   "property": "C88",
   "status": "proved",
   "theorems": [
    "Verif.TsFeat.mean_abs_change_value",
    "Verif.TsFeat.mean_abs_change_bound",
    "Verif.TsFeat.abs_energy",
    "Verif.TsFeat.cid_value",
    "Verif.TsFeat.cid_zero_iff",
    "Verif.TsFeat.cid_affine",
    "Verif.TsFeat.cid_reverse",
    "Verif.TsFeat.cid_norm_affine"
   ],
   "note": "Exact arithmetic."
  },
  {
   "property": "C89",
   "status": "partial",
   "theorems": [
    "Verif.TsFeat.mean_n_abs_max",
    "Verif.TsFeat.mean_n_abs_max_edges",
    "Verif.TsFeat.mid_range",
    "Verif.TsFeat.range_count",
    "Verif.TsFeat.range_count_split",
    "Verif.TsFeat.count_uniques",
    "Verif.TsFeat.count_uniques_not_distinct"
   ],
   "note": "`query_count_uniques` counts values that occur exactly once."
  },
  {
   "property": "C90",
   "status": "proved",
   "theorems": [
    "Verif.PermEntropy.query_entropy_value",
    "Verif.PermEntropy.query_entropy_range"
   ],
   "note": "`normalize=False` is not covered."
  },
  {
   "property": "C91",
   "status": "partial",
   "theorems": [
    "Verif.PermEntropy.permute_entropy_monotone",
    "Verif.PermEntropy.permute_entropy_args",
    "Verif.PermEntropy.permute_entropy_range",
    "Verif.PermEntropy.permute_entropy_increasing_partial",
    "Verif.PermEntropy.permute_entropy_delay_null",
    "Verif.PermEntropy.permute_entropy_delay_ignored"
   ],
   "note": "Monotone series give 0 for tau = 1 only; for tau > 1 the windows consist of neighbors, start every tau rows, and the last ones contain nulls from beyond the end."
  },
  {
   "property": "C92",
   "status": "proved",
   "theorems": [
    "Verif.TsFeat.ar_rows",
    "Verif.TsFeat.ar_optimal",
    "Verif.TsFeat.ar_lag_zero",
    "Verif.TsFeat.ar_recovers",
    "Verif.TsFeat.ar_recovers_bias"
   ],
   "note": "Null policies are those of C20 and not repeated; the linear solver is the contract of C12."
  },
  {
   "property": "C93",
   "status": "proved",
   "theorems": [
    "Verif.PermEntropy.rank_feature_monotone",
    "Verif.PermEntropy.rank_feature_range",
    "Verif.PermEntropy.rank_feature_value",
    "Verif.PermEntropy.copula_monotone",
    "Verif.PermEntropy.transfer_rows",
    "Verif.PermEntropy.transfer_entropy_value"
   ],
   "note": "The KNN entropy of the features is a parameter here (see C63)."
  },
  {
   "property": "C94",
   "status": "proved",
   "theorems": [
    "Verif.Pipeline.transform_training",
    "Verif.Pipeline.transform_separate"
   ],
   "note": "Polars' frame operations are as stated in Model/Pipeline.lean; SQL steps are assumed to return frames with distinct column names."
  },
  {
   "property": "C95",
   "status": "proved",
   "theorems": [
    "Verif.Pipeline.transform_rowwise",
    "Verif.Pipeline.transform_batches",
    "Verif.Transforms.builtin_fits",
    "Verif.Transforms.builtin_rowwise"
   ],
   "note": "A user expression that looks at other rows (an aggregate in `append_expr`) is outside; such steps are excluded by hypothesis."
  },
  {
   "property": "C96",
   "status": "partial",
   "theorems": [
    "Verif.Pipeline.excluded_kept",
    "Verif.Pipeline.target_kept",
    "Verif.Pipeline.convert_changes_target",
    "Verif.Pipeline.one_hot_drops_target"
   ],
   "note": "Holds for fitted steps; `cast_bools`, `nan_to_null`, `int_to_float` and the drop after `one_hot_encode` ignore the exclusions."
  },
  {
   "property": "C97",
   "status": "partial",
   "theorems": [
    "Verif.Pipeline.step_round_trip",
    "Verif.Pipeline.json_round_trip",
    "Verif.Pipeline.append_expr_step",
    "Verif.Pipeline.select_names_rejected"
   ],
   "note": "Polars' expression serialisation is a contract (`Codec`); the round trip is proved, the documented inputs of `select` are not all accepted."
  },
  {
   "property": "C98",
   "status": "partial",
   "theorems": [
    "Verif.Pipeline.ensure_in_iff",
    "Verif.Pipeline.ensure_in_training_partial",
    "Verif.Pipeline.ensure_in_lowercase"
   ],
   "note": "Fails with `lowercase=True` or `uppercase=True`: the recorded names are the renamed ones but the check is made before renaming."
  },
  {
   "property": "C99",
   "status": "partial",
   "theorems": [
    "Verif.Pipeline.rename_partial",
    "Verif.Pipeline.rename_loses"
   ],
   "note": "Holds when the new names are new; swaps, chains and identities lose columns."
  },
  {
   "property": "C100",
   "status": "partial",
   "theorems": [
    "Verif.Transforms.impute_mean",
    "Verif.Transforms.impute_median",
    "Verif.Transforms.conditional_impute_mean",
    "Verif.Transforms.impute_fails"
   ],
   "note": "`mode` raises on every frame, and so does any statistic of a column without a known value."
  },
  {
   "property": "C101",
   "status": "proved",
   "theorems": [
    "Verif.Transforms.center_value",
    "Verif.Transforms.center_mean_zero",
    "Verif.Transforms.center_null",
    "Verif.Transforms.scale_standard_value",
    "Verif.Transforms.scale_standard_moments",
    "Verif.Transforms.scale_standard_constant",
    "Verif.Transforms.scale_min_max_value",
    "Verif.Transforms.scale_min_max_range",
    "Verif.Transforms.scale_min_max_constant",
    "Verif.Transforms.scale_abs_max_value",
    "Verif.Transforms.scale_abs_max_range"
   ],
   "note": "Exact arithmetic; the square root is any function with sqrt(x)^2 = x on non-negative x."
  },
  {
   "property": "C102",
   "status": "proved",
   "theorems": [
    "Verif.Transforms.quantiles_checked",
    "Verif.Transforms.robust_scale_value",
    "Verif.Transforms.winsorize_value"
   ],
   "note": "Polars' `quantile` is a parameter of the model."
  },
  {
   "property": "C103",
   "status": "partial",
   "theorems": [
    "Verif.Transforms.levels_spec",
    "Verif.Transforms.one_hot_indicators",
    "Verif.Transforms.one_hot_exactly_one",
    "Verif.Transforms.one_hot_single",
    "Verif.Transforms.one_hot_loses_flag",
    "Verif.Transforms.one_hot_names_collide"
   ],
   "note": "Columns with a single distinct value are not encoded (and then dropped); generated names may collide with each other or with existing columns."
  },
  {
   "property": "C104",
   "status": "proved",
   "theorems": [
    "Verif.Transforms.rank_hot_value"
   ],
   "note": ""
  },
  {
   "property": "C105",
   "status": "partial",
   "theorems": [
    "Verif.Transforms.encode_value",
    "Verif.Transforms.default_values",
    "Verif.Transforms.encode_tables",
    "Verif.Transforms.encode_null_default"
   ],
   "note": "The number learned for null is never used: `replace_strict` maps null to the default. `iv_encode` uses the same code path with another table."
  },
  {
   "property": "C106",
   "status": "proved",
   "theorems": [
    "Verif.Transforms.combs_multisets",
    "Verif.Transforms.polynomial_features"
   ],
   "note": "`interaction_only` keeps a*a*b, a reading of the name that the documentation allows."
  },
  {
   "property": "C107",
   "status": "proved",
   "theorems": [
    "Verif.Transforms.linear_impute_value"
   ],
   "note": "The coefficients are those of the least squares of C12, here any function; a null feature counts as 0 in the prediction because `sum_horizontal` skips nulls."
  },
  {
   "property": "C108",
   "status": "partial",
   "theorems": [
    "Verif.NormalTest.skew_value",
    "Verif.NormalTest.skew_order",
    "Verif.NormalTest.kurt_value_partial",
    "Verif.NormalTest.kurt_order",
    "Verif.NormalTest.kurt_sign_lost",
    "Verif.NormalTest.kurt_negative",
    "Verif.NormalTest.normal_value_partial",
    "Verif.NormalTest.normal_edges",
    "Verif.NormalTest.normal_affine",
    "Verif.NormalTest.normal_perm"
   ],
   "note": "Real arithmetic. The kurtosis part holds where the denominator under the cube root is positive, which is shown for every kurtosis from the expected one on; where it is negative the code drops the sign and the statistic is proved to be another number."
  },
  {
   "property": "C109",
   "status": "partial",
   "theorems": [
    "Verif.Gamma.chi2_even",
    "Verif.Gamma.chi2_tail",
    "Verif.Gamma.chi2_body",
    "Verif.Gamma.chi2_any_tail",
    "Verif.Gamma.chi2_any",
    "Verif.Gamma.chi2_tiny_wrong",
    "Verif.Gamma.chi2_edge",
    "Verif.Gamma.lower_add_upper"
   ],
   "note": "Real arithmetic; `ln_gamma` is the code's own approximation (C140). Proved for every number of degrees of freedom and every statistic from 3e-15 on. The code violates the claim for odd degrees of freedom below that: a statistic below 2.2e-15 gives exactly 1, off by 3e-8 for one degree of freedom (chi2_tiny_wrong)."
  },
  {
   "property": "C110",
   "status": "partial",
   "theorems": [
    "Verif.Random.random_range",
    "Verif.Random.random_seeded",
    "Verif.Random.random_prefix",
    "Verif.Random.random_int_range",
    "Verif.Random.random_str_range",
    "Verif.Random.random_exp_range",
    "Verif.Random.random_exp_negative",
    "Verif.Random.random_normal_scale",
    "Verif.Random.plugin_binomial_range",
    "Verif.Random.seeded_all",
    "Verif.Random.random_binomial_fails",
    "Verif.Random.random_int_expr",
    "Verif.Random.random_int_bounds",
    "Verif.Random.random_str_dtype",
    "Verif.Random.random_successive"
   ],
   "note": "What the distributions of rand and rand_distr return is a contract (`Lawful`). `random_binomial` never succeeds; expression or integer arguments allowed by the signatures fail; the string plugin declares the wrong type."
  },
  {
   "property": "C111",
   "status": "partial",
   "theorems": [
    "Verif.Random.perturb_range",
    "Verif.Random.perturb_other",
    "Verif.Random.perturb_zero",
    "Verif.Random.jitter_scale",
    "Verif.Random.jitter_rejects",
    "Verif.Random.random_null_rows",
    "Verif.Random.random_null_only_removes",
    "Verif.Random.random_null_pct"
   ],
   "note": "Arithmetic of an ordered field (no rounding). `perturb(epsilon=0)` panics; an integer `std` for `jitter` raises."
  },
  {
   "property": "C112",
   "status": "proved",
   "theorems": [
    "Verif.Snowball.stem_eq_porter2",
    "Verif.Snowball.snowball_eq",
    "Verif.Snowball.parsesF64_iff",
    "Verif.Snowball.infinity_stems_to_nothing",
    "Verif.Snowball.stem_length",
    "Verif.Snowball.snowball_col"
   ],
   "note": "The specification (Verif/Spec/Porter2.lean) is the Porter2 algorithm on lists of characters. Rust's f64 parser is represented by its documented grammar. The documentation says numbers become empty; the code also empties the words inf, infinity and nan (infinity_stems_to_nothing)."
  },
  {
   "property": "C113",
   "status": "partial",
   "theorems": [
    "Verif.LrReport.report_coefficients",
    "Verif.LrReport.report_std_err",
    "Verif.LrReport.report_hc0_hc1",
    "Verif.LrReport.report_hc3_hc2",
    "Verif.LrReport.report_hc3_isolated",
    "Verif.LrReport.report_inference",
    "Verif.LrReport.report_panics_iff",
    "Verif.LrReport.report_r2",
    "Verif.LrReport.report_adj_r2",
    "Verif.LrReport.report_constant_is_ttest",
    "Verif.LrReport.report_r2_constant",
    "Verif.LrReport.report_fields",
    "Verif.LrReport.report_names",
    "Verif.LrReport.report_kind"
   ],
   "note": "Coefficients, the five standard errors, t, p and the intervals are proved. The code violates the rest: r2 and adj_r2 are wrong on all data that is not fitted perfectly (report_r2, report_adj_r2), a saturated model panics, HC2/HC3 are lost with a row of leverage one, and the struct has an undeclared field name for HC errors. ppf (the t quantile) is a parameter here, see C141; p as a tail probability is C136."
  },
  {
   "property": "C114",
   "status": "partial",
   "theorems": [
    "Verif.LrReport.wls_coefficients",
    "Verif.LrReport.wls_is_scaled_ols",
    "Verif.LrReport.wls_dropped_row_panics"
   ],
   "note": "Equality with the scaled report is proved for every column but r2 and adj_r2, which the code computes from unweighted residuals. The code panics when a row is dropped or a weight is null (wls_dropped_row_panics)."
  },
  {
   "property": "C115",
   "status": "partial",
   "theorems": [
    "Verif.SimpleLr.simple_fit_bias_optimal",
    "Verif.SimpleLr.simple_fit_bias_isSome",
    "Verif.SimpleLr.simple_fit_plain_optimal",
    "Verif.SimpleLr.simple_preds",
    "Verif.SimpleLr.simple_null_target_shrinks",
    "Verif.SimpleLr.simple_nulls_wrong"
   ],
   "note": "Proved (unique optimum, existence, predictions) for data in which each row is complete or null in all columns. The code violates the claim when only one of the columns is null in a row (simple_null_target_shrinks, simple_nulls_wrong)."
  },
  {
   "property": "C116",
   "status": "partial",
   "theorems": [
    "Verif.KDT.tree_within_exact",
    "Verif.KDT.tree_within_empty",
    "Verif.KDT.tree_within_size",
    "Verif.KDT.tree_within_single_none",
    "Verif.KDT.tree_knn_order",
    "Verif.KDT.tree_within_no_rows"
   ],
   "note": "Exactness proved for a number and for one radius per row; the code violates the claim for an array of one radius (returns None) and returns distances before row numbers in knn (tree_within_single_none, tree_knn_order)."
  },
  {
   "property": "C117",
   "status": "partial",
   "theorems": [
    "Verif.KnnPoint.within_dist_from_exact_partial",
    "Verif.KnnPoint.is_knn_from_exact_partial",
    "Verif.KnnPoint.is_knn_from_l2",
    "Verif.KnnPoint.pt_checks",
    "Verif.KnnPoint.within_dist_from_l2",
    "Verif.KnnPoint.within_dist_from_null",
    "Verif.KnnPoint.within_dist_from_l2_wrong",
    "Verif.KnnPoint.pt_null_wrong"
   ],
   "note": "Proved for complete rows and all metrics but l2 in within_dist_from; the code violates the claim for within_dist_from with l2 (squared distance compared with the radius) and for rows with nulls (a null counts as the coordinate of the point)."
  },
  {
   "property": "C118",
   "status": "partial",
   "theorems": [
    "Verif.KDT.radius_ptwise_exact",
    "Verif.KDT.radius_ptwise_rejects",
    "Verif.KDT.radius_freq_cnt_plus_one",
    "Verif.KDT.knn_freq_cnt_counts",
    "Verif.KDT.radius_null_never",
    "Verif.KDT.radiusSmall_complete",
    "Verif.KDT.radius_inf_null_neighbor",
    "Verif.KDT.radius_freq_self",
    "Verif.KDT.knn_freq_self",
    "Verif.KDT.radius_nan_exact"
   ],
   "note": "Lists proved exact on complete frames. The code violates the claim: both counts include the row itself, and with dist=inf a row with a null is a neighbor (its missing coordinate is skipped). Frames with nulls of any size are covered for the other metrics by radius_nan_exact (claim C152)."
  },
  {
   "property": "C119",
   "status": "partial",
   "theorems": [
    "Verif.EditDist.str_leven_least",
    "Verif.EditDist.least_edits_laws",
    "Verif.EditDist.filter_by_levenshtein_partial",
    "Verif.EditDist.filter_by_levenshtein_neg",
    "Verif.EditDist.filter_by_levenshtein_neg_wrong",
    "Verif.EditDist.str_leven_sim_unit",
    "Verif.EditDist.str_osa_least",
    "Verif.EditDist.str_osa_no_triangle",
    "Verif.EditDist.str_osa_sim_unit",
    "Verif.EditDist.str_lcs_seq_exact",
    "Verif.EditDist.str_fuzz_exact",
    "Verif.EditDist.str_hamming_exact",
    "Verif.EditDist.str_hamming_padded_exact",
    "Verif.EditDist.filter_by_hamming_exact",
    "Verif.EditDist.filter_by_hamming_neg"
   ],
   "note": "The distances of the rapidfuzz crate are modelled by their textbook recursions, not its bit-parallel code. A negative bound of filter_by_levenshtein is read as its absolute value, so the claim fails for it."
  },
  {
   "property": "C120",
   "status": "partial",
   "theorems": [
    "Verif.StrExpr.similar_to_vocab_partial",
    "Verif.StrExpr.similar_to_vocab_order",
    "Verif.StrExpr.similar_to_vocab_jw",
    "Verif.StrExpr.similar_to_vocab_null",
    "Verif.StrExpr.similar_to_vocab_names",
    "Verif.StrExpr.similar_to_vocab_osa_partial"
   ],
   "note": "Proved for lv and present strings. The code violates the claim for metric jw (raises TypeError) and for nulls with avg (counts as similarity 0)."
  },
  {
   "property": "C121",
   "status": "partial",
   "theorems": [
    "Verif.StrExpr.tokenize_stem_all",
    "Verif.StrExpr.tokenize_stem_wrong",
    "Verif.StrExpr.extract_numbers_cut",
    "Verif.StrExpr.extract_numbers_separate",
    "Verif.StrExpr.extract_numbers_number",
    "Verif.StrExpr.extract_numbers_list",
    "Verif.StrExpr.extract_numbers_sign",
    "Verif.StrExpr.extract_numbers_sign_wrong",
    "Verif.StrExpr.extract_numbers_join",
    "Verif.StrExpr.extract_numbers_joined",
    "Verif.StrExpr.collapse_spaces",
    "Verif.StrExpr.collapse_spaces_words",
    "Verif.StrExpr.collapse_spaces_ends",
    "Verif.StrExpr.replace_non_ascii_spec",
    "Verif.StrExpr.remove_diacritics_ascii"
   ],
   "note": "Proved for unsigned numbers, whitespace and ASCII cleaning. The code violates the claim: stems are not unique and stop words become empty strings; signs are dropped; only_spaces keeps a space at the ends. The canonical decomposition is a parameter."
  },
  {
   "property": "C122",
   "status": "partial",
   "theorems": [
    "Verif.EntryPoints.call_runs_iff",
    "Verif.EntryPoints.entry_points_partial",
    "Verif.EntryPoints.entry_points_exact",
    "Verif.EntryPoints.str_lcs_seq_no_symbol",
    "Verif.EntryPoints.random_binomial_bad_arg",
    "Verif.EntryPoints.single_precision_twins",
    "Verif.EntryPoints.rows_announced_partial",
    "Verif.EntryPoints.rows_announced_wrong"
   ],
   "note": "Proved for all calls but two, and for all row counts but those of four calls. The code violates the claim: str_lcs_seq with its default return_sim=True asks for a symbol that does not exist, random_binomial passes 32 bit signed integers where unsigned ones are read; mann_whitney_u, lin_reg_w_rcond, query_tpr_fpr and lin_reg with several targets return other row counts than announced. The tables are read off the sources; arguments whose type is the user's column count as right."
  },
  {
   "property": "C123",
   "status": "partial",
   "theorems": [
    "Verif.Schema.schema_partial",
    "Verif.Schema.schema_exact",
    "Verif.Schema.float_functions",
    "Verif.Schema.float_functions_names",
    "Verif.Schema.report_schema",
    "Verif.Schema.tpr_fpr_schema",
    "Verif.Schema.components_schema",
    "Verif.Schema.multi_pred_schema"
   ],
   "note": "Proved for all exported functions but 23, and the list is proved exact: each of them announces another type on some inputs. For integer columns, robust standard errors and ROC tables the exact condition is proved."
  },
  {
   "property": "C124",
   "status": "partial",
   "theorems": [
    "Verif.Dia.infer_k_distinct_spec",
    "Verif.Dia.infer_k_distinct_raises",
    "Verif.Dia.infer_const_binary",
    "Verif.Dia.infer_k_distinct_unique",
    "Verif.Dia.infer_binary_null",
    "Verif.Dia.infer_high_null_partial",
    "Verif.Dia.infer_high_null_wrong",
    "Verif.Dia.infer_discrete_partial",
    "Verif.Dia.infer_discrete_wrong",
    "Verif.Dia.infer_prob_exact",
    "Verif.Dia.infer_prob_partial",
    "Verif.Dia.infer_prob_wrong",
    "Verif.Dia.cache_partial",
    "Verif.Dia.cache_wrong"
   ],
   "note": "infer_k_distinct, infer_const, infer_binary proved in full. The code violates the rest: infer_high_null includes the exact threshold, infer_discrete drops boolean and categorical columns, infer_prob looks at the first row of a list column only, and the cached list is handed out itself, so a caller changing it changes later answers."
  },
  {
   "property": "C125",
   "status": "partial",
   "theorems": [
    "Verif.Dia.row_validation_rows",
    "Verif.Dia.row_validation_raises",
    "Verif.Dia.row_validation_sorted",
    "Verif.Dia.row_validation_reason",
    "Verif.Dia.row_validation_all_exact",
    "Verif.Dia.row_validation_all_partial",
    "Verif.Dia.row_validation_all_wrong",
    "Verif.Dia.col_validation_partial",
    "Verif.Dia.col_validation_wrong"
   ],
   "note": "Proved for the rows, the single reason, and all reasons where no rule is null. The code violates the claim for all_reasons with nulls (null rules are listed as violated) and for two column rules on one column (an error)."
  },
  {
   "property": "C126",
   "status": "proved",
   "theorems": [
    "Verif.Dia.null_corr_pairs",
    "Verif.Dia.null_corr_values",
    "Verif.Dia.null_corr_sorted"
   ],
   "note": "Over the reals, not floating point; Pearson's correlation is polars code, modelled by its formula."
  },
  {
   "property": "C127",
   "status": "proved",
   "theorems": [
    "Verif.Dia.plot_sound",
    "Verif.Dia.plot_complete",
    "Verif.Dia.plot_least",
    "Verif.Dia.plot_order_wrong"
   ],
   "note": "For dependencies that are not transitive (threshold above zero) the drawn edges depend on the order of rows (plot_order_wrong), paths remain."
  },
  {
   "property": "C128",
   "status": "partial",
   "theorems": [
    "Verif.Dia.special_values_total",
    "Verif.Dia.histogram_total",
    "Verif.Dia.histogram_no_empty",
    "Verif.Dia.histogram_length",
    "Verif.Dia.histogram_partial",
    "Verif.Dia.histogram_wrong",
    "Verif.Dia.outliers_mono"
   ],
   "note": "The histogram is proved right when no bin is empty and no value is within 1e-5 above the last cut; totals and the bound on bars always. The code violates the claim otherwise: empty bins are left out, and the last cut is moved."
  },
  {
   "property": "C129",
   "status": "partial",
   "theorems": [
    "Verif.MultiMetrics.multi_auc_partial",
    "Verif.MultiMetrics.multi_auc_bounds",
    "Verif.MultiMetrics.multi_auc_absent",
    "Verif.MultiMetrics.multi_auc_wrong",
    "Verif.MultiMetrics.two_class_auc",
    "Verif.MultiMetrics.gini_partial",
    "Verif.MultiMetrics.gini_undefined"
   ],
   "note": "Proved where every class has a row and no class shares its top score with a row of another label. The code violates the rest: it inherits the wrong AUC at a shared top score (C27), and a class without a row makes both averages NaN even though its weight is 0."
  },
  {
   "property": "C130",
   "status": "partial",
   "theorems": [
    "Verif.MultiMetrics.cross_entropy_value",
    "Verif.MultiMetrics.cross_entropy_nonneg",
    "Verif.MultiMetrics.cross_entropy_one_hot",
    "Verif.MultiMetrics.cross_entropy_out_of_range",
    "Verif.MultiMetrics.cross_entropy_negative",
    "Verif.MultiMetrics.cross_entropy_null_pred"
   ],
   "note": "Proved for complete rows with positive probabilities, over the reals. The code violates the last two parts: a label -1 silently stands for the last class, and a row with null predictions counts in the denominator, so the loss is understated."
  },
  {
   "property": "C131",
   "status": "partial",
   "theorems": [
    "Verif.MultiMetrics.mase_freq",
    "Verif.MultiMetrics.mase_value",
    "Verif.MultiMetrics.mase_naive",
    "Verif.MultiMetrics.mase_scale",
    "Verif.MultiMetrics.mad_value",
    "Verif.MultiMetrics.mad_majority",
    "Verif.MultiMetrics.mase_int_train"
   ],
   "note": "Over the reals, training values without nulls. Missing: a training loss given as a Python int is not taken as a number but as a column of one row, and the result is null (mase_int_train)."
  },
  {
   "property": "C132",
   "status": "partial",
   "theorems": [
    "Verif.LrFrame.fit_df_rows",
    "Verif.LrFrame.fit_df_raise",
    "Verif.LrFrame.bad_policy",
    "Verif.LrFrame.fit_rows_partial",
    "Verif.LrFrame.fit_raise",
    "Verif.LrFrame.fit_inf_changed",
    "Verif.LrFrame.df_np_agree",
    "Verif.LrFrame.fit_df_same_rows",
    "Verif.LrFrame.fit_fill_inf"
   ],
   "note": "Proved in full for frames. For matrices the filling policies are as documented exactly if no row with a target has an infinite feature: numpy's nan_to_num also replaces infinities by the largest finite floats (fit_inf_changed)."
  },
  {
   "property": "C133",
   "status": "partial",
   "theorems": [
    "Verif.LrFrame.predict_df_partial",
    "Verif.LrFrame.predict_df_predict",
    "Verif.LrFrame.predict_df_null",
    "Verif.LrFrame.predict_df_short",
    "Verif.LrFrame.fit_df_state",
    "Verif.LrFrame.fit_df_failed_partial",
    "Verif.LrFrame.fit_df_failed_names",
    "Verif.LrFrame.own_names_lost",
    "Verif.LrFrame.report_raises",
    "Verif.LrFrame.fit_df_fit",
    "Verif.LrFrame.fit_state",
    "Verif.LrFrame.fit_df_names"
   ],
   "note": "Proved for complete rows and matching names. The code violates the rest: null features are counted as 0, surplus coefficients are left out silently, a fit that fails in the solver has already replaced the names, passing the object's own name list empties it, and show_report raises on nulls under every null policy."
  },
  {
   "property": "C134",
   "status": "partial",
   "theorems": [
    "Verif.Normal.sf_accuracy",
    "Verif.Normal.sf_abs",
    "Verif.Normal.sf_far",
    "Verif.Normal.sf_range",
    "Verif.Normal.sf_pos",
    "Verif.Normal.sf_reflect",
    "Verif.Normal.sf_mean",
    "Verif.Normal.sf_antitone_partial",
    "Verif.Normal.sf_not_antitone",
    "Verif.Normal.sf_error_large"
   ],
   "note": "Proved against Mathlib's Gaussian measure: relative error at most 1.04e-10 of the smaller tail, absolute error at most 5.21e-11, exact reflection, range, positivity. The precision expected of a double and monotonicity fail: the branch constants are cut after ten digits, so the relative error reaches 1.02e-10 (sf_error_large) and the function jumps up at z = 2.25 (sf_not_antitone)."
  },
  {
   "property": "C135",
   "status": "partial",
   "theorems": [
    "Verif.MWU.mwu_swap",
    "Verif.MWU.mwu_invariant",
    "Verif.MWU.mwu_var_pos",
    "Verif.MWU.mwu_variance_partial",
    "Verif.NormalP.mwu_p_range",
    "Verif.NormalP.mwu_p_swap",
    "Verif.NormalP.mwu_p_partial",
    "Verif.NormalP.mwu_p_empty_wrong",
    "Verif.NormalP.mwu_p_wrong",
    "Verif.NormalP.xi_p_value",
    "Verif.NormalP.xi_p_zero",
    "Verif.NormalP.xi_p_nan"
   ],
   "note": "xi: proved in full up to 1.05e-10. Mann-Whitney: proved up to 1.05e-10 when the largest pooled value occurs once; with a tied largest value the p-value is wrong (too large by more than 0.008 for 1,1 against 0,0) and an empty sample gives p = 0."
  },
  {
   "property": "C136",
   "status": "proved",
   "theorems": [
    "Verif.BetaTail.t_density",
    "Verif.BetaTail.t_p_value",
    "Verif.BetaTail.one_sample_p_value",
    "Verif.BetaTail.welch_df",
    "Verif.BetaTail.welch_p_value",
    "Verif.BetaTail.report_p_value",
    "Verif.BetaTail.wls_report_p_value"
   ],
   "note": "Over the reals, with the code's own ln_gamma (C140); the 140 rounds, the stopping test and the clamps of the continued fraction are those of the code. The exponential of a difference of logarithms loses digits in doubles for large degrees of freedom; that is not modelled. An infinite df does not occur on these paths."
  },
  {
   "property": "C137",
   "status": "partial",
   "theorems": [
    "Verif.BetaTail.f_density",
    "Verif.BetaTail.f_bounds",
    "Verif.BetaTail.f_median",
    "Verif.BetaTail.f_p_value_partial",
    "Verif.BetaTail.f_test_p_value_partial",
    "Verif.BetaTail.f_p_value_negative"
   ],
   "note": "Proved for at most 201 groups and any number of rows. For many groups it is false: with 10^8 degrees of freedom on both sides and a statistic of one the p-value is below -1/3 instead of 1/2 (f_p_value_negative). Between 201 groups and that size nothing is proved."
  },
  {
   "property": "C138",
   "status": "partial",
   "theorems": [
    "Verif.Plots.tpr_fpr_correct",
    "Verif.Plots.roc_curve",
    "Verif.Plots.roc_label",
    "Verif.Plots.roc_label_partial",
    "Verif.Plots.roc_label_constant",
    "Verif.Plots.roc_many",
    "Verif.Plots.roc_duplicate_name",
    "Verif.Plots.roc_actual_name",
    "Verif.Plots.roc_rejected"
   ],
   "note": "The curves are proved for all inputs with distinct names other than __actual__. The label is proved only when the top score is not shared by the two classes; otherwise it is wrong by the amount in roc_label, and a constant prediction is labelled -1/2 (roc_label_constant). Equal names drop a prediction (roc_duplicate_name) and the name __actual__ draws a perfect curve (roc_actual_name)."
  },
  {
   "property": "C139",
   "status": "proved",
   "theorems": [
    "Verif.Plots.bad_share",
    "Verif.Plots.bad_share_empty",
    "Verif.Plots.bad_shares"
   ],
   "note": "Proved for every frame with at least one row and for every grouping. An empty frame without `over` fails with a division by zero (bad_share_empty)."
  },
  {
   "property": "C140",
   "status": "proved",
   "theorems": [
    "Verif.LnGamma.ln_gamma_accuracy",
    "Verif.LnGamma.exp_ln_gamma",
    "Verif.LnGamma.ln_gamma_factorial"
   ],
   "note": "Over the reals; the rounding of the floating point operations, which is far larger for large arguments, is not modelled. Arguments that are not positive are not used by the callers."
  },
  {
   "property": "C141",
   "status": "partial",
   "theorems": [
    "Verif.StudentPpf.ppf_accuracy_partial",
    "Verif.StudentPpf.report_interval_partial",
    "Verif.StudentPpf.ppf_never_returns",
    "Verif.StudentPpf.reports_never_return",
    "Verif.StudentPpf.ppf_ends",
    "Verif.StudentPpf.ppf_outside",
    "Verif.StudentPpf.inverse_mirror",
    "Verif.StudentPpf.tolerance_bounds",
    "Verif.StudentPpf.weighted_interval_partial"
   ],
   "note": "Proved: for 2 to 37000 degrees of freedom the search ends, and the tail probability of the returned quantile is 0.025 up to 2e-13 + n^2/(2e14). The code violates the property from 14.5 million degrees of freedom on, where the search never ends (ppf_never_returns, reports_never_return). Missing: one degree of freedom, and 37001 to 14.5 million. Rounding is not modelled; overflow of the exponential is."
  },
  {
   "property": "C142",
   "status": "partial",
   "theorems": [
    "Verif.Digamma.digamma_positive",
    "Verif.Digamma.digamma_negative_partial",
    "Verif.Digamma.digamma_harmonic",
    "Verif.Digamma.digamma_special",
    "Verif.Digamma.digamma_minus_infinity",
    "Verif.Digamma.knn_entropy_value",
    "Verif.Digamma.knn_entropy_refused"
   ],
   "note": "Proved over the reals: within 3e-15 for x > 1e-6, within 4e-12 for 0 < x <= 1e-6, within 3e-15 for negative x unless x is within about five units in the last place above an integer; the entropy is within 6e-15 of the estimate. The code violates the property for large negative arguments, where numbers halfway between poles count as integers (digamma_minus_infinity). Rounding is not modelled."
  },
  {
   "property": "C143",
   "status": "proved",
   "theorems": [
    "Verif.TTest.from_stats_welch",
    "Verif.TTest.from_stats_student",
    "Verif.TTest.from_stats_value",
    "Verif.TTest.from_stats_refused",
    "Verif.TTest.from_stats_ignores_count"
   ],
   "note": "Over the reals; NaN in the column is not represented."
  },
  {
   "property": "C144",
   "status": "proved",
   "theorems": [
    "Verif.Spread.symm_ratio_value",
    "Verif.Spread.symm_ratio_range",
    "Verif.Spread.symm_ratio_symmetric",
    "Verif.Spread.symm_ratio_edges",
    "Verif.Spread.cv_value",
    "Verif.Spread.cv_edges",
    "Verif.Spread.cv_scale",
    "Verif.Spread.cv_range"
   ],
   "note": "Over the reals; NaN entries are not represented. The aggregations of polars are modelled from their documentation."
  },
  {
   "property": "C145",
   "status": "partial",
   "theorems": [
    "Verif.RowWise.row_by_row_iff",
    "Verif.RowWise.row_by_row_filters",
    "Verif.RowWise.gcd_lcm_pieces_partial",
    "Verif.RowWise.gcd_lcm_filter_panics",
    "Verif.RowWise.string_metric_pieces_partial",
    "Verif.RowWise.string_metric_filter_panics",
    "Verif.RowWise.haversine_pieces_partial",
    "Verif.RowWise.haversine_filter_panics",
    "Verif.RowWise.unary_row_by_row",
    "Verif.RowWise.random_restarts",
    "Verif.RowWise.random_not_elementwise"
   ],
   "note": "Partial because the statement fails for single rows with a null on the right and for random columns (both proved with witnesses). Of the string metrics only `str_jaro` is announced as element-wise."
  },
  {
   "property": "C146",
   "status": "partial",
   "theorems": [
    "Verif.LinPlot.plot_line",
    "Verif.LinPlot.plot_r2_range",
    "Verif.LinPlot.plot_r2_negative",
    "Verif.LinPlot.plot_r2_unweighted",
    "Verif.LinPlot.plot_names"
   ],
   "note": "Over the reals; Altair's rendering, colours and number formatting are not modelled. Rows with a null in only one of the columns inherit the disagreement of C115."
  },
  {
   "property": "C147",
   "status": "proved",
   "theorems": [
    "Verif.Calibration.calibration_points",
    "Verif.Calibration.calibration_balanced",
    "Verif.Calibration.calibration_refused",
    "Verif.Calibration.calibration_constant_refused",
    "Verif.Calibration.calibration_nulls"
   ],
   "note": "Over the reals; `qcut` of polars is modelled from its documentation (linear quantiles, bins closed on the right, repeated breaks are an error). NaN scores are not represented. Names of the scores are treated as in C138."
  },
  {
   "property": "C148",
   "status": "proved",
   "theorems": [
    "Verif.FloatBits.next_up_f64",
    "Verif.FloatBits.next_up_f32",
    "Verif.FloatBits.next_down_f64",
    "Verif.FloatBits.next_down_f32",
    "Verif.FloatBits.next_down_next_up",
    "Verif.FloatBits.next_int",
    "Verif.FloatBits.next_int_exact",
    "Verif.FloatBits.next_up_int_skips"
   ],
   "note": "The bit operations are those of the Rust standard library (not in the repository); the cast of integers is to the nearest float, ties to even. The documentation announces that integers are treated as f32."
  },
  {
   "property": "C149",
   "status": "proved",
   "theorems": [
    "Verif.Ieee.fl_is_nearest",
    "Verif.Ieee.fl_laws",
    "Verif.Ieee.fl_ties_even",
    "Verif.Ieee.dist_no_overflow",
    "Verif.Ieee.knn_double",
    "Verif.Ieee.within_double",
    "Verif.Ieee.distances_collide"
   ],
   "note": "The rounding function is defined on the reals and proved to return the nearest of the finite floats given by their bit patterns (model of C148), the one with even bits on a tie. Overflow to infinity is excluded by the size of the coordinates. l2 and sql2 from 16 columns on use another order of summation (SIMD lanes) and are not covered; cosine distances are not either."
  },
  {
   "property": "C150",
   "status": "proved",
   "theorems": [
    "Verif.Doubles.similarity_double",
    "Verif.Doubles.tversky_double",
    "Verif.Doubles.lev_sim_double",
    "Verif.Doubles.tau_double",
    "Verif.Doubles.tau_double_one",
    "Verif.Doubles.ks_double",
    "Verif.Doubles.min_max_double"
   ],
   "note": "Rounding as in C149. The differences hi - lo of min-max scaling are assumed not to overflow (bounds below 2^1022)."
  },
  {
   "property": "C151",
   "status": "proved",
   "theorems": [
    "Verif.FloatFns.expit_float",
    "Verif.FloatFns.expit_double_saturates",
    "Verif.FloatFns.expit_int",
    "Verif.FloatFns.logit_float",
    "Verif.FloatFns.exp2_int",
    "Verif.FloatFns.exp2_double",
    "Verif.FloatFns.gamma_int",
    "Verif.FloatFns.gamma_double"
   ],
   "note": "The library functions exp, ln, exp2 and gamma are parameters with stated accuracy assumptions. The two zeros are identified."
  },
  {
   "property": "C152",
   "status": "partial",
   "theorems": [
    "Verif.KDT.radius_nan_exact",
    "Verif.KDT.nb_cnt_nan_exact",
    "Verif.KDT.knn_nan_exact",
    "Verif.KDT.kth_nan_exact",
    "Verif.KDT.radius_nan_inf_partial",
    "Verif.KDT.knn_inf_nan_neighbor",
    "Verif.KDT.radius_inf_nan_listed",
    "Verif.KDT.balanced_nan_panics"
   ],
   "note": "Proved for l1, l2 and sql2. The code violates the claim for inf, where a missing coordinate is skipped: rows with NaN are neighbors, and which ones depends on the leaf they landed in. Balanced trees (the default of KDTree) panic on a NaN in the column they split."
  },
  {
   "property": "C153",
   "status": "partial",
   "theorems": [
    "Verif.Pipeline.call_appends",
    "Verif.Pipeline.failed_call_partial",
    "Verif.Pipeline.one_hot_half_done",
    "Verif.Pipeline.history_partial",
    "Verif.Pipeline.pipeline_snapshot",
    "Verif.Pipeline.materialize_extends",
    "Verif.Pipeline.branches_share",
    "Verif.Pipeline.from_dict_spec",
    "Verif.Pipeline.from_dict_materialize",
    "Verif.Pipeline.append_fit_needs_target",
    "Verif.Pipeline.append_expr_columns",
    "Verif.Pipeline.call_assigns",
    "Verif.Pipeline.from_dict_raises"
   ],
   "note": "The code violates the claim for one_hot_encode with columns that drop refuses (the encoding is recorded before the exception) and for dictionaries naming materialize or a plain attribute. Which columns pl.all().exclude refuses is left to polars."
  },
  {
   "property": "C154",
   "status": "proved",
   "theorems": [
    "Verif.Iso.isotonic_any_arithmetic",
    "Verif.Iso.isotonic_strict",
    "Verif.Iso.isotonic_double",
    "Verif.Iso.isotonic_ties_move"
   ],
   "note": "The error bound covers wrong pooling decisions caused by rounding. isotonic_ties_move records that ties are pooled and may come back as another double. Weights that are not whole numbers are covered by the first two theorems only."
  },
  {
   "property": "C155",
   "status": "partial",
   "theorems": [
    "Verif.CorrTable.infer_corr_raises",
    "Verif.CorrTable.infer_corr_pairs",
    "Verif.CorrTable.infer_corr_order",
    "Verif.CorrTable.infer_corr_symmetric",
    "Verif.CorrTable.pearson_symmetric",
    "Verif.CorrTable.infer_corr_constant_first",
    "Verif.CorrTable.infer_corr_xi_order",
    "Verif.CorrTable.dia_corr_cells",
    "Verif.CorrTable.dia_corr_ignores_expressions"
   ],
   "note": "Proved: one row per pair, the order among defined correlations, independence of the column order for symmetric methods. The code violates the rest: it raises with fewer than two columns (infer_corr_raises), undefined correlations come first (infer_corr_order, infer_corr_constant_first), the xi table depends on the order of the columns (infer_corr_xi_order), and expressions in subset are ignored (dia_corr_ignores_expressions)."
  },
  {
   "property": "C156",
   "status": "partial",
   "theorems": [
    "Verif.StrStats.report_raises",
    "Verif.StrStats.row_counts",
    "Verif.StrStats.most_frequent",
    "Verif.StrStats.most_frequent_share",
    "Verif.StrStats.most_frequent_null",
    "Verif.StrStats.length_extremes",
    "Verif.StrStats.length_means",
    "Verif.StrStats.bytes_against_chars"
   ],
   "note": "Proved for every row of the report. The code violates the last sentence: it raises without a string column and for a column named count (report_raises); null counts as a value, so most_freq may be null (most_frequent_null) and n_unique is one larger (row_counts). The two quantile columns are not modelled."
  },
  {
   "property": "C157",
   "status": "partial",
   "theorems": [
    "Verif.ConfDbl.mcc_double",
    "Verif.ConfDbl.mcc_double_extreme",
    "Verif.ConfDbl.mcc_double_range_partial",
    "Verif.ConfDbl.mcc_double_above",
    "Verif.ConfDbl.mcc_double_below",
    "Verif.ConfDbl.metrics_double_shares",
    "Verif.ConfDbl.metrics_double_sums",
    "Verif.ConfDbl.metrics_double_f1",
    "Verif.ConfDbl.metrics_double_mcc",
    "Verif.ConfDbl.metrics_double_threshold"
   ],
   "note": "query_mcc leaves [-1, 1] for some perfect predictions of more than about 2^53 in the product of three margins (witness of 11640123 rows); inside that bound the range and the exact value are proved. Likelihood ratios and the odds ratio are not stated; / on u32 columns is read as the division of doubles."
  },
  {
   "property": "C158",
   "status": "partial",
   "theorems": [
    "Verif.AucDbl.auc_double",
    "Verif.AucDbl.auc_double_special",
    "Verif.AucDbl.auc_double_rejects",
    "Verif.AucDbl.auc_double_perfect_wrong",
    "Verif.AucDbl.trapz_double",
    "Verif.AucDbl.trapz_dx_double",
    "Verif.AucDbl.combo_double",
    "Verif.AucDbl.combo_double_panics",
    "Verif.AucDbl.trapz_double_rejects",
    "Verif.AucDbl.auc_double_above_one"
   ],
   "note": "A perfect ranking need not give 1 (witness of 13 rows, every order of adding gives 1 - 2^-53). The exact area leaves out the triangle at a shared top score (see C27). The AUC can exceed 1 (auc_double_above_one: 29 rows, adding from left to right gives 1 + 2^-52), but not by more than the stated distance."
  },
  {
   "property": "C159",
   "status": "partial",
   "theorems": [
    "Verif.IntCols.abs_losses_exact_partial",
    "Verif.IntCols.l_inf_row_iff",
    "Verif.IntCols.l1_unsigned_exchange",
    "Verif.IntCols.abs_losses_negative",
    "Verif.IntCols.l2_sum_iff",
    "Verif.IntCols.l2_exact_partial",
    "Verif.IntCols.l2_zero_for_wrong",
    "Verif.IntCols.smape_exact_partial",
    "Verif.IntCols.smape_out_of_range",
    "Verif.IntCols.wmape_exact_partial"
   ],
   "note": "The code violates the claim: unsigned differences wrap (l_inf_row_iff, l1_unsigned_exchange), the losses can be negative (abs_losses_negative), wrong predictions can have a squared error of 0 and an R2 of 1 (l2_zero_for_wrong). Proved: the values are right whenever the differences, products and sums are numbers of the type, and for 32 and 64 bits query_l2 is right only then (l2_sum_iff). Assumes polars' integer semantics: wrap around, sum of small types in 64 bits. Columns of different types are not covered."
  },
  {
   "property": "C160",
   "status": "partial",
   "theorems": [
    "Verif.IntCols.min_max_train_iff",
    "Verif.IntCols.min_max_new_unsigned",
    "Verif.IntCols.min_max_new_exact_partial",
    "Verif.IntCols.abs_max_exact_partial",
    "Verif.IntCols.abs_max_least",
    "Verif.IntCols.poly_iff",
    "Verif.IntCols.energy_iff",
    "Verif.IntCols.mid_range_iff",
    "Verif.IntCols.slope_exact_partial",
    "Verif.IntCols.slope_wrong"
   ],
   "note": "The code violates the claim: see min_max_train_iff, min_max_new_unsigned, abs_max_least, poly_iff, energy_iff, mid_range_iff, slope_wrong. Proved: exactly when min_max on the training column, polynomial features, the mid range and (32 and 64 bits) the energy are right, and sufficient conditions for the rest. Assumes polars' integer semantics and that a Python integer takes the type of the column it fits in."
  },
  {
   "property": "C161",
   "status": "partial",
   "theorems": [
    "Verif.ScaleDbl.min_max_double",
    "Verif.ScaleDbl.robust_double",
    "Verif.ScaleDbl.abs_max_double",
    "Verif.ScaleDbl.center_double",
    "Verif.ScaleDbl.standard_double",
    "Verif.ScaleDbl.center_const",
    "Verif.ScaleDbl.abs_max_no_training"
   ],
   "note": "The code violates the last part: the mean of three equal doubles can differ from them, so that a constant column is centred to 1 and, where the standard deviation is 0, standard scaling gives infinities (center_const). The rest is proved. The standard deviation and the quantiles are any doubles: how polars computes them is not modelled. No overflow."
  },
  {
   "property": "C162",
   "status": "partial",
   "theorems": [
    "Verif.SimdTree.within_simd_partial",
    "Verif.SimdTree.knn_simd_partial",
    "Verif.SimdTree.within_simd_misses"
   ],
   "note": "The code violates the claim: with a kernel of four lanes a search whose radius is the computed distance of a row loses that row (within_simd_misses). What holds for every order of adding: nothing wrong or double is returned, and a row that is lost lies at the radius (or at the k-th distance, or at the bound) up to 8 n roundings of its distance, an underflow term and the tolerance. The kernel is any function that adds the squares of the rounded differences in some order. No overflow."
  },
  {
   "property": "C163",
   "status": "partial",
   "theorems": [
    "Verif.KnnDbl.knn_avg_double_partial",
    "Verif.KnnDbl.knn_avg_whole",
    "Verif.KnnDbl.knn_avg_leaves"
   ],
   "note": "The code violates the last part: a row whose only neighbor has the target 7 gets 7 - 2^-50 with weights, and three equal targets 7000000000000006 are averaged to 7000000000000005 without (knn_avg_leaves). What holds: the entry differs from the exact weighted mean by at most 8n+9 roundings of the largest target and so stays within the range up to as much; with whole targets whose magnitudes add up to 2^53 and without weights it is the correctly rounded mean and within the range. Rows of 16 columns or more under l2 and sql2 are in C162. The sequential branch; the target without nulls. No overflow."
  },
  {
   "property": "C164",
   "status": "partial",
   "theorems": [
    "Verif.LossDbl.l1_double",
    "Verif.LossDbl.l2_double",
    "Verif.LossDbl.l_inf_double",
    "Verif.LossDbl.smape_double",
    "Verif.LossDbl.r2_double",
    "Verif.LossDbl.whole_double",
    "Verif.LossDbl.losses_mislead",
    "Verif.LossDbl.r2_constant_double"
   ],
   "note": "The code violates parts of the claim: the squared error of 2^-600 for 0 is 0, a mean absolute error can underflow to 0, three errors of 7000000000000010 have the mean 7000000000000011, and R2 is 1 for wrong predictions (losses_mislead). Proved for every order of adding: error bounds of l1 and l2, sign, symmetry, the zero of the unnormalised l1 and of l_inf, the zero of l2 unless an error is below 2^-537, the range of smape, R2 at most 1 and its values for perfect and for constant predictions; on whole numbers with squared errors adding up to 2^53 the sums are exact and the means rounded once. Two zeros in a row make smape NaN (C74). polars' dot is modelled as the sum of the rounded products. No overflow."
  },
  {
   "property": "C165",
   "status": "partial",
   "theorems": [
    "Verif.Compat.compat_is_frame",
    "Verif.Compat.compat_eq_frame",
    "Verif.Compat.compat_rejects",
    "Verif.Compat.compat_names",
    "Verif.Compat.compat_same_name",
    "Verif.Compat.compat_auto_corr",
    "Verif.Compat.compat_multi_auc",
    "Verif.Compat.compat_random",
    "Verif.Compat.compat_transfer",
    "Verif.Compat.random_null_one_row"
   ],
   "note": "Proved for every expression that does not use pl.len(); in general the call behaves like a frame with the arrays as columns but zero rows. The code therefore violates the claim for the functions that use pl.len(): query_auto_corr is always NaN, query_multi_roc_auc (weighted) is never a number, random columns are empty, random_null fails, query_transfer_entropy compares columns of different lengths. Two polars columns of one name (such as two unnamed ones) fail in the regressions. polars is not modelled beyond: operators compute from the named columns they get."
  },
  {
   "property": "C166",
   "status": "partial",
   "theorems": [
    "Verif.LrNames.names_good",
    "Verif.LrNames.names_irrelevant",
    "Verif.LrNames.names_duplicate",
    "Verif.LrNames.arrays_fail",
    "Verif.LrNames.literal_lost",
    "Verif.LrNames.literal_target",
    "Verif.LrNames.multi_names",
    "Verif.LrNames.alias_names"
   ],
   "note": "Proved for different names none of which is literal when a constant is added; then the matrix is that of C20 for every null policy. The code violates the claim otherwise: the constant column is called literal and overwrites a feature or a target of that name, which is what polars calls 1 - pl.col('y'); two arrays have the same empty name and fail; a column and an expression starting with it fail. The output names of expressions follow polars' documented rule. Names of the form ^\u2026$ (patterns for polars) are not modelled."
  },
  {
   "property": "C167",
   "status": "partial",
   "theorems": [
    "Verif.NdcgNames.names_good_partial",
    "Verif.NdcgNames.rank_rejected",
    "Verif.NdcgNames.ones_rejected",
    "Verif.NdcgNames.discount_always_one",
    "Verif.NdcgNames.name_changes_result",
    "Verif.NdcgNames.score_missing"
   ],
   "note": "Proved when no column is called rank and the relevance column is not called ones, discount or discount_mask: the value is that of C77, which has no names (scores without ties inside a group, ignore_ties=False). Otherwise the code violates the claim. ignore_ties=True, which adds more working columns, is modelled without names in C77 only."
  },
  {
   "property": "C168",
   "status": "partial",
   "theorems": [
    "Verif.OnlineDbl.step_accurate_partial",
    "Verif.OnlineDbl.frozen_forever",
    "Verif.OnlineDbl.large_row_freezes",
    "Verif.OnlineDbl.online_lost",
    "Verif.OnlineDbl.rolling_lost",
    "Verif.OnlineDbl.rolling_lost_exists",
    "Verif.OnlineDbl.rolling_wrong",
    "Verif.OnlineDbl.recursive_lost",
    "Verif.OnlineDbl.recursive_wrong"
   ],
   "note": "Violated by the code: one row whose feature is 2^27 times larger than the others makes the stored inverse exactly zero, and from then on no row changes anything. Proved for moderate rows: one addition gives the new inverse up to twelve half-ulps of the old inverse. One feature, no bias; overflow is not modelled; solving a 1 x 1 system is taken as one rounded division."
  },
  {
   "property": "C169",
   "status": "partial",
   "theorems": [
    "Verif.SplitDbl.rows_of_ratio_partial",
    "Verif.SplitDbl.two_ratios_accepted",
    "Verif.SplitDbl.ratio_29_of_100",
    "Verif.SplitDbl.split_58_42",
    "Verif.SplitDbl.three_ratios_rejected"
   ],
   "note": "Proved: with up to six decimals and any frame the number of rows is right, except that it can be one less when n * ratio is whole; two ratios that add up to 1 are always accepted. The exception and the sum of three ratios violate the claim (witnesses). The documentation warns about ratios with too many decimals only."
  },
  {
   "property": "C170",
   "status": "partial",
   "theorems": [
    "Verif.Downsample.downsample_counts_partial",
    "Verif.Downsample.downsample_all",
    "Verif.Downsample.null_rows_lost",
    "Verif.Downsample.doc_list_rejected",
    "Verif.Downsample.volume_neutral_controls",
    "Verif.Downsample.control_names_ignored",
    "Verif.Downsample.downsample_rejects",
    "Verif.Downsample.single_control"
   ],
   "note": "Proved: the counts for true, false and null conditions, several conditions without nulls, and volume_neutral with any number of controls. Violated by the code: null conditions are sampled too, lists as in the documentation are rejected, and controls given by name are ignored."
  },
  {
   "property": "C171",
   "status": "partial",
   "theorems": [
    "Verif.LossEdge.log_loss_cases",
    "Verif.LossEdge.log_loss_negative",
    "Verif.LossEdge.log_loss_empty",
    "Verif.LossEdge.mape_cases",
    "Verif.LossEdge.mape_perfect_nan",
    "Verif.LossEdge.log_loss_labels",
    "Verif.LossEdge.xlogy_zero"
   ],
   "note": "Proved: the value in every case. Violated by the code: predictions above 1 on positive labels give negative losses instead of NaN, and query_mape of perfect predictions is NaN if a value is zero. Finite values are exact reals; infinite predictions are outside."
  },
  {
   "property": "C172",
   "status": "partial",
   "theorems": [
    "Verif.Profile.five_numbers",
    "Verif.Profile.median_below_min",
    "Verif.Profile.profile_counts",
    "Verif.Profile.outliers_spec",
    "Verif.Profile.histogram_total",
    "Verif.Profile.histogram_bins_partial",
    "Verif.Profile.histogram_constant",
    "Verif.Profile.histogram_infinite",
    "Verif.Profile.gap_lost",
    "Verif.Profile.last_bin_short",
    "Verif.Profile.histogram_int8_partial",
    "Verif.Profile.histogram_int8_wrong"
   ],
   "note": "Proved: counts, quartiles, outliers, the total of the bars and which values each bar counts. Violated by the code: the median shown is rounded and can be below the minimum, empty bins are left out, the last bin is shorter, one infinite value leaves a single bar, Int8 columns wrap. Exact arithmetic; mean and standard deviation are left out; polars' quantile, cut and value_counts are modelled by their documentation."
  },
  {
   "property": "C173",
   "status": "partial",
   "theorems": [
    "Verif.FrameNames.split_one_partial",
    "Verif.FrameNames.split_list_partial",
    "Verif.FrameNames.split_keeps_columns",
    "Verif.FrameNames.split_loses_column",
    "Verif.FrameNames.split_id_taken",
    "Verif.FrameNames.split_loses_witness",
    "Verif.FrameNames.report_with_id",
    "Verif.FrameNames.report_with_index",
    "Verif.FrameNames.report_index_taken",
    "Verif.FrameNames.report_rule_name"
   ],
   "note": "Proved for frames without `__id` and `__tt` (splits) and, for reports, exactly which names are accepted. Violated by the code: a column `__tt` is lost without an error, a column `__id` makes every split fail, `__index__` every report with row numbers; a rule called like a kept column, or an identifier repeated among the kept columns, fails. Rows lost to rounding are the subject of C33 and C169. Left out: explanations polars reads as patterns, reports without rules."
  },
  {
   "property": "C174",
   "status": "partial",
   "theorems": [
    "Verif.IntSeries.float_values",
    "Verif.IntSeries.c3_exact_partial",
    "Verif.IntSeries.c3_exact_wide_partial",
    "Verif.IntSeries.tras_exact_partial",
    "Verif.IntSeries.tras_unsigned_nonneg",
    "Verif.IntSeries.tras_unsigned_wrong",
    "Verif.IntSeries.cov_exact_partial",
    "Verif.IntSeries.products_wrong",
    "Verif.IntSeries.cid_exact_partial",
    "Verif.IntSeries.cid_nan",
    "Verif.IntSeries.change_exact_partial",
    "Verif.IntSeries.change_wrong",
    "Verif.IntSeries.top_exact_partial",
    "Verif.IntSeries.top_wrong"
   ],
   "note": "Proved whenever the final products, squares, steps (and sums) are numbers of the data type, whatever the intermediate results; always for mean_abs_change of UInt8, UInt16 and UInt32. Violated otherwise: negative products of positive series, an asymmetry statistic that is never negative on unsigned columns, NaN complexity, the greatest step counted as 1, the value of greatest magnitude not found. polars' integer arithmetic, and the data types of sum and diff, are trusted; floats are exact rationals."
  },
  {
   "property": "C175",
   "status": "proved",
   "theorems": [
    "Verif.TargetDbl.encode_range",
    "Verif.TargetDbl.encode_constant",
    "Verif.TargetDbl.encode_mono",
    "Verif.TargetDbl.weight_mono",
    "Verif.TargetDbl.encode_accuracy",
    "Verif.TargetDbl.encode_ends"
   ],
   "note": "The exponential function of the platform is arbitrary except for its sign (and, for the weight, that it does not decrease). The target is a column of zeros and ones, as the documentation asks, so sums are exact; a smoothing of 0 is the positive zero."
  },
  {
   "property": "C176",
   "status": "partial",
   "theorems": [
    "Verif.HavDbl.hav_range_partial",
    "Verif.HavDbl.hav_self",
    "Verif.HavDbl.hav_symm_partial",
    "Verif.HavDbl.antipode_a",
    "Verif.HavDbl.antipode_nan",
    "Verif.HavDbl.havA_accuracy",
    "Verif.HavDbl.nan_near_antipode",
    "Verif.HavDbl.symm_wrong"
   ],
   "note": "The full claim (a number, and the same in both directions, for all points) is false: for the NaN by antipode_nan, and for the order of the points by symm_wrong: the two cosines are multiplied one after the other."
  },
  {
   "property": "C177",
   "status": "proved",
   "theorems": [
    "Verif.PsiDbl.contribution_sign",
    "Verif.PsiDbl.psi_nonneg",
    "Verif.PsiDbl.psi_zero",
    "Verif.PsiDbl.iv_sign",
    "Verif.PsiDbl.contribution_accuracy",
    "Verif.PsiDbl.psi_asymmetric",
    "Verif.PsiDbl.psi_zero_different"
   ],
   "note": "The logarithm of the platform is a parameter with a bound of its relative error; a total count of 0 is left to the exact model."
  },
  {
   "property": "C178",
   "status": "partial",
   "theorems": [
    "Verif.ChiDbl.chi2_nonneg",
    "Verif.ChiDbl.chi2_zero_partial",
    "Verif.ChiDbl.chi2_independent_positive",
    "Verif.ChiDbl.chi2_empty_level"
   ],
   "note": "The full claim (0 exactly for independent columns, for all numbers of rows) is false, shown by chi2_independent_positive with 94925793 rows; between the two numbers of rows nothing is claimed."
  },
  {
   "property": "C179",
   "status": "proved",
   "theorems": [
    "Verif.CondEntDbl.cond_entropy_dbl"
   ],
   "note": "The sum is taken from the first group to the last; the logarithm of the platform is a parameter with a bound of its relative error. A zero of either sign counts as 0."
  }
 ]
}