{"id": "C01", "title": "Radius search returns exactly the points in the ball", "statement": "For a KDTree built from any non-empty matrix and then extended by any sequence of add() calls, within(q, r) with r above machine epsilon returns, as a multiset of (index, distance), exactly the inserted rows whose distance to q is <= r, for each of l1, l2, sql2 and inf; with sort=True the distances are non-decreasing.", "quantifier": "every matrix, every history of add calls, every split policy and leaf capacity, every query point and radius, every metric among l1/l2/sql2/inf", "why_tests_cant": "pruning errors only show for particular geometric configurations and tree shapes; there are unboundedly many insertion histories and query points", "anchors": ["src/arkadia/kdt.rs OwnedKDT::add_unchecked, within_one_step, _closest_dist_to_box", "src/arkadia/mod.rs SpatialQueries::within", "src/pymodels/py_kdt.rs PyKDT", "python/polars_ds/spatial.py KDTree.within"]}
{"id": "C02", "title": "Neighbor count agrees with radius search", "statement": "within_count(q, r) equals the number of inserted rows at distance <= r from q, and equals len(within(q, r)) for the same tree and arguments; both are null for the same arguments.", "quantifier": "every tree history, query point, radius and metric", "why_tests_cant": "the two traversals are separate code; agreement on samples does not exclude a differing prune", "anchors": ["src/arkadia/kdt.rs within_count_one_step", "src/arkadia/mod.rs within_count", "src/num_ext/knn.rs pl_nb_cnt"]}
{"id": "C03", "title": "k-nearest-neighbor search is exact", "statement": "With epsilon = 0, knn(q, k, bound) returns at most k entries, in non-decreasing distance order, each a distinct inserted row with its true distance <= bound, and the distances below the bound are exactly the k smallest among all inserted rows at distance < bound (all of them when fewer than k).", "quantifier": "every tree history, query point, k >= 1, bound and metric among l1/l2/sql2/inf", "why_tests_cant": "depends on pruning order, ties and tree shape over unboundedly many data sets", "anchors": ["src/arkadia/kdt.rs knn_one_step, update_top_k", "src/arkadia/mod.rs knn_bounded", "src/num_ext/knn.rs pl_knn_ptwise", "python/polars_ds/exprs/expr_knn.py query_knn_ptwise"]}
{"id": "C04", "title": "Approximate search errs by at most epsilon", "statement": "With epsilon > 0, any inserted row left out of the result of knn(q, k, bound) is at a distance d with d + epsilon >= every returned distance when k rows were returned, and d + epsilon >= bound otherwise.", "quantifier": "every tree history, query point, k, bound, epsilon >= 0", "why_tests_cant": "the error bound concerns all rows that were not returned, over all trees", "anchors": ["src/arkadia/kdt.rs knn_one_step", "python/polars_ds/spatial.py KDTree.knn"]}
{"id": "C05", "title": "Neighbors exactly at the distance bound are included", "statement": "knn with max_dist_bound b includes rows at distance exactly b when fewer than k rows are closer ('do not include neighbors beyond this distance').", "quantifier": "every tree and query", "why_tests_cant": "only ties at the bound across a tree split expose it", "anchors": ["src/arkadia/kdt.rs knn_one_step", "python/polars_ds/spatial.py KDTree.knn"]}
{"id": "C06", "title": "Tree count and row numbering", "statement": "After building from n0 rows and adding matrices of n1, n2, ... rows, len(tree) is n0+n1+n2+..., and the j-th row ever supplied carries index j; an add with the wrong number of columns is rejected and leaves the tree unchanged.", "quantifier": "every construction and history of add calls", "why_tests_cant": "an invariant of all histories", "anchors": ["src/pymodels/py_kdt.rs PyKDT::new, add, count", "src/arkadia/kdt.rs count_all, add_unchecked", "python/polars_ds/spatial.py KDTree.add"]}
{"id": "C07", "title": "Every tree metric admits box pruning", "statement": "For every distance accepted by the neighbor expressions, the tree search returns the same distances as a brute-force scan. (Holds for l1/l2/sql2/inf; the cosine option accepted by query_dist_from_kth_nb violates it.)", "quantifier": "every accepted metric name, data set and query", "why_tests_cant": "a particular geometry is needed to make the projection bound exceed the true minimum", "anchors": ["src/arkadia/kdt.rs _closest_dist_to_box", "src/utils/mod.rs DIST::new_from_str_informed", "src/num_ext/knn.rs pl_dist_from_kth_nb"]}
{"id": "C08", "title": "knn matrices are padded to shape", "statement": "KDTree.knn(X, k) returns two matrices of exactly rows(X) x k entries; row i begins with the neighbors of query i in order and all remaining cells are (inf, u32::MAX), sequentially or in parallel.", "quantifier": "every tree, query matrix, k, and worker count", "why_tests_cant": "shape and alignment must hold for every mix of found-counts", "anchors": ["src/pymodels/py_kdt.rs PyKDT::knn", "python/polars_ds/spatial.py KDTree.knn"]}
{"id": "C09", "title": "KNN average is a convex combination of neighbor targets", "statement": "query_knn_avg yields null iff no row among the k+1 nearest within max_bound is at distance >= min_bound; otherwise the value lies between the least and greatest target of those neighbors, and equals their mean when unweighted or when all weights agree.", "quantifier": "every data set, k, bounds and weighting mode", "why_tests_cant": "a bound over all real inputs", "anchors": ["src/arkadia/mod.rs KNNRegressor::knn_regress", "src/num_ext/knn.rs pl_knn_avg"]}
{"id": "C10", "title": "Parallel evaluation equals sequential evaluation", "statement": "For every row-wise expression that splits work over threads (knn, radius, neighbor counts, string distances, similarity), the column produced with parallel=True is identical to the one with parallel=False, for every thread-pool size and every completion order of workers.", "quantifier": "every column length, worker count n >= 1, and schedule", "why_tests_cant": "schedules and pool sizes cannot be enumerated by tests", "anchors": ["src/utils/mod.rs split_offsets", "src/num_ext/knn.rs", "src/str_ext/generic_str_distancer.rs"]}
{"id": "C11", "title": "Columns are assembled row-major under any schedule", "statement": "Feature columns of equal length n (m of them, arbitrarily chunked) become a buffer of n*m values with value (row i, column j) at position i*m+j, every cell written exactly once, whatever the interleaving of the per-column writers; unequal lengths or no columns is an error.", "quantifier": "every number of columns, chunking, and interleaving of writes", "why_tests_cant": "unsafe concurrent writes; correctness for all interleavings", "anchors": ["src/utils/mod.rs series_to_row_major_slice"]}
{"id": "C12", "title": "Least squares / ridge coefficients are the global optimum", "statement": "The coefficients returned by lin_reg (no l1) minimise sum of squared residuals plus l2_reg * squared norm of the non-bias coefficients over all coefficient vectors; the bias column is not penalised.", "quantifier": "every feature matrix with invertible normal matrix, target, l2_reg >= 0, bias flag", "why_tests_cant": "optimality ranges over all competing vectors", "anchors": ["src/linalg/lr_solvers.rs faer_solve_lstsq, LR", "src/num_ext/linear_regression.rs pl_lstsq"]}
{"id": "C13", "title": "Weighted least squares optimum and multi-target columns", "statement": "With non-negative weights the coefficients minimise the weighted sum of squared residuals; a multi-target fit gives, column by column, the single-target fits.", "quantifier": "every design, weights, targets", "why_tests_cant": "optimality ranges over all competing vectors", "anchors": ["src/linalg/lr_solvers.rs faer_weighted_lstsq", "src/num_ext/linear_regression.rs pl_lstsq_multi"]}
{"id": "C14", "title": "Online update equals refit", "statement": "OnlineLR.fit followed by any sequence of one-row update(x, y, c=+1/-1) calls, each keeping the normal matrix invertible, leaves exactly the coefficients and inverse that a batch ridge fit on the resulting multiset of rows would give; adding a row and then removing it restores the state.", "quantifier": "every initial data set and every history of updates", "why_tests_cant": "an invariant over all update histories", "anchors": ["src/linalg/lr_online_solvers.rs woodbury_step, OnlineLR", "python/polars_ds/linear_models.py OnlineLR.update"]}
{"id": "C15", "title": "Recursive regression equals batch fits on prefixes", "statement": "recursive_lin_reg(start_with=n) gives at row i >= n-1 the coefficients of the batch (ridge) fit on rows 0..i, and null before.", "quantifier": "every data set, n and l2_reg", "why_tests_cant": "an invariant over all prefixes", "anchors": ["src/linalg/lr_online_solvers.rs faer_recursive_lstsq", "src/num_ext/linear_regression.rs pl_recursive_lstsq"]}
{"id": "C16", "title": "Rolling regression equals batch fits on windows", "statement": "rolling_lin_reg(window_size=n) without nulls gives at row i >= n-1 the coefficients of the batch (ridge) fit on rows i-n+1..i.", "quantifier": "every data set and window", "why_tests_cant": "an invariant over all windows", "anchors": ["src/linalg/lr_online_solvers.rs faer_rolling_lstsq", "src/num_ext/linear_regression.rs pl_rolling_lstsq"]}
{"id": "C17", "title": "Rolling regression with skipped rows", "statement": "With null_policy skip, rolling_lin_reg gives at row i the batch fit on the valid rows among i-n+1..i when there are at least min_valid_rows of them, and null otherwise.", "quantifier": "every null pattern, window and min_valid_rows", "why_tests_cant": "depends on the history of validity patterns", "anchors": ["src/linalg/lr_online_solvers.rs faer_rolling_skipping_lstsq"]}
{"id": "C18", "title": "Recursive predictions with nulls refer to their own row", "statement": "With skipped nulls, the prediction recursive_lin_reg emits on a row is that row's features times the coefficients emitted on the same row.", "quantifier": "every null pattern", "why_tests_cant": "depends on interplay of null pattern and start_with", "anchors": ["src/num_ext/linear_regression.rs pl_recursive_lstsq"]}
{"id": "C19", "title": "Elastic net coordinate descent", "statement": "Every coordinate update of the lasso / elastic-net solver exactly minimises 1/2 ||y - X b||^2 + n*l1*||b||_1 + n/2*l2*||b||^2 in that coordinate, so the objective never increases over iterations, and a full sweep that changes nothing has reached a global minimum.", "quantifier": "every data set with nonzero columns, regularisation, iteration count", "why_tests_cant": "monotonicity over all iterations and optimality over all vectors", "anchors": ["src/linalg/lr_solvers.rs faer_coordinate_descent, soft_threshold_l1", "src/num_ext/linear_regression.rs pl_lstsq"]}
{"id": "C20", "title": "Null policies keep rows aligned", "statement": "For raise/skip/fill/ignore the rows used for fitting are exactly those documented (skip: no null anywhere; fill: target non-null, feature nulls replaced), and the prediction column has input length with NaN exactly on the dropped rows and the kept rows' predictions in order.", "quantifier": "every null pattern and policy", "why_tests_cant": "all null patterns", "anchors": ["src/num_ext/linear_regression.rs series_to_mat_for_lstsq, pl_lstsq_pred", "src/utils/mod.rs NullPolicy"]}
{"id": "C21", "title": "Model objects: set, get, predict", "statement": "For the LR/ElasticNet objects: setting coefficients and bias and reading them back is the identity; predict is X*coef + bias row by row; wrong width or unfitted model is an error, never a crash.", "quantifier": "every coefficient vector, bias and call order", "why_tests_cant": "all call histories", "anchors": ["src/linalg/mod.rs LinearRegression", "src/linalg/lr_solvers.rs LR::set_coeffs_and_bias", "python/polars_ds/linear_models.py"]}
{"id": "C22", "title": "rcond cuts off singular values", "statement": "lin_reg_w_rcond ignores exactly the singular values of X that are smaller than rcond times the largest singular value.", "quantifier": "every spectrum and rcond", "why_tests_cant": "the threshold compares quantities of different degree; fails only for spectra away from scale 1", "anchors": ["src/linalg/lr_solvers.rs faer_solve_lstsq_rcond", "python/polars_ds/exprs/expr_linear.py lin_reg_w_rcond"]}
{"id": "C23", "title": "Isotonic regression is the optimal monotone fit", "statement": "isotonic_regression returns a non-decreasing (non-increasing) column of input length that minimises the weighted squared error among all non-decreasing (non-increasing) sequences, constant on blocks equal to the block's weighted mean.", "quantifier": "every input length, values and positive weights", "why_tests_cant": "optimality over all monotone sequences, block merging cascades of any depth", "anchors": ["src/num_ext/isotonic_regression.rs"]}
{"id": "C24", "title": "Kendall tau equals its pairwise definition", "statement": "kendall_tau computes (concordant - discordant) / sqrt((n0 - n1)(n0 - n2)), with concordant/discordant/tied pairs counted over all pairs of rows.", "quantifier": "every pair of columns (any ties, any length)", "why_tests_cant": "the O(n log n) inversion count must agree with the O(n^2) definition for every permutation and tie pattern", "anchors": ["src/stats/kendall_tau.rs pl_kendall_tau"]}
{"id": "C25", "title": "Two-sample KS statistic is the sup of the ECDF gap", "statement": "For samples larger than the size cut-off, ks_2samp's statistic is the supremum over all real t of |F1(t) - F2(t)|, attained at a sample point, symmetric in the samples and in [0,1].", "quantifier": "every pair of samples and every threshold t", "why_tests_cant": "supremum over a continuum", "anchors": ["src/stats/ks.rs ks_2samp, binary_search_right"]}
{"id": "C26", "title": "Mann-Whitney tie correction", "statement": "The tie term used by mann_whitney_u is the sum over tie groups of t^3 - t.", "quantifier": "every rank multiset", "why_tests_cant": "depends on where the tie groups sit in the order", "anchors": ["src/stats/mann_whitney_u.rs mann_whitney_tie_sum", "python/polars_ds/exprs/stats.py mann_whitney_u"]}
{"id": "C27", "title": "ROC AUC is the probability of ranking a positive above a negative", "statement": "query_roc_auc equals the fraction of (positive, negative) pairs ranked correctly, ties counting one half, for every binary target with both classes.", "quantifier": "every score column and binary target", "why_tests_cant": "tie groups at the extremes only", "anchors": ["src/num_ext/tp_fp.rs tp_fp_frame, pl_roc_auc", "src/num_ext/trapz.rs"]}
{"id": "C28", "title": "Average precision", "statement": "query_binary_metrics' average precision is the sum over thresholds of (recall increment) * precision, over all thresholds including the lowest.", "quantifier": "every score column and binary target", "why_tests_cant": "missing boundary terms depend on the data at the extremes", "anchors": ["src/num_ext/tp_fp.rs pl_combo_b"]}
{"id": "C29", "title": "Confusion matrix", "statement": "query_confusion_matrix counts each non-null row in exactly one of tn/fp/fn/tp, the four add up to the row count, and each ratio metric is the documented quotient of these, NaN when its denominator is zero.", "quantifier": "every label/prediction column", "why_tests_cant": "an accounting identity for all inputs", "anchors": ["src/num_ext/tp_fp.rs binary_confusion_matrix, pl_binary_confusion_matrix, pl_mcc"]}
{"id": "C30", "title": "Trapezoid integration", "statement": "integrate_trapz is additive over concatenation at a shared point, exact on affine functions, and agrees between the uniform-step and explicit-x forms.", "quantifier": "every sample grid and values", "why_tests_cant": "identities over all inputs", "anchors": ["src/num_ext/trapz.rs"]}
{"id": "C31", "title": "Convolution modes", "statement": "convolve mode full gives entry t = sum_j x[t-j]*k[j] for 0 <= t < n+m-1; same/left/right/valid are the corresponding windows of full, with documented lengths; parallel equals sequential.", "quantifier": "every signal and kernel length", "why_tests_cant": "index arithmetic at borders for all length pairs", "anchors": ["src/num_ext/convolve.rs", "python/polars_ds/exprs/num.py convolve"]}
{"id": "C32", "title": "Combinations and products are complete and duplicate free", "statement": "combinations(source, k) lists each k-subset of positions exactly once, in lexicographic order, C(n,k) rows in total; k > n is an error, k = 0 gives the single empty combination; product lists each pair once.", "quantifier": "every source length and k", "why_tests_cant": "counting statement over all n and k", "anchors": ["src/num_ext/iterations.rs"]}
{"id": "C33", "title": "Sampling and ratio splits partition the frame", "statement": "split_by_ratio returns disjoint frames that together contain every input row exactly once.", "quantifier": "every row count, ratio list and shuffle", "why_tests_cant": "rounding of n*ratio loses rows only for particular n and ratios", "anchors": ["python/polars_ds/sample_and_split/sample_and_split.py split_by_ratio"]}
{"id": "C34", "title": "N-gram set similarities", "statement": "str_jaccard, sorensen_dice, overlap_coeff and tversky agree with their set definitions, lie in [0,1], are symmetric (tversky when alpha=beta), are 1 for equal non-empty strings, and tversky(1,1)=jaccard, tversky(1/2,1/2)=dice.", "quantifier": "every pair of strings and n-gram size >= 1", "why_tests_cant": "all strings", "anchors": ["src/str_ext/mod.rs str_set_sim_helper", "src/str_ext/str_jaccard.rs", "src/str_ext/sorensen_dice.rs", "src/str_ext/overlap.rs", "src/str_ext/tversky.rs"]}
{"id": "C35", "title": "Nearest string in vocabulary", "statement": "str_nearest returns the first word of the column of minimal distance among those within the threshold, and null iff none is within the threshold.", "quantifier": "every word, vocabulary order and threshold", "why_tests_cant": "shrinking cut-off across all vocabulary orders", "anchors": ["src/str_ext/nearest_str.rs"]}
{"id": "C36", "title": "Stopword lookup", "statement": "is_stopword is true exactly for members of the stopword table.", "quantifier": "every string", "why_tests_cant": "binary search correctness for all strings", "anchors": ["src/str_ext/is_stopword.rs", "src/str_ext/consts.rs"]}
{"id": "C37", "title": "Population stability bins", "statement": "The PSI report's bins partition the reals at the breakpoints: each finite value is counted in exactly the first bin whose right end is >= it, counts add up to the sample size, and every PSI contribution is >= 0.", "quantifier": "every sample and sorted breakpoints ending at +inf", "why_tests_cant": "all samples and breakpoints", "anchors": ["src/num_ext/psi.rs", "python/polars_ds/exprs/num.py psi_w_breakpoints"]}
{"id": "C38", "title": "Lempel-Ziv complexity", "statement": "The complexity is the number of phrases of a left-to-right parse in which each phrase except possibly the last is a new string whose proper prefixes were all seen; concatenating the phrases gives the input.", "quantifier": "every boolean sequence", "why_tests_cant": "all sequences", "anchors": ["src/num_ext/lempel_ziv.rs"]}
{"id": "C39", "title": "Column and row Jaccard", "statement": "jaccard_col/jaccard_row equal |A∩B|/|A∪B| of the (non-null) value sets, lie in [0,1], are symmetric, equal 1 for equal non-empty sets.", "quantifier": "every pair of columns", "why_tests_cant": "all inputs", "anchors": ["src/num_ext/jaccard.rs"]}
{"id": "C40", "title": "Partitioning loses no rows", "statement": "PartitionHelper(df, by) keeps every row of df in exactly one named part.", "quantifier": "every frame and key columns", "why_tests_cant": "name collisions need particular key strings", "anchors": ["python/polars_ds/partition/partition.py PartitionHelper"]}
{"id": "C41", "title": "Leading-digit counts", "statement": "query_first_digit_cnt entry d is the number of non-null finite non-zero values whose leading decimal digit is d; entries add up to the number of such values.", "quantifier": "every column of numbers", "why_tests_cant": "all decimal magnitudes", "anchors": ["src/num_ext/benford.rs"]}
{"id": "C42", "title": "gcd and lcm", "statement": "For int32 columns gcd/lcm return the greatest common divisor / least common multiple of each row, null when either is null; the results satisfy gcd*lcm = |x*y| when no overflow occurs.", "quantifier": "every pair of int32 values", "why_tests_cant": "2^64 pairs", "anchors": ["src/num_ext/gcd_lcm.rs"]}
{"id": "C43", "title": "Chi-squared test statistic", "statement": "chi2 uses for every pair of observed levels the observed count and row*col/total expected count; expected counts add up to the total, the statistic is >= 0 and is 0 iff the counts are exactly independent.", "quantifier": "every pair of categorical columns without null", "why_tests_cant": "all contingency tables", "anchors": ["src/stats/chi2.rs"]}
{"id": "C44", "title": "ANOVA F statistic", "statement": "f_test's between- and within-group sums of squares add up to the total sum of squares, both are >= 0 and the statistic is their ratio scaled by (k-1) and (n-k).", "quantifier": "every grouping and values", "why_tests_cant": "all groupings", "anchors": ["src/stats/fstats.rs"]}
{"id": "C45", "title": "Weight of evidence / information value", "statement": "Each information value term is >= 0, the smoothed event and non-event shares are strictly positive, and adding categories is order independent.", "quantifier": "every category/target column", "why_tests_cant": "all inputs", "anchors": ["src/num_ext/woe_iv.rs"]}
{"id": "C46", "title": "Target encoding is a shrinkage between category and overall mean", "statement": "Every encoded value lies between the category mean and the overall mean, and moves monotonically towards the category mean as the category count grows.", "quantifier": "every category/target column, min_samples_leaf and smoothing > 0", "why_tests_cant": "all inputs", "anchors": ["src/num_ext/target_encode.rs"]}
{"id": "C47", "title": "String distance expressions broadcast and align", "statement": "For the pairwise string expressions, output row i depends only on row i of both columns (or on the scalar), is null iff an operand is null, scalar and repeated-column forms agree, and unequal lengths are an error.", "quantifier": "every column length, null pattern and worker count", "why_tests_cant": "all null patterns and worker counts", "anchors": ["src/str_ext/generic_str_distancer.rs", "src/str_ext/hamming.rs", "src/str_ext/levenshtein.rs"]}
{"id": "C48", "title": "Subsequence similarity count", "statement": "query_similar_count counts exactly the windows of the target of the query's length at distance below the threshold.", "quantifier": "every target, query and threshold", "why_tests_cant": "early exits and windows for all inputs", "anchors": ["src/num_ext/subseq_sim.rs"]}
{"id": "C49", "title": "Sample/approximate entropy template counts", "statement": "The template match counts used for approximate and sample entropy are the pairwise max-norm match counts of the length-m and length-(m+1) templates.", "quantifier": "every series, m and tolerance", "why_tests_cant": "all series", "anchors": ["src/num_ext/entrophies.rs"]}
{"id": "C50", "title": "Whitespace normalisation and word maps", "statement": "normalize_whitespace is idempotent and preserves the sequence of words; word-wise maps act on exactly the whitespace-separated words and join with single spaces.", "quantifier": "every string", "why_tests_cant": "all strings", "anchors": ["src/str_ext/str_cleaning.rs"]}
{"id": "C51", "title": "Mann-Whitney U counts pairs", "statement": "The U statistic of mann_whitney_u for the first sample is the number of pairs (a from sample 1, b from sample 2) with a > b plus half the number of ties; the two U values add up to n1*n2.", "quantifier": "every pair of samples, with any ties", "why_tests_cant": "average ranks over all tie patterns", "anchors": ["src/stats/mann_whitney_u.rs", "python/polars_ds/exprs/stats.py mann_whitney_u"]}
{"id": "C52", "title": "Neighbor expressions answer every row from the right candidates", "statement": "query_knn_ptwise returns one entry per input row: null when the evaluation mask is not true or a feature is null, otherwise the k+1 nearest rows (with distances) within max_bound among the rows that have no null feature and are admitted by the data mask.", "quantifier": "every frame, masks with nulls, k and bound; metrics l1, l2, sql2, inf", "why_tests_cant": "interaction of two masks, nulls and the tree for all frames", "anchors": ["python/polars_ds/exprs/expr_knn.py query_knn_ptwise", "src/num_ext/knn.rs pl_knn_ptwise_w_dist, row_major_slice_to_leaves_filtered"]}
{"id": "C53", "title": "Precision, recall and F at a threshold", "statement": "query_binary_metrics reports the precision, recall and F of the rule score >= threshold for every threshold.", "quantifier": "every label/score column and every threshold", "why_tests_cant": "the threshold can fall anywhere among or above the scores", "anchors": ["src/num_ext/tp_fp.rs pl_combo_b"]}
{"id": "C54", "title": "MCC is the correlation of the two label columns", "statement": "query_mcc returns the Pearson correlation of the 0/1 columns for any number of rows, and agrees with the mcc field of query_confusion_matrix.", "quantifier": "every pair of 0/1 columns", "why_tests_cant": "wrap-around only shows up beyond 65536 rows per cell", "anchors": ["src/num_ext/tp_fp.rs pl_mcc, pl_binary_confusion_matrix"]}
{"id": "C55", "title": "Elastic net reports convergence only near an optimum", "statement": "When lin_reg with l1_reg > 0 stops before 2000 iterations, the coefficients are optimal up to a gap proportional to tol.", "quantifier": "every data set, regularisation and tol, with and without bias", "why_tests_cant": "the data on which a sweep leaves the slopes unchanged while the intercept still moves are a thin set", "anchors": ["src/linalg/lr_solvers.rs faer_coordinate_descent", "python/polars_ds/exprs/expr_linear.py lin_reg"]}
{"id": "C56", "title": "Weights stay with their rows under every null policy", "statement": "lin_reg with weights uses the weight of each kept row, whatever rows a null policy drops.", "quantifier": "every null pattern, policy and weight column", "why_tests_cant": "depends on the interplay of null pattern, policy and weights", "anchors": ["src/num_ext/linear_regression.rs pl_lstsq, pl_lstsq_pred, series_to_mat_for_lstsq"]}
{"id": "C57", "title": "An OnlineLR can be rebuilt from its parts", "statement": "OnlineLR.from_coeffs_bias_inverse(m.coeffs(), bias, m.inv()) gives an object in the same state as the fitted m.", "quantifier": "every fitted OnlineLR, with and without bias", "why_tests_cant": "all states", "anchors": ["src/linalg/lr_online_solvers.rs set_coeffs_bias_inverse", "python/polars_ds/linear_models.py OnlineLR.from_coeffs_bias_inverse"]}
{"id": "C58", "title": "Sampling sizes", "statement": "sample returns exactly the requested number of rows (all if there are fewer), each at most once and in order; downsample keeps every row outside the condition and the requested number inside; volume_neutral keeps the same number of rows of every group: the smallest group size, capped by target_volume.", "quantifier": "every frame, condition, grouping and shuffle", "why_tests_cant": "all shuffles and group sizes", "anchors": ["python/polars_ds/sample_and_split/sample_and_split.py sample", "downsample", "volume_neutral"]}
{"id": "C59", "title": "Random column selection", "statement": "random_cols returns the kept columns followed by k different other columns, can return every such choice, and returns the same columns for the same seed.", "quantifier": "every list of columns, k, keep and seed", "why_tests_cant": "reachability of every choice; reproducibility is a statement about all runs", "anchors": ["python/polars_ds/sample_and_split/sample_and_split.py random_cols"]}
{"id": "C60", "title": "PSI of discrete variables keeps null as a category", "statement": "psi_discrete uses the shares of every category of the two columns, null being a category by itself, and is 0 for two identical columns.", "quantifier": "every pair of columns with any nulls", "why_tests_cant": "all null patterns and category sets", "anchors": ["python/polars_ds/exprs/num.py psi_discrete", "src/num_ext/psi.rs pl_psi_discrete_report"]}
{"id": "C61", "title": "Weight of evidence on numeric features with nulls", "statement": "query_woe / info_value on a numeric feature drop the rows where the feature is null, NaN or infinite and report on the remaining rows.", "quantifier": "every numeric feature and 0/1 target", "why_tests_cant": "all null and NaN patterns", "anchors": ["python/polars_ds/exprs/num.py woe, info_value"]}
{"id": "C62", "title": "Target encoding covers null", "statement": "target_encode gives null categories an encoding as documented, so that encoding a column again reaches every row.", "quantifier": "every category column with nulls", "why_tests_cant": "all null patterns", "anchors": ["python/polars_ds/exprs/num.py target_encode", "src/num_ext/target_encode.rs"]}
{"id": "C63", "title": "KNN entropy looks at the k-th other row", "statement": "query_knn_entropy uses for every row the distance to its k-th nearest other row, whatever ties and tree shape.", "quantifier": "every set of rows, k and both metrics", "why_tests_cant": "all point sets, ties and splits", "anchors": ["src/num_ext/entrophies.rs _knn_entropy_helper, pl_knn_entropy"]}
{"id": "C64", "title": "Weighted statistics are weighted statistics", "statement": "weighted_mean, weighted_var, weighted_cov, weighted_corr, weighted_cosine_sim, weighted_gmean, weighted_hmean, hmean, gmean and cosine_sim return the quantity they name: repeating rows equals using integer weights, means lie between the extremes, correlations and cosines lie in [-1, 1], and nulls remove a row from value and weight alike.", "quantifier": "every pair of columns and every positive weight column", "why_tests_cant": "an inequality over all real columns; examples with equal columns hide a wrong denominator", "anchors": ["python/polars_ds/exprs/stats.py:704-946"]}
{"id": "C65", "title": "Biweight midcorrelation is a correlation", "statement": "bicor lies in [-1, 1] and bicor(x, x) is 1 whenever it is defined.", "quantifier": "every pair of columns and every tuning constant", "why_tests_cant": "an inequality over all real columns", "anchors": ["python/polars_ds/exprs/stats.py:949-984"]}
{"id": "C66", "title": "t tests", "statement": "ttest_ind and ttest_1samp return the textbook statistic; the one-sided p-values add up to 1, the two-sided one is twice the smaller side, exchanging the samples exchanges the sides, and the two-sided test agrees with the F test on the squared statistic.", "quantifier": "every pair of columns, every alternative", "why_tests_cant": "symmetries over all samples and all degrees of freedom", "anchors": ["src/stats/t_test.rs", "src/stats_utils/beta.rs", "python/polars_ds/exprs/stats.py:48-133"]}
{"id": "C67", "title": "Xi correlation", "statement": "xi_corr is Chatterjee's coefficient of the rows ordered by x: it lies in [-1, 1], equals 1 - 3 sum|r(i+1)-r(i)|/(n^2-1) without ties, is at most (n-2)/(n+1) then and reaches it for monotone data, depends only on the order of y, is NaN only for constant y, and rows with nulls are left out.", "quantifier": "every pair of columns, every tie-breaking seed", "why_tests_cant": "a bound over all samples and tie patterns; the seed makes outputs random", "anchors": ["src/stats/xi_corr.rs", "python/polars_ds/exprs/stats.py:987-1028"]}
{"id": "C68", "title": "Conditional entropy", "statement": "query_cond_entropy(x, y) is H(x,y) - H(y); it is never negative, at most H(x), and zero exactly when y determines x; infer_dependency loses no dependency by testing each pair only once, ordered by the number of distinct values.", "quantifier": "every pair of columns, nulls counting as a value", "why_tests_cant": "an equivalence over all joint distributions", "anchors": ["src/num_ext/cond_entropy.rs", "python/polars_ds/exprs/ts_features.py:500-517", "python/polars_ds/eda/diagnosis.py:725-770"]}
{"id": "C69", "title": "Real FFT output", "statement": "rfft returns the leading N/2+1 coefficients of the discrete Fourier transform of the input cropped or zero padded to n points, and with return_full all N coefficients, for even and odd N; nulls and n <= 1 are rejected.", "quantifier": "every series and every n", "why_tests_cant": "index arithmetic over all lengths and both parities", "anchors": ["src/num_ext/fft.rs", "python/polars_ds/exprs/num.py:940-962"]}
{"id": "C70", "title": "Haversine distance", "statement": "haversine is 6371 km times the angle between the two points on the sphere, hence a symmetric metric bounded by half the circumference and unchanged by full turns; nulls give null rows and a scalar y is broadcast.", "quantifier": "all latitudes and longitudes, all columns", "why_tests_cant": "trigonometric identity over all reals", "anchors": ["src/utils/mod.rs:244-262", "src/num_ext/haversine.rs", "python/polars_ds/exprs/num.py:237-266"]}
{"id": "C71", "title": "Regression losses are averages over the complete rows", "statement": "query_l1, query_l2, query_hubor_loss, query_log_cosh and query_msle sum their per-row loss over exactly the rows where actual and prediction are both known, and when normalised divide by the number of those rows.", "quantifier": "for all columns of any length with any nulls", "why_tests_cant": "A test uses columns without nulls; the denominator only differs when a prediction is missing.", "anchors": ["python/polars_ds/exprs/metrics.py:103-170", "python/polars_ds/exprs/metrics.py:325-342"]}
{"id": "C72", "title": "Regression losses relate as the theory says", "statement": "Mean absolute error is at most the root mean squared error; query_l_inf is the largest error, bounds the mean absolute error, and is null exactly without a complete row; the Huber loss lies between 0 and min(l2/2, delta*l1) and equals l2/2 when no error exceeds delta; the log-cosh loss lies between l1 - log 2 and l1; losses are zero exactly for error-free predictions and symmetric in the two columns.", "quantifier": "for all columns with any nulls and all delta >= 0", "why_tests_cant": "Inequalities between two functions over all data cannot be sampled.", "anchors": ["python/polars_ds/exprs/metrics.py:103-186"]}
{"id": "C73", "title": "R2 and adjusted R2 have their textbook values", "statement": "query_r2 is 1 - SSE/SST over the complete rows; it never exceeds 1, is 1 exactly for error-free predictions, is 0 when the mean is predicted everywhere and undefined for constant actuals; query_adj_r2 with p explanatory variables divides SSE by n-p-1 and SST by n-1.", "quantifier": "for all columns and all p", "why_tests_cant": "A wrong degree of freedom or a null prediction changes the value only slightly and looks plausible.", "anchors": ["python/polars_ds/exprs/metrics.py:59-100"]}
{"id": "C74", "title": "Percentage errors", "statement": "query_smape is always between 0 and 1 and is the mean of |x-y|/(|x|+|y|); query_mape is the mean absolute relative error over the complete rows; weighted, it is total absolute error over total absolute actual.", "quantifier": "for all columns", "why_tests_cant": "'Always between 0 and 1' is a statement about all data; the failing case needs a perfect prediction of zero.", "anchors": ["python/polars_ds/exprs/metrics.py:220-263"]}
{"id": "C75", "title": "Log loss is a proper score", "statement": "For 0/1 labels query_log_loss is minus the mean logarithm of the probability given to the label that occurred, over the complete rows; it is never negative, zero exactly for certain and right predictions, and among constant predictions smallest at the share of positives.", "quantifier": "for all columns with nulls and all predicted probabilities that do not give an occurring label probability zero", "why_tests_cant": "Properness is a minimisation over all predictions.", "anchors": ["python/polars_ds/exprs/metrics.py:189-217", "src/num_ext/float_extras.rs:23-29"]}
{"id": "C76", "title": "Fairness scores", "statement": "query_fairness is the distance between the mean predictions of the two groups, null when a group has no known prediction; query_p_pct_score is the smaller of the two ratios of positive rates, between 0 and 1; neither depends on which group is called sensitive.", "quantifier": "for all prediction columns and all conditions, with nulls", "why_tests_cant": "Symmetry and range hold over all data; the undefined case needs two groups without positives.", "anchors": ["python/polars_ds/exprs/metrics.py:619-658"]}
{"id": "C77", "title": "NDCG", "statement": "calculate_ndcg divides each group's DCG by the largest DCG any order of its rows can have, so a group's score is between 0 and 1 and is 1 when the scores order the rows like the relevances; groups of one row are left out of the mean; the result does not depend on the order of the rows; any group column can be used; k limits the ranks that count.", "quantifier": "for all frames, all groups, all k, every sort that may break ties in any way", "why_tests_cant": "The maximum over all orders and independence of an unstable sort cannot be sampled.", "anchors": ["python/polars_ds/exprs/metrics.py:660-883"]}
{"id": "C78", "title": "logit and expit are inverse", "statement": "`expit` maps every real to a value strictly between 0 and 1, is strictly increasing with expit(-x) = 1 - expit(x); `logit(expit(x)) = x` for every x and `expit(logit(p)) = p` for every p strictly between 0 and 1; logit(0) = -inf, logit(1) = inf and logit outside [0, 1] is NaN.", "quantifier": "all real inputs", "why_tests_cant": "The identities are over a continuum; tests sample a few points.", "anchors": ["src/num_ext/float_extras.rs:11-33", "python/polars_ds/exprs/num.py:836-858"]}
{"id": "C79", "title": "Integer and fractional parts", "statement": "`trunc(x) + fract(x) = x`; trunc is an integer no larger than x in magnitude, fract is below 1 in magnitude and never has the opposite sign; a null stays null whatever the column type.", "quantifier": "all numeric columns, integer or float, with or without nulls", "why_tests_cant": "Nulls in integer columns are a separate code path that no test exercises.", "anchors": ["src/num_ext/float_extras.rs:172-218"]}
{"id": "C80", "title": "sinc", "statement": "`sinc(x) = sin(pi x)/(pi x)` for x != 0, it is even, bounded by 1, zero at non-zero integers, and 1 at zero up to 1e-39; nulls stay null.", "quantifier": "all reals", "why_tests_cant": "The replacement value at zero is only right because of an analytic bound.", "anchors": ["python/polars_ds/exprs/num.py:891-897"]}
{"id": "C81", "title": "Norms across columns", "statement": "`l1_horizontal`, `l2_sq_horizontal` and `l_inf_horizontal` are the sum of magnitudes, sum of squares and largest magnitude of the known values of each row; `normalize` divides by the number of columns; they satisfy max <= L1, max^2 <= L2^2 <= L1^2 <= n L2^2 and are zero only if all known values are zero.", "quantifier": "all rows of any width with any nulls", "why_tests_cant": "Inequalities between norms hold for all widths and values.", "anchors": ["python/polars_ds/exprs/num.py:64-115"]}
{"id": "C82", "title": "Monotonicity checks", "statement": "`is_increasing`/`is_decreasing` (strict or not) return true exactly when the known values are in that order, whatever nulls lie between them.", "quantifier": "all columns", "why_tests_cant": "The check only compares neighbors; that this decides the whole order needs an argument, and nulls break it.", "anchors": ["python/polars_ds/exprs/num.py:118-150"]}
{"id": "C83", "title": "Centering, z-normalization, MAD and softmax", "statement": "`center` makes the known values sum to zero; `z_normalize` gives mean 0 and sample variance 1 for a non-constant column; `query_mad` is the mean distance to the mean, zero exactly for constant columns; `softmax` turns any real column into probabilities that sum to one, keeps the order and ignores a common shift. Nulls stay null.", "quantifier": "all columns", "why_tests_cant": "Statements about sums over columns of any length; overflow is outside the tested range.", "anchors": ["python/polars_ds/exprs/num.py:153-188", "python/polars_ds/exprs/metrics.py:41-54"]}
{"id": "C84", "title": "Linear detrending", "statement": "`detrend(method='linear')` returns, for any column, the residuals of the least-squares line over row numbers: no other line has a smaller squared error, the residuals sum to zero and are uncorrelated with the row number; nulls stay null.", "quantifier": "all columns", "why_tests_cant": "Optimality over all lines; nulls take a path that fails.", "anchors": ["python/polars_ds/exprs/num.py:918-938"]}
{"id": "C85", "title": "Singular values and principal components", "statement": "The squared singular values add up to the total sum of squares of the (centered) data; the principal components are mutually orthogonal, component j has squared length s_j^2 and no direction orthogonal to the previous ones captures more; `as_explained_var` gives s^2/(n_samples - 1) and `as_ratio` shares that add up to one; rows with nulls are dropped and the remaining data is centered; fewer rows than `k` gives NaN.", "quantifier": "all data matrices", "why_tests_cant": "Optimality is over all directions; the divisor only shows when compared to a definition.", "anchors": ["src/num_ext/pca.rs:40-186", "python/polars_ds/exprs/num.py:268-361"]}
{"id": "C86", "title": "Streaks", "statement": "`query_longest_streak` is the largest number of consecutive true rows, `query_avg_streak` the number of true rows divided by the number of maximal runs of them, both 0 if no row is true; a null ends a streak; `query_streak` returns a full column with, for every row where the condition is true, the length of its streak.", "quantifier": "all boolean columns with any nulls", "why_tests_cant": "Maximal runs are a statement about all windows of a column of any length.", "anchors": ["python/polars_ds/exprs/ts_features.py:121-206"]}
{"id": "C87", "title": "Lagged products: c3, time reversal asymmetry, autocorrelation", "statement": "`query_c3_stats` is the mean of x[i] x[i-l] x[i-2l], `query_time_reversal_asymmetry_stats` the mean of x[i+2l]^2 x[i+l] - x[i+l] x[i]^2 and changes sign when the series is reversed; `query_auto_corr` is the lagged covariance over the variance, lies in [-1, 1] as documented, is 1 at lag 0, and does not change when the series is reversed, shifted or scaled.", "quantifier": "all series, lags and lengths", "why_tests_cant": "Symmetries and bounds over all series; the divisors differ from the definition only at some lags or with nulls.", "anchors": ["python/polars_ds/exprs/ts_features.py:336-353", "python/polars_ds/exprs/ts_features.py:382-416"]}
{"id": "C88", "title": "Step sizes, energy and complexity of a series", "statement": "`query_mean_abs_change` is the mean of |x[i+1]-x[i]| and at least |last-first|/(n-1); `query_abs_energy` is the sum of squares; `query_cid_ce` is the length of the step vector: zero exactly for constant series, unchanged by reversal and shift, scaled by |a|, and with `normalize=True` unchanged by any non-degenerate affine map.", "quantifier": "all series", "why_tests_cant": "Invariances and bounds over all series.", "anchors": ["python/polars_ds/exprs/ts_features.py:68-80", "python/polars_ds/exprs/ts_features.py:356-379"]}
{"id": "C89", "title": "Extremes and counts of a series", "statement": "`query_mean_n_abs_max` is the mean of the n largest magnitudes (of all if there are fewer), `query_mid_range` half the distance between largest and smallest value, `query_range_count` the number of values inside the closed interval, additive over split intervals; `query_count_uniques` is the number of distinct values.", "quantifier": "all columns and parameters", "why_tests_cant": "Optimality over all choices of n values; the count differs from its description only with repeated values.", "anchors": ["python/polars_ds/exprs/ts_features.py:51-56", "python/polars_ds/exprs/ts_features.py:83-89", "python/polars_ds/exprs/ts_features.py:107-118"]}
{"id": "C90", "title": "Entropy of a discrete column", "statement": "`query_entropy` is the Shannon entropy of the relative frequencies in the given base: never negative, at most the logarithm of the number of distinct values, and zero exactly when all rows are equal; a null counts as a value.", "quantifier": "all columns, bases above 1", "why_tests_cant": "The upper bound is Gibbs' inequality over all distributions.", "anchors": ["python/polars_ds/exprs/ts_features.py:484-497"]}
{"id": "C91", "title": "Permutation entropy", "statement": "`query_permute_entropy` depends only on the order of the values; it lies between 0 and log(n_dims!); it is zero for monotone series; `tau` is the number of time periods between the entries of a window.", "quantifier": "all series with nulls and ties, all delays and dimensions", "why_tests_cant": "Invariance under all monotone maps; delay handling is wrong only for tau > 1.", "anchors": ["python/polars_ds/exprs/ts_features.py:734-785"]}
{"id": "C92", "title": "Autoregressive coefficients", "statement": "`query_ar_coeffs` returns the least-squares coefficients of x[i] on x[i-1], ..., x[i-lag] over all complete windows, in order of increasing lag with the bias last; a series that follows such a recursion exactly gives back its coefficients; lag 0 is rejected.", "quantifier": "all series without nulls, all lags", "why_tests_cant": "Optimality is over all coefficient vectors; the order of coefficients needs a general argument.", "anchors": ["python/polars_ds/exprs/ts_features.py:419-461"]}
{"id": "C93", "title": "Rank features of copula and transfer entropy", "statement": "Copula entropy, conditional independence and transfer entropy only depend on the ranks within each variable: strictly increasing transformations change nothing; the rank features lie in (0, 1] and add up to (n+1)/2 whatever the ties; transfer entropy compares x[i+lag] with source[i] and x[i] for every i once, and rejects lag < 1.", "quantifier": "all columns, transformations and lags", "why_tests_cant": "Invariance under all monotone maps cannot be sampled.", "anchors": ["python/polars_ds/exprs/ts_features.py:682-731"]}
{"id": "C94", "title": "A fitted pipeline reproduces the fit on its training frame", "statement": "`Blueprint.materialize().transform(df)` on the frame the blueprint was made from gives exactly what running the steps one after the other on that frame gives, each fitted step fitted on the output of the steps before it; the output has the recorded output columns, and `separate=True` splits that output into the target column and all others.", "quantifier": "all frames, all step lists (fitted, expression, select, filter and SQL steps), any renaming option", "why_tests_cant": "The fitted parameters depend on all earlier steps; a test fixes one list of steps.", "anchors": ["python/polars_ds/modeling/pipeline.py:919-948", "python/polars_ds/modeling/pipeline.py:95-116", "python/polars_ds/modeling/pipeline.py:218-255", "python/polars_ds/modeling/_structures.py:12-30", "python/polars_ds/modeling/_structures.py:94-102"]}
{"id": "C95", "title": "Transforming is row by row", "statement": "If the fitted steps are row-wise, as those of every built-in transform are, then a row of the output of `Pipeline.transform` depends only on that row of the input: the transformation of a concatenation of batches is the concatenation of the transformed batches.", "quantifier": "all pipelines of row-wise steps and filters, all frames, all splits into batches", "why_tests_cant": "Leakage between rows shows only when the same row is scored in different batches.", "anchors": ["python/polars_ds/modeling/pipeline.py:95-116", "python/polars_ds/modeling/pipeline.py:218-255", "python/polars_ds/modeling/transforms.py:26-618"]}
{"id": "C96", "title": "Excluded columns and the target are left alone", "statement": "Columns in `exclude` and the target are not changed by a fitted step, whatever columns the selector picks; the conversions and one-hot encoding respect this too.", "quantifier": "all frames, selectors, exclusion lists and fitted transforms that write only to the columns they were given", "why_tests_cant": "The selector is evaluated on the schema at fit time; tests use explicit names.", "anchors": ["python/polars_ds/modeling/_structures.py:21-30", "python/polars_ds/modeling/pipeline.py:384-390", "python/polars_ds/modeling/pipeline.py:432-453", "python/polars_ds/modeling/pipeline.py:653-687"]}
{"id": "C97", "title": "Pipelines survive JSON", "statement": "`Pipeline.from_json_str(p.to_json())` is `p`: the same name, target, columns, flags and steps in the same order, for every pipeline built from the four kinds of steps; what `Blueprint.select` and `append_expr` accept is what their documentation says.", "quantifier": "all pipelines, all expressions that polars itself restores from JSON", "why_tests_cant": "The contexts are encoded differently (list, single expression, SQL text) and each needs its own inverse.", "anchors": ["python/polars_ds/modeling/_structures.py:41-92", "python/polars_ds/modeling/pipeline.py:117-198", "python/polars_ds/modeling/pipeline.py:529-562", "python/polars_ds/modeling/pipeline.py:848-865"]}
{"id": "C98", "title": "The column check accepts exactly the training columns", "statement": "With `ensure_features_io`, `transform` rejects a frame exactly if its set of column names is not the set of columns of the training frame; the training frame always passes.", "quantifier": "all frames and pipelines", "why_tests_cant": "A statement about all column sets; the check reads names recorded after a renaming.", "anchors": ["python/polars_ds/modeling/pipeline.py:200-216", "python/polars_ds/modeling/pipeline.py:239-248", "python/polars_ds/modeling/pipeline.py:278-330"]}
{"id": "C99", "title": "Renaming keeps every column", "statement": "`Blueprint.rename(m)` renames: each key of `m` disappears, its value appears with the same cells, and all other columns are kept.", "quantifier": "all mappings and frames", "why_tests_cant": "Only mappings whose new names overlap the old ones show the problem.", "anchors": ["python/polars_ds/modeling/pipeline.py:624-651"]}
{"id": "C100", "title": "Imputation fills with the training statistic", "statement": "After `impute` a column has no nulls, known values are unchanged, and every null is the mean, median or mode of the known training values, also on new frames; `conditional_impute` replaces exactly the rows where the condition is true by the mean of the other rows.", "quantifier": "all frames with at least one known value, all new frames", "why_tests_cant": "The fill value is a function of the whole training column, applied to frames of any size.", "anchors": ["python/polars_ds/modeling/transforms.py:26-113"]}
{"id": "C101", "title": "Centring and scaling", "statement": "On the training frame `center` gives mean 0, `scale` with `standard` mean 0 and population variance 1, with `min_max` values in [0, 1] that reach both ends, with `abs_max` values in [-1, 1]; on other frames the same training constants are used; nulls stay null; a constant column becomes NaN under `standard` and `min_max`.", "quantifier": "all frames and columns", "why_tests_cant": "Moments and ranges of columns of any length.", "anchors": ["python/polars_ds/modeling/transforms.py:158-225"]}
{"id": "C102", "title": "Robust scaling and winsorizing use the training quantiles", "statement": "`robust_scale` maps x to (x - lo)/(hi - lo) and `winsorize` clamps x into [lo, hi], where lo and hi are the requested quantiles of the training column, also on new frames; both reject quantiles unless 0 <= low < high <= 1.", "quantifier": "all frames, all quantile pairs, any quantile function", "why_tests_cant": "The constants come from a different frame than the rows they are applied to.", "anchors": ["python/polars_ds/modeling/transforms.py:227-307"]}
{"id": "C103", "title": "One-hot encoding", "statement": "`one_hot_encode` adds one 0/1 column per distinct value seen in training (all but the smallest with `drop_first`), named column + separator + value; a row with a seen value has a one exactly in that value's column, null and unseen values give all zeros; no value and no other column is lost.", "quantifier": "all frames, columns, separators and new frames", "why_tests_cant": "Exactly-one over all rows and all value sets; unseen values appear only in new data.", "anchors": ["python/polars_ds/modeling/transforms.py:309-358", "python/polars_ds/modeling/pipeline.py:653-687"]}
{"id": "C104", "title": "Rank-hot encoding", "statement": "`rank_hot_encode` of a column with ranking v0 < v1 < ... gives the columns c>=v1, c>=v2, ...: a value of rank k is encoded by k ones followed by zeros; null and unknown values are -1 in every column.", "quantifier": "all rankings of distinct values, all rows", "why_tests_cant": "Prefix structure for rankings of any length.", "anchors": ["python/polars_ds/modeling/transforms.py:360-392"]}
{"id": "C105", "title": "Target, WOE and IV encoders replace values by their learned number", "statement": "After `target_encode` or `woe_encode` a string value seen in training is the number learned for it (the smoothed target mean of C46, the weight of evidence of C45), unseen values get the documented default (null, 0 or the target mean), and null gets its own learned number as documented.", "quantifier": "all frames, columns and new frames", "why_tests_cant": "The lookup must agree with the discovery expression for every value and frame.", "anchors": ["python/polars_ds/modeling/transforms.py:394-536", "python/polars_ds/modeling/pipeline.py:716-804"]}
{"id": "C106", "title": "Polynomial features", "statement": "`polynomial_features(cols, degree)` adds exactly one column per multiset of `degree` of the columns, the product of its members and null if one of them is null; their number is (n + d - 1 choose d); with `interaction_only` exactly those with at least two different columns.", "quantifier": "all column lists without repetition, all degrees above 1", "why_tests_cant": "Completeness and absence of duplicates over all degrees.", "anchors": ["python/polars_ds/modeling/transforms.py:591-618"]}
{"id": "C107", "title": "Linear imputation", "statement": "`linear_impute` fills a null of the target by the fitted linear combination of the features plus the intercept and keeps known values.", "quantifier": "all frames, any fitted coefficients", "why_tests_cant": "Which rows are filled and with what, for every pattern of nulls.", "anchors": ["python/polars_ds/modeling/transforms.py:115-156"]}
{"id": "C108", "title": "The normality test is D'Agostino and Pearson's", "statement": "For a column with at least 20 finite values that are not all equal, `normal_test` returns the sum of the squares of D'Agostino's normal score of the skewness and Anscombe and Glynn's normal score of the kurtosis of the finite values, and the chi-squared p-value with two degrees of freedom of that sum; nulls, NaN and infinities do not count; changing unit, origin or row order changes nothing; the kurtosis statistic grows with the kurtosis.", "quantifier": "all columns of at least 20 finite values", "why_tests_cant": "The two scores go through square roots, logarithms and a cube root of quantities whose sign depends on the sample; a test compares a few samples with SciPy.", "anchors": ["src/stats/normal_test.rs:16-27", "src/stats/normal_test.rs:30-52", "src/stats/normal_test.rs:55-81", "python/polars_ds/exprs/stats.py:457-484"]}
{"id": "C109", "title": "Chi-squared p-values are tail probabilities", "statement": "The p-value of a chi-squared statistic is the probability that a chi-squared variable with that many degrees of freedom exceeds it: the loops end, and the result is within 3e-14 times half the degrees of freedom of the tail integral for every statistic, and in the tail within relative error 2.1e-14 (1.3e-15 for even degrees of freedom; some probabilities below e^-709 are reported as zero).", "quantifier": "all positive statistics, all degrees of freedom", "why_tests_cant": "The value comes from a power series or a continued fraction that runs until a tolerance is met; that both end and how far they are from the integral is a statement about all arguments.", "anchors": ["src/stats_utils/gamma.rs:32-44", "src/stats_utils/gamma.rs:75-162", "src/stats_utils/gamma.rs:165-229", "src/stats/chi2.rs:59-69"]}
{"id": "C110", "title": "Random columns stay in range and follow the seed", "statement": "`random`, `random_int`, `random_str`, `random_exp` and `random_normal` return a column of the requested length; every value is in the documented range (`[lower, upper)`, strings of the given sizes made of letters and digits, non-negative); with a seed the column depends only on the arguments, a longer column starts with the shorter one, and mean, deviation and rate act as shift and scale; `random_binomial` counts successes out of n.", "quantifier": "all generators obeying the contract of rand's distributions, all bounds, seeds and lengths below 2^32", "why_tests_cant": "Ranges and seed behaviour must hold for every state of the generator; a test looks at a few draws.", "anchors": ["src/stats/sample.rs:11-16", "src/stats/sample.rs:18-37", "src/stats/sample.rs:39-53", "src/stats/sample.rs:55-74", "src/stats/sample.rs:76-89", "src/stats/sample.rs:162-185", "src/stats/sample.rs:187-206", "python/polars_ds/exprs/stats.py:487-514", "python/polars_ds/exprs/stats.py:539-574", "python/polars_ds/exprs/stats.py:577-611", "python/polars_ds/exprs/stats.py:614-643", "python/polars_ds/exprs/stats.py:646-669", "python/polars_ds/exprs/stats.py:672-701"]}
{"id": "C111", "title": "Noise and random nulls leave the rest of the column alone", "statement": "`perturb` keeps nulls and moves every other value by less than epsilon (from 0 up if `positive`, else half to each side); `jitter` keeps nulls and its noise is proportional to `std`; `random_null` keeps nulls null, keeps every surviving value, and removes exactly the rows whose uniform draw is below `pct`; parameters outside the documented range are rejected.", "quantifier": "all generators obeying the contract, all float columns, seeds and parameters", "why_tests_cant": "The relation between input and output has to hold for every draw and every pattern of nulls.", "anchors": ["src/stats/sample.rs:93-124", "src/stats/sample.rs:126-160", "python/polars_ds/exprs/stats.py:368-402", "python/polars_ds/exprs/stats.py:405-432", "python/polars_ds/exprs/stats.py:517-536"]}
{"id": "C112", "title": "str_snowball computes Porter2 stems", "statement": "For every string, whatever its characters, str_snowball stops without a panic and returns: the empty string if the string is a decimal number (or one of the words inf, infinity, nan in any case, with an optional sign), the empty string if stop words are dropped and the string is one, and otherwise exactly the Porter2 stem. A stem is never longer than its word, words of one or two characters are unchanged, nulls stay null.", "quantifier": "all strings (any Unicode characters, any length), both settings of no_stopwords, all columns", "why_tests_cant": "The stemmer is a 900 line state machine on byte offsets with unchecked slices and loops without bounds. Tests use a few words; a wrong offset after a multi-byte character, a wrong table row or a loop that does not advance shows on particular words only.", "anchors": ["src/str_ext/snowball/algorithms/english_stemmer.rs:1-904", "src/str_ext/snowball/snowball_env.rs:1-423", "src/str_ext/snowball_stem.rs:7-24", "python/polars_ds/exprs/string.py:236-252"]}
{"id": "C113", "title": "lin_reg_report gives the textbook inference for each coefficient", "statement": "query_lin_reg_report fits the rows kept by the null policy and reports, for each coefficient, the least squares value, its standard error, t, two-sided p-value and 95% interval, and R² and adjusted R². The classical error is the root of the residual variance over the part of the feature not explained by the others; HC0 is the sum of squared changes when a target moves by its residual; HC3 is the jackknife; a constant-only model is the one-sample t test.", "quantifier": "all data with independent features, all five kinds of standard error, any number of rows and features, any exact solver", "why_tests_cant": "Tests compare against statsmodels on one random data set with a tolerance. They cannot tell a wrong factor such as (n-1)/n in R² when n is large, and never use a row of leverage one or as many rows as coefficients.", "anchors": ["src/num_ext/linear_regression.rs:577-736", "python/polars_ds/exprs/expr_linear.py:538-604"]}
{"id": "C114", "title": "wls_report is the report of the weighted fit", "statement": "query_wls_report gives the coefficients that minimise the weighted squared error; with non-negative weights its coefficients, standard errors, t, p-values and intervals are those of the ordinary report on the rows multiplied by the roots of their weights. Rows with nulls are treated as the null policy says.", "quantifier": "all non-negative weights, all data whose weighted rows determine the coefficients, any exact solver", "why_tests_cant": "Tests use random weights without zeros and nulls. They cannot settle zero weights, nor that a row dropped by the null policy makes the weights column too long.", "anchors": ["src/num_ext/linear_regression.rs:740-866", "python/polars_ds/exprs/expr_linear.py:538-604"]}
{"id": "C115", "title": "simple_lin_reg is the least squares line", "statement": "simple_lin_reg returns the slope (and, with add_bias, the intercept) that minimises the squared error, weighted if weights are given; nulls are left out. Predictions are those of the coefficients and prediction plus residual is the target.", "quantifier": "all columns over an ordered field, all non-negative weights, with and without a constant", "why_tests_cant": "The source says: No test. All formula here are mathematically correct. Four separate formulas must each be the optimum for all data, and the effect of a null in one of the columns is not visible in any of them.", "anchors": ["python/polars_ds/exprs/expr_linear.py:45-106"]}
{"id": "C116", "title": "KDTree radius queries over many rows", "statement": "KDTree.within(X, r) returns for every row of X exactly the stored points in the ball of that row, with one radius for all rows or one radius per row, and within_count returns their number; a wrong number of radii is an error. knn returns the row numbers first and the distances second, as documented.", "quantifier": "all trees reached by any history of insertions, all query matrices, all radii, sorted or not, all metrics with the triangle bound", "why_tests_cant": "The answer depends on the tree built by any sequence of insertions and on the shape of the radius argument; tests use one tree and one radius.", "anchors": ["src/pymodels/py_kdt.rs:151-438", "python/polars_ds/spatial.py:72-192"]}
{"id": "C117", "title": "Distances from one point", "statement": "within_dist_from marks exactly the rows whose distance to the point, in the metric named, is at most the radius (one number or one per row); is_knn_from marks exactly the rows to which fewer than k rows are strictly closer, so at least k rows and exactly k without ties. A row with a missing feature is neither near nor a neighbor. A point of the wrong length and an unknown metric are errors.", "quantifier": "all points, frames, radii, k >= 1 and all metric names, over an ordered field (reals for l2)", "why_tests_cant": "The claim compares six formulas with six metrics for all points; a test with radius 1, or without ties and nulls, cannot tell the squared from the plain distance.", "anchors": ["python/polars_ds/exprs/expr_knn.py:337-468"]}
{"id": "C118", "title": "Radius lists and neighbor frequency counts", "statement": "query_radius_ptwise gives every row the ids of exactly the rows within r, nearest first if sort. query_radius_freq_cnt gives for each id the number of other rows that have it within r, query_knn_freq_cnt the number of other rows that have it among their nearest neighbors, largest first. A row with a missing feature has no list and is in no list.", "quantifier": "all frames, ids, radii, all metrics the tree accepts; frames with nulls of any size for the metrics other than inf", "why_tests_cant": "The lists depend on the tree built from all rows; whether a row counts itself, or a row with a missing value becomes a neighbor, shows only for particular metrics and data.", "anchors": ["src/num_ext/knn.rs:499-580", "src/utils/mod.rs:308-341", "python/polars_ds/exprs/expr_knn.py:203-258", "python/polars_ds/exprs/expr_knn.py:471-560"]}
{"id": "C119", "title": "Edit distance expressions", "statement": "str_leven is the least number of single character insertions, deletions and replacements between the two strings of each row (a metric), str_osa the least cost when neighbors may also be swapped, str_lcs_seq and str_fuzz the values from the longest common subsequence, str_hamming the number of differing positions (null for different lengths, or with the padded lengths); similarities lie in [0, 1] and are 1 exactly for equal strings. filter_by_levenshtein and filter_by_hamming hold exactly when the distance is at most the bound. A null on either side gives null; scalar or column other side and parallel evaluation make no difference.", "quantifier": "all columns, scalar or column other sides, bounds and parallel schedules; strings shorter than 2^32", "why_tests_cant": "Minimality over all edit sequences is a claim about infinitely many sequences per pair of strings; tests check a few known distances.", "anchors": ["src/str_ext/levenshtein.rs", "src/str_ext/osa.rs", "src/str_ext/lcs_seq.rs", "src/str_ext/fuzz.rs", "src/str_ext/hamming.rs", "src/str_ext/generic_str_distancer.rs", "python/polars_ds/exprs/string.py:43-145", "python/polars_ds/exprs/string.py:537-660"]}
{"id": "C120", "title": "Similarity to a vocabulary", "statement": "similar_to_vocab with strategy all, any, avg holds for a row exactly when its string reaches the threshold for every word, some word, on average, in the metric named (lv, dlv, jw, osa); a null string gives null; unknown names are errors.", "quantifier": "all columns, vocabularies, thresholds, metrics and strategies", "why_tests_cant": "The three strategies are quantifications over the vocabulary combined with nulls and four metrics; the broken metric and the null case are single branches tests have to hit by name.", "anchors": ["python/polars_ds/exprs/string.py:663-710"]}
{"id": "C121", "title": "Tokens, numbers in text and cleaning", "statement": "str_tokenize(stem=True) gives the unique stems without stop words. extract_numbers gives exactly the numbers of the text, in order, no digit left out, joined if join_by is given. normalize_whitespace(only_spaces=True) leaves single spaces between the same words. replace_non_ascii and remove_diacritics give ASCII text and leave ASCII text alone.", "quantifier": "all strings, lists of tokens, separators and replacement values", "why_tests_cant": "Exactness over all texts (what separates, what a sign does, what stays at the ends) is not reached by sample sentences.", "anchors": ["python/polars_ds/exprs/string.py:256-274", "python/polars_ds/exprs/string.py:713-875", "python/polars_ds/exprs/string.py:973-1012", "src/str_ext/str_cleaning.rs"]}
{"id": "C122", "title": "Every expression reaches its compiled function", "statement": "Every Python expression function that calls the library asks for a symbol the library exports, passes every keyword the compiled function requires and arguments of the data types it reads, whether LIN_REG_EXPR_F64 is on or off; and whenever a call does not announce another row count to polars, the result has as many rows as the inputs.", "quantifier": "all calls of pl_plugin in the Python sources, both settings of LIN_REG_EXPR_F64, all exported functions", "why_tests_cant": "The link between Python and Rust is by names and positions in strings; nothing checks it before a user calls that very combination of function, keyword and setting, and the test suite runs one setting.", "anchors": ["python/polars_ds/_utils.py:17-39", "python/polars_ds/config.py:22-26", "python/polars_ds/exprs/string.py:571-605", "src/str_ext/lcs_seq.rs", "python/polars_ds/exprs/stats.py:331", "python/polars_ds/exprs/stats.py:634", "python/polars_ds/exprs/expr_linear.py:319", "python/polars_ds/exprs/metrics.py:385"]}
{"id": "C123", "title": "The announced data types are the returned data types", "statement": "For every expression the data type that appears in the schema of a lazy frame (with the names of structure fields) is the data type of the column that comes back.", "quantifier": "all exported functions, all input names and types, numbers of components and targets, kinds of standard errors", "why_tests_cant": "A schema is computed from types before any data is seen; tests compare values of eager results and never the lazy schema, and the differences depend on the input types.", "anchors": ["src/utils/mod.rs:165-206", "src/num_ext/float_extras.rs", "src/num_ext/linear_regression.rs:30-132", "src/num_ext/pca.rs:30-132", "src/num_ext/psi.rs:5-165", "src/num_ext/tp_fp.rs", "src/str_ext/fuzz.rs:15", "src/stats/sample.rs:187"]}
{"id": "C124", "title": "Guesses on columns by the data inspection assistant", "statement": "infer_k_distinct(k) returns exactly the columns with k distinct values (null is a value), with include_null also those with a null and k distinct values besides; infer_const and infer_binary are k = 1 and 2. infer_high_null returns the columns with more than the threshold share of nulls, infer_discrete the columns with few distinct values, infer_prob the columns that are probabilities. Asking twice gives the same answer.", "quantifier": "all frames, k, thresholds, and all sequences of calls", "why_tests_cant": "Which columns are returned depends on counting with nulls, boundary shares, all rows of list columns and the history of calls; sample frames test none of these exhaustively.", "anchors": ["python/polars_ds/eda/diagnosis.py:491-672"]}
{"id": "C125", "title": "Validation reports", "statement": "row_validation reports exactly the rows on which some rule is false, in order and once each, with the first such rule as the reason, or with all_reasons exactly the sorted names of the rules that are false; a null is no violation. col_validation reports exactly the rules that are false.", "quantifier": "all frames, lists of rules and rule values including nulls", "why_tests_cant": "The interplay of three-valued logic in the filter with two-valued conditions in the reasons only shows on rows that mix false and null.", "anchors": ["python/polars_ds/eda/diagnosis.py:235-340"]}
{"id": "C126", "title": "Correlation of nulls", "statement": "null_corr lists every pair of selected columns that both have nulls and values exactly once; each value is in [-1, 1], 1 exactly when the columns are null in the same rows, -1 exactly when in each row exactly one of the two is null; the table is sorted by strength.", "quantifier": "all frames with columns of equal length", "why_tests_cant": "The range and the two extreme cases are statements over all null patterns, and the defined-ness (no division by zero) depends on the columns left out.", "anchors": ["python/polars_ds/eda/diagnosis.py:342-396"]}
{"id": "C127", "title": "The dependency plot", "statement": "plot_dependency draws an edge only for a dependency found; every dependency found can be followed along drawn edges; for transitive dependencies an edge is drawn exactly when no third column lies between, independent of the order of rows.", "quantifier": "all sets of dependencies that infer_dependency can give (each pair one way)", "why_tests_cant": "The loop removes from a set while deciding by that set; whether a path always survives is a question about all graphs.", "anchors": ["python/polars_ds/eda/diagnosis.py:773-815"]}
{"id": "C128", "title": "Special values and the numeric profile", "statement": "special_values_report counts nulls, NaN and infinite values so that with the finite ones they add up to the rows. The histogram of numeric_profile has n_bins bars, bar j the number of finite values in the j-th of n_bins equal parts of the range. outlier_cnt counts values outside the quartiles only, fewer for a larger multiplier.", "quantifier": "all columns, numbers of bins and multipliers", "why_tests_cant": "Empty bins and values on the last boundary are what a sample column with many values does not have.", "anchors": ["python/polars_ds/eda/diagnosis.py:102-232"]}
{"id": "C129", "title": "Multiclass AUC and Gini coefficient", "statement": "query_multi_roc_auc with strategy macro is the plain average, with strategy weighted the average by class shares, of the AUCs of each class against the rest; it is in [0, 1]; for two classes with probabilities 1-p and p it is the binary AUC. query_gini is the share of (positive, negative) pairs ranked right minus the share ranked wrong.", "quantifier": "all label and probability columns, all numbers of classes", "why_tests_cant": "The averages hide errors of single classes; ties at the top score and classes without a row depend on the whole arrangement of rows.", "anchors": ["python/polars_ds/exprs/metrics.py:391-406", "python/polars_ds/exprs/metrics.py:505-557"]}
{"id": "C130", "title": "Categorical cross entropy", "statement": "query_cat_cross_entropy is the mean (or sum) of the negative logs of the probabilities given to the true classes; it is not negative and 0 exactly for certain right predictions; one-hot labels give the same as plain labels; labels outside the range of classes are rejected; rows without predictions do not count.", "quantifier": "all label columns, probability lists and both options", "why_tests_cant": "Index conventions (negative labels) and the choice of the denominator only show on particular rows of otherwise correct data.", "anchors": ["python/polars_ds/exprs/metrics.py:560-587"]}
{"id": "C131", "title": "Scaled error and absolute deviation", "statement": "query_mase is the mean (median) absolute error over the known rows divided by the mean (median) error of the forecast 'the value freq steps ago' on the training values, or by the number given; it is 1 for that forecast itself, does not change with the unit, and rejects freq < 1. query_mad is the mean (median) distance to the mean (median); the median form is 0 when more than half of the values agree.", "quantifier": "all columns with nulls, all periods, both options", "why_tests_cant": "Scale invariance, the value 1 for the naive forecast and robustness of the median are statements over all series.", "anchors": ["python/polars_ds/exprs/metrics.py:41-57", "python/polars_ds/exprs/metrics.py:266-322"]}
{"id": "C132", "title": "Null policies of the regression classes", "statement": "In LR and ElasticNet, fit and fit_df treat missing values as documented: 'skip' drops the rows with a missing cell, 'zero', 'one' and a number drop the rows without target and replace the missing features, and only those, 'raise' raises exactly if something is missing, 'ignore' changes nothing, anything else is refused. fit_df on a frame, fit on its matrix and the least squares expressions with the same policy all work on the same rows.", "quantifier": "all frames and matrices with any cells missing, all policy strings", "why_tests_cant": "The same policy is written three times, for frames, matrices and in Rust; agreement is over all patterns of missing and infinite cells.", "anchors": ["python/polars_ds/linear_models.py:33-92", "src/num_ext/linear_regression.rs:135-228"]}
{"id": "C133", "title": "Regression classes on frames: fit_df and predict_df", "statement": "After fit_df the object has the given feature names and the coefficients fitted on the rows left by the null policy, the same as fit on the matrix of these columns, whatever happened before; a call that raises changes nothing. predict_df gives every row the sum of coefficients times the columns of the same names plus the bias, agreeing with predict; a row with a missing feature has no prediction, and names that do not match the coefficients in number are refused.", "quantifier": "all objects, frames, feature lists and histories of set_input_features, fit and fit_df", "why_tests_cant": "Stale names or coefficients appear only in certain sequences of calls, aliasing only when the caller passes the object's own list.", "anchors": ["python/polars_ds/linear_models.py:170-181", "python/polars_ds/linear_models.py:192-303", "python/polars_ds/linear_models.py:389-506"]}
{"id": "C134", "title": "Normal tail probabilities", "statement": "The normal tail function behind the p-values returns the probability that a normal variable exceeds x to nearly the precision of a double in relative terms, decreases in x, is a probability, gives both tails summing to one and is zero only beyond 110 sqrt 2 standard deviations.", "quantifier": "all real x and means, all positive standard deviations", "why_tests_cant": "An accuracy claim about fourteen rational approximations over a continuum; tests compare a few points with a loose tolerance.", "anchors": ["src/stats_utils/normal.rs:1-632"]}
{"id": "C135", "title": "p-values of mann_whitney_u and xi_corr", "statement": "mann_whitney_u returns the p-value of the normal approximation with tie and continuity corrections for the chosen alternative, in [0, 1], unchanged under increasing transformations, the same two-sided value for both orders of the samples with less and greater exchanged, and no p-value for an empty sample. xi_corr(return_p=True) returns the two-sided p-value of a normal variable with variance 2/5 at sqrt(n) xi, NaN below 30 rows.", "quantifier": "all finite samples, alternatives, row counts and coefficients", "why_tests_cant": "The right-hand side is a Gaussian integral of a statistic of the whole sample; ties and empty groups are rare in test data.", "anchors": ["src/stats/mann_whitney_u.rs:7-60", "src/stats/xi_corr.rs:31-47", "python/polars_ds/exprs/stats.py:293-334"]}
{"id": "C136", "title": "p-values of the t tests and of the regression reports", "statement": "ttest_1samp, ttest_ind with its default settings, lin_reg_report and the weighted report return as p-value the probability that a Student variable with the right degrees of freedom (n - 1, Welch-Satterthwaite, n - d) is at least as extreme as the reported statistic, on the side named by the alternative, with an error of at most 3e-13; for a statistic beyond sqrt(3 nu/(nu+2)) on the side of the alternative the error is at most 3e-13 of the p-value itself, however small.", "quantifier": "all columns, alternatives and statistics; all degrees of freedom from 1 to 10^20", "why_tests_cant": "The right-hand side is an integral over a family of densities with a real parameter; the code reaches it by a truncated continued fraction, which tests compare at a few points.", "anchors": ["src/stats_utils/beta.rs:24-157", "src/stats/t_test.rs:1-100", "python/polars_ds/exprs/stats.py:48-133", "src/num_ext/linear_regression.rs:660-830"]}
{"id": "C137", "title": "p-value of f_test", "statement": "f_test returns as p-value the probability that a Fisher variable with k - 1 and n - k degrees of freedom is at least the reported statistic, with an error of at most 3e-13.", "quantifier": "all data without nulls, all numbers of groups and rows with n > k >= 2", "why_tests_cant": "The right-hand side is an integral of a density with two parameters; tests have a handful of groups.", "anchors": ["src/stats/fstats.rs:14-92", "src/stats_utils/beta.rs:40-157", "python/polars_ds/exprs/stats.py:242-290"]}
{"id": "C138", "title": "ROC curves of plot_roc_auc", "statement": "For each prediction passed to it plot_roc_auc draws one curve, under the name given, which runs from (0, 0) to (1, 1), never falls and has as its other points the (false positive rate, true positive rate) of query_tpr_fpr at every distinct score; the curve is labelled with the area under it, the AUC.", "quantifier": "all columns of scores and 0/1 labels with both classes present, all lists of predictions and names", "why_tests_cant": "Whether label and curve agree depends on ties at the top score and on the names; tests of plots look only at whether a chart is returned.", "anchors": ["python/polars_ds/eda/plots.py:456-569", "python/polars_ds/exprs/metrics.py:370-388", "src/num_ext/tp_fp.rs:156-182"]}
{"id": "C139", "title": "Share of bad values in plot_feature_distr", "statement": "The bar below the histogram of plot_feature_distr shows the share of the rows that are null, NaN or infinite, each counted once; with `over` there is one bar for each group present, with the share among its own rows.", "quantifier": "all non-empty columns of floats with nulls, NaN and infinities, all groupings", "why_tests_cant": "The share adds two counts whose domains overlap unless nulls propagate through is_finite; a test would have to look inside the chart.", "anchors": ["python/polars_ds/eda/plots.py:116-195"]}
{"id": "C140", "title": "The log-gamma function behind the p-values", "statement": "ln_gamma, from which the p-values of the chi-squared, normality, t and F tests are computed, differs from the logarithm of the gamma function by at most 1e-16 for every positive argument; so exp(ln_gamma(n + 1)) is n! up to a relative error of 2e-16.", "quantifier": "all positive real arguments", "why_tests_cant": "The coefficients and constants are typed in digits; an error in one of them shows only in some range of the argument, and a test compares a handful of values.", "anchors": ["src/stats_utils/gamma.rs:5-19", "src/stats_utils/gamma.rs:51-73", "src/stats_utils/mod.rs:21-24"]}
{"id": "C141", "title": "The t quantile and the confidence intervals of the regression reports", "statement": "student_t_ppf(x, df) returns, for every number of degrees of freedom, the t below which Student's distribution has probability x. So the interval of `lin_reg_report` is the coefficient minus and plus t standard errors with P(T > t) = 0.025, however many rows there are.", "quantifier": "all degrees of freedom, all probabilities, every number of rounds of the search", "why_tests_cant": "The value comes from a search with three nested loops and no bound on the rounds. Whether it ends for every input cannot be tested, and the code overflows only for row counts no unit test uses.", "anchors": ["src/stats_utils/beta.rs:163-388", "src/num_ext/linear_regression.rs:681", "src/num_ext/linear_regression.rs:813"]}
{"id": "C142", "title": "The digamma function and the value of the nearest neighbor entropy", "statement": "`digamma(x)` is the derivative of the logarithm of the gamma function at x, for every x that is not a pole. `query_knn_entropy` is the Kozachenko-Leonenko estimate for the chosen metric: digamma(n) - digamma(k) plus the logarithm of the volume of the ball of diameter one plus d/n times the sum of the logarithms of twice the distance from every row to its k-th nearest other row.", "quantifier": "every real argument; every set of rows, number of columns, k, both metrics and every order of ties", "why_tests_cant": "Tests compare a few values with SciPy. The error of a truncated asymptotic series over the whole axis, and the branch near the poles, need analysis.", "anchors": ["src/stats_utils/gamma.rs:231-274", "src/num_ext/float_extras.rs:280-305", "src/num_ext/entrophies.rs:214-259", "python/polars_ds/exprs/num.py:1064", "python/polars_ds/exprs/ts_features.py:635"]}
{"id": "C143", "title": "t test from the mean, variance and count of the second sample", "statement": "`ttest_ind_from_stats` with the mean, sample variance and number of values of any second sample gives exactly the result of `ttest_ind` on both columns, for Welch's test and for the test with equal variances. For any mean, non-negative variance and count from two on, Welch's statistic is the difference of the means over sqrt(s1^2/n1 + s2^2/n2) and the p-value is the Student tail probability with the Welch-Satterthwaite degrees of freedom within 3e-13. A count or column of fewer than two values is refused. With equal_var=True the count has no influence.", "quantifier": "every pair of columns with nulls anywhere, every mean, variance, count and alternative", "why_tests_cant": "Tests call it with the statistics of a few random columns of equal size; agreement for all sizes and the effect of the ignored count need a proof.", "anchors": ["python/polars_ds/exprs/stats.py:136-189", "src/stats/t_test.rs:60-144"]}
{"id": "C144", "title": "Symmetry ratio and coefficient of variation", "statement": "`query_symm_ratio` is the distance between mean and median over the range of the values; with two different values it lies between 0 and 1/2 and it is 0 when the values are symmetric about a point; it is NaN for equal values and null without values. `query_cv` is the standard deviation over the mean; it does not depend on the unit (a negative factor flips its sign); for non-negative values that are not all zero and ddof=1 it lies between 0 and the square root of the number of values; it is null with at most ddof values, and infinite or NaN when the mean is zero.", "quantifier": "every column of numbers with nulls anywhere, every ddof, every factor", "why_tests_cant": "Tests compare one or two series with a formula; bounds and invariance hold for every series only by proof.", "anchors": ["python/polars_ds/exprs/ts_features.py:59-65", "python/polars_ds/exprs/ts_features.py:92-104"]}
{"id": "C145", "title": "Element-wise expressions can be filtered and split", "statement": "polars moves filters past an expression announced as element-wise and evaluates it in pieces. That is sound exactly for functions of one row: a function can be evaluated in pieces iff its rows are the values of a function of one row, and then filtering before or after gives the same rows. `gcd`, `lcm`, `haversine`, string metrics on two columns, truncation, fraction and the stop word test are such functions as long as no piece is a single row with a null in the second argument. Random columns and noise are not.", "quantifier": "every column, every split, every filter, every metric and every lawful random generator", "why_tests_cant": "Which rows reach the plugin together is decided by the query optimizer; tests evaluate a few eager frames in one piece.", "anchors": ["python/polars_ds/exprs/num.py:208-264", "python/polars_ds/exprs/string.py:497-499", "python/polars_ds/exprs/stats.py:399-700", "src/num_ext/gcd_lcm.rs:6-40", "src/num_ext/haversine.rs:6-53", "src/str_ext/jaro.rs:29-48", "src/stats/sample.rs"]}
{"id": "C146", "title": "Regression plot", "statement": "`plot_lin_reg` draws the best line of all complete rows, even if only `max_points` rows are drawn: the drawn rows are rows of the frame in their order, exactly the smaller of `max_points` and the number of rows, each with the point of the line at its x. The equation shows the slope and the constant with the right sign. With a constant and without weights the R2 shown is between 0 and 1. The columns x, y and weights must have different names, none of them `y_pred`.", "quantifier": "every pair of columns with complete rows, every weight column, every max_points and every sample", "why_tests_cant": "The chart is inspected by eye on a few data sets; that the line is fitted before sampling, and what R2 means with weights or without a constant, is a statement about all data.", "anchors": ["python/polars_ds/eda/plots.py:198-301"]}
{"id": "C147", "title": "Probability calibration plot", "statement": "Each curve of `plot_prob_calibration` consists of the mean score and the share of positives of groups of rows: every row is in exactly one group, the scores of a group lie below those of the next, there are at most n_bins groups, the mean scores increase from point to point, and the shares weighted by group size add up to the number of positives. Different scores are always drawn, in groups of floor((N-1)/n_bins) rows or one more. Rows without a score add one point without mean score and change nothing else. The plot is refused exactly when two of the quantiles coincide.", "quantifier": "every list of scores and labels with nulls among the scores, every number of bins", "why_tests_cant": "The groups depend on the order and the ties of the scores; the chart is compared by eye on a few data sets.", "anchors": ["python/polars_ds/eda/plots.py:348-457"]}
{"id": "C148", "title": "next_up and next_down", "statement": "On a column of 64 or 32 bit floats `next_up` gives for every number but inf the least number of the format greater than it, `next_down` for every number but -inf the greatest smaller one; inf, -inf at its end, NaN and null stay. `next_down` undoes `next_up`. Integer columns become 32 bit floats: for every integer of up to 64 bits the results lie strictly above and below it, and for integers of at most 2^24 in absolute value they are its neighbours.", "quantifier": "every bit pattern of both formats, every integer of at most 64 bits, every column with nulls", "why_tests_cant": "There are 2^64 floats, with special cases at both zeros, at powers of two, subnormal numbers and the infinities; tests look at a few values.", "anchors": ["src/num_ext/float_extras.rs:51-57", "src/num_ext/float_extras.rs:219-271", "python/polars_ds/exprs/num.py:1035-1063"]}
{"id": "C149", "title": "Nearest neighbors in double arithmetic", "statement": "With IEEE 754 double arithmetic (every operation rounded to the nearest double, ties to even, gradual underflow) the k nearest neighbors returned by a k-d tree, whatever its history of additions, are at the true k smallest distances up to a relative error of one rounding per column and four more, plus, for distances with squares, the resolution of the smallest double. A radius query returns every row nearer than the radius by more than that error, and only rows not farther than the radius by more than that error. No distance between rows with coordinates up to 2^500 overflows.", "quantifier": "every data set of doubles of moderate size, every history of a tree, every query, k and radius, metrics l1, l2, sql2 and inf (l2 and sql2 below 16 columns)", "why_tests_cant": "Whether the pruning of a tree is still sound when each of its comparisons is rounded can only be argued for all roundings at once; tests use a few points with coarse tolerances.", "anchors": ["src/arkadia/kdt.rs:15-73", "src/utils/mod.rs:308-341", "src/arkadia/kdt.rs:193-330"]}
{"id": "C150", "title": "Similarities and statistics in double arithmetic", "statement": "Computed with doubles, the Jaccard, Sorensen-Dice and overlap similarities of strings lie in [0, 1], are exactly 1 only for equal sets of n-grams (overlap: one contained in the other) and exactly 0 only if no n-gram is shared; the Tversky similarity with nonnegative weights lies in [0, 1]; the Levenshtein similarity lies in [0, 1] and is 1 only for equal strings and 0 only if nothing can be kept. Kendall's tau lies in [-1, 1] and is exactly 1 for columns in the same order. The Kolmogorov-Smirnov statistic lies in [0, 1] and is within 3 * 2^-54 of the supremum of the gaps. Min-max scaling maps the minimum to 0, the maximum to 1, keeps the order and stays in [0, 1].", "quantifier": "all strings below 2^51 characters, all columns below 2^27 rows (tau) or 2^53 rows (KS), all double bounds and values between them", "why_tests_cant": "A quotient or a root rounded up could exceed 1 on some rare pair of counts; there are too many pairs to try.", "anchors": ["src/str_ext/str_jaccard.rs:17-20", "src/str_ext/sorensen_dice.rs:16-19", "src/str_ext/overlap.rs:16-19", "src/str_ext/tversky.rs:17-22", "src/str_ext/levenshtein.rs:29-33", "src/stats/kendall_tau.rs:121-125", "src/stats/ks.rs:29-57", "python/polars_ds/modeling/transforms.py:202-214"]}
{"id": "C151", "title": "expit, logit, exp2 and gamma in float arithmetic", "statement": "With every operation rounded, expit of a float column keeps NaN, lies in [0, 1], grows with the value and is one half at 0; of a double it is exactly 1 from 37 on and below 1 up to 36. logit of a float keeps NaN, is a finite number inside (0, 1), -inf at 0, +inf at 1 and NaN outside [0, 1]. Integer columns are cast to 32-bit floats first: expit is exactly 1 from 17 on, exp2 is infinite from 128 on and 0 from -150 down, and gamma is infinite from 36 on; on a double column exp2 is exact for -1074..1023 and gamma is finite up to 171.", "quantifier": "every float, every integer, every column with nulls; exp and ln monotone with a relative error up to 1/4, exp2 and gamma correctly rounded at integers", "why_tests_cant": "Where a rounded function starts to saturate depends on rounding at one particular value out of 2^64; tests try a few small ones, and only on double columns.", "anchors": ["src/num_ext/float_extras.rs:11-33", "src/num_ext/float_extras.rs:35-49", "src/num_ext/float_extras.rs:66-168", "python/polars_ds/exprs/num.py:823-866"]}
{"id": "C152", "title": "Neighbors of frames with null or NaN features", "statement": "On a frame of any size, a row with a null or NaN feature never is a neighbor and gets null, and all other rows get exact answers among the complete rows: query_radius_ptwise lists exactly the complete rows within r, query_nb_cnt counts them, query_knn_ptwise returns the k + 1 nearest within max_bound among the rows that are complete and admitted by the mask, query_dist_from_kth_nb the distance of the last of them. Building a tree never fails because of a NaN.", "quantifier": "every frame with at least one column and at least one row, every pattern of missing features, every metric, radius, k, bound and mask, every unstable sort and every behaviour of binary search on an unpartitioned slice", "why_tests_cant": "Rows with NaN stay in the tree: they are sorted, split and put in boxes with comparisons that are all false, and the answer must not depend on it; the repository's tests have frames of a few rows, which fit in one leaf.", "anchors": ["src/arkadia/kdt.rs:222-276", "src/arkadia/kdt.rs:347-429", "src/arkadia/kdt.rs:691-760", "src/num_ext/knn.rs:276-340", "src/num_ext/knn.rs:556-640", "src/num_ext/knn.rs:667-700", "python/polars_ds/exprs/expr_knn.py:100-130", "src/pymodels/py_kdt.rs:30-50"]}
{"id": "C153", "title": "Histories of calls on blueprints", "statement": "Whatever program builds blueprints, a blueprint holds exactly the steps of the calls made on it, through any variable, in the order of the program. A call that raises changes nothing. A fitted pipeline is a snapshot: later calls on its blueprint do not change it, and fitting again after one more call learns the same earlier steps and puts the new ones behind them. Two blueprints derived from one share all steps. A step from a dictionary is the call of the named step method, and any other name is a ValueError.", "quantifier": "every program of creations, method calls, assignments, materialize and ensure_features_io statements over any variables; every frame, every argument, accepted or refused", "why_tests_cant": "Every method mutates and returns the same object, so what a variable holds depends on the whole history; tests chain calls on one variable and never look after an exception.", "anchors": ["python/polars_ds/modeling/pipeline.py:270-330", "python/polars_ds/modeling/pipeline.py:344-390", "python/polars_ds/modeling/pipeline.py:624-714", "python/polars_ds/modeling/pipeline.py:867-954", "python/polars_ds/modeling/pipeline.py:33-60", "python/polars_ds/modeling/pipeline.py:200-216"]}
{"id": "C154", "title": "Isotonic regression in double arithmetic", "statement": "Rounding never breaks isotonic_regression: on data without NaN the result exists, has the length of the input and is monotone in the requested direction, whatever the machine's +, * and / return. A column that is already strictly monotone comes back bit for bit. With no weights, or positive whole weights of total at most 2^53, every returned value is within 9 n (2^-53 Y + 2^-1075) of the true weighted least squares monotone fit, where n is the number of rows and Y bounds the data.", "quantifier": "every column of at least two values without null or NaN, every positive weights, both directions; every arithmetic on an ordered type for the first two sentences; for the error bound every arithmetic that rounds to the nearest double below 2^1023, n at most 2^49, Y at least 2^-1020, 4 Y times the total weight at most 2^1023", "why_tests_cant": "The pooled means are computed by repeated merging in an order that depends on the data, and each comparison uses rounded means, so a rounding error could change which blocks are pooled; examples with small integers round nothing.", "anchors": ["src/num_ext/isotonic_regression.rs:19-71", "src/num_ext/isotonic_regression.rs:74-132"]}
{"id": "C155", "title": "Tables of correlations", "statement": "infer_corr(method) of the data inspection assistant raises only for an unknown method; otherwise its table has one row for each pair of numeric and boolean columns with the correlation of the pair by that method, the strongest correlations first, and it does not depend on the order of the columns in the frame. corr(subset, method) gives for each selected expression and each numeric column their correlation.", "quantifier": "every frame with distinct column names, every method name, every selection, every tie order of the sort", "why_tests_cant": "Tests look at one frame; which pairs appear, in which order undefined correlations are sorted, and whether the order of the columns matters are statements on all frames.", "anchors": ["python/polars_ds/eda/diagnosis.py:436-463", "python/polars_ds/eda/diagnosis.py:675-703", "python/polars_ds/exprs/stats.py:1031-1055"]}
{"id": "C156", "title": "Statistics of string columns", "statement": "str_stats() reports for each string column the number of nulls, the number of different values, a most frequent value with its count, and the minimum, mean and maximum length of the texts in bytes and in characters. The reported count belongs to the reported value and no other value is more frequent; the number of rows is at most n_unique times most_freq_cnt; the mean length in bytes is one to four times that in characters, equal exactly for ASCII texts. It works for every frame.", "quantifier": "every frame with at least one row, every column of texts and nulls, every order among equally frequent values", "why_tests_cant": "most_freq and most_freq_cnt come from two separate evaluations whose tie order is not specified; a test on one frame sees one order, and texts of tests are ASCII.", "anchors": ["python/polars_ds/eda/diagnosis.py:408-434"]}
{"id": "C157", "title": "Matthews correlation and confusion matrix in double arithmetic", "statement": "Computed with doubles, query_mcc lies in [-1, 1], is 1 for predictions that are all right and only for those, has the sign of the exact correlation and is within 4 units of rounding of it. Every column of query_confusion_matrix that is a share of counts lies in [0, 1], is exactly 0 and 1 where the share is and is within one unit of rounding of it; informedness, markedness, balanced accuracy, F1, Fowlkes-Mallows, mcc and the prevalence threshold stay in their ranges, and each of the first six is exactly 1 only for predictions that are all right. The mcc column agrees with query_mcc to within 2^-23.", "quantifier": "all counts of true and false positives and negatives of fewer than 2^32 rows; for query_mcc those whose u32 products do not wrap", "why_tests_cant": "The rounding of one quotient or root can push a value past 1 for a few counts out of 2^128; tests use a few hundred rows, where nothing is rounded.", "anchors": ["src/num_ext/tp_fp.rs:196-213", "src/num_ext/tp_fp.rs:306-395"]}
{"id": "C158", "title": "ROC AUC, average precision and trapezoid integration in double arithmetic", "statement": "Computed with doubles, and whatever the order in which the machine adds the products, query_roc_auc is not negative and within (k + 3) 2^-52 of the exact area for k different scores, is exactly 1/2 when all scores are equal, is 1 for a perfect ranking and never above 1. query_binary_metrics gives the doubles nearest to precision and recall, an F within 5 units of rounding of their harmonic mean and an average precision within 3 k units of the sum. integrate_trapz of n points is within (n + 2) 2^-52 of the exact area, relative to the sum of the sizes of the trapezoids.", "quantifier": "all score and label columns of fewer than 2^32 rows, all double columns of at most 2^50 points, all orders, bracketings and fusings of the additions in the SIMD dot product", "why_tests_cant": "The dot product of the crate cfavml adds in an order that depends on the registers of the machine and on the length; a test runs one machine and a few lengths.", "anchors": ["src/num_ext/trapz.rs:7-49", "src/num_ext/tp_fp.rs:25-154", "src/num_ext/tp_fp.rs:216-242"]}
{"id": "C159", "title": "Regression losses on integer columns", "statement": "On two integer columns of one data type, query_l1, query_l_inf, query_l2, query_r2, query_smape and weighted query_mape give the same value as on the columns cast to floats: they are not negative, symmetric in actual and prediction, and zero only for perfect predictions.", "quantifier": "all eight integer data types, all columns with or without nulls", "why_tests_cant": "Integer subtraction, multiplication and abs of polars stay in the data type and wrap around; tests use floats or small signed values.", "anchors": ["python/polars_ds/exprs/metrics.py:59-76", "python/polars_ds/exprs/metrics.py:132-186", "python/polars_ds/exprs/metrics.py:220-263"]}
{"id": "C160", "title": "Scaling, polynomial features, energy and slopes of integer columns", "statement": "On integer columns the transforms scale (min_max, abs_max) and polynomial_features and the expressions query_abs_energy, query_mid_range and simple_lin_reg without bias give the same value as on the columns cast to floats; min_max maps the training column into [0, 1] and abs_max into [-1, 1], and new values below the training range are mapped below 0.", "quantifier": "all eight integer data types, all columns with or without nulls", "why_tests_cant": "The results are wrong only for values that are large for their type or, for unsigned types, for new data below the training minimum.", "anchors": ["python/polars_ds/modeling/transforms.py:173-224", "python/polars_ds/modeling/transforms.py:591-618", "python/polars_ds/exprs/ts_features.py:51-73", "python/polars_ds/exprs/expr_linear.py:44-103"]}
{"id": "C161", "title": "Centring and scaling in double arithmetic", "statement": "In double arithmetic, and whatever the order in which polars adds: scale(min_max) maps the least training value to exactly 0, the greatest to exactly 1 and the training values into [0, 1]; robust_scale maps its quantiles to exactly 0 and 1; scale(abs_max) maps the training values into [-1, 1] and reaches 1 or -1; all of them and center keep the order of values and err by a few units of rounding; center makes the mean of the training column 0 up to rounding; a constant column is centred to 0 and becomes NaN under scale(standard).", "quantifier": "all Float64 columns of finite numbers and nulls, of up to 2^32 values, without overflow", "why_tests_cant": "Exact arithmetic hides rounding; whether 1 is exceeded or the ends are reached exactly depends on every pair of doubles.", "anchors": ["python/polars_ds/modeling/transforms.py:158-223", "python/polars_ds/modeling/transforms.py:226-265"]}
{"id": "C162", "title": "Neighbor search from 16 columns on, in double arithmetic", "statement": "With l2 or sql2 and 16 or more columns, where the distance of rows is computed by a vectorised kernel and the distance to a box by a plain loop: after any history of add, radius search returns exactly the rows whose computed distance is at most the radius, and the k nearest neighbors are exact with respect to the computed distances, in double arithmetic and whatever the order in which the kernel adds.", "quantifier": "all matrices of 16 to 2^40 columns, histories of add, query points, radii, k, bounds and tolerances, and all orders of adding, with or without fused multiply-add, without overflow", "why_tests_cant": "Whether a box is dropped depends on the last bit of two sums added in different orders; tests on a few rows rarely meet such a tie, and never every order.", "anchors": ["src/utils/mod.rs:277-341", "src/arkadia/kdt.rs:14-73", "src/arkadia/kdt.rs:329-397", "src/arkadia/mod.rs:79-152"]}
{"id": "C163", "title": "Average of the nearest neighbors in double arithmetic", "statement": "query_knn_avg in double arithmetic: one entry per row, null for an incomplete row and for a row none of whose k+1 nearest complete rows within max_bound lies at min_bound or beyond; otherwise the documented weighted mean of the targets of these up to a few roundings, and between their least and greatest target.", "quantifier": "all frames with nulls and at least one complete row, all k below 2^32, bounds (the upper one up to 2^500), metrics with l2 and sql2 below 16 columns, weighted or not, without overflow", "why_tests_cant": "Whether the average leaves the range of the targets depends on the last bit of a reciprocal, a product, two sums and a quotient; tests with tolerances do not look at it.", "anchors": ["src/arkadia/mod.rs:170-240", "src/num_ext/knn.rs:88-144", "python/polars_ds/exprs/expr_knn.py:265-334"]}
{"id": "C164", "title": "Regression losses in double arithmetic", "statement": "query_l1, query_l2, query_l_inf, query_smape and query_r2 on Float64 columns with nulls: non-negative, the same for exchanged columns, zero exactly if the columns agree on the complete rows, the mean absolute error at most the largest error, smape between 0 and 1, R2 at most 1 and 1 exactly for perfect predictions, 0 for the mean as prediction, and the exact value up to a few roundings.", "quantifier": "all columns of finite doubles and nulls with up to 2^32 known values, normalised or not, and all orders in which polars may add, without overflow", "why_tests_cant": "The order of adding is up to polars and the sums round at every step; tests compare with a tolerance and so see neither a result outside the documented range nor a zero for unequal columns.", "anchors": ["python/polars_ds/exprs/metrics.py:59-76", "python/polars_ds/exprs/metrics.py:132-150", "python/polars_ds/exprs/metrics.py:153-170", "python/polars_ds/exprs/metrics.py:173-186", "python/polars_ds/exprs/metrics.py:244-263"]}
{"id": "C165", "title": "The compatibility layer gives what the expressions give", "statement": "compat.f(arrays) returns the column that frame.select(f(columns)) gives on a frame holding the arrays, exceptions included, under the name of the function without query_. Arrays get distinct names. Excluded names, calls without a positional argument and calls reading a column by name fail.", "quantifier": "all library functions built as expressions of their arguments, all arrays, polars columns and plain arguments, by position or keyword, and all meanings of the operators", "why_tests_cant": "The tests only check that every name can be looked up; no call is made. That a call agrees with the expression for every function and input needs an argument over all expressions.", "anchors": ["python/polars_ds/compat/_compat.py:7-14", "python/polars_ds/compat/_compat.py:21-33", "python/polars_ds/compat/_compat.py:35-63", "python/polars_ds/_utils.py:42-59", "python/polars_ds/exprs/ts_features.py:412", "python/polars_ds/exprs/metrics.py:554", "python/polars_ds/exprs/stats.py:491"]}
{"id": "C166", "title": "Regressions do not depend on column names", "statement": "The matrix that lin_reg and the other regression expressions solve consists of the values of target and features, with a constant column last if asked for; whatever the columns are called and in whatever form (text, expression, polars column, array) they are given, the result is the same.", "quantifier": "all names, all forms of arguments, all rows with nulls, all null policies, with and without a constant, every solver", "why_tests_cant": "Tests use the columns y, x1, x2. Names enter through frames, default names of expressions and the name of the added constant; only a statement over all names shows which of them change the result.", "anchors": ["src/num_ext/linear_regression.rs:137-228", "src/num_ext/linear_regression.rs:230-285", "src/utils/mod.rs:48-50", "python/polars_ds/exprs/expr_linear.py:30-42", "python/polars_ds/exprs/expr_linear.py:182-239"]}
{"id": "C167", "title": "NDCG does not depend on column names", "statement": "The value of calculate_ndcg depends on the groups, relevances and scores only: renaming the relevance or score column, or having further columns in the frame, does not change it.", "quantifier": "all frames with any column names, all cut-offs, every sort that leaves equal rows in any order", "why_tests_cant": "The function adds five working columns to the user's frame; a test would have to use exactly one of their names to notice. Only a statement over all names tells which of them change the value.", "anchors": ["python/polars_ds/exprs/metrics.py:660-747", "python/polars_ds/exprs/metrics.py:751-771", "python/polars_ds/exprs/metrics.py:773-816"]}
{"id": "C168", "title": "Online, recursive and rolling regression keep up with the rows in double arithmetic", "statement": "In double arithmetic the coefficients of OnlineLR after any additions and removals, of recursive_lin_reg and of rolling_lin_reg are those of least squares on the rows they stand for, up to a small error relative to the numbers involved.", "quantifier": "all rows with one feature, all histories of additions and removals, every order of the operations inside the matrix products with and without fused additions", "why_tests_cant": "The updates are exact in exact arithmetic and accurate on the rows of any ordinary test. Whether one unusual row is forgotten again is a statement about all rows that follow it.", "anchors": ["src/linalg/lr_online_solvers.rs:314-348", "src/linalg/lr_online_solvers.rs:156-220", "src/linalg/lr_online_solvers.rs:68-93"]}
{"id": "C169", "title": "Splits and samples by decimal ratios have the right number of rows", "statement": "For a ratio written in decimals, split_by_ratio and sample take exactly the whole part of n * ratio rows, and split_by_ratio accepts every list of decimal ratios that add up to 1 and loses no row when every n * ratio is whole.", "quantifier": "all numbers of rows, all decimal ratios, all lists of ratios, all shuffles, sum of Python before and after 3.12", "why_tests_cant": "The ratio becomes a double and n * ratio is rounded and cut. Which ratios and sizes are off by one row is a statement about rounding for every pair; a test sees the pairs it uses.", "anchors": ["python/polars_ds/sample_and_split/sample_and_split.py:223-266", "python/polars_ds/sample_and_split/sample_and_split.py:20-53"]}
{"id": "C170", "title": "Downsampling touches only rows where the condition is true; controls of volume_neutral are respected", "statement": "downsample keeps every row on which its condition is not true and the requested number of the others, accepting conditions as its documentation passes them; volume_neutral with controls takes the same number of rows of every value of by within each combination of the controls.", "quantifier": "all frames, all conditions with true, false and null, all amounts, all controls, all shuffles", "why_tests_cant": "Null conditions form a group of their own in polars; tests have conditions without nulls. The counts hold for every shuffle only if the ranks within groups do.", "anchors": ["python/polars_ds/sample_and_split/sample_and_split.py:20-36", "python/polars_ds/sample_and_split/sample_and_split.py:56-101", "python/polars_ds/sample_and_split/sample_and_split.py:104-161"]}
{"id": "C171", "title": "Log loss and percentage errors when a probability is 0 or 1 or an actual is 0", "statement": "query_log_loss of 0/1 labels is infinite exactly if a label was given probability zero, never negative, and NaN exactly if a prediction is not a probability; certain and right predictions do not disturb it. query_mape is zero for perfect predictions and infinite if an actual is zero and its prediction is not.", "quantifier": "all columns with nulls, all finite or NaN predictions, with and without normalize", "why_tests_cant": "0 * log 0 and 0 / 0 only appear on boundary rows; a test meets some combination of them, not every mixture of rows.", "anchors": ["python/polars_ds/exprs/metrics.py:189-217", "python/polars_ds/exprs/metrics.py:220-241", "src/num_ext/float_extras.rs:23-29", "src/num_ext/float_extras.rs:273-281"]}
{"id": "C172", "title": "The numeric profile describes the column", "statement": "numeric_profile gives counts that add up, min <= q1 <= median <= q3 <= max with a quarter of the values beyond each quartile, as outliers exactly the values beyond the fences (never more than half of the values), and a histogram with n_bins bars of equal width that add up to the number of finite values.", "quantifier": "all columns with nulls (histogram: also NaN and infinities), all numbers of bins, all multipliers not below 0", "why_tests_cant": "Quartile positions, fences, roundings and bin edges interact; tests look at a rendered table of one frame.", "anchors": ["python/polars_ds/eda/diagnosis.py:122-236"]}
{"id": "C173", "title": "Splits and validation reports do not depend on column names", "statement": "split_by_ratio returns parts with all columns of the frame, in order, whose rows together are the rows of the frame; row_validation returns the identifier, the kept columns with the user's cells and the reasons of exactly the rows that break a rule, whatever the columns and the rules are called.", "quantifier": "all frames, names, rules, ratios and shuffles", "why_tests_cant": "The temporary columns only matter if a user's column has the same name; tests use frames with other names.", "anchors": ["python/polars_ds/sample_and_split/sample_and_split.py:201-266", "python/polars_ds/eda/diagnosis.py:268-340"]}
{"id": "C174", "title": "Time series features of integer columns", "statement": "On integer columns query_c3_stats, query_time_reversal_asymmetry_stats, query_auto_corr(normalize=False), query_cid_ce, query_mean_abs_change and query_mean_n_abs_max give the same value as on the columns cast to floats.", "quantifier": "all eight integer data types, all columns with or without nulls, all lags", "why_tests_cant": "Products of three values leave the range of a small data type early, and unsigned differences wrap; tests use floats.", "anchors": ["python/polars_ds/exprs/ts_features.py:76-89", "python/polars_ds/exprs/ts_features.py:336-416"]}
{"id": "C175", "title": "Target encoding in double arithmetic", "statement": "In double arithmetic the encoded value of a category is a number from 0 to 1 unless the smoothing is 0, in which case a category with exactly min_samples_leaf rows is encoded as NaN; a target of only ones (zeros) is encoded as exactly 1 (0); of two categories with the same number of rows the one with more ones is not encoded lower; the weight of the category does not fall as it gets more rows; the value is within 2^-51 of the weighted mean and of the interval between the two means.", "quantifier": "all counts up to 2^53, all parameters, and all exponential functions whose results are not negative", "why_tests_cant": "Exact arithmetic hides rounding; whether 1 is exceeded depends on every weight and every pair of shares.", "anchors": ["src/num_ext/target_encode.rs:19-49"]}
{"id": "C176", "title": "Haversine distance in double arithmetic", "statement": "In double arithmetic the haversine distance of a point to itself is exactly 0, and any distance is a number from 0 to half the circumference or NaN. It is NaN exactly if the rounded intermediate a is above 1: this happens for the antipodes (8, 0) and (-8, 180) with correctly rounded trigonometric functions, and only for points within 4 metres of antipodes. The order of the points does not matter if the latitudes agree up to the sign or the longitudes agree; otherwise it can: from (4, 0) to (8, 8) and back the last digit differs.", "quantifier": "all latitudes up to 90 and longitudes up to 180 degrees; all platforms whose sin, cos and atan2 keep the usual bounds and symmetries, for the 4 metres those within 2^-53", "why_tests_cant": "Which pairs of points round above 1 cannot be enumerated, and a test with other antipodes passes.", "anchors": ["src/utils/mod.rs:244-258"]}
{"id": "C177", "title": "PSI, weight of evidence and information value in double arithmetic", "statement": "In double arithmetic no contribution to PSI and no information value is negative, and a contribution is 0 exactly if the two shares are equal as doubles; PSI is never negative nor below one of its contributions. Up to 2^26 rows, PSI is 0 exactly if the exact clipped shares agree in every bin. With 2^31 + 1 and 2^31 + 3 rows it can be 0 though the exact shares differ in every bin. The weight of evidence has the sign of the difference of the smoothed shares. A contribution is within 2^-46 of the exact one. PSI depends on the order of the samples: the counts (16383, 1) and (16384, 0) give two different values.", "quantifier": "all counts below 2^32 (for the zero of PSI up to 2^26 rows) and all logarithms with a relative error of at most 2^-52", "why_tests_cant": "A negative or zero PSI through rounding would need one unlucky pair of counts out of 2^128; near 1 the difference and the logarithm could round to different signs.", "anchors": ["src/num_ext/psi.rs:41-72", "src/num_ext/woe_iv.rs:37-74", "python/polars_ds/exprs/num.py:474-482"]}
{"id": "C178", "title": "Chi-squared statistic in double arithmetic", "statement": "In double arithmetic the statistic of chi2 is a number that is never negative for columns without nulls, and NaN if a level has no rows (as a null key). Up to 94906265 rows it is 0 exactly if the two columns are independent (every count times the number of rows equals the product of the sums of its row and column). With 94925793 rows this fails: there are independent columns with a positive statistic.", "quantifier": "all tables of counts with fewer than 2^32 rows of data and without an empty row or column", "why_tests_cant": "The product of two sums is converted to a double before the division, and a test would need about a hundred million rows to see a rounding.", "anchors": ["src/stats/chi2.rs:49-56", "src/stats/chi2.rs:71-91"]}
{"id": "C179", "title": "Conditional entropy in double arithmetic", "statement": "In double arithmetic query_cond_entropy(x, y) is never negative, and it is exactly 0 if and only if y determines x in the given rows: rounding neither hides a dependency nor invents one.", "quantifier": "all pairs of columns with fewer than 2^32 rows, all orders of the groups and all logarithms with a relative error of at most 2^-52", "why_tests_cant": "A pair of counts whose rounded shares give a logarithm of the wrong sign, or a quotient of exactly 1, cannot be excluded by trying counts.", "anchors": ["src/num_ext/cond_entropy.rs:5-27", "python/polars_ds/exprs/ts_features.py:500-516"]}
