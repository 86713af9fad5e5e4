# Formal model of polars_ds_extension (Lean 4)

The properties are listed in `properties.jsonl` (generated by `tools/props.py`).
The model lives in `lean/Verif`. `MANIFEST.json` maps each property to its theorems.

## Layout

* `Verif/Model/*.lean`: the model. Each definition cites the file and lines in `/repo` it models.
* `Verif/Lemmas/*.lean`: helper lemmas and invariants.
* `Verif/Spec/*.lean`: small specifications, stated without the model's helpers.
* `Verif/Props/*.lean`: property theorems, each beside an `example` meeting its hypotheses.

## Modelling conventions

* Rust `&mut self` becomes a function returning the new value. `Result`/`Option` stay data.
  A panic (index out of bounds, `unwrap` on `None`, subtraction underflow used as an index) is an
  explicit error value.
* `while`/stack loops take fuel and return `Option`; theorems show that the supplied fuel suffices.
* Real arithmetic (`f64`/`f32`) is modelled by an arbitrary linear ordered field `K`, so theorems hold
  for exact arithmetic. Rounding, NaN, infinities and signed zero are outside the model unless a module
  says otherwise. The KD-tree modules use a weaker class of operations (monotone, not associative) that
  rounding arithmetic also satisfies.
* Unstable sorts are modelled by an arbitrary function returning a sorted permutation; theorems
  quantify over it.
* Threads: a parallel map over `split_offsets` is a list of writes performed in any order.
* Integers are `Nat`/`Int` unless the property is about wrap-around.

## Trusted base

* Lean 4.33.0 kernel; axioms `propext`, `Classical.choice`, `Quot.sound` only.
* The reading of the Rust/Python source that the citations record.
* External crates (polars, faer, rapidfuzz, rayon, cfavml) are modelled by the documented contract of the
  functions used; each such contract is a parameter or a cited definition.
* For the pipeline area (C94-C107): a frame is a schema and a list of rows; `with_columns`, `select`, `filter`,
  `exclude`, `fill_null`, `clip`, `replace_strict`, `sum_horizontal`, `eq_missing` and the column aggregations are the
  definitions in `Model/Pipeline.lean` and `Model/Transforms.lean`; SQL steps, quantiles and the JSON form of an
  expression (`Codec`) are parameters; `mode().list.first()` is a type error of polars.
* Not modelled because entirely commented out in the source: `src/num_ext/ball_tree.rs`, `exprs/expr_balltree.py`,
  `src/num_ext/mutual_info.rs`, `src/num_ext/welch.rs`, `mutual_info_disc`, `query_psd`.

## Plan per property

| id | modelled | how proved |
|----|----------|-----------|
| C01 | tree build/add/within traversal, box distance | box lower bound lemma + bounds invariant; traversal = brute-force filter (Perm) |
| C02 | within_count traversal | traversal count = length of the filter |
| C03 | knn traversal, top-k insertion | invariant: top-k plus discarded is a permutation of the seen points |
| C04 | as C03 with eps | same invariant with slack |
| C05 | as C03 | negation witness; partial theorem below the bound |
| C06 | PyKDT new/add/count | induction over histories |
| C07 | DIST::ANY pruning | positive for l1/l2/sql2/inf, negation witnesses for cosine and haversine |
| C08 | PyKDT::knn padding | list lemma + C10 |
| C09 | KNNRegressor | convexity of weighted mean |
| C10 | split_offsets + concatenation | coverage and disjointness of offsets |
| C11 | row-major writes | injectivity of the index map; any interleaving |
| C12-C13 | normal equations | convex quadratic argument over `Matrix` |
| C14-C17 | Woodbury/Sherman-Morrison loops | invariant inv = (XᵀX+Λ)⁻¹, w = inv Xᵀ y |
| C18 | null handling of recursive fit | negation witness + partial |
| C19 | coordinate descent | one-dimensional prox lemma, residual invariant, separable subgradient |
| C20 | null masks | list lemmas |
| C21 | LR object | state machine |
| C22 | rcond threshold | negation witness + exact characterisation |
| C23 | PAVA | block invariant, Abel summation optimality |
| C24 | Kendall tau | merge-count invariant, pair counting |
| C25 | KS | binary search = count, sup over reals |
| C26 | tie sum | negation + partial |
| C27-C30 | tp/fp frame, trapz | telescoping sums; negations |
| C31 | convolution | index lemmas |
| C32 | combinations | lexicographic enumeration |
| C33, C40 | Python split / partition | negation + partial |
| C34 | n-gram sets | Finset algebra |
| C35 | nearest string | fold invariant |
| C36 | stopwords | binary search over a sorted table |
| C37 | PSI | binning and log inequality |
| C38 | LZ | parse invariant |
| C39 | Jaccard | Finset algebra |
| C41 | Benford | decimal digit lemma |
| C42 | gcd/lcm | Int.gcd laws and wrap-around |
| C43-C46 | chi2, F, WOE/IV, target encoding | algebra |
| C47 | string distance dispatch | alignment |
| C48-C49 | windows and templates | counting |
| C50 | string cleaning | word lists |
| C51 | average ranks, U statistics | counting lemma: rank sum = pairs below plus half ties |
| C52 | Python masks, leaf filter, knn per row | end-to-end theorem on top of C03 |
| C53 | binary search in the ROC frame | index lemma; negation above the top score |
| C54 | u32 products, phi formula | algebra; negation by wrap-around |
| C55 | stopping rule of coordinate descent | subgradient bound; negation with bias |
| C56 | weights under null policies | list lemmas; negation |
| C57 | OnlineLR constructor | case split; negation with bias |
| C58-C59 | sampling helpers | rank counting under arbitrary permutations; negation for the seed |
| C60 | `psi_discrete` counts and outer join | list counting; negation for nulls |
| C61 | Python filter in front of `woe` | length argument; negation |
| C62 | `target_encode` groups | negation: exactly the non-null categories are encoded |
| C63 | knn in `_knn_entropy_helper` | C03 plus a sorting lemma |
| C64 | the Python expressions over PlExpr columns | expansion lemma, Cauchy-Schwarz, Jensen; negation witnesses for the wrong formulas |
| C65 | the bicor expression | Cauchy-Schwarz |
| C66 | Python wrappers, statistics, student_t_sf, the beta continued fraction | case analysis on the sign of t; field identities; negation witness |
| C67 | ranks, diff, the select of _xi_corr | double counting of level crossings for the range; sorting lemma for the untied sum; negation witness for nulls |
| C68 | pl_conditional_entropy, the pairs of infer_dependency | regrouping sums, log t <= t - 1, pigeonhole |
| C69 | pl_rfft | conjugate symmetry, list indexing |
| C70 | haversine_elementwise, naive_haversine | inner product of unit vectors; angle triangle inequality of Mathlib |
| C71 | the five expressions over optional columns | rows as a filterMap of the zip, sums rewritten to it; a count comparison gives the understatement |
| C72 | as C71 plus query_l_inf | per-row inequalities summed; Cauchy-Schwarz |
| C73 | both expressions; p larger than the row count (unsigned wrap-around) is excluded | sums over rows; the adjusted inequality is proved for every data set |
| C74 | the expressions; NaN as none; mape only for nonzero actuals | triangle inequality per row |
| C75 | xlogy and the expression | case split on the label; Gibbs' inequality |
| C76 | both expressions; float quotients as number, infinity or NaN | filters rewritten to the members of each group |
| C77 | the whole function: sort, ranks, discounts, tie aggregation table, mean; nulls and NaN excluded | rearrangement inequality by insertion; the tie table is shown to be a run-by-run average, bounded by Chebyshev's inequality |
| C78 | `logit`, `expit` over the reals with infinities and NaN as separate values. | Real analysis lemmas on exp and log. |
| C79 | `pl_trunc`, `pl_fract`: integer and float branches. | Floor and ceiling lemmas; the negation is proved for every null of every integer column. |
| C80 | `sinc` with its substitute `1e-20` at zero. | Bounds on sine from Mathlib. |
| C81 | The three expressions, one row; `sum_horizontal`/`max_horizontal` skip nulls (trusted polars semantics). | List inductions; Cauchy-Schwarz. |
| C82 | `diff`, comparison and `all` over columns with nulls. | Chains of a transitive relation are pairwise. |
| C83 | The expressions over columns with nulls; softmax both over the reals and with an overflowing exponential. | Sums over lists. |
| C84 | `detrend`: count, int_range, cov, var and the broadcasts. | Normal equations and completion of the square. |
| C85 | Everything around the decomposition; the decomposition as the contract `Svd`. | Matrix algebra on the contract (Mathlib). |
| C86 | run-length encoding, filter, max and mean | Induction on the run-length encoding against a specification by windows of consecutive true rows. |
| C87 | `shift`, products, sums, means and variance over columns with nulls; 32 bit length difference | Index formulas for shifted columns; reversal of windows; Cauchy-Schwarz. |
| C88 | `diff`, `shift`, `dot`, `mean`, `std` | Telescoping sums, list induction, square roots of reals. |
| C89 | `top_k`, `max`, `min`, `is_between`, `is_unique`, `sum` | Sorting lemmas and counting. |
| C90 | `unique_counts` and `entropy` (polars semantics) | Gibbs' inequality from log x <= x - 1. |
| C91 | windows, argument sort as a contract (any tie breaking), counts and entropy | The argument sort depends only on comparisons; permutations of n_dims indices bound the number of patterns. |
| C92 | the shifted and sliced columns and the call of lin_reg | Index formulas for the design rows; the theorems of C12. |
| C93 | average ranks, the compositions of entropies, slices | Counting below and equal values; double counting of ordered pairs. |
| C94 | frames as rows, `with_columns`, `select`, `filter`, `Blueprint.__init__`, `materialize`, `_generate_lazy_plan`, `transform` | Induction on the steps with the invariant that fitting and transforming see the same frame; columns of well-formed frames. |
| C95 | the expression lists produced by every transform in transforms.py | Row-wise functions compose; each built-in transform is shown to produce such expressions. |
| C96 | `FitStep.fit`, the conversions, `drop` | A column that no expression names is kept by `with_columns`. |
| C97 | `PipelineStep.__init__`, `to_json`, `from_json`, `Pipeline.to_dict`, `from_dict` | Case analysis on the context; induction on the list of steps. |
| C98 | `ensure_features_io`, the check in `transform`, renaming in `Blueprint.__init__` | Set equality; the recorded names are computed. |
| C99 | `rename` as `with_columns(col(k).alias(v))` followed by `drop` | Cells of `with_columns` and `select`. |
| C100 | `impute`, `conditional_impute`; `mean`, `median`, `fill_null`, `when/then` | Column-wise evaluation of the learned expressions; sorting for the median. |
| C101 | `center`, `scale`; `mean`, `std(ddof=0)`, `min`, `max`, `abs` | Sums over columns in an ordered field; folds of min and max. |
| C102 | `robust_scale`, `winsorize`, `clip` | Evaluation of the learned expressions. |
| C103 | `one_hot_encode`; `unique().implode().list.sort()`, `eq_missing`, `cast` | The levels are the sorted distinct values; indicator columns evaluated per row. |
| C104 | `rank_hot_encode`; `replace_strict` with default | Positions in a list without repetitions. |
| C105 | `_encoder_default_value`, `target_encode`, `woe_encode`; `replace_strict` | Lookup in the learned table, which is identified with the columns of C45 and C46. |
| C106 | `polynomial_features`; `itertools.combinations_with_replacement`, `pl.reduce` | Recursion of the combinations against multisets, count by `multichoose`. |
| C107 | `linear_impute`; `fill_null`, `sum_horizontal` | Evaluation of the fitted expression per row. |
| C108 | `skew_test_statistic`, `kurtosis_test_statistic`, `pl_normal_test`, `normal_test`, polars' `skew` and `kurtosis` | The closed forms are compared with the published formulas; positivity of W², A and the cube root argument by polynomial inequalities; moments under affine maps. |
| C109 | `checked_gamma_ur`, `checked_gamma_lr`, the chi-squared survival function and the p-value in `chi2.rs` | The series is bounded by a geometric one; the continued fraction's convergents satisfy a recurrence whose gap to the tail is an explicit integral. For a whole shape n it vanishes after n steps. For any shape the ratio of successive errors is bounded through the integral's mean, so the loop ends at most 362 steps after the shape and the last step bounds the rest. |
| C110 | all plugins of `sample.rs` that make columns and their Python wrappers, with argument types | Induction on the number of draws; case analysis on argument types. |
| C111 | `pl_perturb`, `pl_jitter`, `perturb`, `jitter`, `random_null` | Induction on the column with the generator's state threaded through. |
| C112 | `SnowballEnv` on UTF-8 bytes with panics as errors, `find_among`/`find_among_b` with the generated tables, every routine of `english_stemmer.rs`, `snowball`, `pl_snowball_stem` | each routine is shown to act on byte states as the corresponding step on characters (cursor always at a character boundary), the binary searches find the longest match for each of the eleven tables, fuel bounds are never reached |
| C113 | `StandardError`, `pl_lin_reg_report` (all standard errors, t, p, interval, R², adjusted R²) over the reals; `faer`'s decompositions by contract, the t quantile as a parameter (modelled in C141) | normal equations; Gram form completed to a square for the classical error; rank-one deletion formula for HC2/HC3; variance of the constant column for the t test |
| C114 | `pl_wls_report` over the reals | Gram matrix and residuals of the scaled rows equal the weighted ones |
| C115 | `simple_lin_reg` as a composition of polars expressions over an ordered field | six weighted moments; the loss is the minimum plus a positive quadratic form in the difference of the coefficients |
| C116 | `PyKDT.within*`/`count*` over matrices and `spatial.KDTree.within`, `within_count`, `knn` | per row reduction to the exactness of one radius query after any history (C02) |
| C117 | `within_dist_from`, `is_knn_from` as compositions of polars expressions | expressions rewritten to the metric; rank of an element of a sorted list against the maximum of its first k entries |
| C118 | `pl_query_radius_ptwise`, `query_radius_ptwise`, both `_freq_cnt` expressions, `DIST::dist` on NaN coordinates | exactness of the radius query for any tree; counts as sums over rows; case analysis on the metric for NaN |
| C119 | the expressions on top of rapidfuzz (the crate's distances as recursions on characters), argument order for scalars, `as u32`, cutoffs | recursions shown minimal over inductively defined edit sequences and alignments; composition of alignments for the triangle law |
| C120 | `similar_to_vocab` for all metrics; Damerau-Levenshtein is a parameter | similarities rewritten to the normalized edit similarity; folds of all/any/mean |
| C121 | `str_tokenize` with stem, `extract_numbers` (its regular expression as a matcher), `normalize_whitespace`, `replace_non_ascii`, `remove_diacritics` | leftmost-first matching as a recursion with the text length as fuel; structural induction on the text |
| C122 | the table of all functions marked `#[polars_expr]` (required keyword fields, typed accessors, rows returned) and of all `pl_plugin` calls (symbol, argument types, keywords, flags), `_lin_reg_expr_symbol` | the meaning of a call is defined over tables; the claim is a check of the whole finite table lifted to the quantified statement |
| C123 | declared type function and returned type of every function marked `#[polars_expr]`; errors for other reasons not modelled | agreement of declaration and result as a relation on shapes, proved for all inputs by cases, and checked over the whole table; a common counterexample input for the exceptions |
| C124 | the tests of all `infer_*` methods on columns of optional values, `lru_cache` as a least-recently-used list with shared results; NaN not modelled | distinct counts against nodup enumerations; invariant of the cache over all histories without changes |
| C125 | `row_validation` with row numbers, `col_validation` for rules with one value; `all_horizontal`, `list.arg_min` by their documented meaning | membership in filtered lists; first match decomposition |
| C126 | `null_corr` without the filter expression | the correlation in terms of counts, bounds by elementary inequalities, equality cases by induction on rows |
| C127 | the loops of `plot_dependency` on the filtered dependency table; drawing not modelled | invariant of the removal loop; strong induction on the rank difference; lowest column between for minimality |
| C128 | the cuts, `cut(left_closed=True)`, `value_counts` and sort; quartiles are parameters; finite values, not a constant column | bin number as a count of breaks, shown to be the index of the part; sorted nodup lists are equal |
| C129 | `query_multi_roc_auc`, `query_gini` on rows without nulls, over the AUC expression of C27; `list.get`, `sum_horizontal` by their documented meaning | reduction to the one-class theorem of C27; pair counts flip under 1-p |
| C130 | `query_cat_cross_entropy` with nulls, out-of-range indices and non-positive probabilities; `list.get`, `list.arg_max` by their documented meaning | evaluation row by row; sums of non-negative terms |
| C131 | `query_mase`, `query_mad` with both options; `diff`, `mean`, `median` by their documented meaning | column expressions evaluated against lists of errors; medians of scaled lists; counting in sorted lists |
| C132 | `_handle_nulls_in_df`, `_handle_nans_in_np` with NaN, infinities and nulls; Python's `float` on strings is a parameter; polars' `drop_nulls`, `fill_null`, numpy's `isnan`, `nan_to_num` by their documented meaning | row by row relation of the documented treatment; agreement with the Rust model of C20 by cases on the policy |
| C133 | `set_input_features`, `fit`, `fit_df`, `predict_df` of `LR` and `ElasticNet` with the aliasing of the name list; the solver is a parameter; the report of `show_report` only as to whether it raises for nulls; prediction frames hold numbers and nulls | induction over names and coefficients; case analysis of the calls; concrete counterexamples |
| C134 | `sf_unchecked`, `erfc`, `erf_impl`, `polynomial` with all 26 coefficient tables as the decimals in the source; real arithmetic, exact `exp`; NaN and infinities not modelled | derivative of each branch against that of the Gaussian integral, residual polynomials certified by Bernstein coefficients in the kernel, branches chained from infinity down |
| C135 | the p-value part of `pl_mann_whitney_u` and `pl_xi_corr_w_p` over the reals with exact square roots; pooled samples with fewer than two values (NaN) not modelled | C134 for the tail, C26/C51 for the statistic; average ranks injective in the values; bound on the tie term |
| C136 | `student_t_sf`, `checked_beta_reg` and its continued fraction with the constants of the source and the code's `ln_gamma` (C140); real arithmetic | the fraction's tails as quotients of integrals, a contraction rate per round, kernel-checked products of the rates over a grid of (a, b), substitution from the beta integral to the Student density |
| C137 | `pl_f_test` for one column with `fisher_snedecor_sf` and the code's `ln_gamma` (C140); real arithmetic, so the cancellation in `1 - d1 x/(d1 x + d2)` for large statistics is not seen | as C136, with the substitution from the beta integral to the Fisher density; the counterexample evaluates the 140 rounds in the rationals in the kernel |
| C138 | `plot_roc_auc` up to the data handed to the chart library, `query_tpr_fpr` with its plugin; scores without NaN; the rounding of the label to a few digits is left out | the rows of the plugin against counts over the positives and negatives, the trapezoidal area of the reversed list, reuse of the AUC proof of C27; dictionary insertion for the names |
| C139 | the aggregation and the division of both branches; the quantile rules over the histogram and the histogram itself are left to the chart library | the two counts as one count by induction over the column |
| C140 | `ln_gamma` with both branches (reflection below 1/2) and its constants as exact decimals; real arithmetic | the error is shown to satisfy a recurrence in the argument; its second derivative is a rational function whose numerator is bounded by a polynomial with positive coefficients (checked in the kernel), so the error tends to its limit; the limit is Stirling's formula against the constants, with certified bounds of the logarithms |
| C141 | `ln_beta`, `inv_beta_reg` (start, clamp, both inner loops and the outer loop, with fuel), `student_t_ppf`; real arithmetic except that the exponential in the Newton quotient overflows to infinity | convexity of the incomplete beta function: from the right the steps decrease to the root and each is longer than the stop threshold; from the left the first step lands right of it; the start is bounded by elementary inequalities for all degrees of freedom from 5 on and numerically for 2, 3, 4. Overflow of the first quotient for 14.5 million |
| C142 | `digamma` (special values, the `ulps_eq!` test by bit patterns, reflection, the formula for small arguments, the loop and the series), `pl_knn_entropy` with the constant of both metrics on top of the tree of C63; the gamma function of the standard library is the real gamma function | the error of the series satisfies a recurrence whose defect has a derivative of one sign, so it lies between zero and the first neglected term; reflection by differentiating Euler's formula; small arguments by the mean value theorem; the volume of balls from Mathlib |
| C143 | `ttest_ind_from_stats`, `_generic_t_test`/`pl_ttest_2samp`, `pl_welch_t` with the count as an argument; the p-value is the model of C109 | unfolding both wrappers to the same call; the value from the proved accuracy of the incomplete beta function |
| C144 | `query_symm_ratio`, `query_cv` and the aggregations max, min, mean, median and std they use | pairing the i-th smallest with the i-th greatest value bounds mean minus median; the reflected sorted list is the sorted list |
| C145 | evaluation of the models of `gcd`/`lcm`, `haversine`, the string metric dispatch, `trunc`/`fract`, stop words and random columns on lists of rows; the optimizer itself is not modelled, only the rewriting it is entitled to | characterisation of functions that commute with concatenation as maps; the models shown equal to a map outside the single-row case |
| C146 | `plot_lin_reg`: fit, prediction column, R2, equation text as slope/sign/constant, sampling through the model of the sampling functions, names of the columns | minimality from the simple regression claim (C115), range of R2 from the normal equations, concrete witnesses for the disagreements |
| C147 | the points of one curve of `plot_prob_calibration`: quantile breaks, bins, means per bin, the null bin and the error on repeated breaks | bins are monotone in the score, so the groups are ordered and partition the rows; for different scores interpolation is strictly increasing, which turns the bin sizes into counting multiples |
| C148 | `pl_next_up`, `pl_next_down` on bit patterns, with the dispatch on the column type and the cast of integers to f32 | the numbers of a format are strictly increasing in the magnitude bits, so the floats are ordered like integers and the operations are successor and predecessor |
| C149 | round to nearest, ties to even, with gradual underflow, for every `+ - * sqrt` of the distance functions and of the tree, as an instance of the number type over which the tree is modelled | the exactness theorem of the tree (C03) holds in every monotone arithmetic; the distance functions satisfy relative error bounds, which sorting preserves |
| C150 | the final divisions, roots and differences of these functions with every operation rounded to double; the counts are those of the existing models of these functions | rounding is monotone and keeps 0, 1 and the integers up to 2^53; quotients of counts up to 2^53 stay one unit away from 0 and 1; the rounded root of the rounded square of an integer below 2^53 is that integer |
| C151 | the dispatch on the column type, the cast of integers to f32, and every `+ - /` rounded to nearest with overflow to infinity | rounding is monotone and keeps representable numbers; the sum 1 + t rounds to 1 exactly up to half a unit; bounds on e^36, e^37, e^16, e^17 decide where; factorials and powers of two are compared with the overflow threshold |
| C152 | tree building by insertion with leaves holding rows with missing coordinates, splitting with unspecified sort and binary search, boxes ignoring NaN, the three stack loops, and the four plugin functions | removing the incomplete rows from every leaf leaves a tree whose boxes still contain its points; each loop on the full tree does what the loop for complete data does on the pruned tree; for inf a lock-step induction keeps the extra entries apart |
| C153 | all step methods of Blueprint with accepted and refused arguments, `_get_target`, `append_fit_func`, `append_step_from_dict`, `materialize`, `ensure_features_io`, objects and variables referring to them | case analysis on the method; induction on the program with the invariant that an object only depends on the calls addressed to it; splitting the fitting loop at the appended steps |
| C154 | The loops of isotonic_regression (Model/Isotonic.lean, same definitions as C23) over any type with +, *, / and a linear order; doubles are any such type whose operations round the exact result to the nearest double while it is at most 2^1023. Not modelled: NaN values, the sign of zero. | Lemmas/IsoGeneric.lean runs the loop invariant of C23 with arbitrary predicates for a block and for the running sum. Lemmas/IsoFloat.lean instantiates them with: prefixes of a block have weighted mean at least its value and suffixes at most, up to a slack of 9 (m - 1) rho for m rows; a merge of rounded means whose order is wrong by at most 2 rho adds 7 rho and the division 2 rho. Two fits whose blocks satisfy this are within the sum of the slacks, and the exact fit is the instance with slack 0, identified with the optimum by C23. |
| C155 | The dispatch of corr, the pairs, the cast and the sort of infer_corr (as a relation, ties free), the cells and failures of DIA.corr. The correlations are parameters; pearson is defined by its documented meaning over the reals, xi is any function that the model of C67 allows. | Induction over the list of columns for the pairs; the sort as a pairwise relation; the xi value by the untied formula of C67 on four rows. |
| C156 | Each column of the report but the two quantiles; value_counts as a relation (any order among equal counts), evaluated twice as in the code; UTF-8 lengths by Lean's Char.utf8Size. | The head of a list sorted by count is a maximum in both evaluations; counting over the distinct values; induction over texts for the lengths. |
| C157 | Model/ConfDbl.lean: pl_mcc and the expressions of pl_binary_confusion_matrix with every operation rounded (`Doubles.rd`), on the counts of `Confusion.confusion` | the numerator is an exact integer; three roundings of the product and one of the root give a relative error of 2.7 units; rd(sqrt(rd(n*n))) = n gives the range; shares by monotone rounding; roots of shares by the 1/2-Hölder bound of the root; the witnesses are computed with exact significands |
| C158 | Model/AucDbl.lean: tp_fp_frame, pl_roc_auc, pl_combo_b, trapz, trapz_dx and pl_trapz with every operation rounded; the dot product is a relation `IsDot` that allows every order, bracketing and fused multiply-add | induction over `IsDot`: every tree of n products has error at most (1+u)^n - 1 relative to the sum of sizes plus underflow; the rounded ratios move each point of the curve by at most 2^-54, which moves the area of a falling curve by at most 2^-53 (summation by parts); the witness is settled by an invariant over all sub-sums of its three terms |
| C159 | Model/IntCols.lean: integer types with wrap-around, `sub`, `mul`, `add`, `abs`, `sum`, `dot` and the six losses on them; floats are exact | `wrap` is the only congruent number of the type; sums and products are congruences modulo 2^bits; the witnesses hold for all eight types |
| C160 | Model/IntCols.lean: `minMax`, `absMax`, `polyFeature`, `absEnergy`, `midRange`, `slope` on integer types with wrap-around; floats are exact | congruences modulo 2^bits as in C159; the range of a column of an unsigned type always fits, that of a signed one may not |
| C161 | Model/ScaleDbl.lean: `IsSum` (any order of adding), `IsMean`, `IsCenter`, `standard`, `between`, `minMax`, `absMax` with every operation rounded to the nearest double | rounding is monotone and exact at 0 and 1; differences of doubles keep their sign and have relative error 2^-53; error of sums by induction over the order of adding |
| C162 | Model/SimdTree.lean: doubles with any kernel as the distance of rows (`Dbl`), its contract `IsKernel`, the kernel `lanes` with four registers; the tree and its queries are those of Model/KDTree.lean | loop invariants of both searches with a slack in place of the lower bound by the box; two orders of adding the same squares differ by 8 n roundings; the lost row by evaluating both sums (2^56 + at most 160 against 2^56 + 240) in a tree of 101 rows for every way of sorting |
| C163 | Model/KnnDbl.lean: recip, division, the three aggregations, knn_regress and pl_knn_avg over doubles; the tree is that of Model/KDTree.lean | the search is exact for the computed distances (C01); reciprocals within 3 roundings, reweighting by perturbed weights, sums as in C158 and C161; the counterexamples by evaluating each operation, for every way of sorting |
| C164 | Model/LossDbl.lean: l1, l2, l_inf, r2 and smape over doubles with a fixed but arbitrary way `sum` of adding | every order of adding non-negative doubles keeps the sign, dominates each term and stays below the count if the terms are at most 1, each by monotone rounding; relative errors of the terms and of the sum; the counterexamples by evaluating each rounding |
| C165 | Model/Compat.lean: expressions as trees over columns, literals, `pl.len()` and arbitrary operators; `_try_into_series`, the wrapper, the result name; the functions that ask for the number of rows, at a given number of rows | induction over the expression tree; names through the injectivity of decimal notation; the disagreements by evaluation at zero rows |
| C166 | Model/LrNames.lean: names of arguments after `lr_formula`, `to_frame`, `with_column(lit(1))`, filling all columns but the target, and `series_to_mat_for_lstsq` on named columns; the solver is arbitrary | equality with the nameless matrix of C20 by cases on the policy; independence of the overwritten column by list lemmas |
| C167 | Model/NdcgNames.lean: `calculate_ndcg`, `_get_dcg_score_ignore_ties` and `_get_rank_discount_at_k` on a frame with named columns, `with_columns` replacing a column of the same name and `select` rejecting equal names | the sums of the groups as weighted sums in sorted order, then the uniqueness of the sorted order; the overwritten column by computing what is read back |
| C168 | Model/OnlineDbl.lean: `woodbury_step`, the first fit and the loops of the recursive and rolling regression on one feature with every operation rounded | the roundings of powers of two computed for every exponent; accuracy by counting roundings as factors; induction over the rows |
| C169 | Model/SplitDbl.lean: `int(n * v)`, both versions of Python's `sum` and the list branch of `split_by_ratio`, with the slicing of Model/Split.lean | error of two roundings against the distance of n * ratio from the whole numbers; the double of 1 - d by monotone rounding on the grid of d; witnesses by computing the roundings |
| C170 | Model/Downsample.lean: `_sampler_expr`, `downsample` with three-valued conditions and `volume_neutral` with its handling of `control` | counting ranks below a threshold within each group (Props/Split.lean) |
| C171 | Model/LossEdge.lean: `xlogy`, `query_log_loss` and `query_mape` with infinities and NaN | classification of sums whose infinities have one sign |
| C172 | Model/Profile.lean: the row of `numeric_profile` and its histogram, also of an `Int8` column | positions in the sorted values; strictly increasing breaks; counting by bins |
| C173 | Model/FrameNames.lean: frames with names, `split_by_ratio` and `row_validation` with their temporary columns | updates of other columns leave cells alone; the rest from the theorems on rows without names |
| C174 | Model/IntSeries.lean: the six expressions on integer columns with wrapping arithmetic | congruences modulo `2 ^ bits`; windows by row numbers |
| C175 | Model/TargetDbl.lean: the weight and the encoded value with every operation rounded | rounding is monotone; the two rounded weights add up to 1 |
| C176 | Model/HavDbl.lean: every operation rounded, platform functions as parameters | error analysis through sin and cos; the witness uses Taylor polynomials of order 11 and bounds of pi |
| C177 | Model/PsiDbl.lean: every operation rounded, logarithm as parameter | two doubles differ by more than half a unit, so their rounded quotient is not 1; error analysis; asymmetry by (1-e)(1+e+e^2+e^3) = 1-e^4 |
| C178 | Model/ChiDbl.lean: table of counts, every operation rounded | an expected count that is not a whole number is at least 1/n away from the count, more than the rounding; witness by evaluation of a tie |
| C179 | Model/CondEntDbl.lean: counts of Model/CondEntropy.lean, every operation rounded | shares of different counts stay different doubles, so their rounded quotient is below 1 and the logarithm is not small; induction over the sum |

## Seeded edits

`seeded/LOG.jsonl` has one line per wrong program: `seeded/run.py` edits one definition of the model in a scratch copy and rebuilds.
`failed` lists the theorems (helper lemmas included) whose proofs no longer compile.  This shows that the theorem is sensitive to the
edit; it does not show that the edited statement is false, as a proof can also break because it unfolds the definition.  Edits that
break no claim are marked by a `note`.  `tightened` lists the theorems added or strengthened when an edit went unnoticed.

## Disagreements between the code and the properties

Each has a theorem with a concrete witness; the `_partial` theorem states what does hold.

* C05: a neighbor exactly at `max_bound` is missed when a split separates it (`knn_bound_inclusive_fails`).
* C07: box pruning is unsound for the cosine distance (`cosine_pruning_fails`).
* C26: the tie correction drops the group of the largest value (`tie_sum_wrong`).
* C27: ROC AUC leaves out the last triangle of the curve. The value is too small by half the product of the
  class fractions at the top score (`roc_auc_deficit`, `roc_auc_wrong`).
* C28: average precision leaves out the term of the top score; a perfect ranking with one positive gets 0
  (`avg_precision_wrong`).
* C29: null rows are counted because `into_no_null_iter` ignores the validity mask
  (`confusion_null_counted`). The ratio columns divide `u32` columns with the Rust `/` of polars. Elsewhere in
  the same file the operands are cast to `Float64` first, and the comment on `fill_null` says that division by
  zero gives null, which points to integer division. polars is not in the sandbox, so both readings are kept:
  the documented quotients hold under float division, and `confusion_ratio_legacy` shows the other outcome.
  Under float division a zero denominator of `plr` gives infinity, not NaN (`confusion_plr_inf`).
* C30: `trapz` of a single point is `-y*x/2` instead of 0 (`trapz_single_point_wrong`).
* C53: `query_binary_metrics` panics for a threshold above every score (`binary_metrics_panics`).
* C54: the cell products of `pl_mcc` are `u32` and wrap (`mcc_wraps`).
* C15: `recursive_lin_reg` and `rolling_lin_reg` with `l2_reg > 0` penalise the bias column, unlike `lin_reg`
  (`recursive_penalises_bias`). `start_with`/`window_size` above the number of rows panics
  (`recursive_rolling_panic`).
* C16: the rolling fit removes the oldest row before it adds the newest, so with `l2_reg = 0` a window as large as
  the number of features goes through a singular matrix (`rolling_square_window_fails`).
* C17: after one such singular step nothing recovers (`rolling_skip_no_recovery`).
* C18: with skipped nulls and `start_with > 1` the prediction on a row uses the features of an earlier row
  (`recursive_pred_wrong_row`). With the ignore policy and nulls the output has length one
  (`recursive_ignore_length`).
* C55: with a bias the stopping rule looks at the slopes only. The first sweep may leave the slopes at zero and
  set the intercept; the fit then stops although it is not near a minimum, whatever `tol`
  (`cd_bias_premature_stop`).
* C20: under `ignore` a single null makes the prediction column one row long (`lstsq_pred_ignore_length`).
* C56: with weights, a policy that drops a row makes the call fail; a null weight panics
  (`weighted_dropped_error`).
* C21: `LR.bias()` and `OnlineLR.bias()` have no `return` (`py_bias_none`). A new object with `has_bias=True` panics on
  `is_fit()`, `coeffs()`, `bias()` and `predict()` (`unfitted_bias_panics`). A bias of at most machine epsilon is
  lost (`set_bias_lost`). The Rust `LR::from_values` forgets the bias (`rust_from_values_wrong`).
* C57: the state of an `OnlineLR` with a bias is rejected (`online_rebuild_bias_rejected`).
* C22: the cut-off compares the squared singular value with `rcond` times the largest singular value
  (`rcond_cutoff_wrong`).
* C33: a list of ratios takes `int(n*v)` rows each and drops the rest (`split_ratios_loses_row`); a single ratio with
  `n*ratio < 1` is a `KeyError` (`split_ratio_fails_iff`).
* C34: an empty string gives NaN, not 0 (`empty_string_nan`).
* C35: null slots take part in `str_nearest` (`nearest_null_slot`).
* C40: `PartitionHelper` overwrites parts whose joined names collide (`partition_loses_rows_separator`,
  `partition_loses_rows_null`).
* C47: a null scalar operand panics (`pairwise_null_scalar`).
* C59: `random_cols` ignores its seed (`random_cols_seed_ignored`).
* C37: `psi` panics when a new value lies above the last observed break of the baseline (`psi_panics_iff`,
  `psi_constant_baseline_panics`).
* C39: `jaccard_col` over columns with nulls (`jaccard_count_null_wrong`, `jaccard_null_slot_counted`).
* C41: null slots are counted (`benford_null_counted`).
* C42: the gcd of `-2^31` and `0` or itself does not fit; `lcm` wraps (`lcm_wraps`).
* C43: a null gives NaN (`chi2_null_nan`). C44: null values and keys distort the F statistic (`f_test_null_value`,
  `f_test_null_key`).
* C45: the smoothed shares of more than two categories do not add up to one (`shares_sum`).
* C60: null categories are never joined (`psi_discrete_null`).
* C61: a null, NaN or infinite feature value makes the call fail (`woe_non_finite_fails`).
* C62: null categories are not encoded (`encode_null_missing`).
* C48: with `sqzl2` a query longer than the target by two or more is answered by 0, or panics in parallel
  (`zl2_long_query`); `sql2` reports an error.
* C49: `pl_sample_entropy` adds match counts in `u32` (`sample_entropy_wraps`, `sample_entropy_wrong`); radii up to machine
  epsilon count nothing (`sample_entropy_tiny_radius`).
* C64: `weighted_corr` centres x instead of y in the second factor, so the result can leave [-1, 1] (`weighted_corr_wrong`, `weighted_corr_out_of_range`).
* C64: `cosine_sim` divides by the product of the squared norms, not of the norms (`cosine_sim_scaled`, `cosine_sim_wrong`).
* C64: `weighted_hmean` does not depend on the data (`weighted_hmean_ignores_data`, `weighted_hmean_wrong`).
* C64: a null value keeps its weight in the denominator of `weighted_mean` (`weighted_mean_null_wrong`).
* C66: `ttest_ind(equal_var=True)` uses the count of the first column for both samples (`student_unequal_wrong`).
* C66: `ttest_ind` and `ttest_1samp` panic when a sample has fewer than two finite values (`welch_small_panics`).
* C66: an unknown alternative silently selects the two-sided test (`alternative_unknown`).
* C67: `xi_corr` keeps rows with a null `y` in the row count and drops the differences around them (`xi_null_wrong`).
* C70: a scalar null `y` panics, and only `y` may be a scalar although the message says one of them (`haversine_scalar_null`).
* C70: (C07) box pruning is unsound for haversine across the date line (`haversine_box_unsound`, `haversine_within_misses`).
* C71: normalised losses divide by `a.count()`, but a row with a null prediction contributes nothing: `query_l1` of actual [0,0] and prediction [2,null] is 1, not 2 (`l1_counts_unscored`, `loss_understated`).
* C73: `query_adj_r2` divides the residual sum of squares by n - p although `p` is documented as the number of explanatory variables; the textbook divides by n - p - 1, so every imperfect fit is overstated (`adjR2_overstated`).
* C73: `query_r2` leaves rows without a prediction out of the residuals but not out of the total (`r2_null_pred`: 45/53 instead of -3).
* C74: `query_smape` documents 'always between 0 and 1' but is NaN when one row has actual = prediction = 0 (`smape_zero_row`).
* C76: `query_p_pct_score` is NaN when neither group has a positive prediction (0/0), although the groups are treated alike (`pPct_nan`).
* C77: `calculate_ndcg` hard-codes the column name `example_id` (lines 728, 739, 740, 848-861), so every call of its own documentation (query_id, user_id) is an error (`group_col_ignored`).
* C77: with the default `ignore_ties=False` the same frame can give different scores because polars' sort is not stable (`sequential_order_matters`).
* C77: `if k:` reads k = 0 as no cut-off (`zero_cutoff`).
* C79: `fract` on an integer column builds `vec![0f32; len]`, so nulls become 0 (`src/num_ext/float_extras.rs:202-203`, `fract_loses_nulls`).
* C82: `is_increasing`/`is_decreasing`: differences next to a null are null and ignored by `.all()`, so `[3, null, 1]` is reported strictly increasing (`python/polars_ds/exprs/num.py:118-150`, `monotone_checks_null`).
* C83: `softmax` of a column with a value above 709.8 yields NaN for it and zeros elsewhere, not probabilities (`python/polars_ds/exprs/num.py:177-188`, `softmax_overflow`).
* C84: `detrend(method='linear')` uses `ts.count()` (non-null) as the length of the index, so a column with nulls is a shape error (`python/polars_ds/exprs/num.py:929-933`, `detrend_null_error`); one row gives null (`detrend_single`).
* C85: `singular_values(as_explained_var=True)` evaluates `pl.count()` inside `list.eval`, which is the number of singular values, not of samples (`python/polars_ds/exprs/num.py:300-301`, `explained_var_wrong`); one feature gives infinity.
* C85: `singular_values`/`pca` with `center=True` subtract means taken before rows with nulls are dropped (`python/polars_ds/exprs/num.py:294`, `src/utils/mod.rs:26-27`, `centering_null_wrong`).
* C85: `principal_components` with `k <= rows < features` allocates the right factor as rows x rows and panics in the decomposition (`src/num_ext/pca.rs:97-119`, `principal_components_wide`).
* C86: `query_streak` is documented to return a full column of streak lengths where the condition is true; it returns one row per run, runs of false and null included (`streak_not_full_column`).
* C87: `query_auto_corr(normalize=True)` is documented to lie in [-1, 1]; because it divides by `n - lag` it can exceed 1: [3, 0, 0, 0, 3] at lag 4 gives 3/2 (`auto_corr_exceeds_one`).
* C87: `query_c3_stats` divides the sum of the known products by the number of rows minus two lags, so a null lowers the mean (`c3_null_counted`); for a series shorter than two lags the unsigned length wraps (`c3_short`).
* C89: `query_count_uniques` ("the count of unique values") counts the values that occur once, so [1, 1] gives 0 (`count_uniques_not_distinct`).
* C91: `query_permute_entropy` with `tau > 1` does not space the entries of a window: it takes `n_dims` neighbors at every `tau`-th row (`permute_entropy_delay_ignored`), and the last windows contain nulls from beyond the end, so an increasing series has positive entropy (`permute_entropy_delay_null`).
* C96: `cast_bools`, `nan_to_null` and `int_to_float` are plain steps over all columns of a type and change the target and the excluded columns (`python/polars_ds/modeling/pipeline.py:384-390,432-453`, `convert_changes_target`).
* C96: `one_hot_encode(..., drop_cols=True)` with a selector fits on the selected columns that are not excluded but drops all selected columns, the target included (`python/polars_ds/modeling/pipeline.py:653-687`, `one_hot_drops_target`).
* C96: `conditional_impute` does not use the exclusions (its `cols` is None, `python/polars_ds/modeling/pipeline.py:407-430`).
* C97: `Blueprint.select` is annotated and documented to take column names; a name or list of names raises because `PipelineStep` only takes expressions (`python/polars_ds/modeling/_structures.py:47-52`, `select_names_rejected`).
* C98: With `lowercase=True` the check compares the incoming names with the lower-cased ones before lower-casing, so the training frame itself is rejected (`python/polars_ds/modeling/pipeline.py:239-248`, `ensure_in_lowercase`).
* C99: `rename` adds the renamed copies and then drops all old names, so {a: b, b: a} drops both columns and {a: a} drops a (`python/polars_ds/modeling/pipeline.py:636-651`, `rename_loses`).
* C100: `impute(method='mode')` builds `pl.col(c).mode().list.first()`, but `mode()` is not a list column, so it always raises (`python/polars_ds/modeling/transforms.py:26-51`, `impute_fails`).
* C103: A column with one distinct value (a flag that is set or null) is skipped, and `Blueprint.one_hot_encode` then drops it, so it disappears (`python/polars_ds/modeling/transforms.py:309-358`, `one_hot_loses_flag`).
* C103: Generated names can coincide: columns `a` and `a_b` with values `b_c` and `c` both give `a_b_c` and every `transform` fails; a column named `a_b` is silently replaced by the indicator of value `b` of column `a` (`one_hot_names_collide`).
* C105: The documentation of `target_encode`, `woe_encode` and `iv_encode` says nulls are encoded as a value of their own; the encoders drop the null row of the table, and null gets the default (`python/polars_ds/modeling/pipeline.py:728,776,818`, `encode_null_default`).
* C108: The kurtosis score takes the absolute value of the denominator under the cube root (`src/stats/normal_test.rs:46-51`) where Anscombe and Glynn (and SciPy) keep its sign. With 40 or more values, half of them equal to one number and half to another, the denominator is negative and the statistic is not the normal score (`kurt_sign_lost`, `kurt_negative`); there it falls when the kurtosis grows (`kurt_order`).
* C108: A column without finite values makes `normal_test` panic: skewness is null and `get(0).unwrap()` fails (`normal_edges`).
* C110: `random_binomial` sends `n` as Int32 but the plugin reads it as UInt32, so it fails for every argument (`python/polars_ds/exprs/stats.py:638`, `src/stats/sample.rs:43`, `random_binomial_fails`).
* C110: `random_int` compares its bounds with `==` first; with an expression as bound, which its signature allows, this raises (`python/polars_ds/exprs/stats.py:559`, `random_int_expr`).
* C110: `random` and `random_normal` pass Python integers on unconverted, so `random(0, 1)` fails with a type error from the plugin; bounds that are not increasing panic in the plugin (`random_int_bounds`).
* C110: `pl_rand_str` declares a Float64 output and returns strings (`src/stats/sample.rs:187`, `random_str_dtype`).
* C111: `perturb(x, epsilon=0)` panics, since `Uniform::new(0, 0)` requires low < high (`src/stats/sample.rs:105,113`, `perturb_zero`).
* C111: `jitter(x, std=1)` with a Python integer raises because the integer has no `cast` (`python/polars_ds/exprs/stats.py:426`, `jitter_rejects`).
* C112: `str_snowball` documents that numbers are stemmed to the empty string. The test is `parse::<f64>().is_ok()`, which also accepts `inf`, `infinity` and `nan` in any case, so these words lose their stems (`infinity_stems_to_nothing`).
* C113: `r2` is `1 - SSR / (var(ddof=1) * n)`, so the unexplained share is too small by `(n-1)/n`; a model with the constant only gets R² `1/n` instead of 0 (`report_r2`, `report_r2_constant`).
* C113: `adj_r2` subtracts one degree of freedom too many and is below the adjusted R² unless the fit is perfect; for `n = d + 1` it divides by zero (`report_adj_r2`).
* C113: the report panics when there are no more rows than coefficients (`report_panics_iff`).
* C113: HC2 and HC3 are NaN for every coefficient when one row has leverage one (`report_hc3_isolated`).
* C113: with `std_err="hc0"` to `"hc3"` the struct has a field `hc0_se` to `hc3_se` where the declared schema has `std_err` (`report_fields`).
* C114: `query_wls_report` drops rows with nulls from the data but not from the weights, so any dropped row, or a null weight, panics (`wls_dropped_row_panics`).
* C115: `simple_lin_reg` does not leave out rows with a null target or a null `x`: sums and means are taken over different rows. With a null target the slope through the origin shrinks by `S / (S + v²)` (`simple_null_target_shrinks`); points on `y = x` give slopes 5/14 and 1/4, a null `x` moves the intercept to 5/2 (`simple_nulls_wrong`).
* C116: `KDTree.within` and `within_count` with an array holding one radius return `None` (missing `return`, `spatial.py:154,187`; `tree_within_single_none`), and `KDTree.knn` documents row numbers first but returns distances first (`tree_knn_order`).
* C117: `within_dist_from(dist="l2")` compares the squared distance with `r` (`within_dist_from_l2`, `within_dist_from_l2_wrong`: 2 is not within 3 of 0, 1/2 is within 1/3).
* C117: `within_dist_from` and `is_knn_from` treat a null feature as equal to the coordinate of the point (`within_dist_from_null`, `pt_null_wrong`).
* C118: `query_radius_freq_cnt` counts each row once too often (itself) although documented as counting other points; likewise `query_knn_freq_cnt` (`radius_freq_cnt_plus_one`, `radius_freq_self`, `knn_freq_self`).
* C118: with `dist="inf"` rows with a null feature are neighbors in `query_radius_ptwise`: `Float::max` skips NaN (`radius_inf_null_neighbor`).
* C119: `filter_by_levenshtein` takes the absolute value of a negative bound, so a distance of 1 passes the bound -1 (`filter_by_levenshtein_neg_wrong`).
* C120: `similar_to_vocab(metric="jw")` raises TypeError: `str_jw` has no `return_sim` argument (`similar_to_vocab_jw`).
* C120: with strategy avg a null string is compared as similarity 0 instead of giving null (`similar_to_vocab_null`).
* C121: `str_tokenize(stem=True)` neither de-duplicates nor removes stop words, which become empty strings (`tokenize_stem_wrong`).
* C121: `extract_numbers` drops signs (`extract_numbers_sign_wrong`); with the default `join_by=""` the result is a list (`extract_numbers_join`).
* C121: `normalize_whitespace(only_spaces=True)` keeps a space at the ends, which the default removes (`collapse_spaces_ends`).
* C122: `str_lcs_seq` with its default `return_sim=True` asks for the symbol `pl_lcs_seq_sim`, the library has `pl_lcs_sim` (`str_lcs_seq_no_symbol`).
* C122: `random_binomial` passes an Int32 literal where the library reads UInt32, so every call fails (`random_binomial_bad_arg`).
* C122: `mann_whitney_u`, `lin_reg_w_rcond`, `query_tpr_fpr` and `lin_reg` with several targets return another number of rows without announcing it (`rows_announced_wrong`).
* C123: `logit`, `expit`, `gamma`, `exp2`, `fract`, `next_up`, `next_down` announce Float64 for integer columns and return Float32 (`float_functions`).
* C123: `str_fuzz` announces UInt32 and returns Float64; `random_str` announces Float64 and returns String (`schema_exact`).
* C123: other field names or numbers of fields than announced: `query_binary_metrics` (`avg_precision`), `psi_discrete(return_report=True)`, `principal_components`, `lin_reg` with several targets, `lin_reg_report` with robust errors, `recursive_lin_reg`, `rolling_lin_reg` (`prediction`), `query_tpr_fpr` without a positive (`schema_exact`, `report_schema`, `components_schema`, `multi_pred_schema`, `tpr_fpr_schema`).
* C124: `infer_high_null` returns columns with exactly the threshold share of nulls ("more than" in the documentation), with threshold 0 all columns (`infer_high_null_wrong`).
* C124: `infer_discrete` never returns boolean or categorical columns (`infer_discrete_wrong`).
* C124: `infer_prob` judges a list column by its first row only (`infer_prob_wrong`).
* C124: `lru_cache` hands out the cached list: changing a returned list changes later answers (`cache_wrong`).
* C125: `row_validation(all_reasons=True)` lists rules that are null on a row as violated, although null alone is no violation (`row_validation_all_wrong`).
* C125: `col_validation` with two rules on one column is an error, both results keep the column's name (`col_validation_wrong`).
* C127: with dependencies that are not transitive (threshold above 0) the drawn edges depend on the order of the rows (`plot_order_wrong`).
* C128: the histogram of `numeric_profile` leaves out empty bins, so bars are shifted together (`histogram_wrong`).
* C128: the last cut is raised by 1e-5, so a value on the boundary of the last bin is counted in the one before (`histogram_wrong`).
* C129: a class without a row makes `query_multi_roc_auc` NaN, with strategy weighted too where its weight is 0 (`multi_auc_absent`).
* C129: rows of different labels sharing the top score of a class give a wrong average (`multi_auc_wrong`, from C27).
* C130: a label -1 is taken as the last class (`cross_entropy_negative`).
* C130: rows with null predictions count in the denominator of the mean (`cross_entropy_null_pred`).
* C131: `query_mase` with `train` a Python int gives null where the same number as a float gives a value (`mase_int_train`).
* C132: `fit` with a filling null policy also replaces infinite features by ±1.797e308 (`fit_inf_changed`).
* C133: `predict_df` predicts rows with a null feature as if it were 0 (`predict_df_null`); `predict` gives NaN there.
* C133: with fewer names than coefficients `predict_df` drops coefficients silently (`predict_df_short`).
* C133: a `fit_df` that fails in the solver leaves the new names with the old coefficients (`fit_df_failed_names`).
* C133: `set_input_features(m.feature_names_in_)` and `fit_df(df, m.feature_names_in_, ...)` empty the names (`own_names_lost`).
* C133: `fit_df(..., show_report=True)` raises on nulls although the null policy handles them, and reports a fit without bias (`report_raises`).
* C109: an argument below `PREC_ACC` is treated as zero, so with one degree of freedom a statistic of 2e-15 gives a p-value of exactly 1 while the tail is below 1 by more than 3e-8 (`chi2_tiny_wrong`).
* C134: the constants `b` of `erf_impl` are single-precision numbers cut after ten digits; the relative error of the tail reaches 1.02e-10 (`sf_error_large`) and the tail is not monotone (`sf_not_antitone`).  With the full single-precision numbers it is right up to 2e-13 (`nearB` to `nearN`).
* C135: an empty (or all-null) sample gives `pvalue` 0 (`mwu_p_empty_wrong`).
* C135: with a tied largest value the p-value is wrong, following C26 (`mwu_p_wrong`).
* C137: the continued fraction stops after 140 rounds whether or not it has converged; with 10^8 degrees of freedom on both sides and a statistic of one the p-value is below -1/3 where it should be 1/2 (`f_p_value_negative`).
* C138: the AUC in the label of `plot_roc_auc` leaves out the triangle between the origin and the first point, so it is too small whenever positives and negatives share the top score (`roc_label`), and a constant prediction is labelled -1/2 though the area under the drawn curve is 1/2 (`roc_label_constant`).
* C138: `plot_roc_auc` with two predictions of the same name draws one curve, that of the second (`roc_duplicate_name`).
* C138: `plot_roc_auc` of a prediction named `__actual__` draws the perfect curve of the target against itself (`roc_actual_name`).
* C139: `plot_feature_distr` of an empty frame fails with a ZeroDivisionError (`bad_share_empty`).
* C141: `student_t_ppf` never returns with 14.5 million or more degrees of freedom, for every probability strictly between 0 and 1 other than one half: the start is clamped to [0.0001, 0.9999], the Newton quotient there overflows to infinity, and the inner loop divides `g` by 3 forever. `lin_reg_report`, weighted or not, hangs on such a column (`ppf_never_returns`, `reports_never_return`).
* C142: `digamma` answers minus infinity at every half-integer between -2^50 + 1/2 and -2^49 - 1/2 (and at more numbers beyond), where the digamma function is a number above 33: `ulps_eq!(x.floor(), x)` allows four units in the last place, which is half a unit there (`digamma_minus_infinity`).
* C143: `ttest_ind_from_stats(equal_var=True)` ignores `cnt`, so for a second sample of another size the statistic is not Student's pooled statistic: values 0 and 2 against mean 3, variance 0 and count 4 give -2 (`from_stats_ignores_count`). The parameter description says so, the title of the function does not.
* C145: `gcd`, `lcm`, `haversine` and `str_jaro` treat a second column of length one as a scalar and call `get(0).unwrap()`. If a filter or a piece leaves one row whose second value is null they panic, though the same row gives null in a longer column (`gcd_lcm_filter_panics`, `haversine_filter_panics`, `string_metric_filter_panics`).
* C145: `random`, `random_normal`, `perturb`, `jitter` and the other random columns are announced as element-wise, but restart their generator in every piece: with a seed, evaluating in two pieces repeats the numbers, and a filter moved before the expression changes the values of the remaining rows (`random_restarts`, `random_not_elementwise`).
* C146: `plot_lin_reg(add_bias=False)` shows a negative R2 when the line through the origin is worse than the mean: -8 for the points of `plot_r2_negative`.
* C146: `plot_lin_reg(weights=...)` fits the weighted line but shows the R2 of unweighted residuals about the unweighted mean: 5/14 for data that the weighted line fits perfectly (`plot_r2_unweighted`).
* C146: `plot_lin_reg` fails with a duplicate column error if one of its columns is named `y_pred` or if the same column is given twice (`plot_names`).
* C147: `plot_prob_calibration` calls `qcut` without `allow_duplicates`, so scores with many ties are refused with a duplicate error: a constant score always is from three bins on (`calibration_constant_refused`).
* C148: `next_up` of an integer beyond 2^24 need not be the least f32 greater than it: 16777219 gives 16777222 though 16777220 lies between (`next_up_int_skips`).
* C149: rows at different true distances may get the same computed distance, so the order of the reported neighbors is not always that of the true distances (`distances_collide`); inherent in double arithmetic, not a fault of the code.
* C151: integer columns are computed with 32-bit floats, which the documentation does not say: `exp2` of 128..1023 is infinite though the result is a double (`exp2_int`, `exp2_double`), `gamma` is infinite from 36 (`gamma_int`, `gamma_double`), and `expit` is exactly 1 from 17 (`expit_int`), so `logit` of it is infinite.
* C152: with dist=inf a row with a NaN (not only a null) is a neighbor of others although the documentation says it never is (`knn_inf_nan_neighbor`); in larger frames some rows list it and others equally near do not, depending on the tree (`radius_inf_nan_listed`).
* C152: `KDTree(X)` builds a balanced tree by default, and panics if one of the first 11 rows (below 5 columns) has a NaN in the first column and there are at least 11 rows (`balanced_nan_panics`); with fewer rows, or a NaN in another column, it may go unnoticed.
* C153: `one_hot_encode(cols)` appends the encoding and then calls `drop(cols)`; if `cols` is an expression that `pl.all().exclude` does not take, the exception leaves the encoding in the blueprint (`one_hot_half_done`).
* C153: `append_step_from_dict` accepts `materialize` and `fit`, which append nothing and return a pipeline, and a plain attribute name raises TypeError instead of the intended ValueError (`from_dict_materialize`).
* C153: `append_fit_func` demands a target for any function with a parameter `target`, also if it has a default (`append_fit_needs_target`).
* C154: ties are pooled although nothing has to be pooled (`>=` in `isotonic_regression.rs:32`, `:37` and `:43`), and the pooled mean is rounded: `[0.1, 0.1, 0.1]` comes back as three times the next double, above the maximum of the data (`isotonic_ties_move`); scipy's algorithm does the same.
* C155: `infer_corr` with fewer than two numeric and boolean columns raises (`.row(0)` of an empty frame) instead of returning an empty table (`infer_corr_raises`).
* C155: `infer_corr` sorts nulls and NaN first: every pair with a constant column stands above every pair that has a correlation (`infer_corr_constant_first`).
* C155: `infer_corr("xi")` holds one of the two values of a pair, and which one depends on the order of the columns (`infer_corr_xi_order`).
* C155: `DIA.corr` uses only the names of the selected expressions: `corr(pl.col("a").abs())` reports the correlation of the raw column (`dia_corr_ignores_expressions`). A numeric column named `column` raises.
* C156: `str_stats` raises without a string column (`concat` of an empty list) and for a string column named `count` (`report_raises`).
* C156: `str_stats` counts null as a value: `most_freq` is null when null is the most frequent entry (`most_frequent_null`).
* C157: `query_mcc` of 11639857 true positives and 266 true negatives (no errors) is 1 + 2^-52, outside the documented range; of 18992463 and 218 it is 1 - 2^-53 (`mcc_double_above`, `mcc_double_below`): the product of the margins is rounded three times before the root. Proved in range when the product of three margins is at most 2^53.
* C158: `query_roc_auc` of a perfect ranking is not always 1: for seven, three and two negatives with scores 1, 2 and 3 and a positive with score 4 every order of adding gives 1 - 2^-53 (`auc_double_perfect_wrong`). It can also exceed 1: for seventeen, ten and one negatives with these scores adding from left to right gives 1 + 2^-52 (`auc_double_above_one`).
* C159: on unsigned columns every prediction above the actual value gives an error of 2^bits minus the true one in `query_l1` and `query_l_inf` (`l_inf_row_iff`, `l1_unsigned_exchange`; `python/polars_ds/exprs/metrics.py:169, 186`).
* C159: on signed columns `query_l1` and `query_l_inf` can be negative (`abs_losses_negative`).
* C159: on integer columns of every type `query_l2` can be 0 and `query_r2` 1 for wrong predictions, because the squares wrap around (`l2_zero_for_wrong`; `python/polars_ds/exprs/metrics.py:73, 149`).
* C159: on integer columns `query_smape` leaves the documented range [0, 1] (`smape_out_of_range`).
* C160: `scale(method="min_max")` on a signed integer column whose range does not fit the type maps its greatest value to a negative number (`min_max_train_iff`; Int8 from -100 to 100).
* C160: `scale(method="min_max")` on an unsigned column maps new values below the training minimum above 1 (`min_max_new_unsigned`; `python/polars_ds/modeling/transforms.py:214`).
* C160: `scale(method="abs_max")` on a signed column with the least value of the type divides by another number (`abs_max_least`).
* C160: `polynomial_features`, `query_abs_energy`, `query_mid_range` and `simple_lin_reg` without bias wrap around on integer columns (`poly_iff`, `energy_iff`, `mid_range_iff`, `slope_wrong`).
* C161: the mean of the constant column 7000000000000006 (three rows) is 7000000000000005 in every order of adding, so `center` gives 1 in every row, and `scale` gives infinity where the standard deviation is 0, not the NaN of C101 (`center_const`; `python/polars_ds/modeling/transforms.py:169-170, 201`).
* C162: from 16 columns on, `l2` and `sql2` use the vectorised kernel for rows but a plain loop for boxes; with a kernel of four lanes, 100 zero rows and the row (2^28, 3, …, 3) of 16 columns, a search around 0 with the computed distance of that row as radius returns the 100 zero rows only (`within_simd_misses`; `src/utils/mod.rs:331`, `src/arkadia/kdt.rs:38-47`).
* C163: in double arithmetic the average leaves the range of the targets: rows 0 and 3 with targets 1 and 7, `weighted=True, min_bound=1, k=1` give 7 − 2^-50 for the first row, whose only neighbor has the target 7; unweighted, three neighbors with the target 7000000000000006 give 7000000000000005 (`knn_avg_leaves`; `src/arkadia/mod.rs:203-233`).
* C164: in double arithmetic `query_l2` of 2^-600 and 0 is 0; `query_l1` of (2^-1074, 0, 0, 0) and zeros is 0; the mean absolute error of three errors of 7000000000000010 is 7000000000000011, above `query_l_inf`; `query_r2` is 1 for the predictions 1/8 and 2^26 + 1/8 of 0 and 2^26 (`losses_mislead`; `python/polars_ds/exprs/metrics.py:76, 149, 169`).
* C165: `pl.len()` is 0 in compat mode: `compat.query_auto_corr` is NaN for every lag from 1 on (`compat_auto_corr`), `compat.query_multi_roc_auc` divides by 0 (`compat_multi_auc`), `compat.random` and the other random columns are empty and `compat.random_null` fails from two rows on (`compat_random`), `compat.query_transfer_entropy` gets columns of different lengths (`compat_transfer`; `python/polars_ds/compat/_compat.py:57`).
* C165: `compat.lin_reg` of two polars columns of the same name, for instance unnamed ones, fails, unlike two arrays (`compat_same_name`; `src/utils/mod.rs:48-50`).
* C166: with `add_bias=True` a feature or target called `literal` is overwritten by ones (`literal_lost`): `lin_reg("x", target=1 - pl.col("y"), add_bias=True)` is the same for every `y` (`literal_target`; `src/num_ext/linear_regression.rs:155`).
* C166: `lin_reg` with two arrays fails, because both become columns without a name; so does `lin_reg("x", pl.col("x") ** 2, ...)` (`arrays_fail`; `python/polars_ds/exprs/expr_linear.py:37-38`, `src/utils/mod.rs:49`).
* C167: a relevance column called `discount` or `discount_mask` is overwritten before it is read: every ranking gets the value 1 (`discount_always_one`; `python/polars_ds/exprs/metrics.py:803-815, 770`).
* C167: a frame with any column called `rank` is rejected as having two (`rank_rejected`; `metrics.py:793-798`), and a relevance column called `ones` is dropped and then not found (`ones_rejected`; `metrics.py:793`).
* C168: after two rows with feature 1 a row with feature 2^27 (2^28 for the recursive version) makes `inv` exactly 0; all later coefficients are the same number whatever rows follow, also when the large row has left the window (`rolling_wrong`, `recursive_wrong`, `frozen_forever`; `src/linalg/lr_online_solvers.rs:314-348`).
* C169: 29 % of 100 rows are 28 rows for `split_by_ratio` and `sample` (`ratio_29_of_100`; `sample_and_split.py:24-26, 232`).
* C169: 100 rows split 0.58 / 0.42 give 99 rows (`split_58_42`; `sample_and_split.py:262`).
* C169: the ratios 0.57, 0.35, 0.08 are rejected as not adding up to 1 by every version of Python (`three_ratios_rejected`; `sample_and_split.py:245`).
* C170: rows where the condition is null are sampled like those where it is true (`null_rows_lost`; `sample_and_split.py:160`).
* C170: a list of conditions, as in both examples of the documentation of `downsample`, is a `ValueError` (`doc_list_rejected`; `sample_and_split.py:104-108, 138-141, 160`).
* C170: controls of `volume_neutral` given by column name are silently ignored (`control_names_ignored`; `sample_and_split.py:86-91`).
* C171: a prediction above 1 where the label is 1 is not noticed and lowers the log loss without bound (`log_loss_negative`; `metrics.py:204-217`).
* C171: `query_mape` of perfect predictions is NaN as soon as one value is zero (`mape_perfect_nan`; `metrics.py:241`).
* C172: the median is rounded to two decimals and can be below the minimum (`median_below_min`; `diagnosis.py:158`).
* C172: empty bins are missing from the histogram (`gap_lost`; `diagnosis.py:180-182`).
* C172: the last bin is shorter than the others (`last_bin_short`; `diagnosis.py:144-146`).
* C172: one infinite value makes the histogram a single bar (`histogram_infinite`; `diagnosis.py:175-176`).
* C172: differences in integer columns wrap in the histogram (`histogram_int8_wrong`; `diagnosis.py:175`).
* C173: a column `__tt` is missing from all parts of a split (`split_loses_column`, `split_loses_witness`; `sample_and_split.py:232-239, 250, 262`).
* C173: a frame with a column `__id` cannot be split (`split_id_taken`; `sample_and_split.py:229, 249`).
* C173: a frame with a column `__index__` gets no report with row numbers (`report_index_taken`; `diagnosis.py:294`).
* C173: a rule whose explanation is the name of a kept column makes the report fail (`report_rule_name`; `diagnosis.py:316`).
* C174: the asymmetry statistic of an unsigned column is never negative: 1, 1, 0 gives `2 ^ bits - 1` instead of -1 (`tras_unsigned_nonneg`, `tras_unsigned_wrong`; `ts_features.py:390`).
* C174: products wrap in c3 and in the autocorrelation without normalization (`products_wrong`; `ts_features.py:353, 416`).
* C174: query_cid_ce of a signed integer column can be NaN (`cid_nan`; `ts_features.py:378-379`).
* C174: the greatest step of a signed column counts as 1, and large `UInt64` values as missing (`change_wrong`; `ts_features.py:80`).
* C174: the least value of a signed type is never among the largest magnitudes (`top_wrong`; `ts_features.py:89`).
* C175: `target_encode(smoothing=0)` encodes a category with exactly `min_samples_leaf` rows as NaN (0 / 0, `src/num_ext/target_encode.rs:39-40`)
* C176: `haversine` of the antipodes (8, 0) and (-8, 180) is NaN (`1 - a` is negative under the root, `src/utils/mod.rs:256`; `antipode_nan`), and the distance from (4, 0) to (8, 8) differs from the way back in the last digits (`symm_wrong`)
* C177: PSI of the counts (16383, 1) and (16384, 0) differs from PSI with the samples exchanged, though the formula is symmetric (`src/num_ext/psi.rs:69-70`; `psi_asymmetric`), and PSI of (2^30, 2^30 + 1) and (2^30 + 1, 2^30 + 2) is 0 though the shares differ (`psi_zero_different`)
* C178: the statistic of `chi2` for the independent table (94886825, 19450; 19514, 4) is positive: the product of the sums, above 2^53, is rounded before the division (`src/stats/chi2.rs:50-54`; `chi2_independent_positive`)
