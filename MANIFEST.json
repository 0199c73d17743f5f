{
 "claims": [
  {
   "property": "C01",
   "status": "proved",
   "theorems": [
    "Lop.Props.C01_get_dk_sign",
    "Lop.Props.C01_get_dk_rejects_sequences",
    "Lop.Props.C01_preference_winner",
    "Lop.Props.C01_get_dk_pair_winner",
    "Lop.Props.C01_recorded_pair_likely"
   ],
   "note": "Signs, winner/loser readings, rejection of sequences, and the recorded pair has likelihood at least 1/2 (strictly more for different values) at the true values. Normal cdf modelled as the Mathlib Gaussian measure."
  },
  {
   "property": "C02",
   "status": "proved",
   "theorems": [
    "Lop.Props.C02_gen_pairs_exact",
    "Lop.Props.C02_gen_pairs_irrefl"
   ],
   "note": "Exact characterisation of the produced pairs in both directions, for every value list over a linear order."
  },
  {
   "property": "C03",
   "status": "proved",
   "theorems": [
    "Lop.Props.C03_ranked_covers_each_pair_once",
    "Lop.Props.C03_ranked_in_range",
    "Lop.Props.C03_ranked_agrees",
    "Lop.Props.C03_ranked_acyclic",
    "Lop.Props.C03_fake_pairs_exact",
    "Lop.Props.C03_fake_pairs_strict_acyclic",
    "Lop.Props.C03_fake_pairs_out_of_range"
   ],
   "note": "Every pair of ranked items exactly once, in the right direction, no cycles; fake-pair generation including out-of-range indices."
  },
  {
   "property": "C04",
   "status": "partial",
   "theorems": [
    "Lop.Props.C04_ranking_pairs_never_returned",
    "Lop.Props.C04_ranking_pairs_built_partial"
   ],
   "note": "Refuted: the function builds the pairs but never returns them. The partial theorem states what the locally built list contains."
  },
  {
   "property": "C05",
   "status": "proved",
   "theorems": [
    "Lop.Props.C05_get_pareto_exact",
    "Lop.Props.C05_get_pareto_sorted",
    "Lop.Props.C05_get_pareto_mask"
   ],
   "note": "Over any linear order and any dimension; floats idealised (no NaN)."
  },
  {
   "property": "C06",
   "status": "proved",
   "theorems": [
    "Lop.Props.C06_discarded_points_are_dominated",
    "Lop.Props.C06_monotone_optimum_on_front",
    "Lop.Props.C06_front_nonempty"
   ],
   "note": "For every strictly/weakly monotone utility."
  },
  {
   "property": "C07",
   "status": "proved",
   "theorems": [
    "Lop.Props.C07_k_fold_partition",
    "Lop.Props.C07_k_fold_errors"
   ],
   "note": "For every valid permutation oracle; error branches covered."
  },
  {
   "property": "C08",
   "status": "partial",
   "theorems": [
    "Lop.Props.C08_empty_fold_counterexample",
    "Lop.Props.C08_folds_nonempty_partial",
    "Lop.Props.C08_complete_graph_false",
    "Lop.Props.C08_exact"
   ],
   "note": "Refuted: when all points are compared with each other, every random stream leaves a fold empty for every N and k with N <= (k'-1)*ceil(N/k'); C08_exact says that these are precisely the sizes for which an empty fold can occur. The partial theorem covers all others."
  },
  {
   "property": "C09",
   "status": "proved",
   "theorems": [
    "Lop.Props.C09_restriction_keeps_facts",
    "Lop.Props.C09_restriction_in_range",
    "Lop.Props.C09_restriction_absent"
   ],
   "note": "Facts about retained points are kept exactly, indices in range, absent label kinds stay absent."
  },
  {
   "property": "C10",
   "status": "proved",
   "theorems": [
    "Lop.Props.C10_normalize_unit_interval_and_order",
    "Lop.Props.C10_normalize_exact_range",
    "Lop.Props.C10_normalize_empty"
   ],
   "note": "Over any linearly ordered field; exact range attained; empty input."
  },
  {
   "property": "C11",
   "status": "proved",
   "theorems": [
    "Lop.Props.C11_softmax_is_boltzmann",
    "Lop.Props.C11_softmax_empty",
    "Lop.Props.C11_softmax_distribution",
    "Lop.Props.C11_softmax_shift_invariant",
    "Lop.Props.C11_softmax_order",
    "Lop.Props.C11_softmax_rows_independent",
    "Lop.Props.C11_sample_law"
   ],
   "note": "Real-arithmetic softmax with the max shift as coded; law of the sampler stated over draws of the categorical choice."
  },
  {
   "property": "C12",
   "status": "proved",
   "theorems": [
    "Lop.Props.C12_unique_sets_sound",
    "Lop.Props.C12_unique_sets_too_large"
   ],
   "note": "All draws allowed by choice-without-replacement; error branch covered."
  },
  {
   "property": "C13",
   "status": "partial",
   "theorems": [
    "Lop.Props.C13_infeasible_request_never_returns",
    "Lop.Props.C13_feasible_request_can_finish_partial",
    "Lop.Props.C13_callers_feasible",
    "Lop.Props.C13_sample_qs_count"
   ],
   "note": "Infeasible requests never return (proved). Partial: feasible requests can always be completed by the next pass; that this happens with probability one is C89."
  },
  {
   "property": "C14",
   "status": "proved",
   "theorems": [
    "Lop.Props.C14_mh_is_a_run",
    "Lop.Props.C14_mh_count",
    "Lop.Props.C14_mh_states_possible",
    "Lop.Props.C14_mh_acceptance_probability",
    "Lop.Props.C14_mh_detailed_balance"
   ],
   "note": "Characterised as a run of the MH transition for every proposal and uniform stream; acceptance probability and detailed balance are included."
  },
  {
   "property": "C15",
   "status": "proved",
   "theorems": [
    "Lop.Props.C15_log_pdf_is_log",
    "Lop.Props.C15_negative",
    "Lop.Props.C15_derivative",
    "Lop.Props.C15_density",
    "Lop.Props.C15_clipped_region_counterexample"
   ],
   "note": "Claim proved for x > 1e-6. The extra counterexample concerns the clipped region outside the quantifier, where the coded derivative is not the derivative of the coded (constant) log-density."
  },
  {
   "property": "C16",
   "status": "proved",
   "theorems": [
    "Lop.Props.C16_history_decodes",
    "Lop.Props.C16_documented_add_accepted"
   ],
   "note": "Refinement to a log of facts, induction over all histories of add and reset."
  },
  {
   "property": "C17",
   "status": "partial",
   "theorems": [
    "Lop.Props.C17_rejected_add_false",
    "Lop.Props.C17_rejected_add_keeps_labels_partial"
   ],
   "note": "Refuted: rejected adds have already appended the points. Partial: labels stay unchanged."
  },
  {
   "property": "C18",
   "status": "proved",
   "theorems": [
    "Lop.Props.C18_pareto_pairs_exact",
    "Lop.Props.C18_pareto_pairs_consistent"
   ],
   "note": "Exact membership and consistency with every strictly monotone utility."
  },
  {
   "property": "C19",
   "status": "partial",
   "theorems": [
    "Lop.Props.C19_rating_moves_counterexample",
    "Lop.Props.C19_refused",
    "Lop.Props.C19_pairs_keep_meaning_partial",
    "Lop.Props.C19_ratings_exact"
   ],
   "note": "Refuted for states with ratings (indices of ratings are not renumbered). Partial: preference pairs keep their meaning. Exact: on distinct points the ratings keep their meaning if and only if no unreferenced point lies at or before a rated one."
  },
  {
   "property": "C20",
   "status": "partial",
   "theorems": [
    "Lop.Props.C20_prior_window_counterexample",
    "Lop.Props.C20_prior_never_raises",
    "Lop.Props.C20_prior_points_partial",
    "Lop.Props.C20_prior_points_exact"
   ],
   "note": "Refuted when earlier points are dropped by add_prior. Partial: the window is right when nothing before it is dropped. Exact: get_prior_pts always loses as many leading prior points as earlier points were dropped."
  },
  {
   "property": "C21",
   "status": "partial",
   "theorems": [
    "Lop.Props.C21_reset_data",
    "Lop.Props.C21_reset_predictions_partial",
    "Lop.Props.C21_reset_counterexample"
   ],
   "note": "Refuted (fit flag / prior window survive). Partial theorems say exactly what agrees."
  },
  {
   "property": "C22",
   "status": "partial",
   "theorems": [
    "Lop.Props.C22_predictions_current_partial",
    "Lop.Props.C22_query_type_decision_false",
    "Lop.Props.C22_stale_fit_counterexample",
    "Lop.Props.C22_optimize_without_data"
   ],
   "note": "Refuted by determine_query_type and reset. Partial: invariant for add/optimize/predict histories."
  },
  {
   "property": "C23",
   "status": "partial",
   "theorems": [
    "Lop.Props.C23_layout",
    "Lop.Props.C23_set_then_read",
    "Lop.Props.C23_read_then_set",
    "Lop.Props.C23_short",
    "Lop.Props.C23_round_trip_partial",
    "Lop.Props.C23_negative_threshold_counterexample",
    "Lop.Props.C23_breakpoints_counterexample"
   ],
   "note": "Refuted as stated: negative ordinal thresholds come back as their absolute value, two ordinals lose the threshold, explicit breakpoints are replaced. Layout, untouched parameters and read-back of every vector entry are proved for all states; exact round trip is the partial theorem. C23_short: a vector with too few entries for the probits raises IndexError."
  },
  {
   "property": "C24",
   "status": "partial",
   "theorems": [
    "Lop.Props.C24_own_prior_partial",
    "Lop.Props.C24_ratings_only_counterexample",
    "Lop.Props.C24_kernel_counterexample",
    "Lop.Props.C24_raises_counterexample",
    "Lop.Props.C24_positions",
    "Lop.Props.C24_exact",
    "Lop.Props.C24_when"
   ],
   "note": "Refuted (rating-only data, tuned kernel, composite kernel, ordinal data). Partial: the combinations for which every parameter gets a draw from its own prior. Exactly what a restart does, hyper-parameter by hyper-parameter: C24_positions; exactly when each gets a draw of its own prior: C24_exact, C24_when."
  },
  {
   "property": "C25",
   "status": "partial",
   "theorems": [
    "Lop.Props.C25_get_param",
    "Lop.Props.C25_set_param",
    "Lop.Props.C25_round_trip",
    "Lop.Props.C25_set_get",
    "Lop.Props.C25_too_short",
    "Lop.Props.C25_objects_partial",
    "Lop.Props.C25_shared_object_counterexample"
   ],
   "note": "Proved for all expression trees of distinct kernel objects (values and heap of objects). Refuted for expressions using one kernel object twice (k + k)."
  },
  {
   "property": "C26",
   "status": "partial",
   "theorems": [
    "Lop.Props.C26_boundaries",
    "Lop.Props.C26_rejected",
    "Lop.Props.C26_round_trip_partial",
    "Lop.Props.C26_set_num_ordinals_partial",
    "Lop.Props.C26_two_ordinals_counterexample",
    "Lop.Props.C26_lost_thresholds_counterexample"
   ],
   "note": "Boundaries proved for every n >= 2 and b. Refuted for n = 2 (get_hyper reports 0); round trip partial for n >= 3."
  },
  {
   "property": "C27",
   "status": "partial",
   "theorems": [
    "Lop.Props.C27_chunks",
    "Lop.Props.C27_agrees_partial",
    "Lop.Props.C27_noise_counterexample",
    "Lop.Props.C27_empty_counterexample"
   ],
   "note": "Chunks partition the query list in order for every size and every prediction routine. Agreement proved for every kernel tree without zeroed leaves when there is no noise or the first training point is not queried; refuted with RBF noise (16 query points equal to the training point) and for an empty query list."
  },
  {
   "property": "C28",
   "status": "partial",
   "theorems": [
    "Lop.Props.C28_no_descent",
    "Lop.Props.C28_descent_false",
    "Lop.Props.C28_concave_sharp",
    "Lop.Props.C28_interval",
    "Lop.Props.C28_positive",
    "Lop.Props.C28_symmetric_partial",
    "Lop.Props.C28_concave_partial",
    "Lop.Props.C28_concave_counterexample"
   ],
   "note": "Range, midpoint and width for every objective; the concave bound as stated is refuted with the default range and iteration count; proved for objectives falling with distance from the maximiser (quadratics) and, with the weaker bound that holds, for every concave objective. C28_no_descent: on a concave objective the step does not lead below the start unless it is the smallest possible one; C28_descent_false: that one can. C28_concave_sharp: the weaker bound cannot be improved."
  },
  {
   "property": "C29",
   "status": "partial",
   "theorems": [
    "Lop.Props.C29_exception_exact",
    "Lop.Props.C29_best_grid_step",
    "Lop.Props.C29_exception_partial",
    "Lop.Props.C29_zero_iterations",
    "Lop.Props.C29_marker_counterexample"
   ],
   "note": "Best grid step for all objectives; exception condition for ranges starting above -1 (the code's 0.01); refuted for grids containing the marker value -1. C29_exception_exact: for every grid the exception is raised exactly if all objectives are minus infinity or the first best step is -1."
  },
  {
   "property": "C30",
   "status": "partial",
   "theorems": [
    "Lop.Props.C30_binary_partial",
    "Lop.Props.C30_iter_partial",
    "Lop.Props.C30_any_inverse_partial",
    "Lop.Props.C30_quadratic",
    "Lop.Props.C30_fallback_downhill_false",
    "Lop.Props.C30_other_options"
   ],
   "note": "Uphill for negative definite Hessians with both searches; refuted for the failure branch, which goes downhill for every non-zero gradient."
  },
  {
   "property": "C31",
   "status": "partial",
   "theorems": [
    "Lop.Props.C31_psd",
    "Lop.Props.C31_psd_zeroed",
    "Lop.Props.C31_definite_partial",
    "Lop.Props.C31_product_counterexample",
    "Lop.Props.C31_empty",
    "Lop.Props.C31_zeroed_alone_counterexample",
    "Lop.Props.C31_periodic_two_dim_counterexample"
   ],
   "note": "PSD for every kernel tree (RBF, linear, 1-D periodic, zeroed on distinct points, sums, products), all dimensions and sizes. Definiteness and Cholesky with positive noise on the sum path; refuted for noise multiplied by a zero kernel, a zeroed kernel alone, and the periodic kernel in two dimensions."
  },
  {
   "property": "C32",
   "status": "partial",
   "theorems": [
    "Lop.Props.C32_entries_partial",
    "Lop.Props.C32_same_list_partial",
    "Lop.Props.C32_exact",
    "Lop.Props.C32_rbf_exact",
    "Lop.Props.C32_different_points_counterexample",
    "Lop.Props.C32_zeroed_counterexample"
   ],
   "note": "Entry formula for all trees away from the diagonal of equal-first-row inputs and for one list with itself; refuted for different lists sharing the first point, and for zeroed kernels. All entries of all sums and products without zeroed kernels: C32_exact; exactly when an RBF entry is not the pointwise kernel: C32_rbf_exact."
  },
  {
   "property": "C33",
   "status": "partial",
   "theorems": [
    "Lop.Props.C33_no_noise_partial",
    "Lop.Props.C33_noise_partial",
    "Lop.Props.C33_single_row_counterexample",
    "Lop.Props.C33_pointwise_partial",
    "Lop.Props.C33_pointwise_counterexample"
   ],
   "note": "Zero covariance proved without noise and with noise when the shapes do not trigger it; refuted for single-row queries with noise and for pointwise evaluation with signal variance other than 1."
  },
  {
   "property": "C34",
   "status": "partial",
   "theorems": [
    "Lop.Props.C34_composition_partial",
    "Lop.Props.C34_linear_partial",
    "Lop.Props.C34_rbf_partial",
    "Lop.Props.C34_rbf_false",
    "Lop.Props.C34_periodic_partial",
    "Lop.Props.C34_periodic_wrong_factors",
    "Lop.Props.C34_periodic_counterexample",
    "Lop.Props.C34_zeroed_raises"
   ],
   "note": "Linear and all sums/products of correct leaves proved; RBF length scale derivative is doubled (refuted for all distinct points); periodic refuted; zeroed raises."
  },
  {
   "property": "C35",
   "status": "partial",
   "theorems": [
    "Lop.Props.C35_layout_partial",
    "Lop.Props.C35_composition_partial",
    "Lop.Props.C35_linear_partial",
    "Lop.Props.C35_rbf_partial",
    "Lop.Props.C35_zeroed_wrong_factors",
    "Lop.Props.C35_product_false",
    "Lop.Props.C35_product_counterexample",
    "Lop.Props.C35_product_sums",
    "Lop.Props.C35_periodic_wrong_factors",
    "Lop.Props.C35_periodic_counterexample"
   ],
   "note": "Layout and derivative proved for sums of linear/RBF (signal); refuted for products and periodic."
  },
  {
   "property": "C36",
   "status": "partial",
   "theorems": [
    "Lop.Props.C36_probability",
    "Lop.Props.C36_strict",
    "Lop.Props.C36_complement_partial",
    "Lop.Props.C36_complement_counterexample",
    "Lop.Props.C36_table_agrees"
   ],
   "note": "All parts except complementarity hold for all reals; complementarity proved for |z| <= 30 and refuted beyond (cdf argument is clipped to [-30,100])."
  },
  {
   "property": "C37",
   "status": "proved",
   "theorems": [
    "Lop.Props.C37_derivatives",
    "Lop.Props.C37_W_psd",
    "Lop.Props.C37_concave",
    "Lop.Props.C37_accumulates",
    "Lop.Props.C37_clipped_counterexample"
   ],
   "note": "Proved strictly inside the clipping range (as quantified); a counterexample shows the claim fails outside it. The clipping range is part of the quantifier."
  },
  {
   "property": "C38",
   "status": "partial",
   "theorems": [
    "Lop.Props.C38_noise_level",
    "Lop.Props.C38_W_dF_partial",
    "Lop.Props.C38_W_dF_false"
   ],
   "note": "grad_hyper and calc_W_dHyper proved; calc_W_dF refuted for every single pair (uses the pdf where the pdf/cdf ratio belongs), with the exact deviation proved."
  },
  {
   "property": "C39",
   "status": "partial",
   "theorems": [
    "Lop.Props.C39_total",
    "Lop.Props.C39_nonneg",
    "Lop.Props.C39_joint",
    "Lop.Props.C39_scalar_sorted",
    "Lop.Props.C39_higher",
    "Lop.Props.C39_strictly_higher",
    "Lop.Props.C39_rejects",
    "Lop.Props.C39_unsorted_counterexample"
   ],
   "note": "Sum 1 for any accepted boundaries; non-negativity and monotonicity for ordered boundaries (always the case for a scalar b); rejected ratings covered; unordered boundary vectors are accepted by set_b and refute non-negativity. The joint likelihood is the product."
  },
  {
   "property": "C40",
   "status": "partial",
   "theorems": [
    "Lop.Props.C40_gradient_partial",
    "Lop.Props.C40_hessian_false",
    "Lop.Props.C40_W_negative_counterexample",
    "Lop.Props.C40_small_likelihood_false",
    "Lop.Props.C40_midpoint_counterexample",
    "Lop.Props.C40_small_likelihood_partial"
   ],
   "note": "Gradient and log-likelihood proved (thresholds within the clipping limits, likelihood >= eps, distinct points). W refuted: it is minus the Hessian only by coincidence and can be negative; below eps the asymptotic branch is never exact, but outside the interval of the rating, at distance d, its first derivative is within 2/d and its W within 3/d^2 of the true values (C40_small_likelihood_partial). A middle rating centred between its thresholds gets no finite derivatives."
  },
  {
   "property": "C41",
   "status": "partial",
   "theorems": [
    "Lop.Props.C41_shapes",
    "Lop.Props.C41_derivatives_partial",
    "Lop.Props.C41_clipped_counterexample"
   ],
   "note": "Shapes, mean link and monotonicity proved for all inputs. Derivatives proved where no clipping is active and no index is rated twice (partial); refuted in the clipped region: the log-likelihood is locally constant there but the returned gradient is not 0."
  },
  {
   "property": "C42",
   "status": "partial",
   "theorems": [
    "Lop.Props.C42_abs_counterexample",
    "Lop.Props.C42_ordinal_counterexample",
    "Lop.Props.C42_documented_distinct",
    "Lop.Props.C42_tuple_counterexample",
    "Lop.Props.C42_prior_counterexample"
   ],
   "note": "Refuted: for ordinal and absolute ratings a later rating of the same index overwrites the earlier one in the gradient, in W and (absolute) in log_likelihood. Proved: documented histories of add/reset/predict/optimize never repeat a rated index; refuted for the tuple form and once add_prior has deleted points. The ordinal counterexample is a statement about every list in which an index is rated again."
  },
  {
   "property": "C43",
   "status": "partial",
   "theorems": [
    "Lop.Props.C43_posterior",
    "Lop.Props.C43_returns",
    "Lop.Props.C43_best_linear",
    "Lop.Props.C43_interpolates",
    "Lop.Props.C43_more_data",
    "Lop.Props.C43_no_data_partial",
    "Lop.Props.C43_no_data_false",
    "Lop.Props.C43_reset"
   ],
   "note": "Posterior PSD, at most the prior, best linear predictor, interpolation without noise, monotone in the data; 'with no data the mean function is returned' is refuted for non-zero mean functions (code returns zeros). Zeroed kernels only without own noise."
  },
  {
   "property": "C44",
   "status": "partial",
   "theorems": [
    "Lop.Props.C44_valid_selection",
    "Lop.Props.C44_zero_counterexample",
    "Lop.Props.C44_invalid_prefer_counterexample",
    "Lop.Props.C44_cap_counterexample",
    "Lop.Props.C44_random_learner"
   ],
   "note": "For every learner choosing among the offered indices, deterministic or random, every preferred set within range, every previous selection; both the success and the exception branch. Counterexamples document num_alts=0, preferred indices out of range and capped learners. The random, best, worst and UCB learner are shown to meet the hypothesis (C44_random_learner, C45_learners)."
  },
  {
   "property": "C45",
   "status": "partial",
   "theorems": [
    "Lop.Props.C45_learners",
    "Lop.Props.C45_exact",
    "Lop.Props.C45_best_exact",
    "Lop.Props.C45_skipped_points_partial",
    "Lop.Props.C45_exception_counterexample",
    "Lop.Props.C45_exact_best_first"
   ],
   "note": "Termination, validity of any result, shape of the skipped list and the exception for too few candidates are proved; 'exception only when too few candidates' is refuted (two candidates, one preferred). C45_exact: for score-greedy learners with different scores the call raises exactly if too few candidates are left, or too few preferred ones are left and the worst one left is preferred. C45_exact_best_first: the same with always_select_best."
  },
  {
   "property": "C46",
   "status": "partial",
   "theorems": [
    "Lop.Props.C46_size_partial",
    "Lop.Props.C46_metric_partial",
    "Lop.Props.C46_one_point_counterexample",
    "Lop.Props.C46_previous_counterexample",
    "Lop.Props.C46_key_error_counterexample",
    "Lop.Props.C46_no_data_counterexample",
    "Lop.Props.C46_single_preferred_counterexample",
    "Lop.Props.C46_no_data_partial",
    "Lop.Props.C46_one_point",
    "Lop.Props.C46_stale_pair",
    "Lop.Props.C46_no_data_pair",
    "Lop.Props.C46_never_returns"
   ],
   "note": "Proved for fresh first pairs and at least two alternatives (metric learners with empty previous selection in particular); C46_no_data_partial: the same for pairs drawn without replacement from at least two. C46_one_point: asked for one alternative, every such learner returns two. Refuted for one alternative, previously selected candidates, no-data draws; non-termination with return_not_selected proved for every number of passes. C46_no_data_pair: without data two preferred candidates (one with replacement) are enough for the drawn pair. C46_stale_pair: what exactly happens when the first pair contains a candidate selected before."
  },
  {
   "property": "C47",
   "status": "proved",
   "theorems": [
    "Lop.Props.C47_empty",
    "Lop.Props.C47_best",
    "Lop.Props.C47_worst",
    "Lop.Props.C47_ucb"
   ],
   "note": "Best, worst and UCB learners, ties included, any set-iteration order."
  },
  {
   "property": "C48",
   "status": "partial",
   "theorems": [
    "Lop.Props.C48_interpretation",
    "Lop.Props.C48_valid_indices_partial",
    "Lop.Props.C48_valid_exact",
    "Lop.Props.C48_large_count_counterexample",
    "Lop.Props.C48_select_best"
   ],
   "note": "Argument interpretation and select_best; refuted for counts larger than the number of candidates. Exactly when the preferred indices are candidate indices: C48_valid_exact."
  },
  {
   "property": "C49",
   "status": "partial",
   "theorems": [
    "Lop.Props.C49_pick_pair",
    "Lop.Props.C49_too_few",
    "Lop.Props.C49_all_previous_counterexample"
   ],
   "note": "For every metric, tie order, draw and previous selection leaving a candidate; error for fewer than two candidates; when all candidates were selected before a pair of twice the same index is returned (refuting part of the claim)."
  },
  {
   "property": "C50",
   "status": "proved",
   "theorems": [
    "Lop.Props.C50_set_fixed",
    "Lop.Props.C50_alternating",
    "Lop.Props.C50_errors",
    "Lop.Props.C50_decision_points",
    "Lop.Props.C50_decision_frozen",
    "Lop.Props.C50_decision_counts",
    "Lop.Props.C50_decision_set_model",
    "Lop.Props.C50_decision_rule",
    "Lop.Props.C50_decision_zero",
    "Lop.Props.C50_decision_query"
   ],
   "note": "Proved for every call history, with exceptions of the sub-learners."
  },
  {
   "property": "C51",
   "status": "partial",
   "theorems": [
    "Lop.Props.C51_rate_choose",
    "Lop.Props.C51_scaled_partial",
    "Lop.Props.C51_smaller_counterexample",
    "Lop.Props.C51_tie_counterexample",
    "Lop.Props.C51_equal_checking",
    "Lop.Props.C51_equal_checking_counterexample"
   ],
   "note": "Holds for RateChooseLearner; MixedComparision compares the unscaled pair metric in its tie test: a smaller pair can win at random and real ties are never random. EqualChecking bypass triggers for different points sharing one coordinate."
  },
  {
   "property": "C52",
   "status": "partial",
   "theorems": [
    "Lop.Props.C52_never_returned",
    "Lop.Props.C52_returns_partial",
    "Lop.Props.C52_history_counterexample"
   ],
   "note": "Refuted: the first calls_to_decision calls raise UnboundLocalError; later calls return a triple."
  },
  {
   "property": "C53",
   "status": "partial",
   "theorems": [
    "Lop.Props.C53_peak_prob",
    "Lop.Props.C53_peak_shape_partial",
    "Lop.Props.C53_peak_counterexample",
    "Lop.Props.C53_peak3_counterexample",
    "Lop.Props.C53_param_prob",
    "Lop.Props.C53_rev_counterexample",
    "Lop.Props.C53_draw",
    "Lop.Props.C53_frequency",
    "Lop.Props.C53_no_model_counterexample",
    "Lop.Props.C53_no_model_raises"
   ],
   "note": "Peak/Peak2 always probabilities, Peak3 iff parameter non-negative; monotone only from the third call; RevPeak is not increasing; select before set_model raises."
  },
  {
   "property": "C54",
   "status": "proved",
   "theorems": [
    "Lop.Props.C54_sampled",
    "Lop.Props.C54_stable",
    "Lop.Props.C54_other",
    "Lop.Props.C54_size"
   ],
   "note": "Methods 'sampled' (whenever the sampling loop returns; see C13 for termination) and 'stable', plus every other branch. Draws without replacement are an oracle; two different positions may still hold equal points if the training data repeats a point."
  },
  {
   "property": "C55",
   "status": "proved",
   "theorems": [
    "Lop.Props.C55_is_mutual_information",
    "Lop.Props.C55_bounds",
    "Lop.Props.C55_zero_iff",
    "Lop.Props.C55_empty",
    "Lop.Props.C55_le_samples",
    "Lop.Props.C55_greedy",
    "Lop.Props.C55_first"
   ],
   "note": "The gain is proved to equal the mutual information in bits, with 0 \u2264 gain \u2264 log2 of the query size and of the number of samples, and 0 exactly when all samples agree; the first candidate of a query always has gain 0, so it is the first one listed (C55_first)."
  },
  {
   "property": "C56",
   "status": "partial",
   "theorems": [
    "Lop.Props.C56_false",
    "Lop.Props.C56_greedy_first_counterexample",
    "Lop.Props.C56_other_methods_partial",
    "Lop.Props.C56_pair_partial",
    "Lop.Props.C56_pair_negative_counterexample",
    "Lop.Props.C56_negative_counterexample",
    "Lop.Props.C56_unknown_method",
    "Lop.Props.C56_first_random",
    "Lop.Props.C56_pair_answers"
   ],
   "note": "Refuted for the default method (always 0, for every table) and for the methods '999' and '99' (the computed gain can be negative, in the greedy step and in select_pair); positive for the instances of C56_other_methods_partial and C56_pair_partial."
  },
  {
   "property": "C57",
   "status": "proved",
   "theorems": [
    "Lop.Props.C57_information",
    "Lop.Props.C57_information_values",
    "Lop.Props.C57_paths",
    "Lop.Props.C57_pair_value",
    "Lop.Props.C57_convex",
    "Lop.Props.C57_greedy_probs",
    "Lop.Props.C57_greedy_value",
    "Lop.Props.C57_greedy_is_pair",
    "Lop.Props.C57_greedy_max",
    "Lop.Props.C57_pair_bounds"
   ],
   "note": "Both paths agree, the value is the expected alignment under the posterior weights; the greedy step is related to the pair formula and its maximisation."
  },
  {
   "property": "C58",
   "status": "proved",
   "theorems": [
    "Lop.Props.C58_linear",
    "Lop.Props.C58_linear_errors",
    "Lop.Props.C58_gp_cov",
    "Lop.Props.C58_gp_means",
    "Lop.Props.C58_gp_dist",
    "Lop.Props.C58_gp_probability"
   ],
   "note": "Linear model: empirical distribution over best candidates, with the rejected inputs. GP model: covariance and means are those of the differences; distribution provided the orthant routine (a parameter) returns non-negative numbers, one positive. C58_gp_probability: with an exact orthant routine and a positive definite covariance the result is the probability of being the best under the joint normal distribution."
  },
  {
   "property": "C59",
   "status": "partial",
   "theorems": [
    "Lop.Props.C59_independent_partial",
    "Lop.Props.C59_false",
    "Lop.Props.C59_switch_counterexample",
    "Lop.Props.C59_switch_pair_partial",
    "Lop.Props.C59_switch_product"
   ],
   "note": "Refuted: the code divides by the variance; for one variable correct exactly for variance 1 or when just one of mean and variance is 0. 'switch' raises for every uncorrelated covariance of two or more variables. The bivariate cdf is a parameter."
  },
  {
   "property": "C60",
   "status": "partial",
   "theorems": [
    "Lop.Props.C60_perfect_choice",
    "Lop.Props.C60_pairs_of_choice",
    "Lop.Props.C60_perfect_pairs",
    "Lop.Props.C60_human_choice",
    "Lop.Props.C60_rating_bounds",
    "Lop.Props.C60_perfect_rating_order",
    "Lop.Props.C60_human_rating_order_partial",
    "Lop.Props.C60_human_rating_order_counterexample",
    "Lop.Props.C60_never_rejected"
   ],
   "note": "PerfectUser fully; noisy users' ratings are inside (0,1) for every draw and never rejected, but respect the order only for equal draws: for every noise level some draws reverse it."
  },
  {
   "property": "C61",
   "status": "proved",
   "theorems": [
    "Lop.Props.C61_linear_convex",
    "Lop.Props.C61_linear_bounds",
    "Lop.Props.C61_linear_mono",
    "Lop.Props.C61_max_min_mono",
    "Lop.Props.C61_logistic",
    "Lop.Props.C61_squared_mono",
    "Lop.Props.C61_sq_min_max_mono",
    "Lop.Props.C61_minlog_mono",
    "Lop.Props.C61_minlog_between",
    "Lop.Props.C61_integrate_false",
    "Lop.Props.C61_pareto"
   ],
   "note": "For every draw with non-negative weights that are not all zero (all zero gives nan); includes FakeMinLog. Values only, not array shapes in dimension one (see C69). The refutation concerns FakeIntegrate, which the statement does not list."
  },
  {
   "property": "C62",
   "status": "partial",
   "theorems": [
    "Lop.Props.C62_calibration",
    "Lop.Props.C62_calibration_degenerate",
    "Lop.Props.C62_learn_beta_counterexample",
    "Lop.Props.C62_beta_unused_counterexample",
    "Lop.Props.C62_learn2",
    "Lop.Props.C62_learn2_empty"
   ],
   "note": "HumanChoiceUser2 calibration proved. Refuted for HumanChoiceUser: the computed slope and offset are overwritten by 4 and 0, and ratings do not depend on beta."
  },
  {
   "property": "C63",
   "status": "proved",
   "theorems": [
    "Lop.Props.C63_linear_tolerance",
    "Lop.Props.C63_find_mode_stops",
    "Lop.Props.C63_linear_stops"
   ],
   "note": "All loop bodies, including NaN tests and exceptions; 101 and 100 updates with the limits in the code; the stopping rule of PreferenceLinear.optimize with its tolerance 0.002."
  },
  {
   "property": "C64",
   "status": "partial",
   "theorems": [
    "Lop.Props.C64_grad_hyper",
    "Lop.Props.C64_W_dSigma",
    "Lop.Props.C64_W_dF_partial",
    "Lop.Props.C64_W_dF_false",
    "Lop.Props.C64_W_dv_false"
   ],
   "note": "grad_hyper (both parameters) and dW/dsigma proved. calc_W_dF is exactly the negative of dW/dF (partial) hence refuted; dW/dv refuted for small precisions at latent value 0."
  },
  {
   "property": "C67",
   "status": "partial",
   "theorems": [
    "Lop.Props.C67_current_partial",
    "Lop.Props.C67_set_hyper_counterexample",
    "Lop.Props.C67_determine_restores",
    "Lop.Props.C67_determine_counterexample",
    "Lop.Props.C67_determine_never_returns",
    "Lop.Props.C67_determine_returns",
    "Lop.Props.C67_no_data_raises",
    "Lop.Props.C67_reset"
   ],
   "note": "Holds for add/reset/optimize/predict histories; refuted for set_hyper (stale fit) and determine_query_type (later predictions use a fit of the ratings alone; default alignment never returns and leaves M=8000)."
  },
  {
   "property": "C69",
   "status": "partial",
   "theorems": [
    "Lop.Props.C69_sq_min_max_counterexample",
    "Lop.Props.C69_choice_rated_highest_partial",
    "Lop.Props.C69_list_counterexample",
    "Lop.Props.C69_single_weight"
   ],
   "note": "Refuted for FakeSquaredMinMax (choice and rating can disagree) and for Python lists in dimension one; holds for utilities evaluated row by row."
  },
  {
   "property": "C70",
   "status": "partial",
   "theorems": [
    "Lop.Props.C70_rate_obj",
    "Lop.Props.C70_obj_partial",
    "Lop.Props.C70_obj_counterexample"
   ],
   "note": "Rating objective proved; choice objective for pairs that tie or differ by at least 1e-7/b, closer pairs are dropped by the code."
  },
  {
   "property": "C71",
   "status": "partial",
   "theorems": [
    "Lop.Props.C71_equal_sizes",
    "Lop.Props.C71_larger_counterexample",
    "Lop.Props.C71_smaller_counterexample",
    "Lop.Props.C71_paths_refused",
    "Lop.Props.C71_paths",
    "Lop.Props.C71_single_path",
    "Lop.Props.C71_exact"
   ],
   "note": "Holds for equally many problems per environment; otherwise IndexError (more) or uninitialised rows (fewer). C71_paths_refused: no environment, or one without problems, raises ValueError. C71_exact: for non-empty environments and problems the claim holds for all samples if and only if all environments have equally many problems."
  },
  {
   "property": "C72",
   "status": "partial",
   "theorems": [
    "Lop.Props.C72_accepted",
    "Lop.Props.C72_rejected",
    "Lop.Props.C72_nan_counterexample",
    "Lop.Props.C72_failed_update_counterexample",
    "Lop.Props.C72_no_rewards",
    "Lop.Props.C72_too_few_counterexample",
    "Lop.Props.C72_success_partial"
   ],
   "note": "Exact accept/reject conditions; nan objectives are accepted and a failed calibration has already changed the user. Without rewards: ValueError, nothing changed."
  },
  {
   "property": "C68",
   "status": "partial",
   "theorems": [
    "Lop.Props.C68_derivatives_partial",
    "Lop.Props.C68_uphill_partial",
    "Lop.Props.C68_undetermined_false",
    "Lop.Props.C68_few_pairs",
    "Lop.Props.C68_fit_reverses_false",
    "Lop.Props.C68_ratings_modes_false"
   ],
   "note": "Derivatives and uphill direction with an invertible Hessian; with fewer comparisons than features the Hessian is always singular, and a concrete fit reverses the stated preference. C68_ratings_modes_false: with two ratings and the default probit the log-likelihood has two local maxima with weights of opposite sign, and the fit stays where it starts."
  },
  {
   "property": "C73",
   "status": "partial",
   "theorems": [
    "Lop.Props.C73_posterior",
    "Lop.Props.C73_returns",
    "Lop.Props.C73_laplace",
    "Lop.Props.C73_mean",
    "Lop.Props.C73_no_labels",
    "Lop.Props.C73_pairs_partial",
    "Lop.Props.C73_singular_false",
    "Lop.Props.C73_uninvertible",
    "Lop.Props.C73_ordinal_counterexample"
   ],
   "note": "Posterior identities proved whenever predict returns and for comparisons and in-range ratings; refuted for singular kernel matrices (raises) and for ordinal labels (variance above the prior)."
  },
  {
   "property": "C74",
   "status": "partial",
   "theorems": [
    "Lop.Props.C74_derivatives_partial",
    "Lop.Props.C74_ordinal_gradient_partial",
    "Lop.Props.C74_mode_exists_unique",
    "Lop.Props.C74_stationary",
    "Lop.Props.C74_update_uphill",
    "Lop.Props.C74_ratings_unique_false",
    "Lop.Props.C74_ratings_downhill_false"
   ],
   "note": "Uniqueness of the mode and fixed points are proved for comparisons (C74_mode_exists_unique, C74_stationary, C74_update_uphill). Derivatives also for ratings (ordinal curvature is wrong, see C40). For ratings uniqueness and direction are refuted with the default probit: three stationary points (C74_ratings_unique_false) and a downhill update (C74_ratings_downhill_false)."
  },
  {
   "property": "C66",
   "status": "partial",
   "theorems": [
    "Lop.Props.C66_evidence",
    "Lop.Props.C66_noise_level",
    "Lop.Props.C66_kernel_pairs_partial",
    "Lop.Props.C66_moving_mode_partial",
    "Lop.Props.C66_unlabelled_false",
    "Lop.Props.C66_rating_noise",
    "Lop.Props.C66_no_effect_false",
    "Lop.Props.C66_precision_false",
    "Lop.Props.C66_raises",
    "Lop.Props.C66_layout",
    "Lop.Props.C66_kernel_both_partial",
    "Lop.Props.C66_noise_both"
   ],
   "note": "Proved: the value is the log evidence of the quadratic approximation at a mode (Gaussian integral), the noise-level entries of pairs and of ratings are right (latent values fixed), number and order of entries, raising cases. With both kinds of data the noise entries are right as well (C66_noise_both). Kernel entries: the exact surplus is computed for pairs and for pairs with ratings (C66_kernel_both_partial), and the correct moving-mode formula is proved. Refuted: kernel entries (a covariance that cannot matter gets a non-zero derivative, for pairs and for ratings), precision entry of ratings; ordinal data always raise."
  },
  {
   "property": "C65",
   "status": "partial",
   "theorems": [
    "Lop.Props.C65_value_partial",
    "Lop.Props.C65_noise_prior_false",
    "Lop.Props.C65_length",
    "Lop.Props.C65_length_false",
    "Lop.Props.C65_gradient_partial",
    "Lop.Props.C65_precision_false",
    "Lop.Props.C65_step",
    "Lop.Props.C65_shape",
    "Lop.Props.C65_rollback_partial",
    "Lop.Props.C65_rollback_negative",
    "Lop.Props.C65_zero_accepted_counterexample",
    "Lop.Props.C65_converged_random_counterexample",
    "Lop.Props.C65_loop",
    "Lop.Props.C65_valid"
   ],
   "note": "Proved: value for kernel parameters and rating spread, gradient for every parameter except the rating precision when tuned with the spread, length, exact effect of a step, window and convergence test, at most 600 steps, validity of the final noise level and precision. Refuted: preference noise (and precision) have no gamma prior; ordinal parameters have no gradient entry; precision entry when both rating parameters are tuned; zero precision or length scale is kept; convergence is reported for parameters that were just drawn at random. The data gradient and the mode search inside the loop are oracles."
  },
  {
   "property": "C75",
   "status": "partial",
   "theorems": [
    "Lop.Props.C75_rho",
    "Lop.Props.C75_epic_partial",
    "Lop.Props.C75_constant_false",
    "Lop.Props.C75_spearman_partial",
    "Lop.Props.C75_small",
    "Lop.Props.C75_between",
    "Lop.Props.C75_between_rest",
    "Lop.Props.C75_loglik",
    "Lop.Props.C75_loglik_pair",
    "Lop.Props.C75_loglik_self_false",
    "Lop.Props.C75_loglik_empty"
   ],
   "note": "Proved for rho, for epic and spearman without constant rows, value and sign of loglikelihood, and alignment_between. Refuted: constant rows are nan (self-alignment included); loglikelihood is not largest on the diagonal. With fewer than two points every matrix is zero."
  },
  {
   "property": "C76",
   "status": "partial",
   "theorems": [
    "Lop.Props.C76_integrand",
    "Lop.Props.C76_bounds_partial",
    "Lop.Props.C76_uninformative",
    "Lop.Props.C76_information",
    "Lop.Props.C76_condPSD",
    "Lop.Props.C76_select",
    "Lop.Props.C76_truncation_counterexample",
    "Lop.Props.C76_loglik_false",
    "Lop.Props.C76_one_counterexample",
    "Lop.Props.C76_uninformative_exact"
   ],
   "note": "Proved: integrand, bounds with the mass of the integration interval, uninformative candidates, value at least the present mean alignment for rho and epic (minus the Euclidean distance is conditionally positive semidefinite), which kinds are conditionally positive semidefinite, selection within twice the integration error. Refuted: dropping ratings outside [0.0001, 0.9999] makes uninformative candidates differ; loglikelihood is not conditionally positive semidefinite; for `one` every rating query is worth less than the present mean alignment, and an uninformative query is worth less exactly if that mean is positive (C76_one_counterexample, C76_uninformative_exact). quad_vec is a parameter with an error bound."
  },
  {
   "property": "C77",
   "status": "proved",
   "theorems": [
    "Lop.Props.C77_greedy",
    "Lop.Props.C77_first",
    "Lop.Props.C77_std_counterexample",
    "Lop.Props.C77_perm",
    "Lop.Props.C77_repeat",
    "Lop.Props.C77_conditional",
    "Lop.Props.C77_diverse",
    "Lop.Props.C77_bonus",
    "Lop.Props.C77_linear_cov",
    "Lop.Props.C77_linear_rank",
    "Lop.Props.C77_gp_cov",
    "Lop.Props.C77_errors",
    "Lop.Props.C77_nan"
   ],
   "note": "Proved for exact arithmetic; the documented mean + alpha*sqrt(variance) is refuted for the first choice (variance instead of standard deviation); for a linear model in d dimensions the bonus vanishes once d points are selected; what happens when rounding makes a determinant negative is C77_nan. The statement itself is proved; the refutation concerns the documentation."
  },
  {
   "property": "C78",
   "status": "partial",
   "theorems": [
    "Lop.Props.C78_decision",
    "Lop.Props.C78_first_partial",
    "Lop.Props.C78_stale_false",
    "Lop.Props.C78_set_model_false",
    "Lop.Props.C78_forever_false",
    "Lop.Props.C78_stale_counterexample",
    "Lop.Props.C78_valid_partial",
    "Lop.Props.C78_out_of_range_counterexample"
   ],
   "note": "Holds in decisions and before the first decision; refuted afterwards: the samples set in a decision are never unset, survive set_model, and after 16 selections stay for ever; samples of more candidates make select return indices out of range."
  },
  {
   "property": "C79",
   "status": "proved",
   "theorems": [
    "Lop.Props.C79_pmax",
    "Lop.Props.C79_empty",
    "Lop.Props.C79_monotone",
    "Lop.Props.C79_inseparable",
    "Lop.Props.C79_reachable",
    "Lop.Props.C79_limit",
    "Lop.Props.C79_sampled",
    "Lop.Props.C79_kl",
    "Lop.Props.C79_rate",
    "Lop.Props.C79_rate_little_noise",
    "Lop.Props.C79_rate_errors",
    "Lop.Props.C79_expected"
   ],
   "note": "Proved over the reals. If the alternatives of every query are equally good, every beta gives one over the number of alternatives (C79_inseparable, the case in which learn_beta_pairwise raises)."
  },
  {
   "property": "C80",
   "status": "partial",
   "theorems": [
    "Lop.Props.C80_row",
    "Lop.Props.C80_accurate",
    "Lop.Props.C80_rank",
    "Lop.Props.C80_index",
    "Lop.Props.C80_no_candidate",
    "Lop.Props.C80_pareto_counterexample",
    "Lop.Props.C80_spearman_same",
    "Lop.Props.C80_spearman_partial",
    "Lop.Props.C80_spearman_counterexample",
    "Lop.Props.C80_pearson",
    "Lop.Props.C80_rho",
    "Lop.Props.C80_averages",
    "Lop.Props.C80_errors"
   ],
   "note": "Regret, rank, Pearson and averages are proved. Two parts of the claim are refuted: the Pareto indices are used a second time on the shortened arrays, so the pass raises IndexError unless they are 0..k-1 (C80_index, C80_pareto_counterexample); and the recorded spearman number correlates argsort permutations instead of ranks (C80_spearman_counterexample: opposite orders are recorded as 1/2), right only when the candidates are listed from best to worst (C80_spearman_partial). C80_accurate: scores within eps of the utilities, up to a constant, cost at most 2 eps; scores in the same order cost nothing."
  },
  {
   "property": "C81",
   "status": "partial",
   "theorems": [
    "Lop.Props.C81_built_partial",
    "Lop.Props.C81_built_counterexample",
    "Lop.Props.C81_unknown_rep",
    "Lop.Props.C81_alignment",
    "Lop.Props.C81_prefix",
    "Lop.Props.C81_options_partial",
    "Lop.Props.C81_alpha",
    "Lop.Props.C81_options_counterexample",
    "Lop.Props.C81_rep_partial",
    "Lop.Props.C81_rep_counterexample",
    "Lop.Props.C81_rep_defaults",
    "Lop.Props.C81_same_learner",
    "Lop.Props.C81_class_partial",
    "Lop.Props.C81_class_counterexample",
    "Lop.Props.C81_fake",
    "Lop.Props.C81_run",
    "Lop.Props.C81_no_learner_raises",
    "Lop.Props.C81_never",
    "Lop.Props.C81_min_log_raises",
    "Lop.Props.C81_exceptions"
   ],
   "note": "The alignment functions, prefixes, classes (C81_class_partial) and fake functions (C81_fake) are proved, and C81_run characterises exactly the runs with a result. Refuted: four accepted selectors have no learner (C81_built_counterexample); the parts of a mixing learner never get default_to_pareto or always_select_best (C81_options_counterexample); SW_ACQ_SPEAR and SW_DEC_LL ignore the representative queries asked for (C81_rep_counterexample); ABS_BAYES_PROBIT builds the learner for pairs and does not ask for ratings (C81_class_counterexample) and MUTUAL_INFO_PERF gets no fake function (C81_same_learner); ranking queries, the perfect user and the fake function min_log never give a result (C81_never; min_log because record_gp_state reads fake_f.w, which FakeMinLog does not have: C81_min_log_raises). Which learners get alpha, and which value: C81_alpha."
  },
  {
   "property": "C82",
   "status": "partial",
   "theorems": [
    "Lop.Props.C82_kmed_rand",
    "Lop.Props.C82_kmed_rand_error",
    "Lop.Props.C82_hull",
    "Lop.Props.C82_downselect_partial",
    "Lop.Props.C82_true",
    "Lop.Props.C82_true_counterexample",
    "Lop.Props.C82_one_counterexample",
    "Lop.Props.C82_other"
   ],
   "note": "Proved for uni, downhull and medrand with a limit of at least two (C82_downselect_partial), with KMedoids, ConvexHull and np.random.choice as parameters of stated behaviour. Refuted for the method true, which always takes sixty candidates and raises for fewer (C82_true_counterexample), and for medrand with the limit 1 (C82_one_counterexample); other values of the option do not reduce (C82_other)."
  },
  {
   "property": "C83",
   "status": "partial",
   "theorems": [
    "Lop.Props.C83_shape",
    "Lop.Props.C83_switch",
    "Lop.Props.C83_correct_partial",
    "Lop.Props.C83_tie_counterexample",
    "Lop.Props.C83_choose1",
    "Lop.Props.C83_rating",
    "Lop.Props.C83_ranking",
    "Lop.Props.C83_rating_selection",
    "Lop.Props.C83_choose1_hidden"
   ],
   "note": "Proved by induction over the loop. The flag is right if no two candidates of the query are equally good (C83_correct_partial); with ties a user choosing the second best of equals is recorded as wrong (C83_tie_counterexample). A single candidate selected in a choose1 run is recorded as a choice although the answer contains no comparison (C83_choose1)."
  },
  {
   "property": "C84",
   "status": "proved",
   "theorems": [
    "Lop.Props.C84_own",
    "Lop.Props.C84_shared_counterexample",
    "Lop.Props.C84_never_attached",
    "Lop.Props.C84_errors",
    "Lop.Props.C84_unattached",
    "Lop.Props.C84_asked"
   ],
   "note": "Proved by induction over nested learners and over the history (C84_own). Refuted for a learner given to two models: the select of the first then uses only the second (C84_shared_counterexample, for every learner). C84_errors: without a learner, or with a sampling mixer whose first part cannot sample, select raises AttributeError. C84_unattached: a learner never attached raises; C84_asked: only the chosen part is used. The statement itself is proved (C84_own); sharing a learner is excluded in it. Objects never attached have no model to read (C84_never_attached)."
  },
  {
   "property": "C85",
   "status": "proved",
   "theorems": [
    "Lop.Props.C85_present",
    "Lop.Props.C85_gp",
    "Lop.Props.C85_linear_counterexample",
    "Lop.Props.C85_direct_counterexample",
    "Lop.Props.C85_direct_history",
    "Lop.Props.C85_first"
   ],
   "note": "C85_present and C85_gp hold for all histories. Refuted for the other models: with PreferenceLinear the call has one argument too many (TypeError), any other model leaves the belief unassigned (C85_linear_counterexample); and a direct select_greedy after a select uses the belief of the earlier one (C85_direct_counterexample), as the sampling mixers do. C85_first: a direct call on a new learner computes the belief. The statement itself is proved; the refutations concern other models and calls outside select."
  },
  {
   "property": "C86",
   "status": "partial",
   "theorems": [
    "Lop.Props.C86_mean_partial",
    "Lop.Props.C86_order_partial",
    "Lop.Props.C86_reversed_counterexample",
    "Lop.Props.C86_pair_sign",
    "Lop.Props.C86_zero_counterexample",
    "Lop.Props.C86_nan",
    "Lop.Props.C86_select"
   ],
   "note": "Proved for samples with a mean different from 0 (C86_mean_partial) and, for the order, if the two means have the same sign (C86_order_partial). Refuted: with means of opposite signs every sample is reversed (C86_reversed_counterexample), which does not change the gain of a pair (C86_pair_sign); a mean of 0 leaves no finite sample, the first candidate is returned with the metric nan (C86_zero_counterexample, C86_nan)."
  },
  {
   "property": "C87",
   "status": "proved",
   "theorems": [
    "Lop.Props.C87_sinexp_bounds",
    "Lop.Props.C87_sinexp_not_monotone",
    "Lop.Props.C87_mixture",
    "Lop.Props.C87_mixture_not_monotone",
    "Lop.Props.C87_vector_counterexample",
    "Lop.Props.C87_matrix",
    "Lop.Props.C87_static",
    "Lop.Props.C87_table",
    "Lop.Props.C87_table_counterexample",
    "Lop.Props.C87_table_mono"
   ],
   "note": "Bounds, matrix evaluation and table proved. Not monotone, unlike the other fake functions: C87_sinexp_not_monotone, C87_mixture_not_monotone. Refuted: FakeMixtureGaussian of one vector gives one copy of the value for each coordinate (C87_vector_counterexample); the table of FakeIntegrate is the integral divided by the grid width, twenty times too large for the width used (C87_table_counterexample). The statement itself is proved; the refutations concern expectations beyond it."
  },
  {
   "property": "C88",
   "status": "partial",
   "theorems": [
    "Lop.Props.C88_kept_partial",
    "Lop.Props.C88_first",
    "Lop.Props.C88_counterexample",
    "Lop.Props.C88_range_counterexample"
   ],
   "note": "Holds for candidates that are not reduced and list the Pareto-optimal ones first (C88_kept_partial). C88_first: in general the first positions of the reduced candidates are preferred, as many as there were Pareto-optimal ones before. Refuted: all preferred candidates can be dominated (C88_counterexample), and preferred positions can be no candidates at all, which ends the run with IndexError (C88_range_counterexample)."
  },
  {
   "property": "C89",
   "status": "proved",
   "theorems": [
    "Lop.Props.C89_finishes",
    "Lop.Props.C89_exactly",
    "Lop.Props.C89_product_tail",
    "Lop.Props.C89_product_almost_surely"
   ],
   "note": "C89_finishes (bound and almost sure return) and C89_exactly (returns almost surely exactly for feasible requests). The distribution of np.random.choice is a parameter with the stated lower bound; an example space of draws is constructed. C89_product_tail and C89_product_almost_surely are the same for independent draws on the product space, with any distribution of full support."
  },
  {
   "property": "C90",
   "status": "partial",
   "theorems": [
    "Lop.Props.C90_step",
    "Lop.Props.C90_normal_reversible",
    "Lop.Props.C90_samples",
    "Lop.Props.C90_linear_false"
   ],
   "note": "Invariance proved (C90_step, C90_normal_reversible, C90_samples). Refuted for the linear model: exp(loss_func) is bounded below by a positive number for every data set of pairs and ratings, so its integral is infinite and no distribution is proportional to it (C90_linear_false). Convergence from other starting points is C103."
  },
  {
   "property": "C91",
   "status": "partial",
   "theorems": [
    "Lop.Props.C91_pair",
    "Lop.Props.C91_rating",
    "Lop.Props.C91_ordinal_partial",
    "Lop.Props.C91_ordinal_zero_false",
    "Lop.Props.C91_assign_false",
    "Lop.Props.C91_vectors",
    "Lop.Props.C91_write_back"
   ],
   "note": "Proved for the methods of the pairwise and the rating probit (C91_pair, C91_rating), for the ordinal probit when set_sigma returns (C91_ordinal_partial). Refuted for set_sigma(0) of the ordinal probit, which raises after changing the reported scale (C91_ordinal_zero_false), and for the assignment to the attribute in examples/models/pref_gp.py, which changes the report and nothing else (C91_assign_false); C91_write_back says when writing the hyper-parameters back repairs it. C91_vectors: which hyper-parameter vectors are refused."
  },
  {
   "property": "C92",
   "status": "partial",
   "theorems": [
    "Lop.Props.C92_routing_iff",
    "Lop.Props.C92_likelihood",
    "Lop.Props.C92_default",
    "Lop.Props.C92_new_names",
    "Lop.Props.C92_additional_false",
    "Lop.Props.C92_test_configuration_false",
    "Lop.Props.C92_all_names_false",
    "Lop.Props.C92_half_added_false"
   ],
   "note": "C92_routing_iff gives exactly the names for which the three documented types keep their own probits, C92_likelihood the resulting likelihood over all histories (refinement of the model with one field per type). Refuted: labels of an additional type are dropped (C92_additional_false), the configuration of the repository's test scores ratings with the ordinal probit (C92_test_configuration_false), and with all three names given ratings raise IndexError (C92_all_names_false)."
  },
  {
   "property": "C93",
   "status": "partial",
   "theorems": [
    "Lop.Props.C93_points_partial",
    "Lop.Props.C93_labels_partial",
    "Lop.Props.C93_points_false",
    "Lop.Props.C93_stale_fit_false",
    "Lop.Props.C93_labels_false",
    "Lop.Props.C93_refines_copies",
    "Lop.Props.C93_stale_history_false"
   ],
   "note": "Proved for the points after two add calls (C93_points_partial) and for labels passed as pairs or vectors (C93_labels_partial). Refuted between the first and the second add: the model's points are the caller's array (C93_points_false), a write leaves a model counted as fitted whose fit belongs to other points (C93_stale_fit_false); ordinals passed as an array are views of it (C93_labels_false). C93_refines_copies: as long as the caller writes to none of the shared arrays, the model behaves as one that copies."
  },
  {
   "property": "C94",
   "status": "partial",
   "theorems": [
    "Lop.Props.C94_belief",
    "Lop.Props.C94_other_model",
    "Lop.Props.C94_untrained",
    "Lop.Props.C94_repeated_false",
    "Lop.Props.C94_not_selected_false",
    "Lop.Props.C94_metric",
    "Lop.Props.C94_positive",
    "Lop.Props.C94_prefers_low",
    "Lop.Props.C94_selects_worst",
    "Lop.Props.C94_information",
    "Lop.Props.C94_information_false",
    "Lop.Props.C94_subset_false",
    "Lop.Props.C94_no_data",
    "Lop.Props.C94_zero_probability_false"
   ],
   "note": "C94_metric gives the closed form of the metric with exact integrals, C94_positive its sign, C94_information that it is never below the mutual information. Refuted: it is positive where no rating is informative (C94_information_false); it falls with the value of the rated candidate (C94_prefers_low), so a candidate that is the worst in every sample is the one selected (C94_selects_worst). A GP asked about part of its candidates raises (C94_subset_false); a candidate that is never the best makes every metric nan and the first index is selected (C94_zero_probability_false). C94_no_data: without data the choice is random among the indices. C94_belief: one belief per select, computed by the first call and used by all later ones; C94_other_model: UnboundLocalError for other model classes. Refuted: a later call in the same select does not look at its own candidates but takes the one at the position of the first choice, or raises IndexError (C94_repeated_false), so that select with return_not_selected raises or takes an arbitrary neighbour (C94_not_selected_false)."
  },
  {
   "property": "C95",
   "status": "partial",
   "theorems": [
    "Lop.Props.C95_probability",
    "Lop.Props.C95_distribution",
    "Lop.Props.C95_selection_false"
   ],
   "note": "C95_probability and C95_distribution: the numbers are these probabilities and sum to 1. Refuted: select_greedy returns None, so select raises KeyError, or UnboundLocalError with a model that is not a PreferenceGP (C95_selection_false)."
  },
  {
   "property": "C96",
   "status": "partial",
   "theorems": [
    "Lop.Props.C96_rows",
    "Lop.Props.C96_range",
    "Lop.Props.C96_order",
    "Lop.Props.C96_sum",
    "Lop.Props.C96_untrained",
    "Lop.Props.C96_refused",
    "Lop.Props.C96_figure",
    "Lop.Props.C96_band_false"
   ],
   "note": "C96_rows, C96_range, C96_order, C96_sum, C96_untrained and C96_refused: the accuracies. C96_figure gives the curves; refuted for the band of the GP, which is computed from the linear model's accuracies (C96_band_false). PreferenceLinear, which draws random weights, is outside C96_rows."
  },
  {
   "property": "C97",
   "status": "partial",
   "theorems": [
    "Lop.Props.C97_returns",
    "Lop.Props.C97_converged",
    "Lop.Props.C97_defaults",
    "Lop.Props.C97_mode_unique",
    "Lop.Props.C97_no_descent",
    "Lop.Props.C97_converges",
    "Lop.Props.C97_unclipped",
    "Lop.Props.C97_singular_false",
    "Lop.Props.C97_normalized",
    "Lop.Props.C97_normalized_false",
    "Lop.Props.C97_one_point_false",
    "Lop.Props.C97_geometric",
    "Lop.Props.C97_default_converges"
   ],
   "note": "C97_mode_unique: there is exactly one mode. C97_returns: find_mode returns and the derivatives belong to the stored values. C97_converged: within modeErrorFactor times delta_f of the mode at every point, if the loop limit was not reached and nothing is clipped nearby. C97_no_descent: an update does not lower the posterior unless it takes the smallest step (C28_no_descent, C28_descent_false). Refuted without a Cholesky factor (C97_singular_false, the random start is stored) and with normalize_gp (C97_normalized, C97_normalized_false, C97_one_point_false). C97_converges (range condition from C97_unclipped): the loop converges within an explicit number of updates if the signal-to-noise ratio of the labels is at most 20; without such a bound convergence is not proved. C97_defaults: the fixed settings of the constructor give 101 passes and 1/5000 times the factor. C97_geometric: if the ratio is at most 1, every pass leaves at most 7/9 of the excess cost, so the error after k passes is explicit. C97_default_converges: with the default settings the loop then converges within its 100 passes."
  },
  {
   "property": "C98",
   "status": "proved",
   "theorems": [
    "Lop.Props.C98_binary64_nearest",
    "Lop.Props.C98_binary64_ties",
    "Lop.Props.C98_accurate",
    "Lop.Props.C98_probabilities",
    "Lop.Props.C98_best",
    "Lop.Props.C98_sum",
    "Lop.Props.C98_accepted",
    "Lop.Props.C98_empty",
    "Lop.Props.C98_positive_false",
    "Lop.Props.C98_exact"
   ],
   "note": "C98_probabilities: one number per reward, in [0,1], weakly in the order of the rewards. C98_best: at least 1/(2n) for a best option. C98_sum: the exact sum differs from 1 by at most 2^-27. C98_accepted: the draw takes place if the compensated sum of np.random.choice is within 2^-27 of the exact one. C98_empty. Positivity of every option, which holds without rounding (C11), is refuted in binary64 (C98_positive_false). Overflowing differences are left out. C98_accurate: every probability is within n/2^47 of the softmax if np.exp is accurate to 2^-50. C98_exact: without rounding the model is that of C11. C98_binary64_nearest, C98_binary64_ties: the rounding of the model is that of IEEE 754 (nearest binary64 number, ties to the even significand). The statement itself is proved; the refutation concerns the worse options."
  },
  {
   "property": "C99",
   "status": "partial",
   "theorems": [
    "Lop.Props.C99_rbf_accurate",
    "Lop.Props.C99_rbf_posdef",
    "Lop.Props.C99_pairs_accurate",
    "Lop.Props.C99_exact",
    "Lop.Props.C99_matrices_exact",
    "Lop.Props.C99_symmetric",
    "Lop.Props.C99_rbf_range",
    "Lop.Props.C99_rbf_decay",
    "Lop.Props.C99_periodic_range",
    "Lop.Props.C99_pairs_symmetric",
    "Lop.Props.C99_pairs_signs",
    "Lop.Props.C99_pairs_symmetric_false"
   ],
   "note": "C99_symmetric, C99_rbf_range, C99_rbf_decay (one dimension: does not increase with the distance), C99_periodic_range, C99_pairs_signs. C99_pairs_symmetric: exactly symmetric if no two points are compared in both orders; refuted in binary64 otherwise (C99_pairs_symmetric_false). C99_rbf_accurate: an RBF covariance of d coordinates is within (d+11)/2^51 sigma^2 of the exact one. C99_rbf_posdef: the rounded RBF matrix is positive definite if the noise is at least n(d+12)/2^50 sigma^2. C99_pairs_accurate: W is within m/2^48 of the sum of the absolute summands. C99_exact, C99_matrices_exact: without rounding the models are those of the other claims."
  },
  {
   "property": "C100",
   "status": "partial",
   "theorems": [
    "Lop.Props.C100_exact",
    "Lop.Props.C100_sigmoid",
    "Lop.Props.C100_sigmoid_open_false",
    "Lop.Props.C100_normalize_empty",
    "Lop.Props.C100_normalize_order",
    "Lop.Props.C100_normalize_open",
    "Lop.Props.C100_normalize_open_false"
   ],
   "note": "C100_sigmoid: in [0,1] and monotone. C100_normalize_order, C100_normalize_empty. C100_normalize_open: strictly between 0 and 1 if the spread is at most 2^49 eps. Refuted in binary64: the sigmoid of 40 is 1 (C100_sigmoid_open_false), normalize_0_1 of 0 and 2^60 returns 1 (C100_normalize_open_false). C100_exact: without rounding the models are those of the other claims."
  },
  {
   "property": "C101",
   "status": "partial",
   "theorems": [
    "Lop.Props.C101_exact",
    "Lop.Props.C101_pair_range",
    "Lop.Props.C101_pair_order",
    "Lop.Props.C101_pair_swap",
    "Lop.Props.C101_ordinal_range",
    "Lop.Props.C101_ordinal_positive_false",
    "Lop.Props.C101_abs_mean",
    "Lop.Props.C101_abs_positive"
   ],
   "note": "C101_pair_range: at least ndtr(-30), at most 1. C101_pair_order, C101_pair_swap. C101_ordinal_range: in [0,1]. C101_abs_mean, C101_abs_positive: alpha and beta positive, sum v up to 2^-52. Refuted for ordinal ratings: a middle rating has likelihood exactly 0 once ndtr has reached 1 at its lower boundary (C101_ordinal_positive_false; in binary64 at 9 standard deviations), so derivatives returns -inf. C101_exact: without rounding the models are those of the other claims."
  },
  {
   "property": "C102",
   "status": "partial",
   "theorems": [
    "Lop.Props.C102_said",
    "Lop.Props.C102_true",
    "Lop.Props.C102_consistent",
    "Lop.Props.C102_likely",
    "Lop.Props.C102_ranking_false",
    "Lop.Props.C102_single_candidate_false",
    "Lop.Props.C102_step",
    "Lop.Props.C102_stored",
    "Lop.Props.C102_rating_step",
    "Lop.Props.C102_switch_step",
    "Lop.Props.C102_prior_false",
    "Lop.Props.C102_start",
    "Lop.Props.C102_completes",
    "Lop.Props.C102_refines",
    "Lop.Props.C102_nonmonotone_counterexample"
   ],
   "note": "C102_said (any user), C102_true/_consistent/_likely (perfect user), C102_step/_rating_step/_switch_step/_stored/_completes/_refines are proved; C102_ranking_false, C102_single_candidate_false, C102_prior_false and C102_nonmonotone_counterexample record where the code departs from the claim. train_and_eval itself stops at learn_beta with a PerfectUser (C81), so the perfect-user theorems concern the loop as such."
  },
  {
   "property": "C103",
   "status": "partial",
   "theorems": [
    "Lop.Props.C103_averages",
    "Lop.Props.C103_share_false",
    "Lop.Props.C103_converges",
    "Lop.Props.C103_diverges",
    "Lop.Props.C103_linear_false",
    "Lop.Props.C103_untrained_false",
    "Lop.Props.C103_no_limit_false"
   ],
   "note": "Convergence in total variation from every start is proved for every normalisable target (C103_converges). For a density without finite integral every set of finite target measure is left (C103_diverges). Refuted for the learners: with loss_func of a PreferenceLinear, trained on any pairs and ratings (C103_linear_false) or untrained (C103_untrained_false), the probability of any bounded set of weights tends to zero, so no distribution is approached (C103_no_limit_false). C103_averages: the average of a bounded function over the samples of one run converges to its mean under the target, in mean absolute error, whatever the burn-in. C103_share_false: for the linear model the share of the samples in a bounded set tends to zero. No rate of convergence; ordinal labels are not covered in the refutation."
  },
  {
   "property": "C104",
   "status": "partial",
   "theorems": [
    "Lop.Props.C104_library_raises",
    "Lop.Props.C104_enough",
    "Lop.Props.C104_accepting_partial"
   ],
   "note": "Refuted for every learner of the library: select_greedy is called with two arguments where five are required, so any call with something to select raises TypeError and leaves the selection unchanged (C104_library_raises). Proved: the case with nothing to select (C104_enough); the loop invariant, returned sizes, values and the state left by an exception for a learner whose select_greedy does accept two arguments (C104_accepting_partial)."
  },
  {
   "property": "C105",
   "status": "partial",
   "theorems": [
    "Lop.Props.C105_rate_choose_history",
    "Lop.Props.C105_mixed_history",
    "Lop.Props.C105_equal_history",
    "Lop.Props.C105_rate_choose",
    "Lop.Props.C105_rate_choose_returns",
    "Lop.Props.C105_mixed",
    "Lop.Props.C105_equal",
    "Lop.Props.C105_equal_size_false",
    "Lop.Props.C105_left_false",
    "Lop.Props.C105_left",
    "Lop.Props.C105_run",
    "Lop.Props.C105_left_equal"
   ],
   "note": "Proved for the three learners: independence of the history (C105_rate_choose_history, C105_mixed_history, C105_equal_history) and what a returned query was compared with (C105_rate_choose, C105_mixed, C105_equal), with the converse for RateChooseLearner (C105_rate_choose_returns). Refuted: EqualChecking never returns for other than two alternatives (C105_equal_size_false); the samples stay set on the sub-learners, so that a sub-learner used on its own later, also with another model, computes from them (C105_left_false). What a call leaves on the sub-learners, exactly, also when it raises: C105_left, C105_left_equal. Sub-learners are function parameters. Runs of several calls: C105_run."
  },
  {
   "property": "C106",
   "status": "partial",
   "theorems": [
    "Lop.Props.C106_in_range",
    "Lop.Props.C106_stable",
    "Lop.Props.C106_other_kinds",
    "Lop.Props.C106_no_queries",
    "Lop.Props.C106_grown_false",
    "Lop.Props.C106_exact",
    "Lop.Props.C106_grown_counterexample"
   ],
   "note": "Proved for samples drawn in the same call and for samples set for as many points (C106_in_range, C106_stable), and for the alignment functions that ignore the queries (C106_other_kinds). Refuted for loglikelihood with samples set when there was less training data, as MixedDecision keeps them: IndexError for all draws while all possible queries are asked for (C106_grown_false, C106_grown_counterexample); exact condition in C106_exact. Values of the alignment are in C75. Calls that get no representative queries: C106_no_queries."
  },
  {
   "property": "C107",
   "status": "partial",
   "theorems": [
    "Lop.Props.C107_results_partial",
    "Lop.Props.C107_interrupt_exact",
    "Lop.Props.C107_interrupt_false"
   ],
   "note": "Without an interrupt proved for all numbers of runs (also when a later run raises); the exact content of the file after an interrupt at any point is proved, and with it that the claim fails: the file always ends with a row of uninitialised memory when the interrupt comes during a run."
  },
  {
   "property": "C108",
   "status": "proved",
   "theorems": [
    "Lop.Props.C108_each_once",
    "Lop.Props.C108_rows",
    "Lop.Props.C108_too_few",
    "Lop.Props.C108_completes"
   ],
   "note": "Training passes and evaluations are parameters that may raise; the draw is any list np.random.choice without replacement may return. Negative env_num is not modelled."
  },
  {
   "property": "C109",
   "status": "partial",
   "theorems": [
    "Lop.Props.C109_grid",
    "Lop.Props.C109_scale",
    "Lop.Props.C109_arrows",
    "Lop.Props.C109_points_partial",
    "Lop.Props.C109_points_counterexample",
    "Lop.Props.C109_errors",
    "Lop.Props.C109_shown"
   ],
   "note": "Maps, scale and arrows proved in general; points proved for a prior added to a new model (as in train_and_eval) and for no prior, refuted for points added before the prior. Drawing and files are outside the model. Refused inputs: C109_errors; the drawn points in any state: C109_shown."
  },
  {
   "property": "C110",
   "status": "proved",
   "theorems": [
    "Lop.Props.C110_representer",
    "Lop.Props.C110_predict",
    "Lop.Props.C110_learned",
    "Lop.Props.C110_nothing",
    "Lop.Props.C110_consistent",
    "Lop.Props.C110_single",
    "Lop.Props.C110_more",
    "Lop.Props.C110_order",
    "Lop.Props.C110_reverse",
    "Lop.Props.C110_scale",
    "Lop.Props.C110_uncompared",
    "Lop.Props.C110_uncompared_predict",
    "Lop.Props.C110_uncompared_cov",
    "Lop.Props.C110_stored_predict",
    "Lop.Props.C110_bounded",
    "Lop.Props.C110_stored_more",
    "Lop.Props.C110_single_lead",
    "Lop.Props.C110_stored_single",
    "Lop.Props.C110_stored_uncompared",
    "Lop.Props.C110_majority",
    "Lop.Props.C110_all_counterexample"
   ],
   "note": "Proved for the unique posterior mode (C97) and carried over to stored values of converged, unclipped fits (C110_stored_...). That all consistent comparisons are agreed with is refuted by an example (the claim does not say so). Training points that occur in no comparison change neither means nor covariances (C110_uncompared..., C110_uncompared_cov); predictions from stored values: C110_stored_predict."
  },
  {
   "property": "C111",
   "status": "proved",
   "theorems": [
    "Lop.Props.C111_concave",
    "Lop.Props.C111_mode_unique",
    "Lop.Props.C111_representer",
    "Lop.Props.C111_higher",
    "Lop.Props.C111_small_gradient",
    "Lop.Props.C111_converged",
    "Lop.Props.C111_narrow_prior",
    "Lop.Props.C111_away",
    "Lop.Props.C111_wide_prior_counterexample"
   ],
   "note": "C111_concave, C111_mode_unique, C111_representer, C111_higher (spec level, about the mode); C111_small_gradient (find_mode, any labels); C111_converged (stored values near the mode); C111_narrow_prior (Newton matrix negative definite); C111_away, C111_wide_prior_counterexample (updates that move away from the mode)."
  },
  {
   "property": "C112",
   "status": "proved",
   "theorems": [
    "Lop.Props.C112_ordinary",
    "Lop.Props.C112_data",
    "Lop.Props.C112_continue",
    "Lop.Props.C112_exact",
    "Lop.Props.C112_none_false",
    "Lop.Props.C112_ordinals_false"
   ],
   "note": "C112_data, C112_continue and the exact condition C112_exact are proved; the unrestricted claim is refuted by C112_none_false and C112_ordinals_false. C112_ordinary: on models that were never loaded, the operations agree with those of the other claims."
  },
  {
   "property": "C113",
   "status": "proved",
   "theorems": [
    "Lop.Props.C113_between",
    "Lop.Props.C113_one_limit_false",
    "Lop.Props.C113_one_limit",
    "Lop.Props.C113_refused",
    "Lop.Props.C113_path",
    "Lop.Props.C113_index_false"
   ],
   "note": "C113_between, C113_path; one-limit use refuted by C113_one_limit_false, selection by idx by C113_index_false. C113_one_limit, C113_refused: the limit of one recorded file and the refused calls."
  },
  {
   "property": "C114",
   "status": "proved",
   "theorems": [
    "Lop.Props.C114_again",
    "Lop.Props.C114_variances",
    "Lop.Props.C114_vanishes",
    "Lop.Props.C114_other_false"
   ],
   "note": "C114_again: the change of every predicted covariance; C114_variances: what follows for variances, with exact conditions; C114_vanishes: limit of many answers; C114_other_false: another question can raise the uncertainty (part of the claim)."
  },
  {
   "property": "C115",
   "status": "proved",
   "theorems": [
    "Lop.Props.C115_order",
    "Lop.Props.C115_noisy_order",
    "Lop.Props.C115_targets",
    "Lop.Props.C115_stepwise",
    "Lop.Props.C115_repeated"
   ],
   "note": "C115_order, C115_stepwise, C115_repeated for kernels without noise; C115_targets for every covariance function; C115_noisy_order exhibits the dependence on the order when the kernel has noise (noise is added on the diagonal of a square cross-covariance whose first points agree, see C32)."
  },
  {
   "property": "C116",
   "status": "proved",
   "theorems": [
    "Lop.Props.C116_fit",
    "Lop.Props.C116_predict",
    "Lop.Props.C116_predict_noisy",
    "Lop.Props.C116_noisy_false",
    "Lop.Props.C116_answers",
    "Lop.Props.C116_ratings",
    "Lop.Props.C116_linear",
    "Lop.Props.C116_inv"
   ],
   "note": "C116_fit, C116_predict, C116_predict_noisy, C116_answers, C116_ratings, C116_linear, C116_inv; C116_noisy_false is the stated exception (noise is added on the diagonal of a square cross-covariance, see C32). Exact arithmetic. Ordinal ratings are covered by renumbering; for repeated ratings of one point see C42."
  },
  {
   "property": "C117",
   "status": "proved",
   "theorems": [
    "Lop.Props.C117_mode",
    "Lop.Props.C117_update",
    "Lop.Props.C117_update_pairs",
    "Lop.Props.C117_predict",
    "Lop.Props.C117_predict_noisy",
    "Lop.Props.C117_asked",
    "Lop.Props.C117_noisy_false",
    "Lop.Props.C117_linear",
    "Lop.Props.C117_remove"
   ],
   "note": "C117_mode, C117_asked, C117_predict, C117_predict_noisy, C117_update, C117_update_pairs, C117_linear, C117_remove; C117_noisy_false is the stated exception. Exact arithmetic, np.linalg.inv. find_mode starts from random values, so its stored values agree only up to its tolerance (C97); the number of updates may differ because the stopping test looks at all points."
  },
  {
   "property": "C118",
   "status": "proved",
   "theorems": [
    "Lop.Props.C118_kernel",
    "Lop.Props.C118_fit",
    "Lop.Props.C118_predict",
    "Lop.Props.C118_model",
    "Lop.Props.C118_regression",
    "Lop.Props.C118_coordinates",
    "Lop.Props.C118_coordinates_predict",
    "Lop.Props.C118_coordinates_regression",
    "Lop.Props.C118_linear",
    "Lop.Props.C118_linear_rotation",
    "Lop.Props.C118_tolerance_false"
   ],
   "note": "C118_fit, C118_predict, C118_model, C118_kernel, C118_regression; C118_coordinates, C118_coordinates_predict, C118_coordinates_regression; C118_linear, C118_linear_rotation; C118_tolerance_false is the stated exception. Exact arithmetic; normalize_gp off for C118_fit. The inversion routine is a parameter with the homogeneity of np.linalg.pinv (the default); np.linalg.inv differs from it only when it raises, where the code falls back to the gradient, which has units."
  },
  {
   "property": "C119",
   "status": "proved",
   "theorems": [
    "Lop.Props.C119_fit",
    "Lop.Props.C119_default_eps",
    "Lop.Props.C119_predict",
    "Lop.Props.C119_model",
    "Lop.Props.C119_linear",
    "Lop.Props.C119_ordinal_false"
   ],
   "note": "C119_fit, C119_predict, C119_model, C119_linear, C119_default_eps; C119_ordinal_false is the stated exception. Exact arithmetic; normalize_gp together with normalize_positive is excluded (it shifts values)."
  },
  {
   "property": "C120",
   "status": "proved",
   "theorems": [
    "Lop.Props.C120_share",
    "Lop.Props.C120_between",
    "Lop.Props.C120_limit",
    "Lop.Props.C120_stored",
    "Lop.Props.C120_linear"
   ],
   "note": "Stated for IsMode (the minimiser of the negative log posterior), then for find_mode's stored F by C97_converged; the choice probability's argument is required to lie in [-30, 30], where std_norm_cdf does not clip. C120_linear speaks of exact maximisers of the likelihood, not of PreferenceLinear's Newton iterates."
  },
  {
   "property": "C121",
   "status": "partial",
   "theorems": [
    "Lop.Props.C121_select",
    "Lop.Props.C121_select_ret",
    "Lop.Props.C121_preferred",
    "Lop.Props.C121_count_false",
    "Lop.Props.C121_tie_false",
    "Lop.Props.C121_best",
    "Lop.Props.C121_worst",
    "Lop.Props.C121_ucb",
    "Lop.Props.C121_gv",
    "Lop.Props.C121_mutual_info",
    "Lop.Props.C121_bayes",
    "Lop.Props.C121_alignment",
    "Lop.Props.C121_pair"
   ],
   "note": "C121_select and C121_select_ret reduce the whole selection to the greedy step; C121_best, _worst, _ucb, _gv are the learners; C121_mutual_info, _bayes, _alignment the greedy steps given samples (the first MutualInfoLearner step always ties, C55); C121_pair the pairs, C121_preferred the preferred set. Refuted: prefer_pts as a number (C121_count_false) and ties (C121_tie_false). Whole selections of learners with select_pair are covered step by step only."
  },
  {
   "property": "C122",
   "status": "partial",
   "theorems": [
    "Lop.Props.C122_added_again",
    "Lop.Props.C122_linear",
    "Lop.Props.C122_noiseless_false",
    "Lop.Props.C122_linear_kernel_false",
    "Lop.Props.C122_mean",
    "Lop.Props.C122_values",
    "Lop.Props.C122_again_false"
   ],
   "note": "True for PreferenceLinear (C122_linear). Refuted for PreferenceGP without noise (C122_noiseless_false, C122_linear_kernel_false) and with noise (C122_again_false); C122_mean and C122_values say exactly what the copies change. Exact real arithmetic: rounded, a singular matrix may still pass the Cholesky factorisation. C122_mean is for query sets of another size than the training set, as the kernels add noise to every square matrix (C30)."
  },
  {
   "property": "C123",
   "status": "proved",
   "theorems": [
    "Lop.Props.C123_values",
    "Lop.Props.C123_differences",
    "Lop.Props.C123_stable",
    "Lop.Props.C123_predict",
    "Lop.Props.C123_pull",
    "Lop.Props.C123_before",
    "Lop.Props.C123_attained",
    "Lop.Props.C123_stored"
   ],
   "note": "C123_values, C123_differences, C123_predict, C123_stable for the exact mode; C123_stored for what find_mode stores after a converged fit, with the errors of C97. C123_pull bounds the pull on both sides, C123_before compares the two influences of one answer, C123_attained shows that the constant cannot be improved. Comparisons only."
  },
  {
   "property": "C124",
   "status": "partial",
   "theorems": [
    "Lop.Props.C124_distribution",
    "Lop.Props.C124_better",
    "Lop.Props.C124_better_strict",
    "Lop.Props.C124_clipped_false",
    "Lop.Props.C124_moments"
   ],
   "note": "scipy.stats.beta.cdf is the distribution function of Mathlib's beta measure. C124_clipped_false: values below -30 sqrt(2) sigma are not distinguished."
  },
  {
   "property": "C125",
   "status": "partial",
   "theorems": [
    "Lop.Props.C125_pairs",
    "Lop.Props.C125_gradient",
    "Lop.Props.C125_clipped_false",
    "Lop.Props.C125_ordinal",
    "Lop.Props.C125_rating",
    "Lop.Props.C125_rating_identified",
    "Lop.Props.C125_rating_gradient"
   ],
   "note": "Spec/Truth.lean, Props/Truth.lean. Comparisons with the true difference at 30 standard deviations (the clipping limit): refuted (C125_clipped_false). Ratings in (0,1) are treated one rating at a time; values with the same clipped mean_link are not told apart (C125_rating says exactly when). The identity for W is proved for comparisons only: the ordinal W is not the second derivative (C40)."
  },
  {
   "property": "C126",
   "status": "partial",
   "theorems": [
    "Lop.Props.C126_quantised_partial",
    "Lop.Props.C126_monotone",
    "Lop.Props.C126_negative_counterexample",
    "Lop.Props.C126_equal_bounds"
   ],
   "note": "Props/ScoreRating.lean. Utilities that are not positive get -0.1, which add refuses (C126_negative_counterexample); for positive utilities and non-negative bounds everything holds (C126_quantised_partial). Monotone always. The function is not called by the experiments. np.arange is taken in exact arithmetic (five points)."
  },
  {
   "property": "C127",
   "status": "proved",
   "theorems": [
    "Lop.Props.C127_confidence",
    "Lop.Props.C127_combination",
    "Lop.Props.C127_regret",
    "Lop.Props.C127_no_regret",
    "Lop.Props.C127_finds_best",
    "Lop.Props.C127_too_few"
   ],
   "note": "Props/UcbRegret.lean. Kernel norm is stated elementarily (no linear combination of values of f exceeds alpha times its prior standard deviation); C127_combination shows that all kernel combinations have it. Exact values of f (as in the example); exact arithmetic. The bound is by number of visits, not by information gain, so it needs candidates that come back."
  },
  {
   "property": "C128",
   "status": "proved",
   "theorems": [
    "Lop.Props.C128_exists",
    "Lop.Props.C128_unique",
    "Lop.Props.C128_both_ways",
    "Lop.Props.C128_perfect_user",
    "Lop.Props.C128_settled",
    "Lop.Props.C128_fit",
    "Lop.Props.C128_never_settles"
   ],
   "note": "C128_exists, C128_unique: exact conditions. C128_both_ways: a sufficient one. C128_settled, C128_fit: fixed points of the update are the best weights (nothing clipped). C128_perfect_user, C128_never_settles: no best weights for consistent answers."
  },
  {
   "property": "C129",
   "status": "proved",
   "theorems": [
    "Lop.Props.C129_variance",
    "Lop.Props.C129_error",
    "Lop.Props.C129_learns",
    "Lop.Props.C129_rbf"
   ],
   "note": "Props/GPLearns.lean. C129_variance, C129_error (bounds for every finite data set), C129_learns (limit, by continuity of all kernels), C129_rbf (explicit closeness). Exact arithmetic; kernels without their own noise parameter."
  },
  {
   "property": "C130",
   "status": "partial",
   "theorems": [
    "Lop.Props.C130_fit",
    "Lop.Props.C130_defaults",
    "Lop.Props.C130_predict",
    "Lop.Props.C130_normalized_false",
    "Lop.Props.C130_positive_false",
    "Lop.Props.C130_single_false",
    "Lop.Props.C130_add"
   ],
   "note": "Props/NoLabels.lean. C130_add, C130_fit, C130_defaults, C130_predict; refuted for normalizing models by C130_normalized_false, C130_positive_false, C130_single_false. Exact arithmetic."
  },
  {
   "property": "C131",
   "status": "partial",
   "theorems": [
    "Lop.Props.C131_gp",
    "Lop.Props.C131_preferences",
    "Lop.Props.C131_rbf_prior",
    "Lop.Props.C131_rate",
    "Lop.Props.C131_linear_false",
    "Lop.Props.C131_periodic_false"
   ],
   "note": "Props/FarAway.lean. C131_gp, C131_preferences (limits), C131_rate and C131_rbf_prior (explicit for RBF_kern, its noise included); C131_linear_false and C131_periodic_false show the restriction to decaying kernels is needed. Exact arithmetic."
  },
  {
   "property": "C132",
   "status": "proved",
   "theorems": [
    "Lop.Props.C132_almost_surely",
    "Lop.Props.C132_shares",
    "Lop.Props.C132_linear",
    "Lop.Props.C132_stored",
    "Lop.Props.C132_expected",
    "Lop.Props.C132_limit",
    "Lop.Props.C132_identified",
    "Lop.Props.C132_predict"
   ],
   "note": "Props/ManyQuestions.lean. C132_shares, C132_linear, C132_stored (one data set), C132_expected (random answers), C132_limit, C132_identified, C132_predict; Props/Dialogue.lean: C132_almost_surely (adaptively chosen questions, strong law for bounded uncorrelated variables). Generalises C120 (one question) and complements C125 (expected likelihood)."
  },
  {
   "property": "C133",
   "status": "proved",
   "theorems": [
    "Lop.Props.C133_risk",
    "Lop.Props.C133_band",
    "Lop.Props.C133_learns",
    "Lop.Props.C133_understated"
   ],
   "note": "Props/GPNoisy.lean. C133_risk (with integrability), C133_band, C133_learns; C133_understated. Complements C129, whose bounded misfit random errors violate."
  },
  {
   "property": "C134",
   "status": "proved",
   "theorems": [
    "Lop.Props.C134_covariance",
    "Lop.Props.C134_best",
    "Lop.Props.C134_posterior",
    "Lop.Props.C134_conditional",
    "Lop.Props.C134_quantile"
   ],
   "note": "Props/GPPosterior.lean. C134_covariance, C134_best, C134_posterior, C134_conditional, C134_quantile. C43 has the formula's positivity; here it is derived from the meaning of the kernel as covariance."
  },
  {
   "property": "C135",
   "status": "proved",
   "theorems": [
    "Lop.Props.C135_posterior",
    "Lop.Props.C135_ucb"
   ],
   "note": "Props/GPActive.lean. C135_posterior, C135_ucb. The runs are split by the finitely many paths of measured points; on a path the data are those of a fixed design (C134) and the path itself is an event about the measured values."
  },
  {
   "property": "C136",
   "status": "proved",
   "theorems": [
    "Lop.Props.C136_regret",
    "Lop.Props.C136_learns"
   ],
   "note": "Props/UcbBayes.lean. C136_regret, C136_learns. C127 is the counterpart for exact measurements of a fixed function of bounded kernel norm."
  },
  {
   "property": "C137",
   "status": "proved",
   "theorems": [
    "Lop.Props.C137_top",
    "Lop.Props.C137_more",
    "Lop.Props.C137_best",
    "Lop.Props.C137_regret"
   ],
   "note": "Props/Recommend.lean: C137_top, C137_more, C137_best, C137_regret. Exact arithmetic, default mean function, kernel leaves without own noise, constant noise s."
  },
  {
   "property": "C138",
   "status": "proved",
   "theorems": [
    "Lop.Props.C138_bands",
    "Lop.Props.C138_regret",
    "Lop.Props.C138_alpha"
   ],
   "note": "Props/UcbBand.lean. C138_bands, C138_regret, C138_alpha. C136 bounds the expectation of the same regret."
  },
  {
   "property": "C139",
   "status": "proved",
   "theorems": [
    "Lop.Props.C139_joint",
    "Lop.Props.C139_order",
    "Lop.Props.C139_information",
    "Lop.Props.C139_widths"
   ],
   "note": "Props/GPChain.lean. C139_joint, C139_order, C139_information, C139_widths. The mean function is the default zero, since with no data predict returns zeros (C43)."
  },
  {
   "property": "C140",
   "status": "proved",
   "theorems": [
    "Lop.Props.C140_regret",
    "Lop.Props.C140_linear_information",
    "Lop.Props.C140_linear"
   ],
   "note": "Props/UcbInfo.lean. C140_regret, C140_linear_information, C140_linear. Sharpens C138 for kernels with few features."
  },
  {
   "property": "C141",
   "status": "proved",
   "theorems": [
    "Lop.Props.C141_same",
    "Lop.Props.C141_best_first",
    "Lop.Props.C141_best",
    "Lop.Props.C141_ties"
   ],
   "note": "Loop invariant on the skipped list (sorted, above everything still available) and uniqueness of greedy choices. C141_ties shows that different scores are needed: with ties the set iteration order may make the two selections differ. C141_same without, C141_best_first with always_select_best."
  },
  {
   "property": "C142",
   "status": "proved",
   "theorems": [
    "Lop.Props.C142_greedy",
    "Lop.Props.C142_valid",
    "Lop.Props.C142_hull",
    "Lop.Props.C142_scale",
    "Lop.Props.C142_alpha_zero",
    "Lop.Props.C142_other",
    "Lop.Props.C142_pessimistic"
   ],
   "note": "C142_greedy, C142_valid, C142_hull (the standard deviation is a seminorm of the candidate), C142_scale, C142_alpha_zero, C142_other. C142_pessimistic: for negative alpha the hull statement fails. The samples of metropolis_hastings are parameters (C14, C90, C103 are about them)."
  },
  {
   "property": "C143",
   "status": "proved",
   "theorems": [
    "Lop.Props.C143_exact",
    "Lop.Props.C143_data",
    "Lop.Props.C143_rows",
    "Lop.Props.C143_no_best"
   ],
   "note": "C143_data, C143_exact (in each question the first best item beats every other, nothing else is stored), C143_rows (the stored pairs are label rows among the stored points), C143_no_best (by C128). The selection is a parameter; plotting and the numerical fit are not part of the loop model."
  }
 ]
}