{
 "claims": [
  {
   "property": "C01",
   "status": "proved",
   "theorems": [
    "SmoothRF.C01_depth_per_node"
   ],
   "note": ""
  },
  {
   "property": "C02",
   "status": "proved",
   "theorems": [
    "SmoothRF.C02_calc_depth_for_forest"
   ],
   "note": ""
  },
  {
   "property": "C03",
   "status": "proved",
   "theorems": [
    "SmoothRF.C03_depth_per_node_plus_parent"
   ],
   "note": ""
  },
  {
   "property": "C04",
   "status": "proved",
   "theorems": [
    "SmoothRF.C04_calc_parent"
   ],
   "note": ""
  },
  {
   "property": "C05",
   "status": "proved",
   "theorems": [
    "SmoothRF.C05_create_decision_per_leafs"
   ],
   "note": ""
  },
  {
   "property": "C06",
   "status": "proved",
   "theorems": [
    "SmoothRF.C06_decision_path_nodes_agrees"
   ],
   "note": ""
  },
  {
   "property": "C07",
   "status": "proved",
   "theorems": [
    "SmoothRF.C07_distance_standard"
   ],
   "note": ""
  },
  {
   "property": "C08",
   "status": "proved",
   "theorems": [
    "SmoothRF.C08_distance_max_min"
   ],
   "note": ""
  },
  {
   "property": "C09",
   "status": "proved",
   "theorems": [
    "SmoothRF.C09_change_in_impurity"
   ],
   "note": ""
  },
  {
   "property": "C10",
   "status": "proved",
   "theorems": [
    "SmoothRF.C10_distance_impurity",
    "SmoothRF.C10_impurity_distance_can_be_negative"
   ],
   "note": ""
  },
  {
   "property": "C11",
   "status": "proved",
   "theorems": [
    "SmoothRF.C11_discretise",
    "SmoothRF.C11_level_zero",
    "SmoothRF.C11_raises"
   ],
   "note": "array levels; integer levels (np.quantile) are covered by C94-C96"
  },
  {
   "property": "C12",
   "status": "proved",
   "theorems": [
    "SmoothRF.C12_gamma_eta_definition",
    "SmoothRF.C12_level_is_lca"
   ],
   "note": ""
  },
  {
   "property": "C13",
   "status": "proved",
   "theorems": [
    "SmoothRF.C13_mass_conserved"
   ],
   "note": ""
  },
  {
   "property": "C14",
   "status": "proved",
   "theorems": [
    "SmoothRF.C14_parents_all_cumulative"
   ],
   "note": ""
  },
  {
   "property": "C15",
   "status": "proved",
   "theorems": [
    "SmoothRF.C15_parents_all_ratio"
   ],
   "note": ""
  },
  {
   "property": "C16",
   "status": "proved",
   "theorems": [
    "SmoothRF.C16_forest_stacking"
   ],
   "note": ""
  },
  {
   "property": "C18",
   "status": "partial",
   "theorems": [
    "SmoothRF.C18_level_features_partial",
    "SmoothRF.C18_padded_impurity_refuted",
    "SmoothRF.C18_min_style_raises"
   ],
   "note": "false as stated: columns padded beyond a tree's own depth hold the first leaf's impurity instead of the root's (refuted by witness); depth_full and the unpadded columns are proved"
  },
  {
   "property": "C17",
   "status": "proved",
   "theorems": [
    "SmoothRF.C17_assertion_never_fires",
    "SmoothRF.C17_negative_lambda_can_raise"
   ],
   "note": ""
  },
  {
   "property": "C19",
   "status": "proved",
   "theorems": [
    "SmoothRF.C19_prox_nonneg_monotone",
    "SmoothRF.C19_empty_raises"
   ],
   "note": ""
  },
  {
   "property": "C20",
   "status": "partial",
   "theorems": [
    "SmoothRF.C20_prox_projection_partial",
    "SmoothRF.C20_refuted",
    "SmoothRF.C20_deficient_refuted"
   ],
   "note": "false as stated: rho compares the unsorted vector with the sorted thresholds ([1,0,1] -> [2/3,0,2/3]) and vectors with positive part summing to less than 1 are only clipped; proved: exact Euclidean projection for descending input with positive part summing to at least 1, and exactness iff the result sums to 1"
  },
  {
   "property": "C21",
   "status": "proved",
   "theorems": [
    "SmoothRF.C21_feasible_fixed"
   ],
   "note": ""
  },
  {
   "property": "C22",
   "status": "partial",
   "theorems": [
    "SmoothRF.C22_argument_unchanged_partial",
    "SmoothRF.C22_refuted"
   ],
   "note": "false as stated: negative entries of the caller's array are zeroed in place; unchanged exactly for non-negative input"
  },
  {
   "property": "C23",
   "status": "proved",
   "theorems": [
    "SmoothRF.C23_calc_cost"
   ],
   "note": ""
  },
  {
   "property": "C24",
   "status": "proved",
   "theorems": [
    "SmoothRF.C24_gradient_l2"
   ],
   "note": ""
  },
  {
   "property": "C25",
   "status": "proved",
   "theorems": [
    "SmoothRF.C25_gradient_orthogonal"
   ],
   "note": ""
  },
  {
   "property": "C26",
   "status": "proved",
   "theorems": [
    "SmoothRF.C26_gradient_ce",
    "SmoothRF.C26_zero_probability_gradient"
   ],
   "note": ""
  },
  {
   "property": "C27",
   "status": "proved",
   "theorems": [
    "SmoothRF.C27_sgd_returns_best",
    "SmoothRF.C27_plain_step",
    "SmoothRF.C27_plain_constrained_returns"
   ],
   "note": ""
  },
  {
   "property": "C28",
   "status": "partial",
   "theorems": [
    "SmoothRF.C28_iterates_nonneg_partial",
    "SmoothRF.C28_refuted"
   ],
   "note": "false as stated: iterates need not sum to 1 because of C20; non-negativity proved"
  },
  {
   "property": "C29",
   "status": "proved",
   "theorems": [
    "SmoothRF.C29_rejects_bad_start"
   ],
   "note": ""
  },
  {
   "property": "C30",
   "status": "proved",
   "theorems": [
    "SmoothRF.C30_no_corruption"
   ],
   "note": ""
  },
  {
   "property": "C32",
   "status": "proved",
   "theorems": [
    "SmoothRF.C32_first_moment"
   ],
   "note": ""
  },
  {
   "property": "C33",
   "status": "partial",
   "theorems": [
    "SmoothRF.C33_second_moment_partial",
    "SmoothRF.C33_refuted"
   ],
   "note": "false as stated: the factor is (1-beta_1) instead of (1-beta_2); the exact value computed is proved"
  },
  {
   "property": "C34",
   "status": "proved",
   "theorems": [
    "SmoothRF.C34_argument_handling"
   ],
   "note": ""
  },
  {
   "property": "C31",
   "status": "partial",
   "theorems": [
    "SmoothRF.C31_refuted",
    "SmoothRF.C31_l2_returns_partial"
   ],
   "note": "false as stated: prox_project_ce contains an unconditional assert False, so the default classification optimiser never returns once a step is taken; proved: the l2 loss returns"
  },
  {
   "property": "C35",
   "status": "proved",
   "theorems": [
    "SmoothRF.C35_values_between_leaves",
    "SmoothRF.C35_constrained_lamb_nonneg"
   ],
   "note": ""
  },
  {
   "property": "C36",
   "status": "proved",
   "theorems": [
    "SmoothRF.C36_sanity_identity",
    "SmoothRF.C36_clean_sanity_identity"
   ],
   "note": "for smooth: the first returned forest, default initial_lamb_seed=None (the second forest is C39)"
  },
  {
   "property": "C37",
   "status": "proved",
   "theorems": [
    "SmoothRF.C37_only_leaf_values",
    "SmoothRF.C37_clean_only_leaf_values",
    "SmoothRF.C37_all_only_leaf_values"
   ],
   "note": ""
  },
  {
   "property": "C38",
   "status": "proved",
   "theorems": [
    "SmoothRF.C38_first_forest_rows",
    "SmoothRF.C38_optimiser_rows"
   ],
   "note": ""
  },
  {
   "property": "C39",
   "status": "partial",
   "theorems": [
    "SmoothRF.C39_second_forest_partial",
    "SmoothRF.C39_refuted"
   ],
   "note": "false as stated: the second loop advances start_idx instead of start_idx2, so every tree of the second forest is filled from the first rows; the exact rows written are proved"
  },
  {
   "property": "C40",
   "status": "proved",
   "theorems": [
    "SmoothRF.C40_probability_vectors"
   ],
   "note": ""
  },
  {
   "property": "C41",
   "status": "partial",
   "theorems": [
    "SmoothRF.C41_sanity_class_partial",
    "SmoothRF.C41_refuted"
   ],
   "note": "false as stated: class_eps is mixed into lambda before the sanity check; the exact lambda is proved"
  },
  {
   "property": "C42",
   "status": "proved",
   "theorems": [
    "SmoothRF.C42_ravel_inverse"
   ],
   "note": ""
  },
  {
   "property": "C43",
   "status": "proved",
   "theorems": [
    "SmoothRF.C43_tuning_source",
    "SmoothRF.C43_argument_checks"
   ],
   "note": ""
  },
  {
   "property": "C44",
   "status": "proved",
   "theorems": [
    "SmoothRF.C44_tuning_summaries"
   ],
   "note": ""
  },
  {
   "property": "C73",
   "status": "proved",
   "theorems": [
    "SmoothRF.C73_missing_class_raises"
   ],
   "note": ""
  },
  {
   "property": "C45",
   "status": "proved",
   "theorems": [
    "SmoothRF.C45_leaf_rows",
    "SmoothRF.C45_weights"
   ],
   "note": ""
  },
  {
   "property": "C46",
   "status": "proved",
   "theorems": [
    "SmoothRF.C46_oob_average",
    "SmoothRF.C46_zero_denominator"
   ],
   "note": ""
  },
  {
   "property": "C47",
   "status": "partial",
   "theorems": [
    "SmoothRF.C47_oob_gradient_partial",
    "SmoothRF.C47_refuted"
   ],
   "note": "false as stated: the first term is divided by the numerator instead of the denominator; the exact difference from the gradient is proved"
  },
  {
   "property": "C48",
   "status": "partial",
   "theorems": [
    "SmoothRF.C48_full_loss_partial",
    "SmoothRF.C48_zero_steps",
    "SmoothRF.C48_refuted",
    "SmoothRF.C48_no_smoothing"
   ],
   "note": "false as stated: the update is guarded by cost_new < cost_new, so the start vector is always returned; zero steps raise UnboundLocalError"
  },
  {
   "property": "C49",
   "status": "proved",
   "theorems": [
    "SmoothRF.C49_cost_list",
    "SmoothRF.C49_run"
   ],
   "note": ""
  },
  {
   "property": "C74",
   "status": "proved",
   "theorems": [
    "SmoothRF.C74_clean_rows",
    "SmoothRF.C74_regression_only"
   ],
   "note": ""
  },
  {
   "property": "C75",
   "status": "proved",
   "theorems": [
    "SmoothRF.C75_clean_nonneg"
   ],
   "note": ""
  },
  {
   "property": "C76",
   "status": "proved",
   "theorems": [
    "SmoothRF.C76_cost",
    "SmoothRF.C76_l2_grad"
   ],
   "note": ""
  },
  {
   "property": "C50",
   "status": "proved",
   "theorems": [
    "SmoothRF.C50_leaf_predicted_values"
   ],
   "note": ""
  },
  {
   "property": "C51",
   "status": "proved",
   "theorems": [
    "SmoothRF.C51_depth_tune",
    "SmoothRF.C51_single_node_raises",
    "SmoothRF.C51_any_single_node_raises",
    "SmoothRF.C51_argument_checks"
   ],
   "note": ""
  },
  {
   "property": "C52",
   "status": "partial",
   "theorems": [
    "SmoothRF.C52_depth_tune_partial",
    "SmoothRF.C52_refuted"
   ],
   "note": "false as stated: range(max_depth) leaves out the full depth, so leaves at full depth are always overwritten with an ancestor's value"
  },
  {
   "property": "C53",
   "status": "proved",
   "theorems": [
    "SmoothRF.C53_initial_table"
   ],
   "note": ""
  },
  {
   "property": "C54",
   "status": "proved",
   "theorems": [
    "SmoothRF.C54_prune_exact"
   ],
   "note": ""
  },
  {
   "property": "C55",
   "status": "partial",
   "theorems": [
    "SmoothRF.C55_g1_exact_partial",
    "SmoothRF.C55_pruned_leaf_g1_stale",
    "SmoothRF.C55_refuted"
   ],
   "note": "false as stated: _inner_prune_down does not reset g1 of the pruned node, so a node turned into a leaf keeps its old finite g1"
  },
  {
   "property": "C56",
   "status": "proved",
   "theorems": [
    "SmoothRF.C56_rejects"
   ],
   "note": ""
  },
  {
   "property": "C57",
   "status": "proved",
   "theorems": [
    "SmoothRF.C57_node_risk",
    "SmoothRF.C57_training_risk",
    "SmoothRF.C57_superadditive"
   ],
   "note": ""
  },
  {
   "property": "C77",
   "status": "proved",
   "theorems": [
    "SmoothRF.C77_prune_tree_name_error"
   ],
   "note": ""
  },
  {
   "property": "C78",
   "status": "proved",
   "theorems": [
    "SmoothRF.C78_order_independent"
   ],
   "note": ""
  },
  {
   "property": "C58",
   "status": "proved",
   "theorems": [
    "SmoothRF.C58_boxes_contain",
    "SmoothRF.C58_boxes_exact",
    "SmoothRF.C58_center",
    "SmoothRF.C58_empty"
   ],
   "note": ""
  },
  {
   "property": "C79",
   "status": "proved",
   "theorems": [
    "SmoothRF.C79_center_forest"
   ],
   "note": ""
  },
  {
   "property": "C80",
   "status": "proved",
   "theorems": [
    "SmoothRF.C80_all_distances"
   ],
   "note": ""
  },
  {
   "property": "C59",
   "status": "proved",
   "theorems": [
    "SmoothRF.C59_kernel",
    "SmoothRF.C59_default_weights",
    "SmoothRF.C59_checks"
   ],
   "note": ""
  },
  {
   "property": "C60",
   "status": "partial",
   "theorems": [
    "SmoothRF.C60_default_levels_partial",
    "SmoothRF.C60_refuted"
   ],
   "note": "false as stated: the default max_depth is computed from tree indices, so the number of levels is the number of trees minus one"
  },
  {
   "property": "C61",
   "status": "proved",
   "theorems": [
    "SmoothRF.C61_depth_dist",
    "SmoothRF.C61_max_min",
    "SmoothRF.C61_arguments"
   ],
   "note": ""
  },
  {
   "property": "C62",
   "status": "proved",
   "theorems": [
    "SmoothRF.C62_categorical",
    "SmoothRF.C62_rejects"
   ],
   "note": ""
  },
  {
   "property": "C63",
   "status": "proved",
   "theorems": [
    "SmoothRF.C63_least_shift",
    "SmoothRF.C63_terminates",
    "SmoothRF.C63_not_symmetric"
   ],
   "note": "the positive-definiteness test is a parameter; termination is for the exact test"
  },
  {
   "property": "C81",
   "status": "proved",
   "theorems": [
    "SmoothRF.C81_implementations_agree"
   ],
   "note": ""
  },
  {
   "property": "C82",
   "status": "proved",
   "theorems": [
    "SmoothRF.C82_remove_level_zero",
    "SmoothRF.C82_needs_zero"
   ],
   "note": ""
  },
  {
   "property": "C64",
   "status": "proved",
   "theorems": [
    "SmoothRF.C64_values",
    "SmoothRF.C64_sanity_reading",
    "SmoothRF.C64_sanity_identity",
    "SmoothRF.C64_range",
    "SmoothRF.C64_range_needs_parents_all",
    "SmoothRF.C64_argument_checks"
   ],
   "note": ""
  },
  {
   "property": "C83",
   "status": "proved",
   "theorems": [
    "SmoothRF.C83_lambda_optimal",
    "SmoothRF.C83_exact_minimum"
   ],
   "note": "library solvers assumed exact; exact_run shows the hypotheses hold together"
  },
  {
   "property": "C84",
   "status": "proved",
   "theorems": [
    "SmoothRF.C84_no_assertion_constrained",
    "SmoothRF.C84_no_assertion_unconstrained"
   ],
   "note": "library solvers assumed exact"
  },
  {
   "property": "C85",
   "status": "proved",
   "theorems": [
    "SmoothRF.C85_tuning_attributes"
   ],
   "note": ""
  },
  {
   "property": "C65",
   "status": "proved",
   "theorems": [
    "SmoothRF.C65_batches",
    "SmoothRF.C65_partition"
   ],
   "note": ""
  },
  {
   "property": "C66",
   "status": "proved",
   "theorems": [
    "SmoothRF.C66_feature_layout",
    "SmoothRF.C66_shapes"
   ],
   "note": ""
  },
  {
   "property": "C67",
   "status": "proved",
   "theorems": [
    "SmoothRF.C67_forward",
    "SmoothRF.C67_real_exp",
    "SmoothRF.C67_range"
   ],
   "note": ""
  },
  {
   "property": "C68",
   "status": "partial",
   "theorems": [
    "SmoothRF.C68_reported_minimum_partial",
    "SmoothRF.C68_refuted"
   ],
   "note": "false for params_min, which aliases the live parameters"
  },
  {
   "property": "C69",
   "status": "partial",
   "theorems": [
    "SmoothRF.C69_tuning_ignored_partial",
    "SmoothRF.C69_refuted"
   ],
   "note": "false as stated: train_only is hard-coded, tuning data is ignored"
  },
  {
   "property": "C70",
   "status": "partial",
   "theorems": [
    "SmoothRF.C70_same_variables_partial",
    "SmoothRF.C70_refuted",
    "SmoothRF.C70_x_dicts_raise"
   ],
   "note": "false unless one_d_dict is used and x_dicts is empty"
  },
  {
   "property": "C86",
   "status": "partial",
   "theorems": [
    "SmoothRF.C86_equal_shapes_partial",
    "SmoothRF.C86_training_loss",
    "SmoothRF.C86_decomposition",
    "SmoothRF.C86_ignores_matching",
    "SmoothRF.C86_refuted"
   ],
   "note": "false as stated: shapes (1,N) and (1,N,1) broadcast, so every response is compared with every prediction"
  },
  {
   "property": "C87",
   "status": "partial",
   "theorems": [
    "SmoothRF.C87_steps_partial",
    "SmoothRF.C87_all_trees_refuted",
    "SmoothRF.C87_step_number_refuted"
   ],
   "note": "all_trees changes only the number of steps"
  },
  {
   "property": "C88",
   "status": "proved",
   "theorems": [
    "SmoothRF.C88_initial_weights",
    "SmoothRF.C88_close_to_forest"
   ],
   "note": ""
  },
  {
   "property": "C89",
   "status": "proved",
   "theorems": [
    "SmoothRF.C89_update_rf",
    "SmoothRF.C89_returns"
   ],
   "note": ""
  },
  {
   "property": "C90",
   "status": "proved",
   "theorems": [
    "SmoothRF.C90_centers",
    "SmoothRF.C90_none",
    "SmoothRF.C90_classes_refused"
   ],
   "note": "the entries are not repeated per class, so the data set refuses them when there are several classes"
  },
  {
   "property": "C71",
   "status": "proved",
   "theorems": [
    "SmoothRF.C71_generate_data",
    "SmoothRF.C71_negative"
   ],
   "note": ""
  },
  {
   "property": "C72",
   "status": "proved",
   "theorems": [
    "SmoothRF.C72_spirals",
    "SmoothRF.C72_errors"
   ],
   "note": ""
  },
  {
   "property": "C91",
   "status": "partial",
   "theorems": [
    "SmoothRF.C91_sizes_partial",
    "SmoothRF.C91_refuted"
   ],
   "note": "the bound by large_n is false (missing 2/3 factor); proved: 67/65 large_n and exact class-0 count"
  },
  {
   "property": "C92",
   "status": "proved",
   "theorems": [
    "SmoothRF.C92_knn",
    "SmoothRF.C92_errors"
   ],
   "note": ""
  },
  {
   "property": "C93",
   "status": "proved",
   "theorems": [
    "SmoothRF.C93_spiral_geometry",
    "SmoothRF.C93_negative_shift"
   ],
   "note": ""
  },
  {
   "property": "C94",
   "status": "proved",
   "theorems": [
    "SmoothRF.C94_impurity_matrices",
    "SmoothRF.C94_returns"
   ],
   "note": "with parents_all, coordinates outside the sparse shape are taken to be dropped"
  },
  {
   "property": "C95",
   "status": "partial",
   "theorems": [
    "SmoothRF.C95_shared_levels_partial",
    "SmoothRF.C95_refuted"
   ],
   "note": "false: a tree may insert its own break; proved: levels differ by at most one, not at all for distances <= 0"
  },
  {
   "property": "C96",
   "status": "proved",
   "theorems": [
    "SmoothRF.C96_quantiles",
    "SmoothRF.C96_returns"
   ],
   "note": ""
  },
  {
   "property": "C97",
   "status": "partial",
   "theorems": [
    "SmoothRF.C97_oob_reg_partial",
    "SmoothRF.C97_oob_cls_partial",
    "SmoothRF.C97_rows_refuted",
    "SmoothRF.C97_reg_refuted",
    "SmoothRF.C97_cls_refuted",
    "SmoothRF.C97_absent_class"
   ],
   "note": "rows are stacked, the regression mean is over all out-of-bag rows, the classification value is the accuracy"
  },
  {
   "property": "C98",
   "status": "proved",
   "theorems": [
    "SmoothRF.C98_weighted_l2",
    "SmoothRF.C98_best_constant",
    "SmoothRF.C98_unweighted"
   ],
   "note": ""
  },
  {
   "property": "C99",
   "status": "proved",
   "theorems": [
    "SmoothRF.C99_is_pos_def",
    "SmoothRF.C99_cholesky",
    "SmoothRF.C99_update_til_psd"
   ],
   "note": "exact arithmetic: allclose is equality, a pivot is tested exactly"
  },
  {
   "property": "C100",
   "status": "partial",
   "theorems": [
    "SmoothRF.C100_in_null_partial",
    "SmoothRF.C100_nonzero",
    "SmoothRF.C100_refuted"
   ],
   "note": "false for v = 0 when the null space is trivial; true for every other v; exact rank and basis"
  },
  {
   "property": "C101",
   "status": "proved",
   "theorems": [
    "SmoothRF.C101_returns_constrained",
    "SmoothRF.C101_returns_unconstrained"
   ],
   "note": "solvers are parameters, assumed exact and complete on positive definite problems"
  },
  {
   "property": "C102",
   "status": "proved",
   "theorems": [
    "SmoothRF.C102_kernel_psd"
   ],
   "note": ""
  },
  {
   "property": "C103",
   "status": "proved",
   "theorems": [
    "SmoothRF.C103_standard_triangle",
    "SmoothRF.C103_max_metric",
    "SmoothRF.C103_max_value",
    "SmoothRF.C103_min_not_metric"
   ],
   "note": ""
  },
  {
   "property": "C104",
   "status": "proved",
   "theorems": [
    "SmoothRF.C104_norm_never_shrinks",
    "SmoothRF.C104_norm_never_shrinks_ce",
    "SmoothRF.C104_ce_orthogonal"
   ],
   "note": ""
  },
  {
   "property": "C105",
   "status": "proved",
   "theorems": [
    "SmoothRF.C105_cover",
    "SmoothRF.C105_faces",
    "SmoothRF.C105_volume"
   ],
   "note": ""
  },
  {
   "property": "C106",
   "status": "proved",
   "theorems": [
    "SmoothRF.C106_tree_more",
    "SmoothRF.C106_other_type_raises",
    "SmoothRF.C106_min_is_narrower"
   ],
   "note": ""
  },
  {
   "property": "C107",
   "status": "proved",
   "theorems": [
    "SmoothRF.C107_never_worse",
    "SmoothRF.C107_class_worse"
   ],
   "note": "regression, as stated; C107_class_worse shows it does not extend to classifiers, whose start is altered by class_eps"
  },
  {
   "property": "C108",
   "status": "proved",
   "theorems": [
    "SmoothRF.C108_step_bound",
    "SmoothRF.C108_default_step",
    "SmoothRF.C108_total_move",
    "SmoothRF.C108_first_step"
   ],
   "note": "exact square root; first step for eps = 0"
  },
  {
   "property": "C109",
   "status": "proved",
   "theorems": [
    "SmoothRF.C109_descent",
    "SmoothRF.C109_one_step"
   ],
   "note": ""
  },
  {
   "property": "C110",
   "status": "proved",
   "theorems": [
    "SmoothRF.C110_unbiased",
    "SmoothRF.C110_unbiased_ce"
   ],
   "note": ""
  },
  {
   "property": "C111",
   "status": "proved",
   "theorems": [
    "SmoothRF.C111_search_best",
    "SmoothRF.C111_unknown_type"
   ],
   "note": "fitting a forest is an oracle"
  },
  {
   "property": "C112",
   "status": "proved",
   "theorems": [
    "SmoothRF.C112_never_zero",
    "SmoothRF.C112_always_average"
   ],
   "note": ""
  },
  {
   "property": "C113",
   "status": "proved",
   "theorems": [
    "SmoothRF.C113_loss",
    "SmoothRF.C113_descent",
    "SmoothRF.C113_smooth_units"
   ],
   "note": ""
  },
  {
   "property": "C114",
   "status": "proved",
   "theorems": [
    "SmoothRF.C114_smooth_totals",
    "SmoothRF.C114_smooth_order",
    "SmoothRF.C114_prep_order",
    "SmoothRF.C114_all_totals",
    "SmoothRF.C114_depth_order"
   ],
   "note": ""
  },
  {
   "property": "C115",
   "status": "proved",
   "theorems": [
    "SmoothRF.C115_descent",
    "SmoothRF.C115_descent_ce",
    "SmoothRF.C115_tree_order",
    "SmoothRF.C115_second_forest_depends_on_order"
   ],
   "note": "the last theorem is the concrete counterexample for the second forest"
  },
  {
   "property": "C116",
   "status": "proved",
   "theorems": [
    "SmoothRF.C116_returns",
    "SmoothRF.C116_ridge",
    "SmoothRF.C116_error_bound",
    "SmoothRF.C116_never_worse",
    "SmoothRF.C116_worse"
   ],
   "note": "never-worse fails when the tuning rows do not determine the weights (C116_worse): the ridge moves weight off the leaf; proved otherwise, with the exact slack in C116_error_bound"
  },
  {
   "property": "C117",
   "status": "proved",
   "theorems": [
    "SmoothRF.C117_refuses",
    "SmoothRF.C117_rows",
    "SmoothRF.C117_smooth_needs_training"
   ],
   "note": ""
  },
  {
   "property": "C118",
   "status": "proved",
   "theorems": [
    "SmoothRF.C118_values",
    "SmoothRF.C118_optimiser_rows",
    "SmoothRF.C118_needs"
   ],
   "note": "the second forest has the fault of C39; C118_values says what it holds"
  },
  {
   "property": "C119",
   "status": "proved",
   "theorems": [
    "SmoothRF.C119_between_leaves",
    "SmoothRF.C119_probability_vectors",
    "SmoothRF.C119_weights_nonneg"
   ],
   "note": ""
  },
  {
   "property": "C120",
   "status": "partial",
   "theorems": [
    "SmoothRF.C120_sanity_partial",
    "SmoothRF.C120_refuted_merge",
    "SmoothRF.C120_refuted_quantiles"
   ],
   "note": "false: leaves at distance <= 0 are averaged, and negative quantile breaks move the leaf itself off level 0; proved: the exact result when no break is negative"
  },
  {
   "property": "C121",
   "status": "proved",
   "theorems": [
    "SmoothRF.C121_clean_values",
    "SmoothRF.C121_oob_average",
    "SmoothRF.C121_no_training"
   ],
   "note": ""
  },
  {
   "property": "C122",
   "status": "proved",
   "theorems": [
    "SmoothRF.C122_names",
    "SmoothRF.C122_grid",
    "SmoothRF.C122_records",
    "SmoothRF.C122_job"
   ],
   "note": ""
  },
  {
   "property": "C123",
   "status": "proved",
   "theorems": [
    "SmoothRF.C123_no_effect",
    "SmoothRF.C123_base"
   ],
   "note": ""
  },
  {
   "property": "C124",
   "status": "proved",
   "theorems": [
    "SmoothRF.C124_classifier",
    "SmoothRF.C124_needs_levels",
    "SmoothRF.C124_few_rows"
   ],
   "note": ""
  },
  {
   "property": "C125",
   "status": "proved",
   "theorems": [
    "SmoothRF.C125_names",
    "SmoothRF.C125_records",
    "SmoothRF.C125_job",
    "SmoothRF.C125_parents_label"
   ],
   "note": ""
  },
  {
   "property": "C126",
   "status": "proved",
   "theorems": [
    "SmoothRF.C126_label_clash",
    "SmoothRF.C126_class_never_returns",
    "SmoothRF.C126_wols_labels"
   ],
   "note": ""
  },
  {
   "property": "C127",
   "status": "proved",
   "theorems": [
    "SmoothRF.C127_mse",
    "SmoothRF.C127_accuracy",
    "SmoothRF.C127_predict_class",
    "SmoothRF.C127_unknown"
   ],
   "note": ""
  },
  {
   "property": "C128",
   "status": "proved",
   "theorems": [
    "SmoothRF.C128_needs",
    "SmoothRF.C128_depth",
    "SmoothRF.C128_impurity",
    "SmoothRF.C128_defaults",
    "SmoothRF.C128_rejected",
    "SmoothRF.C128_loss_typo",
    "SmoothRF.C128_clean"
   ],
   "note": ""
  },
  {
   "property": "C129",
   "status": "proved",
   "theorems": [
    "SmoothRF.C129_never_returns",
    "SmoothRF.C129_exchanged"
   ],
   "note": ""
  },
  {
   "property": "C130",
   "status": "proved",
   "theorems": [
    "SmoothRF.C130_cells",
    "SmoothRF.C130_level_cells"
   ],
   "note": ""
  },
  {
   "property": "C131",
   "status": "proved",
   "theorems": [
    "SmoothRF.C131_oracle_file",
    "SmoothRF.C131_tuning_typo",
    "SmoothRF.C131_known",
    "SmoothRF.C131_unbound",
    "SmoothRF.C131_loss_ignored",
    "SmoothRF.C131_class_never_returns",
    "SmoothRF.C131_inner_ignored",
    "SmoothRF.C131_script_options"
   ],
   "note": ""
  },
  {
   "property": "C132",
   "status": "proved",
   "theorems": [
    "SmoothRF.C132_band",
    "SmoothRF.C132_not_standard_error",
    "SmoothRF.C132_cost_rows",
    "SmoothRF.C132_cost_default"
   ],
   "note": ""
  },
  {
   "property": "C133",
   "status": "proved",
   "theorems": [
    "SmoothRF.C133_runs",
    "SmoothRF.C133_files",
    "SmoothRF.C133_arguments"
   ],
   "note": ""
  },
  {
   "property": "C134",
   "status": "proved",
   "theorems": [
    "SmoothRF.C134_descent_returns",
    "SmoothRF.C134_smooth_returns",
    "SmoothRF.C134_unconstrained_raises"
   ],
   "note": ""
  },
  {
   "property": "C135",
   "status": "proved",
   "theorems": [
    "SmoothRF.C135_clean_returns_iff"
   ],
   "note": ""
  },
  {
   "property": "C136",
   "status": "proved",
   "theorems": [
    "SmoothRF.C136_names",
    "SmoothRF.C136_classes"
   ],
   "note": ""
  },
  {
   "property": "C137",
   "status": "proved",
   "theorems": [
    "SmoothRF.C137_descent",
    "SmoothRF.C137_descent_ce",
    "SmoothRF.C137_repeated"
   ],
   "note": ""
  },
  {
   "property": "C138",
   "status": "proved",
   "theorems": [
    "SmoothRF.C138_clean_order"
   ],
   "note": ""
  },
  {
   "property": "C139",
   "status": "proved",
   "theorems": [
    "SmoothRF.C139_binding",
    "SmoothRF.C139_adam_dict",
    "SmoothRF.C139_main_calls",
    "SmoothRF.C139_old_calls"
   ],
   "note": ""
  },
  {
   "property": "C140",
   "status": "proved",
   "theorems": [
    "SmoothRF.C140_impurity_order",
    "SmoothRF.C140_refuted_first",
    "SmoothRF.C140_refuted_five"
   ],
   "note": "False without the provisos; both provisos are shown to be needed by concrete forests."
  },
  {
   "property": "C141",
   "status": "proved",
   "theorems": [
    "SmoothRF.C141_smooth_names",
    "SmoothRF.C141_clean_names"
   ],
   "note": ""
  },
  {
   "property": "C142",
   "status": "proved",
   "theorems": [
    "SmoothRF.C142_smooth",
    "SmoothRF.C142_clean",
    "SmoothRF.C142_all",
    "SmoothRF.C142_depth_tune",
    "SmoothRF.C142_input",
    "SmoothRF.C142_input_reg"
   ],
   "note": ""
  },
  {
   "property": "C143",
   "status": "proved",
   "theorems": [
    "SmoothRF.C143_check",
    "SmoothRF.C143_guarantee"
   ],
   "note": ""
  },
  {
   "property": "C144",
   "status": "proved",
   "theorems": [
    "SmoothRF.C144_regression",
    "SmoothRF.C144_classification"
   ],
   "note": "FitReg and FitCls (Spec/Fit.lean) describe what sklearn stores: rows through the node, their number, mean, mean squared deviation or class counts. Fitting itself is not modelled."
  },
  {
   "property": "C145",
   "status": "proved",
   "theorems": [
    "SmoothRF.C145_one_leaf",
    "SmoothRF.C145_regression",
    "SmoothRF.C145_regression_g1",
    "SmoothRF.C145_classification",
    "SmoothRF.C145_some_child_reg",
    "SmoothRF.C145_some_child_cls"
   ],
   "note": ""
  },
  {
   "property": "C146",
   "status": "proved",
   "theorems": [
    "SmoothRF.C146_zero_cost_start",
    "SmoothRF.C146_learns_nothing",
    "SmoothRF.C146_training_data",
    "SmoothRF.C146_smooth_all"
   ],
   "note": "The exception for smooth_all is real: C116_worse has one tuning row predicted exactly by the original forest and a changed result."
  },
  {
   "property": "C147",
   "status": "proved",
   "theorems": [
    "SmoothRF.C147_depth_matrix",
    "SmoothRF.C147_impurity_matrix",
    "SmoothRF.C147_same_source",
    "SmoothRF.C147_tree_depth",
    "SmoothRF.C147_tree_impurity",
    "SmoothRF.C147_returns",
    "SmoothRF.C147_errors",
    "SmoothRF.C147_negative_levels"
   ],
   "note": "levels=[...] as a Python list is an AttributeError even for the depth distance."
  },
  {
   "property": "C148",
   "status": "proved",
   "theorems": [
    "SmoothRF.C148_fitted_values",
    "SmoothRF.C148_smooth",
    "SmoothRF.C148_smooth_parents_all",
    "SmoothRF.C148_clean",
    "SmoothRF.C148_smooth_all",
    "SmoothRF.C148_depth_tune",
    "SmoothRF.C148_leaves_range"
   ],
   "note": "Non-negative weights: C35_constrained_lamb_nonneg for smooth with the constraint. Probability weights of smooth_all: C83, C116 with exact routines."
  },
  {
   "property": "C149",
   "status": "proved",
   "theorems": [
    "SmoothRF.C149_outside",
    "SmoothRF.C149_dropped",
    "SmoothRF.C149_raises",
    "SmoothRF.C149_wrapped",
    "SmoothRF.C149_wrapped_base"
   ],
   "note": "The rest of the model uses the dropped treatment."
  },
  {
   "property": "C150",
   "status": "proved",
   "theorems": [
    "SmoothRF.C150_smooth",
    "SmoothRF.C150_smooth_impurity",
    "SmoothRF.C150_prep",
    "SmoothRF.C150_all",
    "SmoothRF.C150_depth",
    "SmoothRF.C150_append",
    "SmoothRF.C150_clean"
   ],
   "note": "That sklearn rejects arrays without rows (decision_path, predict) is part of the model."
  },
  {
   "property": "C151",
   "status": "proved",
   "theorems": [
    "SmoothRF.C151_depths",
    "SmoothRF.C151_parent_mat",
    "SmoothRF.C151_impurity"
   ],
   "note": ""
  },
  {
   "property": "C152",
   "status": "proved",
   "theorems": [
    "SmoothRF.C152_tree",
    "SmoothRF.C152_forest",
    "SmoothRF.C152_forest_impurity",
    "SmoothRF.C152_forest_more"
   ],
   "note": ""
  },
  {
   "property": "C153",
   "status": "partial",
   "theorems": [
    "SmoothRF.C153_divisor",
    "SmoothRF.C153_sound",
    "SmoothRF.C153_ever_oob_partial",
    "SmoothRF.C153_few_trees",
    "SmoothRF.C153_refuted"
   ],
   "note": "false as stated for six out-of-bag trees (six weights 1/6 sum to 0.9999999999999999); the exact result for at most seven trees and the powers of two remain"
  },
  {
   "property": "C154",
   "status": "partial",
   "theorems": [
    "SmoothRF.C154_default",
    "SmoothRF.C154_uniform_partial",
    "SmoothRF.C154_clean_seed",
    "SmoothRF.C154_refuted_uniform",
    "SmoothRF.C154_refuted_seed",
    "SmoothRF.C154_refuted_class",
    "SmoothRF.C154_refuted_class_eps"
   ],
   "note": "false as stated for np.ones(6)/6, for random starts and for classification with class_loss='l2'; proved for the default regression start, for powers of two and for smooth_clean"
  },
  {
   "property": "C155",
   "status": "proved",
   "theorems": [
    "SmoothRF.C155_sanity",
    "SmoothRF.C155_refuted",
    "SmoothRF.C155_any_value"
   ],
   "note": ""
  },
  {
   "property": "C156",
   "status": "proved",
   "theorems": [
    "SmoothRF.C156_idx_mat",
    "SmoothRF.C156_weights",
    "SmoothRF.C156_G_H",
    "SmoothRF.C156_y_oob",
    "SmoothRF.C156_grad"
   ],
   "note": ""
  },
  {
   "property": "C157",
   "status": "proved",
   "theorems": [
    "SmoothRF.C157_level_blocks",
    "SmoothRF.C157_kernel",
    "SmoothRF.C157_distances",
    "SmoothRF.C157_tuning",
    "SmoothRF.C157_tuning_rounded",
    "SmoothRF.C157_update"
   ],
   "note": ""
  },
  {
   "property": "C158",
   "status": "proved",
   "theorems": [
    "SmoothRF.C158_changes",
    "SmoothRF.C158_leaf_change",
    "SmoothRF.C158_regression_close",
    "SmoothRF.C158_allclose",
    "SmoothRF.C158_class_same",
    "SmoothRF.C158_class_refuted"
   ],
   "note": ""
  },
  {
   "property": "C159",
   "status": "proved",
   "theorems": [
    "SmoothRF.C159_prep",
    "SmoothRF.C159_dataset",
    "SmoothRF.C159_forward",
    "SmoothRF.C159_regression_refuted"
   ],
   "note": ""
  },
  {
   "property": "C160",
   "status": "proved",
   "theorems": [
    "SmoothRF.C160_share_change",
    "SmoothRF.C160_class_same",
    "SmoothRF.C160_zero_eps",
    "SmoothRF.C160_test",
    "SmoothRF.C160_refuted_even"
   ],
   "note": ""
  },
  {
   "property": "C161",
   "status": "proved",
   "theorems": [
    "SmoothRF.C161_prune",
    "SmoothRF.C161_ancestors",
    "SmoothRF.C161_root",
    "SmoothRF.C161_upward_refuted",
    "SmoothRF.C161_single_reg",
    "SmoothRF.C161_single_cls",
    "SmoothRF.C161_single_refuted"
   ],
   "note": ""
  },
  {
   "property": "C162",
   "status": "proved",
   "theorems": [
    "SmoothRF.C162_change",
    "SmoothRF.C162_factor_two",
    "SmoothRF.C162_error",
    "SmoothRF.C162_gini_grid",
    "SmoothRF.C162_gini_exact",
    "SmoothRF.C162_refuted",
    "SmoothRF.C162_zero_lost",
    "SmoothRF.C162_gini_error",
    "SmoothRF.C162_variance_error"
   ],
   "note": ""
  },
  {
   "property": "C163",
   "status": "proved",
   "theorems": [
    "SmoothRF.C163_returns",
    "SmoothRF.C163_feasible",
    "SmoothRF.C163_refuted"
   ],
   "note": ""
  },
  {
   "property": "C164",
   "status": "proved",
   "theorems": [
    "SmoothRF.C164_value",
    "SmoothRF.C164_zero",
    "SmoothRF.C164_assertion"
   ],
   "note": ""
  },
  {
   "property": "C165",
   "status": "proved",
   "theorems": [
    "SmoothRF.C165_value",
    "SmoothRF.C165_bits",
    "SmoothRF.C165_close",
    "SmoothRF.C165_refuted"
   ],
   "note": "the per-leaf formula alone is C155"
  },
  {
   "property": "C166",
   "status": "partial",
   "theorems": [
    "SmoothRF.C166_truncation_partial",
    "SmoothRF.C166_depth_tune_partial",
    "SmoothRF.C166_refuted"
   ],
   "note": "the claim for arbitrary trees is false (C166_refuted); proved for trees whose leaves all have the same depth"
  },
  {
   "property": "C167",
   "status": "proved",
   "theorems": [
    "SmoothRF.C167_parents_all",
    "SmoothRF.C167_converse",
    "SmoothRF.C167_plain_is_richer",
    "SmoothRF.C167_smooth"
   ],
   "note": ""
  },
  {
   "property": "C168",
   "status": "partial",
   "theorems": [
    "SmoothRF.C168_one_level_partial",
    "SmoothRF.C168_refuted"
   ],
   "note": "the general claim is false (C168_refuted); the partial theorem covers weight on one level and leaves of equal depth"
  },
  {
   "property": "C169",
   "status": "partial",
   "theorems": [
    "SmoothRF.C169_loss",
    "SmoothRF.C169_descent",
    "SmoothRF.C169_smooth_partial",
    "SmoothRF.C169_refuted",
    "SmoothRF.C169_clean_refuted"
   ],
   "note": "false without parents_all and for smooth_clean (witnesses); proved for constrained plain smoothing with parents_all; from the default or a non-negative random start; Adam is covered only at the level of the descent (C169_descent)"
  },
  {
   "property": "C170",
   "status": "partial",
   "theorems": [
    "SmoothRF.C170_generate_data_partial",
    "SmoothRF.C170_generate_data_refuted",
    "SmoothRF.C170_knn_partial",
    "SmoothRF.C170_knn_refuted",
    "SmoothRF.C170_spirals"
   ],
   "note": "false for some draws (witnesses); exact conditions proved"
  },
  {
   "property": "C171",
   "status": "proved",
   "theorems": [
    "SmoothRF.C171_near_minimal",
    "SmoothRF.C171_separated",
    "SmoothRF.C171_classes",
    "SmoothRF.C171_refuted"
   ],
   "note": "the predicted values are stored doubles, so only differences, squares and sums round; overflow and underflow are not modelled"
  },
  {
   "property": "C172",
   "status": "partial",
   "theorems": [
    "SmoothRF.C172_twice",
    "SmoothRF.C172_even_partial",
    "SmoothRF.C172_stable",
    "SmoothRF.C172_refuted"
   ],
   "note": "refuted for trees with leaves at different depths; the exact results are C172_twice, C172_even_partial and C172_stable"
  },
  {
   "property": "C173",
   "status": "proved",
   "theorems": [
    "SmoothRF.C173_limit_stationary",
    "SmoothRF.C173_runs",
    "SmoothRF.C173_l2_limit",
    "SmoothRF.C173_plain_limit",
    "SmoothRF.C173_rosenbrock_gradient",
    "SmoothRF.C173_docstring_refuted",
    "SmoothRF.C173_rosenbrock_minimum",
    "SmoothRF.C173_rosenbrock_limit"
   ],
   "note": "exact real arithmetic; that the runs converge is not claimed"
  },
  {
   "property": "C174",
   "status": "proved",
   "theorems": [
    "SmoothRF.C174_accepted",
    "SmoothRF.C174_broken"
   ],
   "note": "the list of calls was extracted from the syntax trees of the files; name lookup is not modelled"
  },
  {
   "property": "C175",
   "status": "proved",
   "theorems": [
    "SmoothRF.C175_symmetric",
    "SmoothRF.C175_reversible",
    "SmoothRF.C175_stable",
    "SmoothRF.C175_smooth",
    "SmoothRF.C175_refuted"
   ],
   "note": "the failure of the standard style is C175_refuted; with one leaf's sample size as count see C168"
  },
  {
   "property": "C176",
   "status": "partial",
   "theorems": [
    "SmoothRF.C176_is_pos_def",
    "SmoothRF.C176_exact_partial",
    "SmoothRF.C176_update",
    "SmoothRF.C176_refuted",
    "SmoothRF.C176_tests"
   ],
   "note": "the claim that accepted matrices are symmetric and positive definite is refuted; the exact description is proved; exact arithmetic"
  },
  {
   "property": "C177",
   "status": "proved",
   "theorems": [
    "SmoothRF.C177_assertion",
    "SmoothRF.C177_error",
    "SmoothRF.C177_sanity",
    "SmoothRF.C177_bits",
    "SmoothRF.C177_refuted"
   ],
   "note": "C177_refuted shows the hypothesis on the leaf values is needed for equality in every bit"
  },
  {
   "property": "C178",
   "status": "proved",
   "theorems": [
    "SmoothRF.C178_error",
    "SmoothRF.C178_ends",
    "SmoothRF.C178_lerp_sorted",
    "SmoothRF.C178_gini",
    "SmoothRF.C178_refuted",
    "SmoothRF.C178_levels_refuted",
    "SmoothRF.C178_index_refuted"
   ],
   "note": "the order of the breaks is refuted for numpy <= 1.19 (C178_refuted, C178_levels_refuted); numpy itself is outside /repo, its two formulas are modelled as we know them, its source was not at hand"
  },
  {
   "property": "C179",
   "status": "proved",
   "theorems": [
    "SmoothRF.C179_children",
    "SmoothRF.C179_single",
    "SmoothRF.C179_single_eps",
    "SmoothRF.C179_float_center",
    "SmoothRF.C179_static",
    "SmoothRF.C179_refuted"
   ],
   "note": "C179_refuted: with scikit-learn's single-precision features C58 holds only up to rounding; scikit-learn itself is outside /repo"
  },
  {
   "property": "C180",
   "status": "proved",
   "theorems": [
    "SmoothRF.C180_cost",
    "SmoothRF.C180_best",
    "SmoothRF.C180_refuted"
   ],
   "note": "C180_refuted: a visited weight vector of smaller exact loss is not kept when both costs round to the same number; the steps themselves are any sequence here"
  },
  {
   "property": "C181",
   "status": "proved",
   "theorems": [
    "SmoothRF.C181_move",
    "SmoothRF.C181_margin",
    "SmoothRF.C181_class",
    "SmoothRF.C181_smooth",
    "SmoothRF.C181_sharp"
   ],
   "note": ""
  },
  {
   "property": "C182",
   "status": "proved",
   "theorems": [
    "SmoothRF.C182_descent",
    "SmoothRF.C182_descent_ce",
    "SmoothRF.C182_copies",
    "SmoothRF.C182_step_needed"
   ],
   "note": ""
  },
  {
   "property": "C183",
   "status": "proved",
   "theorems": [
    "SmoothRF.C183_projection",
    "SmoothRF.C183_empty",
    "SmoothRF.C183_once",
    "SmoothRF.C183_nearly_nearest",
    "SmoothRF.C183_moves",
    "SmoothRF.C183_cases",
    "SmoothRF.C183_twice"
   ],
   "note": ""
  },
  {
   "property": "C184",
   "status": "proved",
   "theorems": [
    "SmoothRF.C184_descent",
    "SmoothRF.C184_smooth",
    "SmoothRF.C184_missing_class"
   ],
   "note": ""
  },
  {
   "property": "C185",
   "status": "proved",
   "theorems": [
    "SmoothRF.C185_regression",
    "SmoothRF.C185_proba",
    "SmoothRF.C185_class",
    "SmoothRF.C185_smooth",
    "SmoothRF.C185_clean",
    "SmoothRF.C185_sharp"
   ],
   "note": ""
  },
  {
   "property": "C186",
   "status": "proved",
   "theorems": [
    "SmoothRF.C186_average_depth",
    "SmoothRF.C186_average_depth_smooth",
    "SmoothRF.C186_cleanup",
    "SmoothRF.C186_regression_prep",
    "SmoothRF.C186_band",
    "SmoothRF.C186_spiral_leak",
    "SmoothRF.C186_spiral_frame",
    "SmoothRF.C186_splice_unused",
    "SmoothRF.C186_prelim_name"
   ],
   "note": ""
  },
  {
   "property": "C187",
   "status": "proved",
   "theorems": [
    "SmoothRF.C187_gradient",
    "SmoothRF.C187_sign",
    "SmoothRF.C187_orthogonal",
    "SmoothRF.C187_orthogonal_refuted",
    "SmoothRF.C187_vanishes"
   ],
   "note": ""
  },
  {
   "property": "C188",
   "status": "proved",
   "theorems": [
    "SmoothRF.C188_gradient",
    "SmoothRF.C188_orthogonal",
    "SmoothRF.C188_orthogonal_refuted"
   ],
   "note": ""
  },
  {
   "property": "C189",
   "status": "proved",
   "theorems": [
    "SmoothRF.C189_lipschitz",
    "SmoothRF.C189_jump",
    "SmoothRF.C189_lipschitz_refuted",
    "SmoothRF.C189_accuracy",
    "SmoothRF.C189_accuracy_refuted"
   ],
   "note": ""
  },
  {
   "property": "C190",
   "status": "proved",
   "theorems": [
    "SmoothRF.C190_start_gradient",
    "SmoothRF.C190_step_iff",
    "SmoothRF.C190_descent_stays",
    "SmoothRF.C190_smooth_stays",
    "SmoothRF.C190_smooth_step_iff",
    "SmoothRF.C190_best_refuted"
   ],
   "note": "exact arithmetic; the iff is for plain steps, Adam only for staying"
  },
  {
   "property": "C191",
   "status": "partial",
   "theorems": [
    "SmoothRF.C191_refuted",
    "SmoothRF.C191_never_worse_partial",
    "SmoothRF.C191_every_depth"
   ],
   "note": "the full statement is false (C191_refuted); proved for forests whose leaves all have the same depth"
  },
  {
   "property": "C192",
   "status": "partial",
   "theorems": [
    "SmoothRF.C192_refuted",
    "SmoothRF.C192_change",
    "SmoothRF.C192_cart_partial",
    "SmoothRF.C192_monotone",
    "SmoothRF.C192_sequence",
    "SmoothRF.C192_column_stuck"
   ],
   "note": "the claim for the code's g1 is false (C192_refuted); proved with the weighting by n_t, together with what the unweighted rule does guarantee"
  },
  {
   "property": "C193",
   "status": "proved",
   "theorems": [
    "SmoothRF.C193_regression",
    "SmoothRF.C193_class",
    "SmoothRF.C193_ratio",
    "SmoothRF.C193_sanity",
    "SmoothRF.C193_refuted",
    "SmoothRF.C193_depth"
   ],
   "note": "C193_refuted shows on a stump that the entries of a twice smoothed classifier do not add up to one"
  },
  {
   "property": "C194",
   "status": "proved",
   "theorems": [
    "SmoothRF.C194_smooth_cost",
    "SmoothRF.C194_clean_cost",
    "SmoothRF.C194_bound",
    "SmoothRF.C194_disjoint",
    "SmoothRF.C194_refuted"
   ],
   "note": "C194_refuted: without disjoint out-of-bag sets the orders can differ"
  },
  {
   "property": "C195",
   "status": "partial",
   "theorems": [
    "SmoothRF.C195_prediction",
    "SmoothRF.C195_cost",
    "SmoothRF.C195_all_partial",
    "SmoothRF.C195_refuted"
   ],
   "note": "the full statement (cost close to the mean squared error over all observations ever out of bag) is false, C195_refuted; C195_all_partial states when it holds"
  },
  {
   "property": "C196",
   "status": "proved",
   "theorems": [
    "SmoothRF.C196_every_tree",
    "SmoothRF.C196_loss",
    "SmoothRF.C196_descent",
    "SmoothRF.C196_smooth",
    "SmoothRF.C196_plain_refuted"
   ],
   "note": "C196_plain_refuted is the counterexample without parents_all named in the statement"
  },
  {
   "property": "C197",
   "status": "proved",
   "theorems": [
    "SmoothRF.C197_raise",
    "SmoothRF.C197_siblings",
    "SmoothRF.C197_order",
    "SmoothRF.C197_smooth_raise",
    "SmoothRF.C197_smooth_order",
    "SmoothRF.C197_refuted"
   ],
   "note": "C197_refuted holds the three calls of part (c)"
  },
  {
   "property": "C198",
   "status": "proved",
   "theorems": [
    "SmoothRF.C198_run",
    "SmoothRF.C198_visited",
    "SmoothRF.C198_best",
    "SmoothRF.C198_returns",
    "SmoothRF.C198_step",
    "SmoothRF.C198_positive",
    "SmoothRF.C198_positive_refuted"
   ],
   "note": "no overflow or underflow in the model of doubles"
  },
  {
   "property": "C199",
   "status": "proved",
   "theorems": [
    "SmoothRF.C199_start",
    "SmoothRF.C199_forests",
    "SmoothRF.C199_never_worse",
    "SmoothRF.C199_never_worse_refuted",
    "SmoothRF.C199_fails",
    "SmoothRF.C199_sanity"
   ],
   "note": "no overflow or underflow in the model of doubles; the cross-entropy descent is a parameter and excluded by hypothesis"
  },
  {
   "property": "C200",
   "status": "proved",
   "theorems": [
    "SmoothRF.C200_descent",
    "SmoothRF.C200_forest",
    "SmoothRF.C200_full_loss",
    "SmoothRF.C200_unchanged",
    "SmoothRF.C200_costs",
    "SmoothRF.C200_fails",
    "SmoothRF.C200_returns_refuted",
    "SmoothRF.C200_weights_refuted"
   ],
   "note": "no overflow or underflow in the model of doubles; (e) are counterexamples"
  },
  {
   "property": "C201",
   "status": "proved",
   "theorems": [
    "SmoothRF.C201_gradient",
    "SmoothRF.C201_sign",
    "SmoothRF.C201_code",
    "SmoothRF.C201_refuted"
   ],
   "note": "no overflow or underflow in the model of doubles; C201_refuted is the counterexample without the sign condition"
  },
  {
   "property": "C202",
   "status": "proved",
   "theorems": [
    "SmoothRF.C202_slope",
    "SmoothRF.C202_shift",
    "SmoothRF.C202_flat_start",
    "SmoothRF.C202_stationary_refuted"
   ],
   "note": "real exponential; the slope is of the loss as coded (the mean over both axes of C86), which is why exact fits are not stationary"
  },
  {
   "property": "C203",
   "status": "partial",
   "theorems": [
    "SmoothRF.C203_weights",
    "SmoothRF.C203_row_sums",
    "SmoothRF.C203_total",
    "SmoothRF.C203_nearest",
    "SmoothRF.C203_exact_partial",
    "SmoothRF.C203_refuted"
   ],
   "note": "partial because the statement is false for the total (C203_refuted); the rest is proved, the total is exact under the condition of C203_exact_partial"
  },
  {
   "property": "C204",
   "status": "partial",
   "theorems": [
    "SmoothRF.C204_same_structure",
    "SmoothRF.C204_entries",
    "SmoothRF.C204_order",
    "SmoothRF.C204_error",
    "SmoothRF.C204_node_risk",
    "SmoothRF.C204_g1_sign_partial",
    "SmoothRF.C204_refuted"
   ],
   "note": "partial because g1 >= 0 is false in doubles (C204_refuted); C204_g1_sign_partial is what remains of it"
  },
  {
   "property": "C205",
   "status": "proved",
   "theorems": [
    "SmoothRF.C205_step",
    "SmoothRF.C205_returns",
    "SmoothRF.C205_moments",
    "SmoothRF.C205_total",
    "SmoothRF.C205_refuted"
   ],
   "note": "C205_refuted is the last sentence of the statement; C205_total is about stocastic_grad_descent after the checks of its arguments"
  },
  {
   "property": "C206",
   "status": "proved",
   "theorems": [
    "SmoothRF.C206_descent",
    "SmoothRF.C206_smooth",
    "SmoothRF.C206_factors",
    "SmoothRF.C206_numpy",
    "SmoothRF.C206_refuted"
   ],
   "note": "as in all statements about doubles there is no overflow or underflow; C206_refuted is the last part of the statement"
  },
  {
   "property": "C207",
   "status": "partial",
   "theorems": [
    "SmoothRF.C207_arrays",
    "SmoothRF.C207_predictions",
    "SmoothRF.C207_cost",
    "SmoothRF.C207_gradient",
    "SmoothRF.C207_no_step_size",
    "SmoothRF.C207_values",
    "SmoothRF.C207_full_loss_partial",
    "SmoothRF.C207_refuted"
   ],
   "note": "the full statement (same weights in all units) is false, C207_refuted; proved for the runs that return their starting weights and, given equal weights, for the forests"
  },
  {
   "property": "C208",
   "status": "proved",
   "theorems": [
    "SmoothRF.C208_depth_tune",
    "SmoothRF.C208_fit",
    "SmoothRF.C208_table",
    "SmoothRF.C208_cuts",
    "SmoothRF.C208_pruning",
    "SmoothRF.C208_smallest_g1"
   ],
   "note": ""
  },
  {
   "property": "C209",
   "status": "partial",
   "theorems": [
    "SmoothRF.C209_loss",
    "SmoothRF.C209_loss_origin",
    "SmoothRF.C209_units_partial",
    "SmoothRF.C209_origin_partial",
    "SmoothRF.C209_ridge",
    "SmoothRF.C209_units_refuted",
    "SmoothRF.C209_origin_refuted"
   ],
   "note": "The claim for all inputs is false: C209_units_refuted (singular problem, unit doubled) and C209_origin_refuted (tree without one of the levels, origin moved); C209_units_partial and C209_origin_partial prove it where the hypotheses exclude both."
  },
  {
   "property": "C210",
   "status": "proved",
   "theorems": [
    "SmoothRF.C210_arguments_analysis",
    "SmoothRF.C210_arguments_both",
    "SmoothRF.C210_analysis_levels_first",
    "SmoothRF.C210_data_sets",
    "SmoothRF.C210_files",
    "SmoothRF.C210_unknown_data",
    "SmoothRF.C210_mismatch_runs",
    "SmoothRF.C210_final_names",
    "SmoothRF.C210_interim_shared",
    "SmoothRF.C210_header_order",
    "SmoothRF.C210_impurity_needs_levels",
    "SmoothRF.C210_class_writes_nothing",
    "SmoothRF.C210_analysis_labels",
    "SmoothRF.C210_analysis_records"
   ],
   "note": "which strings int accepts and what the stages compute are parameters; the jobs are runJobs of Model/Experiment.lean"
  },
  {
   "property": "C211",
   "status": "partial",
   "theorems": [
    "SmoothRF.C211_discretise",
    "SmoothRF.C211_distances",
    "SmoothRF.C211_quantiles",
    "SmoothRF.C211_breaks",
    "SmoothRF.C211_matrices",
    "SmoothRF.C211_smooth_partial",
    "SmoothRF.C211_refuted"
   ],
   "note": "the claim without the condition on the constant 2 is false (C211_refuted); the full run is stated for a factor, not for a shift b, which leaves distances and levels unchanged"
  },
  {
   "property": "C212",
   "status": "proved",
   "theorems": [
    "SmoothRF.C212_given",
    "SmoothRF.C212_given_ignores",
    "SmoothRF.C212_same",
    "SmoothRF.C212_returns",
    "SmoothRF.C212_raises",
    "SmoothRF.C212_numpy",
    "SmoothRF.C212_forest_depth",
    "SmoothRF.C212_forest_impurity",
    "SmoothRF.C212_forest_refuses"
   ],
   "note": "the finding is stated as C212_numpy; a given matrix has non-negative whole entries"
  },
  {
   "property": "C213",
   "status": "proved",
   "theorems": [
    "SmoothRF.C213_smooth",
    "SmoothRF.C213_clean"
   ],
   "note": "the sufficient condition on a drawn start is that its first entry is not zero"
  },
  {
   "property": "C214",
   "status": "partial",
   "theorems": [
    "SmoothRF.C214_smooth_partial",
    "SmoothRF.C214_refuted"
   ],
   "note": "the claim without parents_all is false (C214_refuted); squared loss only"
  },
  {
   "property": "C215",
   "status": "proved",
   "theorems": [
    "SmoothRF.C215_one",
    "SmoothRF.C215_only",
    "SmoothRF.C215_needed",
    "SmoothRF.C215_optimal"
   ],
   "note": "the choice is stated by AllUses, independent of the model's allSource"
  },
  {
   "property": "C216",
   "status": "proved",
   "theorems": [
    "SmoothRF.C216_tuning",
    "SmoothRF.C216_counts",
    "SmoothRF.C216_trees"
   ],
   "note": "no adaptation of a step size is needed, unlike in smooth"
  },
  {
   "property": "C217",
   "status": "partial",
   "theorems": [
    "SmoothRF.C217_same_values",
    "SmoothRF.C217_never_worse_partial",
    "SmoothRF.C217_smooth_start",
    "SmoothRF.C217_refuted"
   ],
   "note": "the full statement C217Claim is refuted; C217_never_worse_partial assumes equal level weights (EvenLevels)"
  },
  {
   "property": "C218",
   "status": "proved",
   "theorems": [
    "SmoothRF.C218_update",
    "SmoothRF.C218_records"
   ],
   "note": "C90 and C122 describe the same functions for dictionaries without such names"
  },
  {
   "property": "C219",
   "status": "proved",
   "theorems": [
    "SmoothRF.C219_order",
    "SmoothRF.C219_rows",
    "SmoothRF.C219_trees",
    "SmoothRF.C219_single_node_order"
   ],
   "note": "exact arithmetic; the single-node case is a witness (UnboundLocalError first, ValueError after a stump) because C51 already shows that no such forest returns"
  },
  {
   "property": "C220",
   "status": "proved",
   "theorems": [
    "SmoothRF.C220_approx",
    "SmoothRF.C220_close",
    "SmoothRF.C220_ce",
    "SmoothRF.C220_clean",
    "SmoothRF.C220_differ"
   ],
   "note": "np.testing.assert_approx_equal and np.allclose are modelled from the numpy source, in exact arithmetic; in the clean descent the length is fixed by the type"
  },
  {
   "property": "C221",
   "status": "proved",
   "theorems": [
    "SmoothRF.C221_names",
    "SmoothRF.C221_order"
   ],
   "note": "exact arithmetic: in floating point the order of the rows can change the last digits of G and a"
  },
  {
   "property": "C222",
   "status": "partial",
   "theorems": [
    "SmoothRF.C222_names",
    "SmoothRF.C222_classes_partial",
    "SmoothRF.C222_classes_refuted"
   ],
   "note": "the node half is proved in full; the class half is false when a node has tied classes, because predict answers with the first largest class (C222_classes_refuted: other losses and another depth); proved when every node has one largest class"
  },
  {
   "property": "C223",
   "status": "proved",
   "theorems": [
    "SmoothRF.C223_missing",
    "SmoothRF.C223_class",
    "SmoothRF.C223_repeats",
    "SmoothRF.C223_ob"
   ],
   "note": "C223_missing is a check of the two file lists as transcribed; the classification lines fail in the cross-entropy job (C210_class_writes_nothing)"
  },
  {
   "property": "C224",
   "status": "proved",
   "theorems": [
    "SmoothRF.C224_clean",
    "SmoothRF.C224_clean_imp",
    "SmoothRF.C224_smooth_imp"
   ],
   "note": "exact arithmetic; the drawn subsets are data, so n_obs is multiplied by m as well (with all_obs this is automatic)"
  },
  {
   "property": "C225",
   "status": "proved",
   "theorems": [
    "SmoothRF.C225_returns",
    "SmoothRF.C225_raises",
    "SmoothRF.C225_entries",
    "SmoothRF.C225_kernel_order",
    "SmoothRF.C225_kernel_index"
   ],
   "note": "well-formed trees; C225_raises needs as many trees in both"
  },
  {
   "property": "C226",
   "status": "proved",
   "theorems": [
    "SmoothRF.C226_unchanged",
    "SmoothRF.C226_unchanged_reg",
    "SmoothRF.C226_smooth_agrees",
    "SmoothRF.C226_reg_agrees",
    "SmoothRF.C226_depth_tune_agrees"
   ],
   "note": "the agreement theorems say that the functions with memory after exceptions have the outcomes of the functions of C142"
  },
  {
   "property": "C227",
   "status": "proved",
   "theorems": [
    "SmoothRF.C227_range",
    "SmoothRF.C227_uniform",
    "SmoothRF.C227_reached",
    "SmoothRF.C227_rounding"
   ],
   "note": "numpy's random doubles are k / 2^53; rounding as in Model/Float.lean"
  },
  {
   "property": "C228",
   "status": "proved",
   "theorems": [
    "SmoothRF.C228_depth_tune",
    "SmoothRF.C228_depth_tune_returns",
    "SmoothRF.C228_pruning",
    "SmoothRF.C228_other_factor"
   ],
   "note": "C228_depth_tune (equality including exceptions) assumes that every tree is split; C228_depth_tune_returns needs no assumption. Exponents of doubles unbounded"
  },
  {
   "property": "C229",
   "status": "proved",
   "theorems": [
    "SmoothRF.C229_classes",
    "SmoothRF.C229_short",
    "SmoothRF.C229_three_trees",
    "SmoothRF.C229_three_rows"
   ],
   "note": "Trees with at least one split and at least one row each. Exponents of doubles unbounded"
  },
  {
   "property": "C230",
   "status": "partial",
   "theorems": [
    "SmoothRF.C230_predictions",
    "SmoothRF.C230_cost",
    "SmoothRF.C230_observations",
    "SmoothRF.C230_values",
    "SmoothRF.C230_full_loss_partial",
    "SmoothRF.C230_refuted"
   ],
   "note": "Predictions and costs at given weights scale exactly, and so do forests of runs with equal weights; with all_obs or use_full_loss the weights are equal. False for runs that learn, for every step size (C230_refuted), because the gradient mixes two units (C47, C207). Exponents of doubles unbounded"
  },
  {
   "property": "C231",
   "status": "partial",
   "theorems": [
    "SmoothRF.C231_accuracy",
    "SmoothRF.C231_error",
    "SmoothRF.C231_zero",
    "SmoothRF.C231_order_partial",
    "SmoothRF.C231_refuted"
   ],
   "note": "Proved for acc_np, for the zero of l2_np and for errors further apart than (1+-2^-53)^(n+4); false for closer errors, where the order can turn round (C231_refuted). Exponents of doubles unbounded"
  },
  {
   "property": "C232",
   "status": "partial",
   "theorems": [
    "SmoothRF.C232_weights_partial",
    "SmoothRF.C232_units",
    "SmoothRF.C232_unit_weights",
    "SmoothRF.C232_zero",
    "SmoothRF.C232_refuted"
   ],
   "note": "Weights may be multiplied by plus or minus a power of two; for the factor 3 the loss can change in the last place (C232_refuted), so the ratios do not determine it. The rest is proved. Exponents of doubles unbounded"
  },
  {
   "property": "C233",
   "status": "partial",
   "theorems": [
    "SmoothRF.C233_accuracy",
    "SmoothRF.C233_error_partial",
    "SmoothRF.C233_refuted"
   ],
   "note": "Proved for acc_np, and for l2_np if the errors are whole multiples of 2^e with squares adding up to at most 2^53 * 2^(2e); false otherwise, five rows and their reversal (C233_refuted). Exponents of doubles unbounded"
  }
 ]
}
