#!/usr/bin/env python3
"""Writes MANIFEST.json and lean/Verif/Audit.lean from the table below."""
import json, os
M = {}
def m(id, status, theorems, note=""):
    M[id] = dict(property=id, status=status, theorems=["SmoothRF."+t for t in theorems.split()], note=note)

m("C01","proved","C01_depth_per_node")
m("C02","proved","C02_calc_depth_for_forest")
m("C03","proved","C03_depth_per_node_plus_parent")
m("C04","proved","C04_calc_parent")
m("C05","proved","C05_create_decision_per_leafs")
m("C06","proved","C06_decision_path_nodes_agrees")
m("C07","proved","C07_distance_standard")
m("C08","proved","C08_distance_max_min")
m("C09","proved","C09_change_in_impurity")
m("C10","proved","C10_distance_impurity C10_impurity_distance_can_be_negative")
m("C11","proved","C11_discretise C11_level_zero C11_raises","array levels; integer levels (np.quantile) are covered by C94-C96")
m("C12","proved","C12_gamma_eta_definition C12_level_is_lca")
m("C13","proved","C13_mass_conserved")
m("C14","proved","C14_parents_all_cumulative")
m("C15","proved","C15_parents_all_ratio")
m("C16","proved","C16_forest_stacking")
m("C18","partial","C18_level_features_partial C18_padded_impurity_refuted C18_min_style_raises","false as stated: columns padded beyond a tree's own depth hold the first leaf's impurity instead of the root's (refuted by witness); depth_full and the unpadded columns are proved")
m("C17","proved","C17_assertion_never_fires C17_negative_lambda_can_raise")
m("C19","proved","C19_prox_nonneg_monotone C19_empty_raises")
m("C20","partial","C20_prox_projection_partial C20_refuted C20_deficient_refuted","false as stated: rho compares the unsorted vector with the sorted thresholds ([1,0,1] -> [2/3,0,2/3]) and vectors with positive part summing to less than 1 are only clipped; proved: exact Euclidean projection for descending input with positive part summing to at least 1, and exactness iff the result sums to 1")
m("C21","proved","C21_feasible_fixed")
m("C22","partial","C22_argument_unchanged_partial C22_refuted","false as stated: negative entries of the caller's array are zeroed in place; unchanged exactly for non-negative input")
m("C23","proved","C23_calc_cost")
m("C24","proved","C24_gradient_l2")
m("C25","proved","C25_gradient_orthogonal")
m("C26","proved","C26_gradient_ce C26_zero_probability_gradient")
m("C27","proved","C27_sgd_returns_best C27_plain_step C27_plain_constrained_returns")
m("C28","partial","C28_iterates_nonneg_partial C28_refuted","false as stated: iterates need not sum to 1 because of C20; non-negativity proved")
m("C29","proved","C29_rejects_bad_start")
m("C30","proved","C30_no_corruption")
m("C32","proved","C32_first_moment")
m("C33","partial","C33_second_moment_partial C33_refuted","false as stated: the factor is (1-beta_1) instead of (1-beta_2); the exact value computed is proved")
m("C34","proved","C34_argument_handling")
m("C31","partial","C31_refuted C31_l2_returns_partial","false as stated: prox_project_ce contains an unconditional assert False, so the default classification optimiser never returns once a step is taken; proved: the l2 loss returns")
m("C35","proved","C35_values_between_leaves C35_constrained_lamb_nonneg")
m("C36","proved","C36_sanity_identity C36_clean_sanity_identity","for smooth: the first returned forest, default initial_lamb_seed=None (the second forest is C39)")
m("C37","proved","C37_only_leaf_values C37_clean_only_leaf_values C37_all_only_leaf_values")
m("C38","proved","C38_first_forest_rows C38_optimiser_rows")
m("C39","partial","C39_second_forest_partial C39_refuted","false as stated: the second loop advances start_idx instead of start_idx2, so every tree of the second forest is filled from the first rows; the exact rows written are proved")
m("C40","proved","C40_probability_vectors")
m("C41","partial","C41_sanity_class_partial C41_refuted","false as stated: class_eps is mixed into lambda before the sanity check; the exact lambda is proved")
m("C42","proved","C42_ravel_inverse")
m("C43","proved","C43_tuning_source C43_argument_checks")
m("C44","proved","C44_tuning_summaries")
m("C73","proved","C73_missing_class_raises")
m("C45","proved","C45_leaf_rows C45_weights")
m("C46","proved","C46_oob_average C46_zero_denominator")
m("C47","partial","C47_oob_gradient_partial C47_refuted","false as stated: the first term is divided by the numerator instead of the denominator; the exact difference from the gradient is proved")
m("C48","partial","C48_full_loss_partial C48_zero_steps C48_refuted C48_no_smoothing","false as stated: the update is guarded by cost_new < cost_new, so the start vector is always returned; zero steps raise UnboundLocalError")
m("C49","proved","C49_cost_list C49_run")
m("C74","proved","C74_clean_rows C74_regression_only")
m("C75","proved","C75_clean_nonneg")
m("C76","proved","C76_cost C76_l2_grad")
m("C50","proved","C50_leaf_predicted_values")
m("C51","proved","C51_depth_tune C51_single_node_raises C51_any_single_node_raises C51_argument_checks")
m("C52","partial","C52_depth_tune_partial C52_refuted","false as stated: range(max_depth) leaves out the full depth, so leaves at full depth are always overwritten with an ancestor's value")
m("C53","proved","C53_initial_table")
m("C54","proved","C54_prune_exact")
m("C55","partial","C55_g1_exact_partial C55_pruned_leaf_g1_stale C55_refuted","false as stated: _inner_prune_down does not reset g1 of the pruned node, so a node turned into a leaf keeps its old finite g1")
m("C56","proved","C56_rejects")
m("C57","proved","C57_node_risk C57_training_risk C57_superadditive")
m("C77","proved","C77_prune_tree_name_error")
m("C78","proved","C78_order_independent")
m("C58","proved","C58_boxes_contain C58_boxes_exact C58_center C58_empty")
m("C79","proved","C79_center_forest")
m("C80","proved","C80_all_distances")
m("C59","proved","C59_kernel C59_default_weights C59_checks")
m("C60","partial","C60_default_levels_partial C60_refuted","false as stated: the default max_depth is computed from tree indices, so the number of levels is the number of trees minus one")
m("C61","proved","C61_depth_dist C61_max_min C61_arguments")
m("C62","proved","C62_categorical C62_rejects")
m("C63","proved","C63_least_shift C63_terminates C63_not_symmetric","the positive-definiteness test is a parameter; termination is for the exact test")
m("C81","proved","C81_implementations_agree")
m("C82","proved","C82_remove_level_zero C82_needs_zero")
m("C64","proved","C64_values C64_sanity_reading C64_sanity_identity C64_range C64_range_needs_parents_all C64_argument_checks")
m("C83","proved","C83_lambda_optimal C83_exact_minimum","library solvers assumed exact; exact_run shows the hypotheses hold together")
m("C84","proved","C84_no_assertion_constrained C84_no_assertion_unconstrained","library solvers assumed exact")
m("C85","proved","C85_tuning_attributes")
m("C65","proved","C65_batches C65_partition")
m("C66","proved","C66_feature_layout C66_shapes")
m("C67","proved","C67_forward C67_real_exp C67_range")
m("C68","partial","C68_reported_minimum_partial C68_refuted","false for params_min, which aliases the live parameters")
m("C69","partial","C69_tuning_ignored_partial C69_refuted","false as stated: train_only is hard-coded, tuning data is ignored")
m("C70","partial","C70_same_variables_partial C70_refuted C70_x_dicts_raise","false unless one_d_dict is used and x_dicts is empty")
m("C86","partial","C86_equal_shapes_partial C86_training_loss C86_decomposition C86_ignores_matching C86_refuted","false as stated: shapes (1,N) and (1,N,1) broadcast, so every response is compared with every prediction")
m("C87","partial","C87_steps_partial C87_all_trees_refuted C87_step_number_refuted","all_trees changes only the number of steps")
m("C88","proved","C88_initial_weights C88_close_to_forest")
m("C89","proved","C89_update_rf C89_returns")
m("C90","proved","C90_centers C90_none C90_classes_refused","the entries are not repeated per class, so the data set refuses them when there are several classes")
m("C71","proved","C71_generate_data C71_negative","")
m("C72","proved","C72_spirals C72_errors","")
m("C91","partial","C91_sizes_partial C91_refuted","the bound by large_n is false (missing 2/3 factor); proved: 67/65 large_n and exact class-0 count")
m("C92","proved","C92_knn C92_errors","")
m("C93","proved","C93_spiral_geometry C93_negative_shift","")
m("C94","proved","C94_impurity_matrices C94_returns","with parents_all, coordinates outside the sparse shape are taken to be dropped")
m("C95","partial","C95_shared_levels_partial C95_refuted","false: a tree may insert its own break; proved: levels differ by at most one, not at all for distances <= 0")
m("C96","proved","C96_quantiles C96_returns","")
m("C97","partial","C97_oob_reg_partial C97_oob_cls_partial C97_rows_refuted C97_reg_refuted C97_cls_refuted C97_absent_class","rows are stacked, the regression mean is over all out-of-bag rows, the classification value is the accuracy")
m("C98","proved","C98_weighted_l2 C98_best_constant C98_unweighted","")
m("C99","proved","C99_is_pos_def C99_cholesky C99_update_til_psd","exact arithmetic: allclose is equality, a pivot is tested exactly")
m("C100","partial","C100_in_null_partial C100_nonzero C100_refuted","false for v = 0 when the null space is trivial; true for every other v; exact rank and basis")
m("C101","proved","C101_returns_constrained C101_returns_unconstrained","solvers are parameters, assumed exact and complete on positive definite problems")
m("C102","proved","C102_kernel_psd","")
m("C103","proved","C103_standard_triangle C103_max_metric C103_max_value C103_min_not_metric","")
m("C104","proved","C104_norm_never_shrinks C104_norm_never_shrinks_ce C104_ce_orthogonal","")
m("C105","proved","C105_cover C105_faces C105_volume","")
m("C106","proved","C106_tree_more C106_other_type_raises C106_min_is_narrower","")
m("C107","proved","C107_never_worse C107_class_worse","regression, as stated; C107_class_worse shows it does not extend to classifiers, whose start is altered by class_eps")
m("C108","proved","C108_step_bound C108_default_step C108_total_move C108_first_step","exact square root; first step for eps = 0")
m("C109","proved","C109_descent C109_one_step","")
m("C110","proved","C110_unbiased C110_unbiased_ce","")
m("C111","proved","C111_search_best C111_unknown_type","fitting a forest is an oracle")
m("C112","proved","C112_never_zero C112_always_average","")
m("C113","proved","C113_loss C113_descent C113_smooth_units","")
m("C114","proved","C114_smooth_totals C114_smooth_order C114_prep_order C114_all_totals C114_depth_order","")
m("C115","proved","C115_descent C115_descent_ce C115_tree_order C115_second_forest_depends_on_order","the last theorem is the concrete counterexample for the second forest")
m("C116","proved","C116_returns C116_ridge C116_error_bound C116_never_worse C116_worse","never-worse fails when the tuning rows do not determine the weights (C116_worse): the ridge moves weight off the leaf; proved otherwise, with the exact slack in C116_error_bound")
m("C117","proved","C117_refuses C117_rows C117_smooth_needs_training","")
m("C118","proved","C118_values C118_optimiser_rows C118_needs","the second forest has the fault of C39; C118_values says what it holds")
m("C119","proved","C119_between_leaves C119_probability_vectors C119_weights_nonneg","")
m("C120","partial","C120_sanity_partial C120_refuted_merge C120_refuted_quantiles","false: leaves at distance <= 0 are averaged, and negative quantile breaks move the leaf itself off level 0; proved: the exact result when no break is negative")
m("C121","proved","C121_clean_values C121_oob_average C121_no_training","")
m("C122","proved","C122_names C122_grid C122_records C122_job","")
m("C123","proved","C123_no_effect C123_base","")
m("C124","proved","C124_classifier C124_needs_levels C124_few_rows","")
m("C125","proved","C125_names C125_records C125_job C125_parents_label","")
m("C126","proved","C126_label_clash C126_class_never_returns C126_wols_labels","")
m("C127","proved","C127_mse C127_accuracy C127_predict_class C127_unknown","")
m("C128","proved","C128_needs C128_depth C128_impurity C128_defaults C128_rejected C128_loss_typo C128_clean","")
m("C129","proved","C129_never_returns C129_exchanged","")
m("C130","proved","C130_cells C130_level_cells","")
m("C131","proved","C131_oracle_file C131_tuning_typo C131_known C131_unbound C131_loss_ignored C131_class_never_returns C131_inner_ignored C131_script_options","")
m("C132","proved","C132_band C132_not_standard_error C132_cost_rows C132_cost_default","")
m("C133","proved","C133_runs C133_files C133_arguments","")
m("C134","proved","C134_descent_returns C134_smooth_returns C134_unconstrained_raises","")
m("C135","proved","C135_clean_returns_iff","")
m("C136","proved","C136_names C136_classes","")
m("C137","proved","C137_descent C137_descent_ce C137_repeated","")
m("C138","proved","C138_clean_order","")
m("C139","proved","C139_binding C139_adam_dict C139_main_calls C139_old_calls","")
m("C140","proved","C140_impurity_order C140_refuted_first C140_refuted_five","False without the provisos; both provisos are shown to be needed by concrete forests.")
m("C141","proved","C141_smooth_names C141_clean_names","")
m("C142","proved","C142_smooth C142_clean C142_all C142_depth_tune C142_input C142_input_reg","")
m("C143","proved","C143_check C143_guarantee","")
m("C144","proved","C144_regression C144_classification","FitReg and FitCls (Spec/Fit.lean) describe what sklearn stores: rows through the node, their number, mean, mean squared deviation or class counts. Fitting itself is not modelled.")
m("C145","proved","C145_one_leaf C145_regression C145_regression_g1 C145_classification C145_some_child_reg C145_some_child_cls","")
m("C146","proved","C146_zero_cost_start C146_learns_nothing C146_training_data C146_smooth_all","The exception for smooth_all is real: C116_worse has one tuning row predicted exactly by the original forest and a changed result.")
m("C147","proved","C147_depth_matrix C147_impurity_matrix C147_same_source C147_tree_depth C147_tree_impurity C147_returns C147_errors C147_negative_levels","levels=[...] as a Python list is an AttributeError even for the depth distance.")
m("C148","proved","C148_fitted_values C148_smooth C148_smooth_parents_all C148_clean C148_smooth_all C148_depth_tune C148_leaves_range","Non-negative weights: C35_constrained_lamb_nonneg for smooth with the constraint. Probability weights of smooth_all: C83, C116 with exact routines.")
m("C149","proved","C149_outside C149_dropped C149_raises C149_wrapped C149_wrapped_base","The rest of the model uses the dropped treatment.")
m("C150","proved","C150_smooth C150_smooth_impurity C150_prep C150_all C150_depth C150_append C150_clean","That sklearn rejects arrays without rows (decision_path, predict) is part of the model.")
m("C151","proved","C151_depths C151_parent_mat C151_impurity","")
m("C152","proved","C152_tree C152_forest C152_forest_impurity C152_forest_more","")
m("C153","partial","C153_divisor C153_sound C153_ever_oob_partial C153_few_trees C153_refuted","false as stated for six out-of-bag trees (six weights 1/6 sum to 0.9999999999999999); the exact result for at most seven trees and the powers of two remain")
m("C154","partial","C154_default C154_uniform_partial C154_clean_seed C154_refuted_uniform C154_refuted_seed C154_refuted_class C154_refuted_class_eps","false as stated for np.ones(6)/6, for random starts and for classification with class_loss='l2'; proved for the default regression start, for powers of two and for smooth_clean")
m("C155","proved","C155_sanity C155_refuted C155_any_value","")
m("C156","proved","C156_idx_mat C156_weights C156_G_H C156_y_oob C156_grad","")
m("C157","proved","C157_level_blocks C157_kernel C157_distances C157_tuning C157_tuning_rounded C157_update","")
m("C158","proved","C158_changes C158_leaf_change C158_regression_close C158_allclose C158_class_same C158_class_refuted","")
m("C159","proved","C159_prep C159_dataset C159_forward C159_regression_refuted","")
m("C160","proved","C160_share_change C160_class_same C160_zero_eps C160_test C160_refuted_even","")
m("C161","proved","C161_prune C161_ancestors C161_root C161_upward_refuted C161_single_reg C161_single_cls C161_single_refuted","")
m("C162","proved","C162_change C162_factor_two C162_error C162_gini_grid C162_gini_exact C162_refuted C162_zero_lost C162_gini_error C162_variance_error","")
m("C163","proved","C163_returns C163_feasible C163_refuted","")
m("C164","proved","C164_value C164_zero C164_assertion","")
m("C165","proved","C165_value C165_bits C165_close C165_refuted","the per-leaf formula alone is C155")
m("C166","partial","C166_truncation_partial C166_depth_tune_partial C166_refuted","the claim for arbitrary trees is false (C166_refuted); proved for trees whose leaves all have the same depth")
m("C167","proved","C167_parents_all C167_converse C167_plain_is_richer C167_smooth","")
m("C168","partial","C168_one_level_partial C168_refuted","the general claim is false (C168_refuted); the partial theorem covers weight on one level and leaves of equal depth")
m("C169","partial","C169_loss C169_descent C169_smooth_partial C169_refuted C169_clean_refuted","false without parents_all and for smooth_clean (witnesses); proved for constrained plain smoothing with parents_all; from the default or a non-negative random start; Adam is covered only at the level of the descent (C169_descent)")
m("C170","partial","C170_generate_data_partial C170_generate_data_refuted C170_knn_partial C170_knn_refuted C170_spirals","false for some draws (witnesses); exact conditions proved")
m("C171","proved","C171_near_minimal C171_separated C171_classes C171_refuted","the predicted values are stored doubles, so only differences, squares and sums round; overflow and underflow are not modelled")
m("C172","partial","C172_twice C172_even_partial C172_stable C172_refuted","refuted for trees with leaves at different depths; the exact results are C172_twice, C172_even_partial and C172_stable")
m("C173","proved","C173_limit_stationary C173_runs C173_l2_limit C173_plain_limit C173_rosenbrock_gradient C173_docstring_refuted C173_rosenbrock_minimum C173_rosenbrock_limit","exact real arithmetic; that the runs converge is not claimed")
m("C174","proved","C174_accepted C174_broken","the list of calls was extracted from the syntax trees of the files; name lookup is not modelled")
m("C175","proved","C175_symmetric C175_reversible C175_stable C175_smooth C175_refuted","the failure of the standard style is C175_refuted; with one leaf's sample size as count see C168")
m("C176","partial","C176_is_pos_def C176_exact_partial C176_update C176_refuted C176_tests","the claim that accepted matrices are symmetric and positive definite is refuted; the exact description is proved; exact arithmetic")
m("C177","proved","C177_assertion C177_error C177_sanity C177_bits C177_refuted","C177_refuted shows the hypothesis on the leaf values is needed for equality in every bit")
m("C178","proved","C178_error C178_ends C178_lerp_sorted C178_gini C178_refuted C178_levels_refuted C178_index_refuted","the order of the breaks is refuted for numpy <= 1.19 (C178_refuted, C178_levels_refuted); numpy itself is outside /repo, its two formulas are modelled as we know them, its source was not at hand")
m("C179","proved","C179_children C179_single C179_single_eps C179_float_center C179_static C179_refuted","C179_refuted: with scikit-learn's single-precision features C58 holds only up to rounding; scikit-learn itself is outside /repo")
m("C180","proved","C180_cost C180_best C180_refuted","C180_refuted: a visited weight vector of smaller exact loss is not kept when both costs round to the same number; the steps themselves are any sequence here")
m("C181","proved","C181_move C181_margin C181_class C181_smooth C181_sharp","")
m("C182","proved","C182_descent C182_descent_ce C182_copies C182_step_needed","")
m("C183","proved","C183_projection C183_empty C183_once C183_nearly_nearest C183_moves C183_cases C183_twice","")
m("C184","proved","C184_descent C184_smooth C184_missing_class","")
m("C185","proved","C185_regression C185_proba C185_class C185_smooth C185_clean C185_sharp","")
m("C186","proved","C186_average_depth C186_average_depth_smooth C186_cleanup C186_regression_prep C186_band C186_spiral_leak C186_spiral_frame C186_splice_unused C186_prelim_name","")
m("C187","proved","C187_gradient C187_sign C187_orthogonal C187_orthogonal_refuted C187_vanishes","")
m("C188","proved","C188_gradient C188_orthogonal C188_orthogonal_refuted","")
m("C189","proved","C189_lipschitz C189_jump C189_lipschitz_refuted C189_accuracy C189_accuracy_refuted","")
m("C190","proved","C190_start_gradient C190_step_iff C190_descent_stays C190_smooth_stays C190_smooth_step_iff C190_best_refuted","exact arithmetic; the iff is for plain steps, Adam only for staying")
m("C191","partial","C191_refuted C191_never_worse_partial C191_every_depth","the full statement is false (C191_refuted); proved for forests whose leaves all have the same depth")
m("C192","partial","C192_refuted C192_change C192_cart_partial C192_monotone C192_sequence C192_column_stuck","the claim for the code's g1 is false (C192_refuted); proved with the weighting by n_t, together with what the unweighted rule does guarantee")
m("C193","proved","C193_regression C193_class C193_ratio C193_sanity C193_refuted C193_depth","C193_refuted shows on a stump that the entries of a twice smoothed classifier do not add up to one")
m("C194","proved","C194_smooth_cost C194_clean_cost C194_bound C194_disjoint C194_refuted","C194_refuted: without disjoint out-of-bag sets the orders can differ")
m("C195","partial","C195_prediction C195_cost C195_all_partial C195_refuted","the full statement (cost close to the mean squared error over all observations ever out of bag) is false, C195_refuted; C195_all_partial states when it holds")
m("C196","proved","C196_every_tree C196_loss C196_descent C196_smooth C196_plain_refuted","C196_plain_refuted is the counterexample without parents_all named in the statement")
m("C197","proved","C197_raise C197_siblings C197_order C197_smooth_raise C197_smooth_order C197_refuted","C197_refuted holds the three calls of part (c)")
m("C198","proved","C198_run C198_visited C198_best C198_returns C198_step C198_positive C198_positive_refuted","no overflow or underflow in the model of doubles")
m("C199","proved","C199_start C199_forests C199_never_worse C199_never_worse_refuted C199_fails C199_sanity","no overflow or underflow in the model of doubles; the cross-entropy descent is a parameter and excluded by hypothesis")
m("C200","proved","C200_descent C200_forest C200_full_loss C200_unchanged C200_costs C200_fails C200_returns_refuted C200_weights_refuted","no overflow or underflow in the model of doubles; (e) are counterexamples")
m("C201","proved","C201_gradient C201_sign C201_code C201_refuted","no overflow or underflow in the model of doubles; C201_refuted is the counterexample without the sign condition")
m("C202","proved","C202_slope C202_shift C202_flat_start C202_stationary_refuted","real exponential; the slope is of the loss as coded (the mean over both axes of C86), which is why exact fits are not stationary")
m("C203","partial","C203_weights C203_row_sums C203_total C203_nearest C203_exact_partial C203_refuted","partial because the statement is false for the total (C203_refuted); the rest is proved, the total is exact under the condition of C203_exact_partial")
m("C204","partial","C204_same_structure C204_entries C204_order C204_error C204_node_risk C204_g1_sign_partial C204_refuted","partial because g1 >= 0 is false in doubles (C204_refuted); C204_g1_sign_partial is what remains of it")
m("C205","proved","C205_step C205_returns C205_moments C205_total C205_refuted","C205_refuted is the last sentence of the statement; C205_total is about stocastic_grad_descent after the checks of its arguments")
m("C206","proved","C206_descent C206_smooth C206_factors C206_numpy C206_refuted","as in all statements about doubles there is no overflow or underflow; C206_refuted is the last part of the statement")
m("C207","partial","C207_arrays C207_predictions C207_cost C207_gradient C207_no_step_size C207_values C207_full_loss_partial C207_refuted","the full statement (same weights in all units) is false, C207_refuted; proved for the runs that return their starting weights and, given equal weights, for the forests")
m("C208","proved","C208_depth_tune C208_fit C208_table C208_cuts C208_pruning C208_smallest_g1","")
m("C209","partial","C209_loss C209_loss_origin C209_units_partial C209_origin_partial C209_ridge C209_units_refuted C209_origin_refuted","The claim for all inputs is false: C209_units_refuted (singular problem, unit doubled) and C209_origin_refuted (tree without one of the levels, origin moved); C209_units_partial and C209_origin_partial prove it where the hypotheses exclude both.")
m("C210","proved","C210_arguments_analysis C210_arguments_both C210_analysis_levels_first C210_data_sets C210_files C210_unknown_data C210_mismatch_runs C210_final_names C210_interim_shared C210_header_order C210_impurity_needs_levels C210_class_writes_nothing C210_analysis_labels C210_analysis_records","which strings int accepts and what the stages compute are parameters; the jobs are runJobs of Model/Experiment.lean")
m("C211","partial","C211_discretise C211_distances C211_quantiles C211_breaks C211_matrices C211_smooth_partial C211_refuted","the claim without the condition on the constant 2 is false (C211_refuted); the full run is stated for a factor, not for a shift b, which leaves distances and levels unchanged")
m("C212","proved","C212_given C212_given_ignores C212_same C212_returns C212_raises C212_numpy C212_forest_depth C212_forest_impurity C212_forest_refuses","the finding is stated as C212_numpy; a given matrix has non-negative whole entries")
m("C213","proved","C213_smooth C213_clean","the sufficient condition on a drawn start is that its first entry is not zero")
m("C214","partial","C214_smooth_partial C214_refuted","the claim without parents_all is false (C214_refuted); squared loss only")
m("C215","proved","C215_one C215_only C215_needed C215_optimal","the choice is stated by AllUses, independent of the model's allSource")
m("C216","proved","C216_tuning C216_counts C216_trees","no adaptation of a step size is needed, unlike in smooth")
m("C217","partial","C217_same_values C217_never_worse_partial C217_smooth_start C217_refuted","the full statement C217Claim is refuted; C217_never_worse_partial assumes equal level weights (EvenLevels)")
m("C218","proved","C218_update C218_records","C90 and C122 describe the same functions for dictionaries without such names")
m("C219","proved","C219_order C219_rows C219_trees C219_single_node_order","exact arithmetic; the single-node case is a witness (UnboundLocalError first, ValueError after a stump) because C51 already shows that no such forest returns")
m("C220","proved","C220_approx C220_close C220_ce C220_clean C220_differ","np.testing.assert_approx_equal and np.allclose are modelled from the numpy source, in exact arithmetic; in the clean descent the length is fixed by the type")
m("C221","proved","C221_names C221_order","exact arithmetic: in floating point the order of the rows can change the last digits of G and a")
m("C222","partial","C222_names C222_classes_partial C222_classes_refuted","the node half is proved in full; the class half is false when a node has tied classes, because predict answers with the first largest class (C222_classes_refuted: other losses and another depth); proved when every node has one largest class")
m("C223","proved","C223_missing C223_class C223_repeats C223_ob","C223_missing is a check of the two file lists as transcribed; the classification lines fail in the cross-entropy job (C210_class_writes_nothing)")
m("C224","proved","C224_clean C224_clean_imp C224_smooth_imp","exact arithmetic; the drawn subsets are data, so n_obs is multiplied by m as well (with all_obs this is automatic)")
m("C225","proved","C225_returns C225_raises C225_entries C225_kernel_order C225_kernel_index","well-formed trees; C225_raises needs as many trees in both")
m("C226","proved","C226_unchanged C226_unchanged_reg C226_smooth_agrees C226_reg_agrees C226_depth_tune_agrees","the agreement theorems say that the functions with memory after exceptions have the outcomes of the functions of C142")
m("C227","proved","C227_range C227_uniform C227_reached C227_rounding","numpy's random doubles are k / 2^53; rounding as in Model/Float.lean")
m("C228","proved","C228_depth_tune C228_depth_tune_returns C228_pruning C228_other_factor","C228_depth_tune (equality including exceptions) assumes that every tree is split; C228_depth_tune_returns needs no assumption. Exponents of doubles unbounded")
m("C229","proved","C229_classes C229_short C229_three_trees C229_three_rows","Trees with at least one split and at least one row each. Exponents of doubles unbounded")
m("C230","partial","C230_predictions C230_cost C230_observations C230_values C230_full_loss_partial C230_refuted","Predictions and costs at given weights scale exactly, and so do forests of runs with equal weights; with all_obs or use_full_loss the weights are equal. False for runs that learn, for every step size (C230_refuted), because the gradient mixes two units (C47, C207). Exponents of doubles unbounded")
m("C231","partial","C231_accuracy C231_error C231_zero C231_order_partial C231_refuted","Proved for acc_np, for the zero of l2_np and for errors further apart than (1+-2^-53)^(n+4); false for closer errors, where the order can turn round (C231_refuted). Exponents of doubles unbounded")
m("C232","partial","C232_weights_partial C232_units C232_unit_weights C232_zero C232_refuted","Weights may be multiplied by plus or minus a power of two; for the factor 3 the loss can change in the last place (C232_refuted), so the ratios do not determine it. The rest is proved. Exponents of doubles unbounded")
m("C233","partial","C233_accuracy C233_error_partial C233_refuted","Proved for acc_np, and for l2_np if the errors are whole multiples of 2^e with squares adding up to at most 2^53 * 2^(2e); false otherwise, five rows and their reversal (C233_refuted). Exponents of doubles unbounded")
#END
if __name__=="__main__":
    root=os.path.join(os.path.dirname(os.path.abspath(__file__)),"..")
    import sys; sys.path.insert(0,os.path.dirname(os.path.abspath(__file__)))
    with open(os.path.join(root,"MANIFEST.json"),"w") as f:
        json.dump({"claims":list(M.values())},f,indent=1); f.write("\n")
    ths=[t for c in M.values() for t in c["theorems"]]
    assert len(ths)==len(set(ths)), [t for t in ths if ths.count(t)>1]
    mods=open(os.path.join(root,"lean/Verif.lean")).read().split()
    mods=[x for x in mods if x.startswith("Verif.Props")]
    with open(os.path.join(root,"lean/Verif/Audit.lean"),"w") as f:
        f.write("".join(f"import {x}\n" for x in mods))
        f.write("\n/-! Axioms of every property theorem (generated by tools/manifest.py). -/\n\n")
        f.write("".join(f"#print axioms {t}\n" for t in ths))
    print(len(M),"claims",len(ths),"theorems")
