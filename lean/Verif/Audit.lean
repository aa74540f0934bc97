import Verif.Props.TreeProps
import Verif.Props.DiscretiseProps
import Verif.Props.GammaProps
import Verif.Props.ProxProps
import Verif.Props.CostProps
import Verif.Props.SgdProps
import Verif.Props.SmoothProps
import Verif.Props.CleanProps
import Verif.Props.DepthTuneProps
import Verif.Props.PruneProps
import Verif.Props.BoxProps
import Verif.Props.LevelProps
import Verif.Props.SmoothAllProps
import Verif.Props.TorchProps
import Verif.Props.TorchRunProps
import Verif.Props.TorchCenterProps
import Verif.Props.DataProps
import Verif.Props.ImpurityProps
import Verif.Props.OobProps
import Verif.Props.LinalgProps
import Verif.Props.KernelProps
import Verif.Props.MetricProps
import Verif.Props.NormProps
import Verif.Props.BoxCoverProps
import Verif.Props.TreeMoreProps
import Verif.Props.TuneLossProps
import Verif.Props.AdamBoundProps
import Verif.Props.DescentProps
import Verif.Props.SearchProps
import Verif.Props.AliveProps
import Verif.Props.AffineProps
import Verif.Props.OrderProps
import Verif.Props.TreeOrderProps
import Verif.Props.AllExactProps
import Verif.Props.TorchSourceProps
import Verif.Props.SmoothImpProps
import Verif.Props.ExperimentProps
import Verif.Props.GrowProps
import Verif.Props.ReturnProps
import Verif.Props.CleanReturnProps
import Verif.Props.RenameProps
import Verif.Props.RepeatProps
import Verif.Props.CleanOrderProps
import Verif.Props.CallProps
import Verif.Props.ImpOrderProps
import Verif.Props.ImpRenameProps
import Verif.Props.ForestHeapProps
import Verif.Props.AssessProps
import Verif.Props.RepoTests
import Verif.Props.FitProps
import Verif.Props.TrainTuneProps
import Verif.Props.DistArgsProps
import Verif.Props.RangeProps
import Verif.Props.CooProps
import Verif.Props.EmptyProps
import Verif.Props.TestTreeProps
import Verif.Props.TestGammaProps
import Verif.Props.FloatProps
import Verif.Props.TestCleanProps
import Verif.Props.TestLevelProps
import Verif.Props.UpdateCloseProps
import Verif.Props.TestTorchProps
import Verif.Props.TestSanityProps
import Verif.Props.TestPruneProps
import Verif.Props.FloatImpurityProps
import Verif.Props.FloatProxProps
import Verif.Props.FloatSmoothProps
import Verif.Props.FloatSanityProps
import Verif.Props.TruncProps
import Verif.Props.CountProps
import Verif.Props.DataTests
import Verif.Props.FloatDepthProps
import Verif.Props.DepthTwiceProps
import Verif.Props.AdamLimitProps
import Verif.Props.TestCallProps
import Verif.Props.ReversibleProps
import Verif.Props.PosTolProps
import Verif.Props.FloatAllProps
import Verif.Props.FloatQuantileProps
import Verif.Props.FloatBoxProps
import Verif.Props.FloatCostProps
import Verif.Props.MarginProps
import Verif.Props.CopiesProps
import Verif.Props.ProxCeProps
import Verif.Props.ForestMarginProps
import Verif.Props.OldScriptsProps
import Verif.Props.FloatGradProps
import Verif.Props.FloatGradCeProps
import Verif.Props.ProxContinuityProps
import Verif.Props.StuckProps
import Verif.Props.AllDepthProps
import Verif.Props.WeakestLinkProps
import Verif.Props.SmoothTwiceProps
import Verif.Props.ObjectiveProps
import Verif.Props.FloatCleanProps
import Verif.Props.BinaryProps
import Verif.Props.RaiseProps
import Verif.Props.FloatSgdProps
import Verif.Props.FloatForestProps
import Verif.Props.FloatCleanForestProps
import Verif.Props.FloatCleanGradProps
import Verif.Props.TorchGradProps
import Verif.Props.TestOobFloatProps
import Verif.Props.FloatPruneProps
import Verif.Props.FloatAdamProps
import Verif.Props.FloatUnitsProps
import Verif.Props.CleanUnitsProps
import Verif.Props.TuneUnitsProps
import Verif.Props.AllUnitsProps
import Verif.Props.CmdLineProps
import Verif.Props.ImpUnitsProps
import Verif.Props.GammaArgsProps
import Verif.Props.ImpReturnProps
import Verif.Props.CountClsProps
import Verif.Props.AllSourceProps
import Verif.Props.AllRepeatProps
import Verif.Props.AllSmoothProps
import Verif.Props.DictProps
import Verif.Props.DepthOrderProps
import Verif.Props.FeasibleProps
import Verif.Props.AllNamesProps
import Verif.Props.DepthNamesProps
import Verif.Props.BatchProps
import Verif.Props.CleanRepeatProps
import Verif.Props.LevelPairProps
import Verif.Props.ForestCrashProps
import Verif.Props.SeedProps
import Verif.Props.FloatTuneUnitsProps
import Verif.Props.FloatDepthOrderProps
import Verif.Props.FloatCleanUnitsProps
import Verif.Props.FloatScoresProps
import Verif.Props.FloatWeightedScoreProps
import Verif.Props.FloatScoreOrderProps

/-! Axioms of every property theorem (generated by tools/manifest.py). -/

#print axioms SmoothRF.C01_depth_per_node
#print axioms SmoothRF.C02_calc_depth_for_forest
#print axioms SmoothRF.C03_depth_per_node_plus_parent
#print axioms SmoothRF.C04_calc_parent
#print axioms SmoothRF.C05_create_decision_per_leafs
#print axioms SmoothRF.C06_decision_path_nodes_agrees
#print axioms SmoothRF.C07_distance_standard
#print axioms SmoothRF.C08_distance_max_min
#print axioms SmoothRF.C09_change_in_impurity
#print axioms SmoothRF.C10_distance_impurity
#print axioms SmoothRF.C10_impurity_distance_can_be_negative
#print axioms SmoothRF.C11_discretise
#print axioms SmoothRF.C11_level_zero
#print axioms SmoothRF.C11_raises
#print axioms SmoothRF.C12_gamma_eta_definition
#print axioms SmoothRF.C12_level_is_lca
#print axioms SmoothRF.C13_mass_conserved
#print axioms SmoothRF.C14_parents_all_cumulative
#print axioms SmoothRF.C15_parents_all_ratio
#print axioms SmoothRF.C16_forest_stacking
#print axioms SmoothRF.C18_level_features_partial
#print axioms SmoothRF.C18_padded_impurity_refuted
#print axioms SmoothRF.C18_min_style_raises
#print axioms SmoothRF.C17_assertion_never_fires
#print axioms SmoothRF.C17_negative_lambda_can_raise
#print axioms SmoothRF.C19_prox_nonneg_monotone
#print axioms SmoothRF.C19_empty_raises
#print axioms SmoothRF.C20_prox_projection_partial
#print axioms SmoothRF.C20_refuted
#print axioms SmoothRF.C20_deficient_refuted
#print axioms SmoothRF.C21_feasible_fixed
#print axioms SmoothRF.C22_argument_unchanged_partial
#print axioms SmoothRF.C22_refuted
#print axioms SmoothRF.C23_calc_cost
#print axioms SmoothRF.C24_gradient_l2
#print axioms SmoothRF.C25_gradient_orthogonal
#print axioms SmoothRF.C26_gradient_ce
#print axioms SmoothRF.C26_zero_probability_gradient
#print axioms SmoothRF.C27_sgd_returns_best
#print axioms SmoothRF.C27_plain_step
#print axioms SmoothRF.C27_plain_constrained_returns
#print axioms SmoothRF.C28_iterates_nonneg_partial
#print axioms SmoothRF.C28_refuted
#print axioms SmoothRF.C29_rejects_bad_start
#print axioms SmoothRF.C30_no_corruption
#print axioms SmoothRF.C32_first_moment
#print axioms SmoothRF.C33_second_moment_partial
#print axioms SmoothRF.C33_refuted
#print axioms SmoothRF.C34_argument_handling
#print axioms SmoothRF.C31_refuted
#print axioms SmoothRF.C31_l2_returns_partial
#print axioms SmoothRF.C35_values_between_leaves
#print axioms SmoothRF.C35_constrained_lamb_nonneg
#print axioms SmoothRF.C36_sanity_identity
#print axioms SmoothRF.C36_clean_sanity_identity
#print axioms SmoothRF.C37_only_leaf_values
#print axioms SmoothRF.C37_clean_only_leaf_values
#print axioms SmoothRF.C37_all_only_leaf_values
#print axioms SmoothRF.C38_first_forest_rows
#print axioms SmoothRF.C38_optimiser_rows
#print axioms SmoothRF.C39_second_forest_partial
#print axioms SmoothRF.C39_refuted
#print axioms SmoothRF.C40_probability_vectors
#print axioms SmoothRF.C41_sanity_class_partial
#print axioms SmoothRF.C41_refuted
#print axioms SmoothRF.C42_ravel_inverse
#print axioms SmoothRF.C43_tuning_source
#print axioms SmoothRF.C43_argument_checks
#print axioms SmoothRF.C44_tuning_summaries
#print axioms SmoothRF.C73_missing_class_raises
#print axioms SmoothRF.C45_leaf_rows
#print axioms SmoothRF.C45_weights
#print axioms SmoothRF.C46_oob_average
#print axioms SmoothRF.C46_zero_denominator
#print axioms SmoothRF.C47_oob_gradient_partial
#print axioms SmoothRF.C47_refuted
#print axioms SmoothRF.C48_full_loss_partial
#print axioms SmoothRF.C48_zero_steps
#print axioms SmoothRF.C48_refuted
#print axioms SmoothRF.C48_no_smoothing
#print axioms SmoothRF.C49_cost_list
#print axioms SmoothRF.C49_run
#print axioms SmoothRF.C74_clean_rows
#print axioms SmoothRF.C74_regression_only
#print axioms SmoothRF.C75_clean_nonneg
#print axioms SmoothRF.C76_cost
#print axioms SmoothRF.C76_l2_grad
#print axioms SmoothRF.C50_leaf_predicted_values
#print axioms SmoothRF.C51_depth_tune
#print axioms SmoothRF.C51_single_node_raises
#print axioms SmoothRF.C51_any_single_node_raises
#print axioms SmoothRF.C51_argument_checks
#print axioms SmoothRF.C52_depth_tune_partial
#print axioms SmoothRF.C52_refuted
#print axioms SmoothRF.C53_initial_table
#print axioms SmoothRF.C54_prune_exact
#print axioms SmoothRF.C55_g1_exact_partial
#print axioms SmoothRF.C55_pruned_leaf_g1_stale
#print axioms SmoothRF.C55_refuted
#print axioms SmoothRF.C56_rejects
#print axioms SmoothRF.C57_node_risk
#print axioms SmoothRF.C57_training_risk
#print axioms SmoothRF.C57_superadditive
#print axioms SmoothRF.C77_prune_tree_name_error
#print axioms SmoothRF.C78_order_independent
#print axioms SmoothRF.C58_boxes_contain
#print axioms SmoothRF.C58_boxes_exact
#print axioms SmoothRF.C58_center
#print axioms SmoothRF.C58_empty
#print axioms SmoothRF.C79_center_forest
#print axioms SmoothRF.C80_all_distances
#print axioms SmoothRF.C59_kernel
#print axioms SmoothRF.C59_default_weights
#print axioms SmoothRF.C59_checks
#print axioms SmoothRF.C60_default_levels_partial
#print axioms SmoothRF.C60_refuted
#print axioms SmoothRF.C61_depth_dist
#print axioms SmoothRF.C61_max_min
#print axioms SmoothRF.C61_arguments
#print axioms SmoothRF.C62_categorical
#print axioms SmoothRF.C62_rejects
#print axioms SmoothRF.C63_least_shift
#print axioms SmoothRF.C63_terminates
#print axioms SmoothRF.C63_not_symmetric
#print axioms SmoothRF.C81_implementations_agree
#print axioms SmoothRF.C82_remove_level_zero
#print axioms SmoothRF.C82_needs_zero
#print axioms SmoothRF.C64_values
#print axioms SmoothRF.C64_sanity_reading
#print axioms SmoothRF.C64_sanity_identity
#print axioms SmoothRF.C64_range
#print axioms SmoothRF.C64_range_needs_parents_all
#print axioms SmoothRF.C64_argument_checks
#print axioms SmoothRF.C83_lambda_optimal
#print axioms SmoothRF.C83_exact_minimum
#print axioms SmoothRF.C84_no_assertion_constrained
#print axioms SmoothRF.C84_no_assertion_unconstrained
#print axioms SmoothRF.C85_tuning_attributes
#print axioms SmoothRF.C65_batches
#print axioms SmoothRF.C65_partition
#print axioms SmoothRF.C66_feature_layout
#print axioms SmoothRF.C66_shapes
#print axioms SmoothRF.C67_forward
#print axioms SmoothRF.C67_real_exp
#print axioms SmoothRF.C67_range
#print axioms SmoothRF.C68_reported_minimum_partial
#print axioms SmoothRF.C68_refuted
#print axioms SmoothRF.C69_tuning_ignored_partial
#print axioms SmoothRF.C69_refuted
#print axioms SmoothRF.C70_same_variables_partial
#print axioms SmoothRF.C70_refuted
#print axioms SmoothRF.C70_x_dicts_raise
#print axioms SmoothRF.C86_equal_shapes_partial
#print axioms SmoothRF.C86_training_loss
#print axioms SmoothRF.C86_decomposition
#print axioms SmoothRF.C86_ignores_matching
#print axioms SmoothRF.C86_refuted
#print axioms SmoothRF.C87_steps_partial
#print axioms SmoothRF.C87_all_trees_refuted
#print axioms SmoothRF.C87_step_number_refuted
#print axioms SmoothRF.C88_initial_weights
#print axioms SmoothRF.C88_close_to_forest
#print axioms SmoothRF.C89_update_rf
#print axioms SmoothRF.C89_returns
#print axioms SmoothRF.C90_centers
#print axioms SmoothRF.C90_none
#print axioms SmoothRF.C90_classes_refused
#print axioms SmoothRF.C71_generate_data
#print axioms SmoothRF.C71_negative
#print axioms SmoothRF.C72_spirals
#print axioms SmoothRF.C72_errors
#print axioms SmoothRF.C91_sizes_partial
#print axioms SmoothRF.C91_refuted
#print axioms SmoothRF.C92_knn
#print axioms SmoothRF.C92_errors
#print axioms SmoothRF.C93_spiral_geometry
#print axioms SmoothRF.C93_negative_shift
#print axioms SmoothRF.C94_impurity_matrices
#print axioms SmoothRF.C94_returns
#print axioms SmoothRF.C95_shared_levels_partial
#print axioms SmoothRF.C95_refuted
#print axioms SmoothRF.C96_quantiles
#print axioms SmoothRF.C96_returns
#print axioms SmoothRF.C97_oob_reg_partial
#print axioms SmoothRF.C97_oob_cls_partial
#print axioms SmoothRF.C97_rows_refuted
#print axioms SmoothRF.C97_reg_refuted
#print axioms SmoothRF.C97_cls_refuted
#print axioms SmoothRF.C97_absent_class
#print axioms SmoothRF.C98_weighted_l2
#print axioms SmoothRF.C98_best_constant
#print axioms SmoothRF.C98_unweighted
#print axioms SmoothRF.C99_is_pos_def
#print axioms SmoothRF.C99_cholesky
#print axioms SmoothRF.C99_update_til_psd
#print axioms SmoothRF.C100_in_null_partial
#print axioms SmoothRF.C100_nonzero
#print axioms SmoothRF.C100_refuted
#print axioms SmoothRF.C101_returns_constrained
#print axioms SmoothRF.C101_returns_unconstrained
#print axioms SmoothRF.C102_kernel_psd
#print axioms SmoothRF.C103_standard_triangle
#print axioms SmoothRF.C103_max_metric
#print axioms SmoothRF.C103_max_value
#print axioms SmoothRF.C103_min_not_metric
#print axioms SmoothRF.C104_norm_never_shrinks
#print axioms SmoothRF.C104_norm_never_shrinks_ce
#print axioms SmoothRF.C104_ce_orthogonal
#print axioms SmoothRF.C105_cover
#print axioms SmoothRF.C105_faces
#print axioms SmoothRF.C105_volume
#print axioms SmoothRF.C106_tree_more
#print axioms SmoothRF.C106_other_type_raises
#print axioms SmoothRF.C106_min_is_narrower
#print axioms SmoothRF.C107_never_worse
#print axioms SmoothRF.C107_class_worse
#print axioms SmoothRF.C108_step_bound
#print axioms SmoothRF.C108_default_step
#print axioms SmoothRF.C108_total_move
#print axioms SmoothRF.C108_first_step
#print axioms SmoothRF.C109_descent
#print axioms SmoothRF.C109_one_step
#print axioms SmoothRF.C110_unbiased
#print axioms SmoothRF.C110_unbiased_ce
#print axioms SmoothRF.C111_search_best
#print axioms SmoothRF.C111_unknown_type
#print axioms SmoothRF.C112_never_zero
#print axioms SmoothRF.C112_always_average
#print axioms SmoothRF.C113_loss
#print axioms SmoothRF.C113_descent
#print axioms SmoothRF.C113_smooth_units
#print axioms SmoothRF.C114_smooth_totals
#print axioms SmoothRF.C114_smooth_order
#print axioms SmoothRF.C114_prep_order
#print axioms SmoothRF.C114_all_totals
#print axioms SmoothRF.C114_depth_order
#print axioms SmoothRF.C115_descent
#print axioms SmoothRF.C115_descent_ce
#print axioms SmoothRF.C115_tree_order
#print axioms SmoothRF.C115_second_forest_depends_on_order
#print axioms SmoothRF.C116_returns
#print axioms SmoothRF.C116_ridge
#print axioms SmoothRF.C116_error_bound
#print axioms SmoothRF.C116_never_worse
#print axioms SmoothRF.C116_worse
#print axioms SmoothRF.C117_refuses
#print axioms SmoothRF.C117_rows
#print axioms SmoothRF.C117_smooth_needs_training
#print axioms SmoothRF.C118_values
#print axioms SmoothRF.C118_optimiser_rows
#print axioms SmoothRF.C118_needs
#print axioms SmoothRF.C119_between_leaves
#print axioms SmoothRF.C119_probability_vectors
#print axioms SmoothRF.C119_weights_nonneg
#print axioms SmoothRF.C120_sanity_partial
#print axioms SmoothRF.C120_refuted_merge
#print axioms SmoothRF.C120_refuted_quantiles
#print axioms SmoothRF.C121_clean_values
#print axioms SmoothRF.C121_oob_average
#print axioms SmoothRF.C121_no_training
#print axioms SmoothRF.C122_names
#print axioms SmoothRF.C122_grid
#print axioms SmoothRF.C122_records
#print axioms SmoothRF.C122_job
#print axioms SmoothRF.C123_no_effect
#print axioms SmoothRF.C123_base
#print axioms SmoothRF.C124_classifier
#print axioms SmoothRF.C124_needs_levels
#print axioms SmoothRF.C124_few_rows
#print axioms SmoothRF.C125_names
#print axioms SmoothRF.C125_records
#print axioms SmoothRF.C125_job
#print axioms SmoothRF.C125_parents_label
#print axioms SmoothRF.C126_label_clash
#print axioms SmoothRF.C126_class_never_returns
#print axioms SmoothRF.C126_wols_labels
#print axioms SmoothRF.C127_mse
#print axioms SmoothRF.C127_accuracy
#print axioms SmoothRF.C127_predict_class
#print axioms SmoothRF.C127_unknown
#print axioms SmoothRF.C128_needs
#print axioms SmoothRF.C128_depth
#print axioms SmoothRF.C128_impurity
#print axioms SmoothRF.C128_defaults
#print axioms SmoothRF.C128_rejected
#print axioms SmoothRF.C128_loss_typo
#print axioms SmoothRF.C128_clean
#print axioms SmoothRF.C129_never_returns
#print axioms SmoothRF.C129_exchanged
#print axioms SmoothRF.C130_cells
#print axioms SmoothRF.C130_level_cells
#print axioms SmoothRF.C131_oracle_file
#print axioms SmoothRF.C131_tuning_typo
#print axioms SmoothRF.C131_known
#print axioms SmoothRF.C131_unbound
#print axioms SmoothRF.C131_loss_ignored
#print axioms SmoothRF.C131_class_never_returns
#print axioms SmoothRF.C131_inner_ignored
#print axioms SmoothRF.C131_script_options
#print axioms SmoothRF.C132_band
#print axioms SmoothRF.C132_not_standard_error
#print axioms SmoothRF.C132_cost_rows
#print axioms SmoothRF.C132_cost_default
#print axioms SmoothRF.C133_runs
#print axioms SmoothRF.C133_files
#print axioms SmoothRF.C133_arguments
#print axioms SmoothRF.C134_descent_returns
#print axioms SmoothRF.C134_smooth_returns
#print axioms SmoothRF.C134_unconstrained_raises
#print axioms SmoothRF.C135_clean_returns_iff
#print axioms SmoothRF.C136_names
#print axioms SmoothRF.C136_classes
#print axioms SmoothRF.C137_descent
#print axioms SmoothRF.C137_descent_ce
#print axioms SmoothRF.C137_repeated
#print axioms SmoothRF.C138_clean_order
#print axioms SmoothRF.C139_binding
#print axioms SmoothRF.C139_adam_dict
#print axioms SmoothRF.C139_main_calls
#print axioms SmoothRF.C139_old_calls
#print axioms SmoothRF.C140_impurity_order
#print axioms SmoothRF.C140_refuted_first
#print axioms SmoothRF.C140_refuted_five
#print axioms SmoothRF.C141_smooth_names
#print axioms SmoothRF.C141_clean_names
#print axioms SmoothRF.C142_smooth
#print axioms SmoothRF.C142_clean
#print axioms SmoothRF.C142_all
#print axioms SmoothRF.C142_depth_tune
#print axioms SmoothRF.C142_input
#print axioms SmoothRF.C142_input_reg
#print axioms SmoothRF.C143_check
#print axioms SmoothRF.C143_guarantee
#print axioms SmoothRF.C144_regression
#print axioms SmoothRF.C144_classification
#print axioms SmoothRF.C145_one_leaf
#print axioms SmoothRF.C145_regression
#print axioms SmoothRF.C145_regression_g1
#print axioms SmoothRF.C145_classification
#print axioms SmoothRF.C145_some_child_reg
#print axioms SmoothRF.C145_some_child_cls
#print axioms SmoothRF.C146_zero_cost_start
#print axioms SmoothRF.C146_learns_nothing
#print axioms SmoothRF.C146_training_data
#print axioms SmoothRF.C146_smooth_all
#print axioms SmoothRF.C147_depth_matrix
#print axioms SmoothRF.C147_impurity_matrix
#print axioms SmoothRF.C147_same_source
#print axioms SmoothRF.C147_tree_depth
#print axioms SmoothRF.C147_tree_impurity
#print axioms SmoothRF.C147_returns
#print axioms SmoothRF.C147_errors
#print axioms SmoothRF.C147_negative_levels
#print axioms SmoothRF.C148_fitted_values
#print axioms SmoothRF.C148_smooth
#print axioms SmoothRF.C148_smooth_parents_all
#print axioms SmoothRF.C148_clean
#print axioms SmoothRF.C148_smooth_all
#print axioms SmoothRF.C148_depth_tune
#print axioms SmoothRF.C148_leaves_range
#print axioms SmoothRF.C149_outside
#print axioms SmoothRF.C149_dropped
#print axioms SmoothRF.C149_raises
#print axioms SmoothRF.C149_wrapped
#print axioms SmoothRF.C149_wrapped_base
#print axioms SmoothRF.C150_smooth
#print axioms SmoothRF.C150_smooth_impurity
#print axioms SmoothRF.C150_prep
#print axioms SmoothRF.C150_all
#print axioms SmoothRF.C150_depth
#print axioms SmoothRF.C150_append
#print axioms SmoothRF.C150_clean
#print axioms SmoothRF.C151_depths
#print axioms SmoothRF.C151_parent_mat
#print axioms SmoothRF.C151_impurity
#print axioms SmoothRF.C152_tree
#print axioms SmoothRF.C152_forest
#print axioms SmoothRF.C152_forest_impurity
#print axioms SmoothRF.C152_forest_more
#print axioms SmoothRF.C153_divisor
#print axioms SmoothRF.C153_sound
#print axioms SmoothRF.C153_ever_oob_partial
#print axioms SmoothRF.C153_few_trees
#print axioms SmoothRF.C153_refuted
#print axioms SmoothRF.C154_default
#print axioms SmoothRF.C154_uniform_partial
#print axioms SmoothRF.C154_clean_seed
#print axioms SmoothRF.C154_refuted_uniform
#print axioms SmoothRF.C154_refuted_seed
#print axioms SmoothRF.C154_refuted_class
#print axioms SmoothRF.C154_refuted_class_eps
#print axioms SmoothRF.C155_sanity
#print axioms SmoothRF.C155_refuted
#print axioms SmoothRF.C155_any_value
#print axioms SmoothRF.C156_idx_mat
#print axioms SmoothRF.C156_weights
#print axioms SmoothRF.C156_G_H
#print axioms SmoothRF.C156_y_oob
#print axioms SmoothRF.C156_grad
#print axioms SmoothRF.C157_level_blocks
#print axioms SmoothRF.C157_kernel
#print axioms SmoothRF.C157_distances
#print axioms SmoothRF.C157_tuning
#print axioms SmoothRF.C157_tuning_rounded
#print axioms SmoothRF.C157_update
#print axioms SmoothRF.C158_changes
#print axioms SmoothRF.C158_leaf_change
#print axioms SmoothRF.C158_regression_close
#print axioms SmoothRF.C158_allclose
#print axioms SmoothRF.C158_class_same
#print axioms SmoothRF.C158_class_refuted
#print axioms SmoothRF.C159_prep
#print axioms SmoothRF.C159_dataset
#print axioms SmoothRF.C159_forward
#print axioms SmoothRF.C159_regression_refuted
#print axioms SmoothRF.C160_share_change
#print axioms SmoothRF.C160_class_same
#print axioms SmoothRF.C160_zero_eps
#print axioms SmoothRF.C160_test
#print axioms SmoothRF.C160_refuted_even
#print axioms SmoothRF.C161_prune
#print axioms SmoothRF.C161_ancestors
#print axioms SmoothRF.C161_root
#print axioms SmoothRF.C161_upward_refuted
#print axioms SmoothRF.C161_single_reg
#print axioms SmoothRF.C161_single_cls
#print axioms SmoothRF.C161_single_refuted
#print axioms SmoothRF.C162_change
#print axioms SmoothRF.C162_factor_two
#print axioms SmoothRF.C162_error
#print axioms SmoothRF.C162_gini_grid
#print axioms SmoothRF.C162_gini_exact
#print axioms SmoothRF.C162_refuted
#print axioms SmoothRF.C162_zero_lost
#print axioms SmoothRF.C162_gini_error
#print axioms SmoothRF.C162_variance_error
#print axioms SmoothRF.C163_returns
#print axioms SmoothRF.C163_feasible
#print axioms SmoothRF.C163_refuted
#print axioms SmoothRF.C164_value
#print axioms SmoothRF.C164_zero
#print axioms SmoothRF.C164_assertion
#print axioms SmoothRF.C165_value
#print axioms SmoothRF.C165_bits
#print axioms SmoothRF.C165_close
#print axioms SmoothRF.C165_refuted
#print axioms SmoothRF.C166_truncation_partial
#print axioms SmoothRF.C166_depth_tune_partial
#print axioms SmoothRF.C166_refuted
#print axioms SmoothRF.C167_parents_all
#print axioms SmoothRF.C167_converse
#print axioms SmoothRF.C167_plain_is_richer
#print axioms SmoothRF.C167_smooth
#print axioms SmoothRF.C168_one_level_partial
#print axioms SmoothRF.C168_refuted
#print axioms SmoothRF.C169_loss
#print axioms SmoothRF.C169_descent
#print axioms SmoothRF.C169_smooth_partial
#print axioms SmoothRF.C169_refuted
#print axioms SmoothRF.C169_clean_refuted
#print axioms SmoothRF.C170_generate_data_partial
#print axioms SmoothRF.C170_generate_data_refuted
#print axioms SmoothRF.C170_knn_partial
#print axioms SmoothRF.C170_knn_refuted
#print axioms SmoothRF.C170_spirals
#print axioms SmoothRF.C171_near_minimal
#print axioms SmoothRF.C171_separated
#print axioms SmoothRF.C171_classes
#print axioms SmoothRF.C171_refuted
#print axioms SmoothRF.C172_twice
#print axioms SmoothRF.C172_even_partial
#print axioms SmoothRF.C172_stable
#print axioms SmoothRF.C172_refuted
#print axioms SmoothRF.C173_limit_stationary
#print axioms SmoothRF.C173_runs
#print axioms SmoothRF.C173_l2_limit
#print axioms SmoothRF.C173_plain_limit
#print axioms SmoothRF.C173_rosenbrock_gradient
#print axioms SmoothRF.C173_docstring_refuted
#print axioms SmoothRF.C173_rosenbrock_minimum
#print axioms SmoothRF.C173_rosenbrock_limit
#print axioms SmoothRF.C174_accepted
#print axioms SmoothRF.C174_broken
#print axioms SmoothRF.C175_symmetric
#print axioms SmoothRF.C175_reversible
#print axioms SmoothRF.C175_stable
#print axioms SmoothRF.C175_smooth
#print axioms SmoothRF.C175_refuted
#print axioms SmoothRF.C176_is_pos_def
#print axioms SmoothRF.C176_exact_partial
#print axioms SmoothRF.C176_update
#print axioms SmoothRF.C176_refuted
#print axioms SmoothRF.C176_tests
#print axioms SmoothRF.C177_assertion
#print axioms SmoothRF.C177_error
#print axioms SmoothRF.C177_sanity
#print axioms SmoothRF.C177_bits
#print axioms SmoothRF.C177_refuted
#print axioms SmoothRF.C178_error
#print axioms SmoothRF.C178_ends
#print axioms SmoothRF.C178_lerp_sorted
#print axioms SmoothRF.C178_gini
#print axioms SmoothRF.C178_refuted
#print axioms SmoothRF.C178_levels_refuted
#print axioms SmoothRF.C178_index_refuted
#print axioms SmoothRF.C179_children
#print axioms SmoothRF.C179_single
#print axioms SmoothRF.C179_single_eps
#print axioms SmoothRF.C179_float_center
#print axioms SmoothRF.C179_static
#print axioms SmoothRF.C179_refuted
#print axioms SmoothRF.C180_cost
#print axioms SmoothRF.C180_best
#print axioms SmoothRF.C180_refuted
#print axioms SmoothRF.C181_move
#print axioms SmoothRF.C181_margin
#print axioms SmoothRF.C181_class
#print axioms SmoothRF.C181_smooth
#print axioms SmoothRF.C181_sharp
#print axioms SmoothRF.C182_descent
#print axioms SmoothRF.C182_descent_ce
#print axioms SmoothRF.C182_copies
#print axioms SmoothRF.C182_step_needed
#print axioms SmoothRF.C183_projection
#print axioms SmoothRF.C183_empty
#print axioms SmoothRF.C183_once
#print axioms SmoothRF.C183_nearly_nearest
#print axioms SmoothRF.C183_moves
#print axioms SmoothRF.C183_cases
#print axioms SmoothRF.C183_twice
#print axioms SmoothRF.C184_descent
#print axioms SmoothRF.C184_smooth
#print axioms SmoothRF.C184_missing_class
#print axioms SmoothRF.C185_regression
#print axioms SmoothRF.C185_proba
#print axioms SmoothRF.C185_class
#print axioms SmoothRF.C185_smooth
#print axioms SmoothRF.C185_clean
#print axioms SmoothRF.C185_sharp
#print axioms SmoothRF.C186_average_depth
#print axioms SmoothRF.C186_average_depth_smooth
#print axioms SmoothRF.C186_cleanup
#print axioms SmoothRF.C186_regression_prep
#print axioms SmoothRF.C186_band
#print axioms SmoothRF.C186_spiral_leak
#print axioms SmoothRF.C186_spiral_frame
#print axioms SmoothRF.C186_splice_unused
#print axioms SmoothRF.C186_prelim_name
#print axioms SmoothRF.C187_gradient
#print axioms SmoothRF.C187_sign
#print axioms SmoothRF.C187_orthogonal
#print axioms SmoothRF.C187_orthogonal_refuted
#print axioms SmoothRF.C187_vanishes
#print axioms SmoothRF.C188_gradient
#print axioms SmoothRF.C188_orthogonal
#print axioms SmoothRF.C188_orthogonal_refuted
#print axioms SmoothRF.C189_lipschitz
#print axioms SmoothRF.C189_jump
#print axioms SmoothRF.C189_lipschitz_refuted
#print axioms SmoothRF.C189_accuracy
#print axioms SmoothRF.C189_accuracy_refuted
#print axioms SmoothRF.C190_start_gradient
#print axioms SmoothRF.C190_step_iff
#print axioms SmoothRF.C190_descent_stays
#print axioms SmoothRF.C190_smooth_stays
#print axioms SmoothRF.C190_smooth_step_iff
#print axioms SmoothRF.C190_best_refuted
#print axioms SmoothRF.C191_refuted
#print axioms SmoothRF.C191_never_worse_partial
#print axioms SmoothRF.C191_every_depth
#print axioms SmoothRF.C192_refuted
#print axioms SmoothRF.C192_change
#print axioms SmoothRF.C192_cart_partial
#print axioms SmoothRF.C192_monotone
#print axioms SmoothRF.C192_sequence
#print axioms SmoothRF.C192_column_stuck
#print axioms SmoothRF.C193_regression
#print axioms SmoothRF.C193_class
#print axioms SmoothRF.C193_ratio
#print axioms SmoothRF.C193_sanity
#print axioms SmoothRF.C193_refuted
#print axioms SmoothRF.C193_depth
#print axioms SmoothRF.C194_smooth_cost
#print axioms SmoothRF.C194_clean_cost
#print axioms SmoothRF.C194_bound
#print axioms SmoothRF.C194_disjoint
#print axioms SmoothRF.C194_refuted
#print axioms SmoothRF.C195_prediction
#print axioms SmoothRF.C195_cost
#print axioms SmoothRF.C195_all_partial
#print axioms SmoothRF.C195_refuted
#print axioms SmoothRF.C196_every_tree
#print axioms SmoothRF.C196_loss
#print axioms SmoothRF.C196_descent
#print axioms SmoothRF.C196_smooth
#print axioms SmoothRF.C196_plain_refuted
#print axioms SmoothRF.C197_raise
#print axioms SmoothRF.C197_siblings
#print axioms SmoothRF.C197_order
#print axioms SmoothRF.C197_smooth_raise
#print axioms SmoothRF.C197_smooth_order
#print axioms SmoothRF.C197_refuted
#print axioms SmoothRF.C198_run
#print axioms SmoothRF.C198_visited
#print axioms SmoothRF.C198_best
#print axioms SmoothRF.C198_returns
#print axioms SmoothRF.C198_step
#print axioms SmoothRF.C198_positive
#print axioms SmoothRF.C198_positive_refuted
#print axioms SmoothRF.C199_start
#print axioms SmoothRF.C199_forests
#print axioms SmoothRF.C199_never_worse
#print axioms SmoothRF.C199_never_worse_refuted
#print axioms SmoothRF.C199_fails
#print axioms SmoothRF.C199_sanity
#print axioms SmoothRF.C200_descent
#print axioms SmoothRF.C200_forest
#print axioms SmoothRF.C200_full_loss
#print axioms SmoothRF.C200_unchanged
#print axioms SmoothRF.C200_costs
#print axioms SmoothRF.C200_fails
#print axioms SmoothRF.C200_returns_refuted
#print axioms SmoothRF.C200_weights_refuted
#print axioms SmoothRF.C201_gradient
#print axioms SmoothRF.C201_sign
#print axioms SmoothRF.C201_code
#print axioms SmoothRF.C201_refuted
#print axioms SmoothRF.C202_slope
#print axioms SmoothRF.C202_shift
#print axioms SmoothRF.C202_flat_start
#print axioms SmoothRF.C202_stationary_refuted
#print axioms SmoothRF.C203_weights
#print axioms SmoothRF.C203_row_sums
#print axioms SmoothRF.C203_total
#print axioms SmoothRF.C203_nearest
#print axioms SmoothRF.C203_exact_partial
#print axioms SmoothRF.C203_refuted
#print axioms SmoothRF.C204_same_structure
#print axioms SmoothRF.C204_entries
#print axioms SmoothRF.C204_order
#print axioms SmoothRF.C204_error
#print axioms SmoothRF.C204_node_risk
#print axioms SmoothRF.C204_g1_sign_partial
#print axioms SmoothRF.C204_refuted
#print axioms SmoothRF.C205_step
#print axioms SmoothRF.C205_returns
#print axioms SmoothRF.C205_moments
#print axioms SmoothRF.C205_total
#print axioms SmoothRF.C205_refuted
#print axioms SmoothRF.C206_descent
#print axioms SmoothRF.C206_smooth
#print axioms SmoothRF.C206_factors
#print axioms SmoothRF.C206_numpy
#print axioms SmoothRF.C206_refuted
#print axioms SmoothRF.C207_arrays
#print axioms SmoothRF.C207_predictions
#print axioms SmoothRF.C207_cost
#print axioms SmoothRF.C207_gradient
#print axioms SmoothRF.C207_no_step_size
#print axioms SmoothRF.C207_values
#print axioms SmoothRF.C207_full_loss_partial
#print axioms SmoothRF.C207_refuted
#print axioms SmoothRF.C208_depth_tune
#print axioms SmoothRF.C208_fit
#print axioms SmoothRF.C208_table
#print axioms SmoothRF.C208_cuts
#print axioms SmoothRF.C208_pruning
#print axioms SmoothRF.C208_smallest_g1
#print axioms SmoothRF.C209_loss
#print axioms SmoothRF.C209_loss_origin
#print axioms SmoothRF.C209_units_partial
#print axioms SmoothRF.C209_origin_partial
#print axioms SmoothRF.C209_ridge
#print axioms SmoothRF.C209_units_refuted
#print axioms SmoothRF.C209_origin_refuted
#print axioms SmoothRF.C210_arguments_analysis
#print axioms SmoothRF.C210_arguments_both
#print axioms SmoothRF.C210_analysis_levels_first
#print axioms SmoothRF.C210_data_sets
#print axioms SmoothRF.C210_files
#print axioms SmoothRF.C210_unknown_data
#print axioms SmoothRF.C210_mismatch_runs
#print axioms SmoothRF.C210_final_names
#print axioms SmoothRF.C210_interim_shared
#print axioms SmoothRF.C210_header_order
#print axioms SmoothRF.C210_impurity_needs_levels
#print axioms SmoothRF.C210_class_writes_nothing
#print axioms SmoothRF.C210_analysis_labels
#print axioms SmoothRF.C210_analysis_records
#print axioms SmoothRF.C211_discretise
#print axioms SmoothRF.C211_distances
#print axioms SmoothRF.C211_quantiles
#print axioms SmoothRF.C211_breaks
#print axioms SmoothRF.C211_matrices
#print axioms SmoothRF.C211_smooth_partial
#print axioms SmoothRF.C211_refuted
#print axioms SmoothRF.C212_given
#print axioms SmoothRF.C212_given_ignores
#print axioms SmoothRF.C212_same
#print axioms SmoothRF.C212_returns
#print axioms SmoothRF.C212_raises
#print axioms SmoothRF.C212_numpy
#print axioms SmoothRF.C212_forest_depth
#print axioms SmoothRF.C212_forest_impurity
#print axioms SmoothRF.C212_forest_refuses
#print axioms SmoothRF.C213_smooth
#print axioms SmoothRF.C213_clean
#print axioms SmoothRF.C214_smooth_partial
#print axioms SmoothRF.C214_refuted
#print axioms SmoothRF.C215_one
#print axioms SmoothRF.C215_only
#print axioms SmoothRF.C215_needed
#print axioms SmoothRF.C215_optimal
#print axioms SmoothRF.C216_tuning
#print axioms SmoothRF.C216_counts
#print axioms SmoothRF.C216_trees
#print axioms SmoothRF.C217_same_values
#print axioms SmoothRF.C217_never_worse_partial
#print axioms SmoothRF.C217_smooth_start
#print axioms SmoothRF.C217_refuted
#print axioms SmoothRF.C218_update
#print axioms SmoothRF.C218_records
#print axioms SmoothRF.C219_order
#print axioms SmoothRF.C219_rows
#print axioms SmoothRF.C219_trees
#print axioms SmoothRF.C219_single_node_order
#print axioms SmoothRF.C220_approx
#print axioms SmoothRF.C220_close
#print axioms SmoothRF.C220_ce
#print axioms SmoothRF.C220_clean
#print axioms SmoothRF.C220_differ
#print axioms SmoothRF.C221_names
#print axioms SmoothRF.C221_order
#print axioms SmoothRF.C222_names
#print axioms SmoothRF.C222_classes_partial
#print axioms SmoothRF.C222_classes_refuted
#print axioms SmoothRF.C223_missing
#print axioms SmoothRF.C223_class
#print axioms SmoothRF.C223_repeats
#print axioms SmoothRF.C223_ob
#print axioms SmoothRF.C224_clean
#print axioms SmoothRF.C224_clean_imp
#print axioms SmoothRF.C224_smooth_imp
#print axioms SmoothRF.C225_returns
#print axioms SmoothRF.C225_raises
#print axioms SmoothRF.C225_entries
#print axioms SmoothRF.C225_kernel_order
#print axioms SmoothRF.C225_kernel_index
#print axioms SmoothRF.C226_unchanged
#print axioms SmoothRF.C226_unchanged_reg
#print axioms SmoothRF.C226_smooth_agrees
#print axioms SmoothRF.C226_reg_agrees
#print axioms SmoothRF.C226_depth_tune_agrees
#print axioms SmoothRF.C227_range
#print axioms SmoothRF.C227_uniform
#print axioms SmoothRF.C227_reached
#print axioms SmoothRF.C227_rounding
#print axioms SmoothRF.C228_depth_tune
#print axioms SmoothRF.C228_depth_tune_returns
#print axioms SmoothRF.C228_pruning
#print axioms SmoothRF.C228_other_factor
#print axioms SmoothRF.C229_classes
#print axioms SmoothRF.C229_short
#print axioms SmoothRF.C229_three_trees
#print axioms SmoothRF.C229_three_rows
#print axioms SmoothRF.C230_predictions
#print axioms SmoothRF.C230_cost
#print axioms SmoothRF.C230_observations
#print axioms SmoothRF.C230_values
#print axioms SmoothRF.C230_full_loss_partial
#print axioms SmoothRF.C230_refuted
#print axioms SmoothRF.C231_accuracy
#print axioms SmoothRF.C231_error
#print axioms SmoothRF.C231_zero
#print axioms SmoothRF.C231_order_partial
#print axioms SmoothRF.C231_refuted
#print axioms SmoothRF.C232_weights_partial
#print axioms SmoothRF.C232_units
#print axioms SmoothRF.C232_unit_weights
#print axioms SmoothRF.C232_zero
#print axioms SmoothRF.C232_refuted
#print axioms SmoothRF.C233_accuracy
#print axioms SmoothRF.C233_error_partial
#print axioms SmoothRF.C233_refuted
