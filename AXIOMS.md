# Axioms of the manifest theorems

Output of `#print axioms` for every theorem named in `MANIFEST.json`.

## propext, Classical.choice, Quot.sound (849 theorems)

`Esat.C01_nonneg`, `Esat.C01_positive`, `Esat.C02_every_update_recorded`, `Esat.C02_recorded_losses_nonincreasing`, `Esat.C02_stall_iff_fixed`, `Esat.C02_update_le`, `Esat.C03_support_preserved`, `Esat.C03_zero_stays_zero`, `Esat.C04_delay`, `Esat.C04_hold`, `Esat.C04_hold_python`, `Esat.C04_lsnmf_delay`, `Esat.C04_lsnmf_hold`, `Esat.C04_lsnmf_hold_python`, `Esat.C04_lsnmf_loop_is_update`, `Esat.C04_lsnmf_run`, `Esat.C04_lsnmf_update`, `Esat.C04_wsnmf_delay`, `Esat.C04_wsnmf_hold`, `Esat.C04_wsnmf_update`, `Esat.C05_permutation`, `Esat.C05_recorded_losses_permutation`, `Esat.C05_recorded_losses_scaling`, `Esat.C05_scaling`, `Esat.C05_units`, `Esat.C06_exact_is_fixed`, `Esat.C06_fixed_is_coordinatewise_minimum`, `Esat.C06_fixed_is_stationary`, `Esat.C07_previous_irrelevant`, `Esat.C07_row_optimal`, `Esat.C07_row_unique`, `Esat.C07_total_optimal`, `Esat.C08_any_data_partial`, `Esat.C08_iff_partial`, `Esat.C08_nonneg_data_partial`, `Esat.C08_refuted`, `Esat.C09_antitone_in_uncertainty`, `Esat.C09_calculate_Q_agrees`, `Esat.C09_formula`, `Esat.C09_formula_unweighted`, `Esat.C09_nonneg`, `Esat.C09_sign_of_uncertainty`, `Esat.C09_unit_invariance`, `Esat.C09_zero_iff`, `Esat.C100_all_compared`, `Esat.C100_compared_iff`, `Esat.C100_failed_model_refuted`, `Esat.C101_base_loss`, `Esat.C101_base_loss_refuted`, `Esat.C101_iff_partial`, `Esat.C102_emc_is_profile_correlation`, `Esat.C102_emc_self`, `Esat.C103_raae`, `Esat.C103_raae_not_symmetric`, `Esat.C104_all_members_refuted`, `Esat.C104_close_partial`, `Esat.C104_exact_partial`, `Esat.C104_join_partial`, `Esat.C105_raae_refuted`, `Esat.C106_copies_partial`, `Esat.C106_copy_joins_partial`, `Esat.C106_profile_only_refuted`, `Esat.C107_best_kept`, `Esat.C107_excluded`, `Esat.C10_compiled_agrees`, `Esat.C10_eq_true_iff`, `Esat.C10_is_huber`, `Esat.C10_le_true`, `Esat.C10_mono_alpha`, `Esat.C10_reweighting`, `Esat.C10_updated_uncertainty`, `Esat.C110_cannot_be_switched_off`, `Esat.C110_parallel_verbose`, `Esat.C111_one_based`, `Esat.C112_commands`, `Esat.C114_least_squares`, `Esat.C114_se_regression`, `Esat.C115_label_correct_iff`, `Esat.C115_plot_means`, `Esat.C115_profile_mean_one`, `Esat.C116_large_threshold`, `Esat.C116_rejected_iff`, `Esat.C117_shifted_labels`, `Esat.C117_with_handler`, `Esat.C117_without_handler_no_failure`, `Esat.C117_wrong_best`, `Esat.C118_outcome`, `Esat.C119_sum`, `Esat.C11_nonneg`, `Esat.C11_rounded_sum`, `Esat.C11_sum`, `Esat.C120_one_to_one`, `Esat.C120_regression`, `Esat.C121_estimate`, `Esat.C122_title`, `Esat.C123_bars`, `Esat.C124_axis`, `Esat.C125_bs_text`, `Esat.C125_disp_text`, `Esat.C125_simulator`, `Esat.C127_text`, `Esat.C129_swaps`, `Esat.C12_converged_iff`, `Esat.C12_stops_at_first`, `Esat.C130_drops`, `Esat.C130_last_missed`, `Esat.C131_fit`, `Esat.C131_zero`, `Esat.C132_decrease`, `Esat.C132_largest`, `Esat.C133_rows`, `Esat.C134_bsdisp`, `Esat.C134_rows`, `Esat.C135_changed_iff`, `Esat.C136_contribution`, `Esat.C136_exact`, `Esat.C136_profile`, `Esat.C136_sum`, `Esat.C137_position`, `Esat.C138_disp`, `Esat.C138_figure`, `Esat.C138_nothing`, `Esat.C139_sign`, `Esat.C13_agree_iff`, `Esat.C13_agree_partial`, `Esat.C13_converge_steps_partial`, `Esat.C13_refuted`, `Esat.C13_window_zero_refuted`, `Esat.C140_zero`, `Esat.C141_loss`, `Esat.C142_parts`, `Esat.C142_ws`, `Esat.C143_held_row`, `Esat.C143_never_converges`, `Esat.C143_spoilt`, `Esat.C144_overflow`, `Esat.C144_underflow`, `Esat.C145_accuracy`, `Esat.C145_binary32`, `Esat.C145_exact`, `Esat.C145_format`, `Esat.C146_increase`, `Esat.C148_default`, `Esat.C148_filled`, `Esat.C148_mean`, `Esat.C148_rejected`, `Esat.C149_standardize`, `Esat.C14_reports`, `Esat.C14_throttled_only`, `Esat.C150_feature`, `Esat.C150_plot_factors`, `Esat.C150_reorder`, `Esat.C150_sum`, `Esat.C150_sum_wrong`, `Esat.C151_converges`, `Esat.C151_first_iteration`, `Esat.C151_python`, `Esat.C152_never`, `Esat.C153_bounds`, `Esat.C154_limit_optimal`, `Esat.C154_limit_point`, `Esat.C154_positive_limit_point`, `Esat.C154_runs`, `Esat.C154_settled`, `Esat.C155_one_factor`, `Esat.C156_reported_can_increase`, `Esat.C156_reweighting`, `Esat.C156_update`, `Esat.C157_documented_differs`, `Esat.C157_no_effect`, `Esat.C158_entry_fixed_iff`, `Esat.C158_exact`, `Esat.C158_fixed_identity`, `Esat.C158_nonneg_iff`, `Esat.C158_one_factor`, `Esat.C159_single_feature`, `Esat.C15_converged_is_number`, `Esat.C15_nan_tail`, `Esat.C15_python_iff_partial`, `Esat.C15_python_nan`, `Esat.C15_python_retrain_refuted`, `Esat.C160_raises_iff`, `Esat.C160_rows`, `Esat.C161_raises`, `Esat.C161_values`, `Esat.C162_factor_figures`, `Esat.C162_feature_number`, `Esat.C162_fingerprints`, `Esat.C162_g_space`, `Esat.C162_profile_index`, `Esat.C163_quadratic`, `Esat.C163_stationary`, `Esat.C164_lower`, `Esat.C164_upper`, `Esat.C165_refit`, `Esat.C165_sound`, `Esat.C166_means`, `Esat.C167_python`, `Esat.C167_training`, `Esat.C168_samples`, `Esat.C168_update`, `Esat.C169_start`, `Esat.C169_training`, `Esat.C16_consistent`, `Esat.C16_missing`, `Esat.C170_blocks`, `Esat.C170_overlap`, `Esat.C171_counts`, `Esat.C171_interpolation`, `Esat.C171_median`, `Esat.C171_order`, `Esat.C172_columns`, `Esat.C172_identical`, `Esat.C172_losses`, `Esat.C172_row`, `Esat.C172_within`, `Esat.C173_exact`, `Esat.C173_metrics`, `Esat.C174_multipliers`, `Esat.C174_multipliers_exact`, `Esat.C174_row`, `Esat.C174_table`, `Esat.C175_groups`, `Esat.C175_output`, `Esat.C175_ties`, `Esat.C176_command_line`, `Esat.C176_exit_iff`, `Esat.C176_ok_iff`, `Esat.C176_unknown`, `Esat.C176_zero`, `Esat.C178_defaults`, `Esat.C178_expressions`, `Esat.C179_compiled`, `Esat.C179_infinite`, `Esat.C179_overflow`, `Esat.C179_python`, `Esat.C179_test`, `Esat.C179_training`, `Esat.C17_factor_colMajor_refuted`, `Esat.C17_iff_partial`, `Esat.C17_refuted`, `Esat.C17_retrain_refuted`, `Esat.C17_shape_iff_partial`, `Esat.C180_coarse`, `Esat.C180_difference`, `Esat.C180_exact`, `Esat.C180_sound`, `Esat.C181_default`, `Esat.C181_given`, `Esat.C182_failure`, `Esat.C182_order`, `Esat.C182_schedule`, `Esat.C182_second`, `Esat.C182_tables`, `Esat.C183_bars`, `Esat.C183_figures`, `Esat.C183_pairing`, `Esat.C183_perfect`, `Esat.C183_scale`, `Esat.C183_select`, `Esat.C184_exact`, `Esat.C184_never`, `Esat.C184_sections`, `Esat.C184_wh`, `Esat.C185_bars_total`, `Esat.C185_metrics`, `Esat.C185_run`, `Esat.C185_same`, `Esat.C186_best`, `Esat.C186_member`, `Esat.C186_scale`, `Esat.C187_default`, `Esat.C187_figures`, `Esat.C187_fits`, `Esat.C187_no_dates`, `Esat.C187_processed`, `Esat.C187_raises`, `Esat.C188_count`, `Esat.C188_robust`, `Esat.C188_table`, `Esat.C189_complete`, `Esat.C189_flags`, `Esat.C189_nth`, `Esat.C189_returns`, `Esat.C18_usable`, `Esat.C190_data`, `Esat.C190_error`, `Esat.C190_overflow`, `Esat.C190_rounding`, `Esat.C190_zero`, `Esat.C191_aux`, `Esat.C191_constraints_only`, `Esat.C191_handed`, `Esat.C191_iteration`, `Esat.C191_override`, `Esat.C191_raises`, `Esat.C191_zero`, `Esat.C192_estimate`, `Esat.C192_lines`, `Esat.C192_percent`, `Esat.C192_raises`, `Esat.C192_ratio`, `Esat.C192_rounding`, `Esat.C192_scale`, `Esat.C192_schedule`, `Esat.C192_table`, `Esat.C193_model`, `Esat.C193_training`, `Esat.C193_trains_iff`, `Esat.C193_zero`, `Esat.C194_curves`, `Esat.C194_falling`, `Esat.C194_trained`, `Esat.C195_input`, `Esat.C195_leak`, `Esat.C195_process`, `Esat.C196_boxes`, `Esat.C196_markers`, `Esat.C196_shown`, `Esat.C196_state`, `Esat.C196_summary`, `Esat.C197_add`, `Esat.C197_expressions`, `Esat.C197_label_injective`, `Esat.C197_listing`, `Esat.C197_refines`, `Esat.C197_text`, `Esat.C198_apart`, `Esat.C198_closed`, `Esat.C198_conc`, `Esat.C198_percent`, `Esat.C198_points`, `Esat.C199_bars`, `Esat.C199_names`, `Esat.C199_shown_iff`, `Esat.C199_stack`, `Esat.C19_default_partial`, `Esat.C19_integer_refuted`, `Esat.C19_negative_contributions_refuted`, `Esat.C19_negative_mean_refuted`, `Esat.C19_prior_broadcast_partial`, `Esat.C19_prior_partial`, `Esat.C19_prior_zero_sum_partial`, `Esat.C19_prior_zero_sum_refuted`, `Esat.C19_profiles_partial`, `Esat.C19_too_many_priors`, `Esat.C19_update_refuted`, `Esat.C19_user_factors`, `Esat.C19_validated_iff`, `Esat.C200_custom`, `Esat.C200_fresh`, `Esat.C200_positive`, `Esat.C200_random`, `Esat.C200_stale`, `Esat.C200_times`, `Esat.C200_update`, `Esat.C201_estimate`, `Esat.C201_markers`, `Esat.C201_outcome`, `Esat.C201_values`, `Esat.C202_bench`, `Esat.C202_figure`, `Esat.C202_key`, `Esat.C202_last`, `Esat.C202_record`, `Esat.C202_traces`, `Esat.C203_same`, `Esat.C203_train`, `Esat.C203_value`, `Esat.C204_missing`, `Esat.C204_modes`, `Esat.C204_rows`, `Esat.C204_tables`, `Esat.C205_negative`, `Esat.C205_same`, `Esat.C205_stops`, `Esat.C205_value`, `Esat.C205_zero`, `Esat.C206_ls`, `Esat.C206_py`, `Esat.C206_ws`, `Esat.C207_compared`, `Esat.C207_copies`, `Esat.C207_emc`, `Esat.C207_raae_order`, `Esat.C208_equation`, `Esat.C208_system`, `Esat.C209_no_run`, `Esat.C209_order`, `Esat.C209_rule`, `Esat.C209_short`, `Esat.C209_short_block`, `Esat.C209_units`, `Esat.C209_units_block`, `Esat.C20_iff_partial`, `Esat.C20_refuted`, `Esat.C20_same_array`, `Esat.C210_default`, `Esat.C210_prior`, `Esat.C210_product`, `Esat.C210_update`, `Esat.C211_band`, `Esat.C211_cell`, `Esat.C211_exact`, `Esat.C212_command`, `Esat.C212_exists`, `Esat.C212_menu`, `Esat.C212_single`, `Esat.C213_index`, `Esat.C213_lines`, `Esat.C213_points`, `Esat.C213_window`, `Esat.C214_command`, `Esat.C214_daily`, `Esat.C214_index`, `Esat.C214_list`, `Esat.C214_wrong_column`, `Esat.C215_diagonal`, `Esat.C215_nan`, `Esat.C215_range`, `Esat.C215_symmetric`, `Esat.C215_units`, `Esat.C216_curve`, `Esat.C216_density`, `Esat.C216_figure`, `Esat.C216_points`, `Esat.C216_spacing`, `Esat.C217_average`, `Esat.C217_daily`, `Esat.C217_exists`, `Esat.C217_residual`, `Esat.C218_exists`, `Esat.C218_rows`, `Esat.C219_anderson`, `Esat.C219_rejected`, `Esat.C219_se`, `Esat.C21_changes_nothing_refuted`, `Esat.C21_nan_raises_refuted`, `Esat.C21_results_iff`, `Esat.C21_return_value`, `Esat.C220_legend`, `Esat.C220_panels`, `Esat.C221_feature`, `Esat.C221_mass`, `Esat.C221_percentage`, `Esat.C221_shown`, `Esat.C222_direction`, `Esat.C222_down`, `Esat.C222_up`, `Esat.C223_losses`, `Esat.C223_no_iterations`, `Esat.C223_raises`, `Esat.C223_stop`, `Esat.C223_stored`, `Esat.C224_accuracy`, `Esat.C224_binary64`, `Esat.C224_exact`, `Esat.C224_format`, `Esat.C224_sqrt`, `Esat.C225_binary32`, `Esat.C225_binary64`, `Esat.C225_evaluations`, `Esat.C225_format`, `Esat.C225_loss`, `Esat.C225_residual`, `Esat.C225_stop`, `Esat.C226_exact`, `Esat.C226_floor`, `Esat.C226_loss`, `Esat.C227_bsdisp`, `Esat.C227_displacement`, `Esat.C228_binary32`, `Esat.C228_next`, `Esat.C228_recorded`, `Esat.C228_run`, `Esat.C228_step`, `Esat.C228_weights`, `Esat.C229_accurate`, `Esat.C229_ignored`, `Esat.C229_large`, `Esat.C229_product`, `Esat.C229_weight`, `Esat.C229_zero_iff`, `Esat.C22_algorithm`, `Esat.C230_lower`, `Esat.C230_optimal`, `Esat.C230_upper`, `Esat.C232_scaled`, `Esat.C232_temporal_column`, `Esat.C232_temporal_exists`, `Esat.C233_completes`, `Esat.C233_stored`, `Esat.C233_unperturbed`, `Esat.C234_reason`, `Esat.C235_available`, `Esat.C235_entries`, `Esat.C235_estimate`, `Esat.C236_colours`, `Esat.C236_no_highlight`, `Esat.C236_raises`, `Esat.C236_trained`, `Esat.C237_arrays`, `Esat.C237_batch`, `Esat.C237_cells`, `Esat.C237_limit`, `Esat.C237_positive`, `Esat.C237_program`, `Esat.C238_attained`, `Esat.C238_bound`, `Esat.C238_limit`, `Esat.C238_rate`, `Esat.C238_step`, `Esat.C238_train`, `Esat.C238_ws`, `Esat.C239_converged`, `Esat.C239_moved`, `Esat.C239_pull`, `Esat.C239_total`, `Esat.C23_batch_models`, `Esat.C240_contributions`, `Esat.C240_exact`, `Esat.C240_feature`, `Esat.C240_profile`, `Esat.C240_sample`, `Esat.C241_precision`, `Esat.C241_search`, `Esat.C241_usual`, `Esat.C242_down`, `Esat.C242_down_monotone`, `Esat.C242_requested`, `Esat.C242_up`, `Esat.C243_proportional`, `Esat.C243_run`, `Esat.C244_bootstrap`, `Esat.C244_ls`, `Esat.C244_ws`, `Esat.C244_ws_python`, `Esat.C245_bound`, `Esat.C245_exceeds`, `Esat.C246_empty_model`, `Esat.C246_features`, `Esat.C246_run`, `Esat.C246_samples`, `Esat.C246_unchanged`, `Esat.C247_one_factor_iteration`, `Esat.C247_one_factor_update`, `Esat.C247_ws_iteration`, `Esat.C247_ws_training`, `Esat.C248_one_factor_start`, `Esat.C248_python_ws`, `Esat.C248_samples`, `Esat.C248_ws_samples`, `Esat.C248_ws_start`, `Esat.C249_all_features`, `Esat.C249_bootstrap_parallel`, `Esat.C249_bootstrap_sequential`, `Esat.C249_bsdisp`, `Esat.C249_parallel`, `Esat.C249_python`, `Esat.C249_sequential`, `Esat.C250_inverse`, `Esat.C251_converged`, `Esat.C251_factor_copies`, `Esat.C251_held`, `Esat.C251_losses`, `Esat.C251_one_factor`, `Esat.C251_proportional`, `Esat.C251_sample_copies`, `Esat.C252_converges`, `Esat.C252_losses`, `Esat.C252_ls`, `Esat.C252_moved`, `Esat.C252_one_factor`, `Esat.C252_python`, `Esat.C252_python_converges`, `Esat.C252_python_ls`, `Esat.C252_python_moved`, `Esat.C252_update`, `Esat.C253_identity`, `Esat.C253_rise`, `Esat.C253_rises`, `Esat.C253_run`, `Esat.C253_step`, `Esat.C254_fine`, `Esat.C254_order`, `Esat.C254_raises`, `Esat.C254_rows`, `Esat.C255_delayed`, `Esat.C255_limit`, `Esat.C255_not_best`, `Esat.C255_run`, `Esat.C255_update`, `Esat.C256_limit`, `Esat.C256_python`, `Esat.C256_run`, `Esat.C256_update`, `Esat.C257_fixed_number`, `Esat.C257_jump`, `Esat.C257_python`, `Esat.C257_python_fixed`, `Esat.C257_run`, `Esat.C257_updates`, `Esat.C258_precision`, `Esat.C258_run`, `Esat.C259_ls`, `Esat.C259_python`, `Esat.C259_ws_contributions`, `Esat.C259_ws_profiles`, `Esat.C25_iff_partial`, `Esat.C25_parallel_eq_sequential_partial`, `Esat.C260_distance`, `Esat.C260_limit`, `Esat.C260_python`, `Esat.C260_rate`, `Esat.C260_start`, `Esat.C260_train`, `Esat.C261_best`, `Esat.C261_product_needed`, `Esat.C261_rate`, `Esat.C261_train`, `Esat.C261_update`, `Esat.C262_doubled`, `Esat.C262_elsewhere`, `Esat.C262_round_trip`, `Esat.C262_setup`, `Esat.C262_shorter`, `Esat.C263_cells`, `Esat.C263_ignores`, `Esat.C263_parts`, `Esat.C263_python`, `Esat.C263_run`, `Esat.C264_held`, `Esat.C264_needed`, `Esat.C264_one_factor`, `Esat.C264_python`, `Esat.C264_run`, `Esat.C264_updates`, `Esat.C265_one_factor`, `Esat.C265_parts`, `Esat.C265_python`, `Esat.C265_run`, `Esat.C266_empty`, `Esat.C266_empty_python`, `Esat.C266_ls`, `Esat.C266_ls_python`, `Esat.C266_ws`, `Esat.C266_ws_python`, `Esat.C267_clean`, `Esat.C267_parallel`, `Esat.C267_rows`, `Esat.C267_sequential`, `Esat.C267_tables`, `Esat.C26_retrain_refuted`, `Esat.C27_iff_partial`, `Esat.C27_partial`, `Esat.C27_sequential_partial`, `Esat.C29_iff_partial`, `Esat.C29_partial`, `Esat.C29_plain`, `Esat.C30_plain`, `Esat.C30_reachable_partial`, `Esat.C30_refuted`, `Esat.C31_contributions_eq_profiles`, `Esat.C31_contributions_partial`, `Esat.C31_correlation`, `Esat.C32_counts`, `Esat.C32_order`, `Esat.C32_row`, `Esat.C32_total`, `Esat.C33_bracket`, `Esat.C33_levels`, `Esat.C33_met`, `Esat.C34_between`, `Esat.C34_met_partial`, `Esat.C34_search`, `Esat.C34_steps`, `Esat.C34_window_partial`, `Esat.C34_window_refuted`, `Esat.C35_complete`, `Esat.C35_conc_iff`, `Esat.C35_conc_refuted`, `Esat.C35_excluded_partial`, `Esat.C35_levels`, `Esat.C36_iff_partial`, `Esat.C36_parallel_actual`, `Esat.C36_parallel_partial`, `Esat.C36_refuted`, `Esat.C36_sequential`, `Esat.C38_count`, `Esat.C38_history`, `Esat.C39_exact_partial`, `Esat.C39_last_refuted`, `Esat.C41_element_partial`, `Esat.C41_refuted`, `Esat.C42_feature_partial`, `Esat.C42_sample_iff`, `Esat.C42_sample_partial`, `Esat.C42_sample_refuted`, `Esat.C43_above_refuted`, `Esat.C43_below_partial`, `Esat.C43_handed_partial`, `Esat.C43_iff_partial`, `Esat.C43_inside_refuted`, `Esat.C44_contribution`, `Esat.C44_expressions`, `Esat.C44_profile`, `Esat.C44_stored`, `Esat.C45_label_injective`, `Esat.C45_parse`, `Esat.C46_budget`, `Esat.C46_unscaled`, `Esat.C47_down_iff`, `Esat.C47_down_negative_refuted`, `Esat.C47_down_partial`, `Esat.C47_to`, `Esat.C47_up_factor`, `Esat.C47_up_iff`, `Esat.C47_up_negative_refuted`, `Esat.C47_up_partial`, `Esat.C48_nonneg`, `Esat.C48_softness`, `Esat.C48_zero_iff`, `Esat.C50_return`, `Esat.C51_refuted`, `Esat.C52_iff_partial`, `Esat.C52_refuted`, `Esat.C53_iff_partial`, `Esat.C53_loads_partial`, `Esat.C53_nan_refuted`, `Esat.C54_accept`, `Esat.C54_rows`, `Esat.C55_refuted`, `Esat.C55_test_error_refuted`, `Esat.C55_train_none_partial`, `Esat.C55_train_partial`, `Esat.C56_iff_partial`, `Esat.C56_missing`, `Esat.C56_range_partial`, `Esat.C56_range_refuted`, `Esat.C56_schedule`, `Esat.C57_bound`, `Esat.C57_positive`, `Esat.C58_mlag`, `Esat.C58_series`, `Esat.C59_kernel`, `Esat.C59_slope`, `Esat.C60_adjoint`, `Esat.C60_determinant`, `Esat.C60_inverse_partial`, `Esat.C60_lenient_agrees`, `Esat.C60_lenient_inverse`, `Esat.C60_size_one_refuted`, `Esat.C60_strict_scalar_refuted`, `Esat.C61_constant`, `Esat.C61_swap`, `Esat.C62_estimate`, `Esat.C62_largest`, `Esat.C62_memory`, `Esat.C63_contribution_positive`, `Esat.C63_data_finite`, `Esat.C63_data_positive`, `Esat.C63_profiles_positive`, `Esat.C64_outliers`, `Esat.C64_rate_needed`, `Esat.C65_default_frequency`, `Esat.C65_logistic_iff`, `Esat.C65_logistic_refuted`, `Esat.C65_periodic_enough_partial`, `Esat.C65_periodic_every_count_refuted`, `Esat.C65_periodic_iff`, `Esat.C65_periodic_refuted`, `Esat.C65_simple_curves`, `Esat.C66_best_assignment`, `Esat.C66_best_assignment_more_model_factors`, `Esat.C66_constant_factor_refuted`, `Esat.C66_model_results`, `Esat.C66_result_iff`, `Esat.C67_aligned_iff`, `Esat.C67_collision_refuted`, `Esat.C67_direction_refuted`, `Esat.C68_batch`, `Esat.C68_entries_persist`, `Esat.C68_no_exception`, `Esat.C68_partition`, `Esat.C68_threshold_refuted`, `Esat.C69_count`, `Esat.C69_count_refuted`, `Esat.C69_iff_partial`, `Esat.C69_second_batch_refuted`, `Esat.C70_multiplied_partial`, `Esat.C72_constrained_error_refuted`, `Esat.C72_error_coexist_partial`, `Esat.C72_iff_partial`, `Esat.C73_correct_iff`, `Esat.C73_refuted`, `Esat.C73_reported_value`, `Esat.C74_empty_feature`, `Esat.C74_percentages`, `Esat.C77_nonneg_contributions_partial`, `Esat.C77_refuted`, `Esat.C78_bounded_partial`, `Esat.C80_profile`, `Esat.C80_stored`, `Esat.C81_refuted`, `Esat.C81_sign`, `Esat.C81_value`, `Esat.C82_stop`, `Esat.C83_down_refuted`, `Esat.C83_to_refuted`, `Esat.C83_up_none_refuted`, `Esat.C83_up_partial`, `Esat.C83_up_refuted`, `Esat.C84_coefficient_partial`, `Esat.C84_duplicate_refuted`, `Esat.C84_leading_minus_refuted`, `Esat.C84_total_iff_partial`, `Esat.C85_correct_iff`, `Esat.C85_refuted`, `Esat.C86_feature_partial`, `Esat.C86_sample_iff`, `Esat.C86_sample_refuted`, `Esat.C87_refuted`, `Esat.C90_refuted`, `Esat.C91_signal_noise`, `Esat.C91_value`, `Esat.C92_aligned`, `Esat.C92_largest_refuted`, `Esat.C92_run`, `Esat.C93_iff_partial`, `Esat.C93_large_refuted`, `Esat.C93_partial`, `Esat.C93_refuted`, `Esat.C94_iff_partial`, `Esat.C94_refuted`, `Esat.C95_default`, `Esat.C95_documented_refuted`, `Esat.C95_iff_partial`, `Esat.C96_iff_partial`, `Esat.C96_partial`, `Esat.C96_refuted`, `Esat.C97_factor_count`, `Esat.C97_random_profiles`, `Esat.C97_single_factor_refuted`, `Esat.C98_accepted_iff_partial`, `Esat.C98_wrong_width_refuted`, `Esat.C99_curve_range_partial`, `Esat.C99_exchanged_bounds`, `Esat.C99_uniform_iff_partial`, `Esat.C99_uniform_minimum_refuted`

## propext, Quot.sound (144 theorems)

`Esat.C04_no_hold`, `Esat.C104_best_entry`, `Esat.C105_highest_partial`, `Esat.C105_iff_partial`, `Esat.C107_all_models`, `Esat.C108_starts_iff`, `Esat.C109_used`, `Esat.C112_after_get_data`, `Esat.C113_reachable`, `Esat.C113_unreachable`, `Esat.C116_pie`, `Esat.C119_zero_data`, `Esat.C125_load_iff`, `Esat.C129_percentages`, `Esat.C129_tables`, `Esat.C12_no_iterations`, `Esat.C134_level`, `Esat.C135_base`, `Esat.C13_wsnmf_python_refuted`, `Esat.C150_count`, `Esat.C177_history`, `Esat.C178_constraints`, `Esat.C178_loop`, `Esat.C17_data_colMajor_partial`, `Esat.C17_factor_rowMajor_partial`, `Esat.C17_result_contents_partial`, `Esat.C17_square_partial`, `Esat.C17_train_partial`, `Esat.C17_vectors_partial`, `Esat.C181_bound`, `Esat.C183_model_zero`, `Esat.C183_one_factor`, `Esat.C183_search`, `Esat.C183_state`, `Esat.C189_exception`, `Esat.C189_order`, `Esat.C192_telescopes`, `Esat.C194_boxes`, `Esat.C194_commands`, `Esat.C194_details`, `Esat.C194_no_best`, `Esat.C195_done`, `Esat.C195_get`, `Esat.C195_message`, `Esat.C195_separate`, `Esat.C198_sides`, `Esat.C203_loop`, `Esat.C203_shapes`, `Esat.C20_partial`, `Esat.C212_all`, `Esat.C214_incomplete`, `Esat.C215_colours`, `Esat.C231_modes`, `Esat.C231_same`, `Esat.C231_unpicklable`, `Esat.C232_scatter`, `Esat.C232_series`, `Esat.C232_temporal_residual`, `Esat.C234_error_views`, `Esat.C234_never_pickled`, `Esat.C234_run_error`, `Esat.C234_view_iff`, `Esat.C234_views`, `Esat.C23_frame`, `Esat.C23_load_iff`, `Esat.C249_numbers`, `Esat.C24_all_nan_refuted`, `Esat.C24_iff_partial`, `Esat.C24_parallel`, `Esat.C24_sequential`, `Esat.C250_pseudo`, `Esat.C250_qr`, `Esat.C250_vector`, `Esat.C25_delay_refuted`, `Esat.C25_own_index`, `Esat.C25_schedule`, `Esat.C25_three_d_refuted`, `Esat.C262_read`, `Esat.C262_refused`, `Esat.C26_extend`, `Esat.C26_extend_sequential`, `Esat.C26_retrain`, `Esat.C27_refuted`, `Esat.C28_failure`, `Esat.C28_parallel`, `Esat.C28_sequential`, `Esat.C29_large_block_refuted`, `Esat.C31_iff_partial`, `Esat.C31_partial`, `Esat.C35_parallel`, `Esat.C35_sequential`, `Esat.C37_correct_iff`, `Esat.C37_even_refuted`, `Esat.C37_refuted`, `Esat.C39_first`, `Esat.C39_partial`, `Esat.C40_refuted`, `Esat.C40_sequential_partial`, `Esat.C41_accept_iff`, `Esat.C41_add`, `Esat.C41_one_partial`, `Esat.C41_remove`, `Esat.C47_down_zero_refuted`, `Esat.C49_load_fails_partial`, `Esat.C49_load_refuted`, `Esat.C50_categories`, `Esat.C50_dropped_column`, `Esat.C50_restore`, `Esat.C51_partial`, `Esat.C52_partial`, `Esat.C53_empty`, `Esat.C53_split`, `Esat.C67_returns_inverse`, `Esat.C67_unique_partial`, `Esat.C70_int_percent_refuted`, `Esat.C70_lists_partial`, `Esat.C70_percent_refuted`, `Esat.C70_values_partial`, `Esat.C72_load_iff_partial`, `Esat.C75_loss_shapes_partial`, `Esat.C75_ls_shapes_refuted`, `Esat.C75_model_sanity_partial`, `Esat.C75_refuted`, `Esat.C75_ws_hold_shapes_partial`, `Esat.C76_iff_partial`, `Esat.C76_untrained_refuted`, `Esat.C76_with_header_partial`, `Esat.C78_iff_partial`, `Esat.C78_refuted`, `Esat.C79_bootstrap_refuted`, `Esat.C79_displacement_refuted`, `Esat.C79_iff_partial`, `Esat.C79_small_partial`, `Esat.C83_to_partial`, `Esat.C87_correct_iff`, `Esat.C89_iff_partial`, `Esat.C89_refuted`, `Esat.C90_all_columns`, `Esat.C92_bandwidth`, `Esat.C92_harmless`, `Esat.C98_column_refuted`, `Esat.C98_custom_exact`, `Esat.C98_custom_fewer_rows`, `Esat.C98_custom_too_many_rows`

## propext (40 theorems)

`Esat.C109_section_ignored`, `Esat.C111_default_shows_nothing`, `Esat.C125_round_trip`, `Esat.C125_save`, `Esat.C126_never_path`, `Esat.C126_none`, `Esat.C128_bootstrap`, `Esat.C128_excluded`, `Esat.C128_list`, `Esat.C128_pairs`, `Esat.C128_recovered`, `Esat.C177_relative`, `Esat.C177_relative_pickle`, `Esat.C214_frequency`, `Esat.C23_batch_path_contract`, `Esat.C23_batch_round_trip`, `Esat.C23_batch_text_refuted`, `Esat.C23_none_otherwise_refuted`, `Esat.C23_path_contract`, `Esat.C23_round_trip`, `Esat.C23_save_succeeds`, `Esat.C31_nan_refuted`, `Esat.C39_min_refuted`, `Esat.C41_reject`, `Esat.C49_return_refuted`, `Esat.C49_untrained_refuted`, `Esat.C71_run_selected`, `Esat.C71_shown_iff`, `Esat.C72_batch_partial`, `Esat.C72_constrained_partial`, `Esat.C72_error_partial`, `Esat.C72_moved_refuted`, `Esat.C72_relative_refuted`, `Esat.C75_ws_update_refuted`, `Esat.C76_refuted`, `Esat.C88_iff_partial`, `Esat.C88_partial`, `Esat.C88_refuted`, `Esat.C94_last_step_refuted`, `Esat.C94_partial`

## none (9 theorems)

`Esat.C108_alone_raises`, `Esat.C108_missing_file`, `Esat.C112_raises`, `Esat.C121_plot_data`, `Esat.C125_load`, `Esat.C147_never`, `Esat.C202_cleanup`, `Esat.C71_loader`, `Esat.C71_refuted`
