{
 "claims": [
  {
   "property": "C01",
   "status": "proved",
   "theorems": [
    "Esat.C01_nonneg",
    "Esat.C01_positive"
   ],
   "note": ""
  },
  {
   "property": "C02",
   "status": "proved",
   "theorems": [
    "Esat.C02_update_le",
    "Esat.C02_stall_iff_fixed",
    "Esat.C02_recorded_losses_nonincreasing",
    "Esat.C02_every_update_recorded"
   ],
   "note": ""
  },
  {
   "property": "C03",
   "status": "proved",
   "theorems": [
    "Esat.C03_zero_stays_zero",
    "Esat.C03_support_preserved"
   ],
   "note": ""
  },
  {
   "property": "C04",
   "status": "proved",
   "theorems": [
    "Esat.C04_hold",
    "Esat.C04_delay",
    "Esat.C04_no_hold",
    "Esat.C04_hold_python",
    "Esat.C04_lsnmf_hold",
    "Esat.C04_lsnmf_delay",
    "Esat.C04_wsnmf_hold",
    "Esat.C04_wsnmf_delay",
    "Esat.C04_lsnmf_hold_python",
    "Esat.C04_lsnmf_update",
    "Esat.C04_lsnmf_run",
    "Esat.C04_lsnmf_loop_is_update",
    "Esat.C04_wsnmf_update"
   ],
   "note": "Proved at the level of a single update, of a run and of the training loop, for both the Python and the compiled step."
  },
  {
   "property": "C05",
   "status": "proved",
   "theorems": [
    "Esat.C05_permutation",
    "Esat.C05_scaling",
    "Esat.C05_units",
    "Esat.C05_recorded_losses_permutation",
    "Esat.C05_recorded_losses_scaling"
   ],
   "note": ""
  },
  {
   "property": "C06",
   "status": "proved",
   "theorems": [
    "Esat.C06_exact_is_fixed",
    "Esat.C06_fixed_is_stationary",
    "Esat.C06_fixed_is_coordinatewise_minimum"
   ],
   "note": ""
  },
  {
   "property": "C07",
   "status": "proved",
   "theorems": [
    "Esat.C07_row_optimal",
    "Esat.C07_row_unique",
    "Esat.C07_total_optimal",
    "Esat.C07_previous_irrelevant"
   ],
   "note": ""
  },
  {
   "property": "C08",
   "status": "partial",
   "theorems": [
    "Esat.C08_refuted",
    "Esat.C08_nonneg_data_partial",
    "Esat.C08_any_data_partial",
    "Esat.C08_iff_partial"
   ],
   "note": "Refuted for data with negative entries (the new profile is the root of a negative number). Proved for non-negative data with any inverse routine; for any data, non-negativity and preservation of zeros whenever the update yields real numbers. C08_iff_partial: exact condition in terms of the positive and negative parts of the new contributions."
  },
  {
   "property": "C09",
   "status": "proved",
   "theorems": [
    "Esat.C09_formula",
    "Esat.C09_formula_unweighted",
    "Esat.C09_calculate_Q_agrees",
    "Esat.C09_nonneg",
    "Esat.C09_zero_iff",
    "Esat.C09_sign_of_uncertainty",
    "Esat.C09_unit_invariance",
    "Esat.C09_antitone_in_uncertainty"
   ],
   "note": ""
  },
  {
   "property": "C10",
   "status": "proved",
   "theorems": [
    "Esat.C10_is_huber",
    "Esat.C10_le_true",
    "Esat.C10_eq_true_iff",
    "Esat.C10_mono_alpha",
    "Esat.C10_updated_uncertainty",
    "Esat.C10_reweighting",
    "Esat.C10_compiled_agrees"
   ],
   "note": ""
  },
  {
   "property": "C11",
   "status": "proved",
   "theorems": [
    "Esat.C11_sum",
    "Esat.C11_nonneg",
    "Esat.C11_rounded_sum"
   ],
   "note": ""
  },
  {
   "property": "C12",
   "status": "proved",
   "theorems": [
    "Esat.C12_stops_at_first",
    "Esat.C12_converged_iff",
    "Esat.C12_no_iterations"
   ],
   "note": ""
  },
  {
   "property": "C13",
   "status": "partial",
   "theorems": [
    "Esat.C13_refuted",
    "Esat.C13_wsnmf_python_refuted",
    "Esat.C13_window_zero_refuted",
    "Esat.C13_agree_partial",
    "Esat.C13_agree_iff",
    "Esat.C13_converge_steps_partial"
   ],
   "note": "Refuted: the Python loop needs one more recorded loss before testing the criterion, raises TypeError for ws-nmf (no hold_h parameter) and IndexError for converge_n = 0. C13_agree_iff: for ls-nmf with numeric losses and converge_n >= 1 the paths agree exactly unless the criterion holds at the first iteration at which the compiled loop tests it and max_iter reaches it."
  },
  {
   "property": "C14",
   "status": "proved",
   "theorems": [
    "Esat.C14_reports",
    "Esat.C14_throttled_only"
   ],
   "note": ""
  },
  {
   "property": "C15",
   "status": "partial",
   "theorems": [
    "Esat.C15_converged_is_number",
    "Esat.C15_nan_tail",
    "Esat.C15_python_nan",
    "Esat.C15_python_iff_partial",
    "Esat.C15_python_retrain_refuted"
   ],
   "note": "Compiled loop proved: a converged run always has a numeric loss and NaN propagates to the end. Python loop: proved for a fresh model, refuted for re-training (converged flag is never reset). C15_python_iff_partial: a Python run that ends with a NaN loss reports convergence iff the flag was set before it."
  },
  {
   "property": "C16",
   "status": "proved",
   "theorems": [
    "Esat.C16_consistent",
    "Esat.C16_missing"
   ],
   "note": ""
  },
  {
   "property": "C17",
   "status": "partial",
   "theorems": [
    "Esat.C17_data_colMajor_partial",
    "Esat.C17_factor_rowMajor_partial",
    "Esat.C17_result_contents_partial",
    "Esat.C17_train_partial",
    "Esat.C17_refuted",
    "Esat.C17_factor_colMajor_refuted",
    "Esat.C17_retrain_refuted",
    "Esat.C17_vectors_partial",
    "Esat.C17_iff_partial",
    "Esat.C17_square_partial",
    "Esat.C17_shape_iff_partial"
   ],
   "note": "Refuted for row-major data, column-major factors and re-training; proved for column-major data, row-major factors and for vectors. C17_iff_partial: exactly which arrays are read correctly (square row-major data: the symmetric ones, C17_square_partial); C17_shape_iff_partial: all arrays of a shape iff it has at most one row or column."
  },
  {
   "property": "C18",
   "status": "proved",
   "theorems": [
    "Esat.C18_usable"
   ],
   "note": ""
  },
  {
   "property": "C19",
   "status": "partial",
   "theorems": [
    "Esat.C19_profiles_partial",
    "Esat.C19_validated_iff",
    "Esat.C19_default_partial",
    "Esat.C19_user_factors",
    "Esat.C19_negative_mean_refuted",
    "Esat.C19_prior_partial",
    "Esat.C19_prior_broadcast_partial",
    "Esat.C19_too_many_priors",
    "Esat.C19_negative_contributions_refuted",
    "Esat.C19_update_refuted",
    "Esat.C19_integer_refuted",
    "Esat.C19_prior_zero_sum_partial",
    "Esat.C19_prior_zero_sum_refuted"
   ],
   "note": "Proved: exact condition for validation, default initialisation for non-negative data, user-supplied factors, prior profiles (including the exact outcome for columns that sum to zero). Refuted: negative column mean (never validated), user-supplied negative W and init_method containing 'update' (LS-NMF gets negative contributions), integer H with zeros, priors cancelling the sampled rows of a column (infinite profile entries in a model that counts as validated, NaN where an entry is zero). Data with NaN make SciPy's whiten (init_norm=True) or kmeans2 raise before factors are built."
  },
  {
   "property": "C20",
   "status": "partial",
   "theorems": [
    "Esat.C20_partial",
    "Esat.C20_refuted",
    "Esat.C20_iff_partial",
    "Esat.C20_same_array"
   ],
   "note": "Refuted for every full-shape float H with an entry <= 0 (floored in place). Proved for W and for every other H."
  },
  {
   "property": "C21",
   "status": "partial",
   "theorems": [
    "Esat.C21_return_value",
    "Esat.C21_results_iff",
    "Esat.C21_changes_nothing_refuted",
    "Esat.C21_nan_raises_refuted"
   ],
   "note": "Proved for all call sequences, with two exceptions on a never-initialised object: the automatic initialisation changes the object even when train then returns -1 (refuted for a negative mean), and with NaN in the data train raises from SciPy's whiten instead of returning -1 (refuted for every algorithm)."
  },
  {
   "property": "C22",
   "status": "proved",
   "theorems": [
    "Esat.C22_algorithm"
   ],
   "note": ""
  },
  {
   "property": "C23",
   "status": "partial",
   "theorems": [
    "Esat.C23_batch_path_contract",
    "Esat.C23_batch_round_trip",
    "Esat.C23_batch_models",
    "Esat.C23_batch_text_refuted",
    "Esat.C23_path_contract",
    "Esat.C23_frame",
    "Esat.C23_round_trip",
    "Esat.C23_save_succeeds",
    "Esat.C23_load_iff",
    "Esat.C23_none_otherwise_refuted"
   ],
   "note": "Path contract, frame property, exact return values of load and pickle round trip proved, also for batches (one file or one file per model); 'None in all other cases' refuted (exceptions escape), text saving of a batch without header refuted."
  },
  {
   "property": "C24",
   "status": "partial",
   "theorems": [
    "Esat.C24_parallel",
    "Esat.C24_sequential",
    "Esat.C24_all_nan_refuted",
    "Esat.C24_iff_partial"
   ],
   "note": "Proved for both modes when at least one loss is a number. Disagreement: if all losses are NaN the run succeeds with best_model = -2 (C24_all_nan_refuted). C24_iff_partial: in both modes best_model is the index of a model exactly if some loss is a number."
  },
  {
   "property": "C25",
   "status": "partial",
   "theorems": [
    "Esat.C25_schedule",
    "Esat.C25_own_index",
    "Esat.C25_parallel_eq_sequential_partial",
    "Esat.C25_iff_partial",
    "Esat.C25_delay_refuted",
    "Esat.C25_three_d_refuted"
   ],
   "note": "Schedule independence and own-index placement proved. Parallel = sequential proved where delay_h has no effect and H, W are not 3-D; refuted for delay_h (dropped by the sequential branch) and for 3-D H/W (sequential branch passes them unsliced). C25_iff_partial: exact condition, model by model."
  },
  {
   "property": "C26",
   "status": "partial",
   "theorems": [
    "Esat.C26_extend",
    "Esat.C26_extend_sequential",
    "Esat.C26_retrain",
    "Esat.C26_retrain_refuted"
   ],
   "note": "Seed of model t is the t-th draw (C25_own_index), extending a batch keeps earlier models. Disagreement: a second train() call on the same object continues the generator (C26_retrain_refuted)."
  },
  {
   "property": "C27",
   "status": "partial",
   "theorems": [
    "Esat.C27_refuted",
    "Esat.C27_partial",
    "Esat.C27_sequential_partial",
    "Esat.C27_iff_partial"
   ],
   "note": "Refuted: with the compiled training no batch of more than 127 models succeeds (i8 model number). Proved up to 127 models; C27_iff_partial gives the exact condition in the parallel and the sequential mode."
  },
  {
   "property": "C28",
   "status": "proved",
   "theorems": [
    "Esat.C28_parallel",
    "Esat.C28_sequential",
    "Esat.C28_failure"
   ],
   "note": ""
  },
  {
   "property": "C29",
   "status": "partial",
   "theorems": [
    "Esat.C29_partial",
    "Esat.C29_large_block_refuted",
    "Esat.C29_iff_partial",
    "Esat.C29_plain"
   ],
   "note": "Proved for all sizes, draws and block sizes up to half the rows, with and without overlap, and for plain resampling. Refuted for larger block sizes: the code raises instead of reducing the block size as documented. C29_iff_partial is the exact condition for success."
  },
  {
   "property": "C30",
   "status": "partial",
   "theorems": [
    "Esat.C30_refuted",
    "Esat.C30_reachable_partial",
    "Esat.C30_plain"
   ],
   "note": "Refuted: the exclusive upper bound of the draw means the last row is never resampled. The exact set of reachable rows is proved; plain resampling reaches every row."
  },
  {
   "property": "C31",
   "status": "partial",
   "theorems": [
    "Esat.C31_partial",
    "Esat.C31_nan_refuted",
    "Esat.C31_iff_partial",
    "Esat.C31_correlation",
    "Esat.C31_contributions_eq_profiles",
    "Esat.C31_contributions_partial"
   ],
   "note": "Proved whenever the correlation with the base factor of the same number is defined, including that mapping by contributions and by profiles agree. Refuted otherwise: a constant profile is reported as unmapped even if another factor fits perfectly. C31_iff_partial says exactly when a factor is reported as mapped."
  },
  {
   "property": "C32",
   "status": "proved",
   "theorems": [
    "Esat.C32_counts",
    "Esat.C32_row",
    "Esat.C32_total",
    "Esat.C32_order"
   ],
   "note": ""
  },
  {
   "property": "C33",
   "status": "proved",
   "theorems": [
    "Esat.C33_bracket",
    "Esat.C33_levels",
    "Esat.C33_met"
   ],
   "note": ""
  },
  {
   "property": "C34",
   "status": "partial",
   "theorems": [
    "Esat.C34_between",
    "Esat.C34_steps",
    "Esat.C34_window_partial",
    "Esat.C34_window_refuted",
    "Esat.C34_met_partial",
    "Esat.C34_search"
   ],
   "note": "Range, at most 26 evaluations, and the exact meaning of a met window are proved for every loss. Refuted: the search can end outside the window although the step limit of 50 is not reached (it never is)."
  },
  {
   "property": "C35",
   "status": "partial",
   "theorems": [
    "Esat.C35_complete",
    "Esat.C35_sequential",
    "Esat.C35_parallel",
    "Esat.C35_levels",
    "Esat.C35_excluded_partial",
    "Esat.C35_conc_refuted",
    "Esat.C35_conc_iff"
   ],
   "note": "Completeness proved for sequential runs and every parallel completion order. Excluded features carry the base profile; for concentrations below 1e-4 this is refuted because both ends are raised to the floor. C35_conc_iff gives the exact values."
  },
  {
   "property": "C36",
   "status": "partial",
   "theorems": [
    "Esat.C36_sequential",
    "Esat.C36_parallel_actual",
    "Esat.C36_parallel_partial",
    "Esat.C36_iff_partial",
    "Esat.C36_refuted"
   ],
   "note": "Proved for sequential runs and for parallel runs whose factors finish in order; refuted for other orders (columns follow the completion order). C36_iff_partial: a pair of completion orders gives the right table for all outcomes iff the factors first answer in the order of their numbers."
  },
  {
   "property": "C37",
   "status": "partial",
   "theorems": [
    "Esat.C37_refuted",
    "Esat.C37_even_refuted",
    "Esat.C37_correct_iff"
   ],
   "note": "Refuted: labels are reversed while the rows are not, so with an even number of distinct levels every row is mislabelled. C37_correct_iff: exactly which rows are right (all of them only for a list of levels that reads the same in both directions)."
  },
  {
   "property": "C38",
   "status": "proved",
   "theorems": [
    "Esat.C38_history",
    "Esat.C38_count"
   ],
   "note": ""
  },
  {
   "property": "C39",
   "status": "partial",
   "theorems": [
    "Esat.C39_partial",
    "Esat.C39_first",
    "Esat.C39_last_refuted",
    "Esat.C39_min_refuted",
    "Esat.C39_exact_partial"
   ],
   "note": "Refuted: the run with the largest key never influences the result and the lower profile end of later runs is merged with the wrong column. Proved for the first run and for the remaining columns of runs 1 .. len-1. C39_exact_partial gives every merged column exactly for runs stored in order, and the exact condition under which a run's lower profile end is covered."
  },
  {
   "property": "C40",
   "status": "partial",
   "theorems": [
    "Esat.C40_refuted",
    "Esat.C40_sequential_partial"
   ],
   "note": "Refuted: the parallel stage always raises (one tuple passed to a function of eight parameters). The sequential stage is proved to store every run."
  },
  {
   "property": "C41",
   "status": "partial",
   "theorems": [
    "Esat.C41_one_partial",
    "Esat.C41_add",
    "Esat.C41_reject",
    "Esat.C41_accept_iff",
    "Esat.C41_remove",
    "Esat.C41_element_partial",
    "Esat.C41_refuted"
   ],
   "note": "Proved for feature and sample targets over any history; add, reject and remove are characterised exactly. Refuted for misspelt targets: they get the blank label without any check and address the contributions, so one element can carry two constraints. C41_element_partial: at most one constraint per profile entry and two per contribution, in any history."
  },
  {
   "property": "C42",
   "status": "partial",
   "theorems": [
    "Esat.C42_feature_partial",
    "Esat.C42_sample_partial",
    "Esat.C42_sample_iff",
    "Esat.C42_sample_refuted"
   ],
   "note": "Proved for feature constraints. Refuted for sample constraints: the second index is compared with the number of samples instead of factors. C42_sample_iff: right exactly for as many samples as factors."
  },
  {
   "property": "C43",
   "status": "partial",
   "theorems": [
    "Esat.C43_below_partial",
    "Esat.C43_inside_refuted",
    "Esat.C43_above_refuted",
    "Esat.C43_handed_partial",
    "Esat.C43_iff_partial"
   ],
   "note": "What is handed to the update is given exactly, for profiles and contributions, whatever the other constraints are (C43_handed_partial), and exactly when it is the current value moved into the limits (C43_iff_partial): below the lower limit and at zero. Refuted inside (value doubled) and above (moved further up)."
  },
  {
   "property": "C44",
   "status": "proved",
   "theorems": [
    "Esat.C44_profile",
    "Esat.C44_contribution",
    "Esat.C44_stored",
    "Esat.C44_expressions"
   ],
   "note": " C44_expressions states the same for the iteration with expressions."
  },
  {
   "property": "C45",
   "status": "proved",
   "theorems": [
    "Esat.C45_parse",
    "Esat.C45_label_injective"
   ],
   "note": ""
  },
  {
   "property": "C46",
   "status": "proved",
   "theorems": [
    "Esat.C46_budget",
    "Esat.C46_unscaled"
   ],
   "note": ""
  },
  {
   "property": "C47",
   "status": "partial",
   "theorems": [
    "Esat.C47_to",
    "Esat.C47_down_partial",
    "Esat.C47_down_zero_refuted",
    "Esat.C47_down_negative_refuted",
    "Esat.C47_up_partial",
    "Esat.C47_up_negative_refuted",
    "Esat.C47_down_iff",
    "Esat.C47_up_factor",
    "Esat.C47_up_iff"
   ],
   "note": "Proved: pull to value for all losses; pull down for positive and pull up for non-negative entries. Refuted: pull down raises zero entries to 1e-8 and moves negative entries up, pull up moves negative entries down. Exact conditions: C47_down_iff (positive entries), C47_up_iff (for any limit and sign)."
  },
  {
   "property": "C48",
   "status": "proved",
   "theorems": [
    "Esat.C48_nonneg",
    "Esat.C48_zero_iff",
    "Esat.C48_softness"
   ],
   "note": ""
  },
  {
   "property": "C49",
   "status": "partial",
   "theorems": [
    "Esat.C49_return_refuted",
    "Esat.C49_load_refuted",
    "Esat.C49_load_fails_partial",
    "Esat.C49_untrained_refuted"
   ],
   "note": "Refuted: save returns None on success, raises before training, and the pickle holds the inner SA object, which load returns. C49_load_fails_partial says exactly when load returns None and when it raises."
  },
  {
   "property": "C50",
   "status": "proved",
   "theorems": [
    "Esat.C50_categories",
    "Esat.C50_restore",
    "Esat.C50_return",
    "Esat.C50_dropped_column"
   ],
   "note": "Any history of set_category calls on a loaded handler, valid calls for feature columns and arbitrary invalid calls; get_data equals an independent specification from the last category of each feature. A category for a dropped or location column makes get_data raise (C50_dropped_column)."
  },
  {
   "property": "C51",
   "status": "partial",
   "theorems": [
    "Esat.C51_partial",
    "Esat.C51_refuted"
   ],
   "note": "Refuted: only rows with a missing value in both frames are removed (datahandler.py: the mask uses or), so a missing data value with complete uncertainties reaches the model. C51_partial characterises exactly when the arrays are free of NaN."
  },
  {
   "property": "C52",
   "status": "partial",
   "theorems": [
    "Esat.C52_partial",
    "Esat.C52_iff_partial",
    "Esat.C52_refuted"
   ],
   "note": "Refuted: the replacement sys.float_info.min is stored in a float32 array and becomes 0. C52_partial: no zero whenever the replacement survives the conversion; C190_data: for the IEEE conversion, exactly which tables give zeros."
  },
  {
   "property": "C53",
   "status": "partial",
   "theorems": [
    "Esat.C53_split",
    "Esat.C53_nan_refuted",
    "Esat.C53_loads_partial",
    "Esat.C53_iff_partial",
    "Esat.C53_empty"
   ],
   "note": "Proved for numeric cells and present location values; one missing location value makes split_locations raise ZeroDivisionError (C53_nan_refuted: no row matches NaN and loading the empty frame divides by zero). C53_iff_partial: for numeric rows splitting succeeds exactly if no loaded row misses a location value."
  },
  {
   "property": "C54",
   "status": "proved",
   "theorems": [
    "Esat.C54_accept",
    "Esat.C54_rows"
   ],
   "note": "Acceptance is exact (column lists equal in order, one label each, non-empty); row content, order and label proved."
  },
  {
   "property": "C55",
   "status": "partial",
   "theorems": [
    "Esat.C55_refuted",
    "Esat.C55_test_error_refuted",
    "Esat.C55_train_partial",
    "Esat.C55_train_none_partial"
   ],
   "note": "Refuted: i_mask is all ones after the two in-place assignments, so the test error is the error over all cells and does not depend on the mask; the model is trained on all cells as well. C55_train_partial: the training error is the mean over the masked cells."
  },
  {
   "property": "C56",
   "status": "partial",
   "theorems": [
    "Esat.C56_schedule",
    "Esat.C56_missing",
    "Esat.C56_range_partial",
    "Esat.C56_range_refuted",
    "Esat.C56_iff_partial"
   ],
   "note": "Schedule independence proved over exact arithmetic (floating point sums can differ in the last digits). Estimate in range proved unless all test errors are zero (then -1) or there is a single factor number (then np.max of an empty list raises): C56_range_refuted. C56_iff_partial is the exact condition for an estimate in range."
  },
  {
   "property": "C57",
   "status": "proved",
   "theorems": [
    "Esat.C57_bound",
    "Esat.C57_positive"
   ],
   "note": "Bound proved for every length that is a number; positive exactly when the weighted auto-covariance sum does not vanish (C57_positive); for vanishing sums the code returns 0 or NaN."
  },
  {
   "property": "C58",
   "status": "proved",
   "theorems": [
    "Esat.C58_mlag",
    "Esat.C58_series"
   ],
   "note": "Any number of columns and lags."
  },
  {
   "property": "C59",
   "status": "proved",
   "theorems": [
    "Esat.C59_kernel",
    "Esat.C59_slope"
   ],
   "note": "Over any ordered field."
  },
  {
   "property": "C60",
   "status": "partial",
   "theorems": [
    "Esat.C60_determinant",
    "Esat.C60_adjoint",
    "Esat.C60_inverse_partial",
    "Esat.C60_size_one_refuted",
    "Esat.C60_strict_scalar_refuted",
    "Esat.C60_lenient_agrees",
    "Esat.C60_lenient_inverse"
   ],
   "note": "Determinant and adjoint proved for every size; inverse proved for size 2 and up, refuted for 1x1 and under candle's strict to_scalar. The function is not called by the training code."
  },
  {
   "property": "C61",
   "status": "proved",
   "theorems": [
    "Esat.C61_swap",
    "Esat.C61_constant"
   ],
   "note": "Iff, with undefined correlations (constant profiles) treated as in NumPy: they never cause a report (C61_constant)."
  },
  {
   "property": "C62",
   "status": "proved",
   "theorems": [
    "Esat.C62_memory",
    "Esat.C62_largest",
    "Esat.C62_estimate"
   ],
   "note": "Holds and the recommendation is the largest such number."
  },
  {
   "property": "C63",
   "status": "proved",
   "theorems": [
    "Esat.C63_profiles_positive",
    "Esat.C63_data_positive",
    "Esat.C63_data_finite",
    "Esat.C63_contribution_positive"
   ],
   "note": "Profiles, updated contributions, data and uncertainties are positive for all draws. Data need a non-zero outlier magnitude when outliers are on (otherwise NaN)."
  },
  {
   "property": "C64",
   "status": "proved",
   "theorems": [
    "Esat.C64_outliers",
    "Esat.C64_rate_needed"
   ],
   "note": "Holds for rates up to one and non-zero magnitude, in exact arithmetic; the code multiplies and then divides most cells, which is the identity only up to rounding in floating point."
  },
  {
   "property": "C65",
   "status": "partial",
   "theorems": [
    "Esat.C65_simple_curves",
    "Esat.C65_logistic_iff",
    "Esat.C65_periodic_iff",
    "Esat.C65_periodic_refuted",
    "Esat.C65_periodic_every_count_refuted",
    "Esat.C65_logistic_refuted",
    "Esat.C65_periodic_enough_partial",
    "Esat.C65_default_frequency"
   ],
   "note": "Increasing, decreasing and uniform curves always succeed. Exact success conditions are proved for logistic (frequency at most one) and periodic (enough samples per period) curves; both fail otherwise, e.g. 17 samples with the default frequency."
  },
  {
   "property": "C66",
   "status": "partial",
   "theorems": [
    "Esat.C66_best_assignment",
    "Esat.C66_best_assignment_more_model_factors",
    "Esat.C66_result_iff",
    "Esat.C66_constant_factor_refuted",
    "Esat.C66_model_results"
   ],
   "note": "Proved for both directions whenever a result exists, with the exact existence condition (some positive average). Refuted in that a constant (NaN) factor makes compare raise."
  },
  {
   "property": "C67",
   "status": "partial",
   "theorems": [
    "Esat.C67_unique_partial",
    "Esat.C67_returns_inverse",
    "Esat.C67_aligned_iff",
    "Esat.C67_direction_refuted",
    "Esat.C67_collision_refuted"
   ],
   "note": "Only one-to-one-ness holds, when the column optima are distinct. The returned map is the inverse of the matching, the reported metric is that of another pair, and with collisions the map is not one-to-one and values are arrays or -1."
  },
  {
   "property": "C68",
   "status": "partial",
   "theorems": [
    "Esat.C68_partition",
    "Esat.C68_entries_persist",
    "Esat.C68_no_exception",
    "Esat.C68_threshold_refuted",
    "Esat.C68_batch"
   ],
   "note": "Proved for all histories; exceptions excluded for raae thresholds below one and positive thresholds otherwise, refuted outside."
  },
  {
   "property": "C69",
   "status": "partial",
   "theorems": [
    "Esat.C69_count",
    "Esat.C69_iff_partial",
    "Esat.C69_count_refuted",
    "Esat.C69_second_batch_refuted"
   ],
   "note": "Exact value proved: 2*(n/2) after n models in order; right iff n is even (C69_iff_partial), division by zero for n = 1, and later batches are not counted."
  },
  {
   "property": "C70",
   "status": "partial",
   "theorems": [
    "Esat.C70_multiplied_partial",
    "Esat.C70_values_partial",
    "Esat.C70_percent_refuted",
    "Esat.C70_int_percent_refuted",
    "Esat.C70_lists_partial"
   ],
   "note": "Results are positive and every cell is multiplied by the reported multiplier; the percentage has no effect, and int parameters raise."
  },
  {
   "property": "C71",
   "status": "partial",
   "theorems": [
    "Esat.C71_refuted",
    "Esat.C71_shown_iff",
    "Esat.C71_loader",
    "Esat.C71_run_selected"
   ],
   "note": "Refuted: the guard tests all instead of any, so with exactly one flag nothing is shown; C71_shown_iff gives the exact behaviour for all flag combinations (all three flags are needed and then only DISP is shown)."
  },
  {
   "property": "C72",
   "status": "partial",
   "theorems": [
    "Esat.C72_load_iff_partial",
    "Esat.C72_batch_partial",
    "Esat.C72_error_partial",
    "Esat.C72_error_coexist_partial",
    "Esat.C72_constrained_partial",
    "Esat.C72_constrained_error_refuted",
    "Esat.C72_relative_refuted",
    "Esat.C72_moved_refuted",
    "Esat.C72_iff_partial"
   ],
   "note": "Proved for absolute directories equal to the recorded one (batch, error and constrained files). Refuted: run_error reads constrained_<name>.pkl while constrained_model-<name>.pkl is written; relative directories save nothing; moved projects are written and read in different places. C72_iff_partial: exact condition for a directory argument that differs from the recorded one. C72_load_iff_partial states exactly what loading a pickled batch does, including a damaged file."
  },
  {
   "property": "C73",
   "status": "partial",
   "theorems": [
    "Esat.C73_reported_value",
    "Esat.C73_correct_iff",
    "Esat.C73_refuted"
   ],
   "note": "Refuted: the root of the sum is divided by 14; the value is the RMSE exactly for 196 samples (C73_correct_iff)."
  },
  {
   "property": "C74",
   "status": "proved",
   "theorems": [
    "Esat.C74_percentages",
    "Esat.C74_empty_feature"
   ],
   "note": "Proved for non-negative profiles and positive column sum; NaN exactly for features with an all-zero column."
  },
  {
   "property": "C75",
   "status": "partial",
   "theorems": [
    "Esat.C75_refuted",
    "Esat.C75_ls_shapes_refuted",
    "Esat.C75_model_sanity_partial",
    "Esat.C75_ws_hold_shapes_partial",
    "Esat.C75_ws_update_refuted",
    "Esat.C75_loss_shapes_partial"
   ],
   "note": "Refuted: on a CUDA machine the loss is read with the wrong element type in the first iteration, so train returns False for every shape; LS-NMF also passes the factors transposed."
  },
  {
   "property": "C76",
   "status": "partial",
   "theorems": [
    "Esat.C76_refuted",
    "Esat.C76_untrained_refuted",
    "Esat.C76_with_header_partial",
    "Esat.C76_iff_partial"
   ],
   "note": "Refuted for the default header and for untrained models (exception after some files are written); proved with a header. C76_iff_partial: with openable files the call returns exactly if a header was passed and all four arrays exist."
  },
  {
   "property": "C77",
   "status": "partial",
   "theorems": [
    "Esat.C77_refuted",
    "Esat.C77_nonneg_contributions_partial"
   ],
   "note": "Refuted when the recomputed contributions contain negative entries, also for positive data (C253_rises); proved when they are non-negative. C252 gives the amount by which the loss then falls, C253 bounds the rise in the general case."
  },
  {
   "property": "C78",
   "status": "partial",
   "theorems": [
    "Esat.C78_bounded_partial",
    "Esat.C78_refuted",
    "Esat.C78_iff_partial"
   ],
   "note": "Refuted: entries below 1e-6 of the trained profiles are set to zero in place. Proved: nothing else changes."
  },
  {
   "property": "C79",
   "status": "partial",
   "theorems": [
    "Esat.C79_displacement_refuted",
    "Esat.C79_bootstrap_refuted",
    "Esat.C79_small_partial",
    "Esat.C79_iff_partial"
   ],
   "note": "Refuted above 127 runs or tasks (signed byte model number); proved up to 127. C79_iff_partial: each stage succeeds iff it has at most 127 tasks, and what the bootstrap then returns."
  },
  {
   "property": "C80",
   "status": "proved",
   "theorems": [
    "Esat.C80_profile",
    "Esat.C80_stored"
   ],
   "note": ""
  },
  {
   "property": "C81",
   "status": "partial",
   "theorems": [
    "Esat.C81_sign",
    "Esat.C81_refuted",
    "Esat.C81_value"
   ],
   "note": "Refuted: only negative values of base minus new loss are kept, so a decrease of the loss is reported as zero. C81_value: the reported number is minus the larger of the two increases of the loss, or zero; C81_sign: never positive."
  },
  {
   "property": "C82",
   "status": "proved",
   "theorems": [
    "Esat.C82_stop"
   ],
   "note": ""
  },
  {
   "property": "C83",
   "status": "partial",
   "theorems": [
    "Esat.C83_to_partial",
    "Esat.C83_to_refuted",
    "Esat.C83_down_refuted",
    "Esat.C83_up_partial",
    "Esat.C83_up_none_refuted",
    "Esat.C83_up_refuted"
   ],
   "note": "Proved when the target itself respects the limit; 'pull up' located between consecutive powers of two and within one part in 2^29 of a value that respects the limit (C83_up_partial). Refuted: pull down compounds its factors and cannot move back up, pull to value moves towards the target when the limit is exceeded, pull up may end above the limit, and with a limit of at most 100 it often does not move the value at all."
  },
  {
   "property": "C84",
   "status": "partial",
   "theorems": [
    "Esat.C84_coefficient_partial",
    "Esat.C84_total_iff_partial",
    "Esat.C84_duplicate_refuted",
    "Esat.C84_leading_minus_refuted"
   ],
   "note": "Proved: the coefficient used is the first one written for the element in that expression. Refuted for repeated elements and a leading minus sign. C84_total_iff_partial: the coefficient used is the total one exactly if the later occurrences cancel."
  },
  {
   "property": "C85",
   "status": "partial",
   "theorems": [
    "Esat.C85_refuted",
    "Esat.C85_correct_iff"
   ],
   "note": "Refuted: the solver's right hand side is the sum of the current element values, so exact solutions violate the expression; the text right of = is never used. C85_correct_iff: a solution satisfies the expression exactly if that sum is zero."
  },
  {
   "property": "C86",
   "status": "partial",
   "theorems": [
    "Esat.C86_feature_partial",
    "Esat.C86_sample_refuted",
    "Esat.C86_sample_iff"
   ],
   "note": "Proved for profile elements. Refuted for contribution elements (indices swapped). C86_sample_iff: right exactly if sample and factor number are equal."
  },
  {
   "property": "C87",
   "status": "partial",
   "theorems": [
    "Esat.C87_refuted",
    "Esat.C87_correct_iff"
   ],
   "note": "Refuted: two lists are concatenated. C87_correct_iff: right exactly for an empty history."
  },
  {
   "property": "C88",
   "status": "partial",
   "theorems": [
    "Esat.C88_partial",
    "Esat.C88_refuted",
    "Esat.C88_iff_partial"
   ],
   "note": "Refuted: load_dataframe never builds the plot frames, and above max_plotting_n samples the aggregated frame is stored under another name. C88_iff_partial: exact condition."
  },
  {
   "property": "C89",
   "status": "partial",
   "theorems": [
    "Esat.C89_refuted",
    "Esat.C89_iff_partial"
   ],
   "note": "Refuted: the text column source_label is converted to float32 together with the data. C89_iff_partial: get_data of a merged handler succeeds exactly if source_label is among the dropped columns."
  },
  {
   "property": "C90",
   "status": "partial",
   "theorems": [
    "Esat.C90_refuted",
    "Esat.C90_all_columns"
   ],
   "note": "Refuted: split_locations passes neither the location columns nor the dropped column on; C90_all_columns: whenever it works, every column of the original is a feature of every split handler, so the features never agree."
  },
  {
   "property": "C91",
   "status": "proved",
   "theorems": [
    "Esat.C91_signal_noise",
    "Esat.C91_value"
   ],
   "note": "With missing numbers (skipped, but counted in the number of rows) and zero uncertainties; uncertainties are not negative."
  },
  {
   "property": "C92",
   "status": "partial",
   "theorems": [
    "Esat.C92_run",
    "Esat.C92_largest_refuted",
    "Esat.C92_harmless",
    "Esat.C92_bandwidth",
    "Esat.C92_aligned"
   ],
   "note": "The first half is proved; the fallback returns the array position of the largest significant lag, one less than the lag (C92_largest_refuted), which has no effect on the bandwidth for series with ceil(sqrt n) at least 6 (C92_harmless)."
  },
  {
   "property": "C93",
   "status": "partial",
   "theorems": [
    "Esat.C93_partial",
    "Esat.C93_refuted",
    "Esat.C93_large_refuted",
    "Esat.C93_iff_partial"
   ],
   "note": "Refuted: a constant feature makes the fallback int(features/5) apply, which is 0 for fewer than five features and can exceed the number of samples. C93_iff_partial: exact conditions for 1 <= block size and block size <= n in both cases."
  },
  {
   "property": "C94",
   "status": "partial",
   "theorems": [
    "Esat.C94_refuted",
    "Esat.C94_last_step_refuted",
    "Esat.C94_partial",
    "Esat.C94_iff_partial"
   ],
   "note": "Refuted: the computed string is never returned (None), hourly data give \"D\", the last step is not looked at. C94_iff_partial: for timestamps in order the result is \"D\" exactly for fewer than three of them or a smallest step of one hour."
  },
  {
   "property": "C95",
   "status": "partial",
   "theorems": [
    "Esat.C95_default",
    "Esat.C95_documented_refuted",
    "Esat.C95_iff_partial"
   ],
   "note": "All parts proved except the documented default, which is refuted: three quarters of the recommended cores are used. C95_iff_partial: the documented default is used exactly on machines with two cores, and with three or four if the memory suffices."
  },
  {
   "property": "C96",
   "status": "partial",
   "theorems": [
    "Esat.C96_partial",
    "Esat.C96_refuted",
    "Esat.C96_iff_partial"
   ],
   "note": "Proved for positive errors; refuted when some error is zero: a perfect fit is never chosen. C96_iff_partial: the estimate minimises error times power exactly if no mean error is zero."
  },
  {
   "property": "C97",
   "status": "partial",
   "theorems": [
    "Esat.C97_factor_count",
    "Esat.C97_single_factor_refuted",
    "Esat.C97_random_profiles"
   ],
   "note": "Exact condition: at least two factors. A single factor raises in rng.integers(1, 1)."
  },
  {
   "property": "C98",
   "status": "partial",
   "theorems": [
    "Esat.C98_custom_exact",
    "Esat.C98_custom_fewer_rows",
    "Esat.C98_custom_too_many_rows",
    "Esat.C98_accepted_iff_partial",
    "Esat.C98_column_refuted",
    "Esat.C98_wrong_width_refuted"
   ],
   "note": "Exact shape and fewer rows behave as stated, more rows raise; refuted for a single column, which is broadcast over all features (C98_column_refuted, for every number of features other than one). C98_accepted_iff_partial: exactly which shapes are accepted."
  },
  {
   "property": "C99",
   "status": "partial",
   "theorems": [
    "Esat.C99_curve_range_partial",
    "Esat.C99_exchanged_bounds",
    "Esat.C99_uniform_minimum_refuted",
    "Esat.C99_uniform_iff_partial"
   ],
   "note": "Proved for the four shaped curves; the minimum is ignored by the uniform curve, which stays within the bounds exactly for a minimum of at most zero and a maximum of at least zero (C99_uniform_iff_partial)."
  },
  {
   "property": "C100",
   "status": "partial",
   "theorems": [
    "Esat.C100_all_compared",
    "Esat.C100_failed_model_refuted",
    "Esat.C100_compared_iff"
   ],
   "note": "C100_compared_iff: the comparison works exactly if all failed models come after all others; otherwise KeyError (C100_failed_model_refuted)."
  },
  {
   "property": "C101",
   "status": "partial",
   "theorems": [
    "Esat.C101_base_loss_refuted",
    "Esat.C101_base_loss",
    "Esat.C101_iff_partial"
   ],
   "note": "Refuted: the data are passed in place of the uncertainty. C101_base_loss: right if the uncertainties equal the data, too small for positive uncertainties below the data unless the fit is exact. C101_iff_partial: right for every base solution only if the uncertainties equal the data."
  },
  {
   "property": "C102",
   "status": "proved",
   "theorems": [
    "Esat.C102_emc_is_profile_correlation",
    "Esat.C102_emc_self"
   ],
   "note": "For non-zero mean contribution of the first factor and non-zero profile totals."
  },
  {
   "property": "C103",
   "status": "proved",
   "theorems": [
    "Esat.C103_raae",
    "Esat.C103_raae_not_symmetric"
   ],
   "note": ""
  },
  {
   "property": "C104",
   "status": "partial",
   "theorems": [
    "Esat.C104_best_entry",
    "Esat.C104_all_members_refuted",
    "Esat.C104_join_partial",
    "Esat.C104_close_partial",
    "Esat.C104_exact_partial"
   ],
   "note": "Best entry proved; the threshold is applied to the mean over the members, not to each of them. C104_join_partial: a joined factor meets the threshold in the mean and with at least one member; C104_close_partial: a factor that meets it with all members of some entry never starts a new one."
  },
  {
   "property": "C105",
   "status": "partial",
   "theorems": [
    "Esat.C105_highest_partial",
    "Esat.C105_raae_refuted",
    "Esat.C105_iff_partial"
   ],
   "note": "Highest metric proved; for raae this is the least similar entry. C105_iff_partial: for raae the result is a most similar entry exactly if all defined mean errors are equal."
  },
  {
   "property": "C106",
   "status": "partial",
   "theorems": [
    "Esat.C106_profile_only_refuted",
    "Esat.C106_copy_joins_partial",
    "Esat.C106_copies_partial"
   ],
   "note": "Holds for corr/emc with a single entry; with raae (the default) copies open new entries. C106_copies_partial: for every number of copies, corr/emc make one entry, raae with profile_only makes one entry per copy (or raises for a threshold of at least one), raae without profile_only makes one."
  },
  {
   "property": "C107",
   "status": "proved",
   "theorems": [
    "Esat.C107_all_models",
    "Esat.C107_excluded",
    "Esat.C107_best_kept"
   ],
   "note": ""
  },
  {
   "property": "C108",
   "status": "proved",
   "theorems": [
    "Esat.C108_alone_raises",
    "Esat.C108_starts_iff",
    "Esat.C108_missing_file"
   ],
   "note": "Discrepancy: BS-DISP alone raises AttributeError."
  },
  {
   "property": "C109",
   "status": "proved",
   "theorems": [
    "Esat.C109_section_ignored",
    "Esat.C109_used"
   ],
   "note": "Discrepancy: [bsdisp] features are ignored."
  },
  {
   "property": "C110",
   "status": "proved",
   "theorems": [
    "Esat.C110_parallel_verbose",
    "Esat.C110_cannot_be_switched_off"
   ],
   "note": "Discrepancy: init_norm = False and outliers = False in a configuration file mean true."
  },
  {
   "property": "C111",
   "status": "proved",
   "theorems": [
    "Esat.C111_default_shows_nothing",
    "Esat.C111_one_based"
   ],
   "note": "Discrepancy: the documented default shows nothing."
  },
  {
   "property": "C112",
   "status": "proved",
   "theorems": [
    "Esat.C112_raises",
    "Esat.C112_after_get_data",
    "Esat.C112_commands"
   ],
   "note": "Discrepancy: the commands always raise; C112_commands lists them by name with the full model of the commands."
  },
  {
   "property": "C113",
   "status": "proved",
   "theorems": [
    "Esat.C113_reachable",
    "Esat.C113_unreachable"
   ],
   "note": "Discrepancy: duplicate command name."
  },
  {
   "property": "C114",
   "status": "proved",
   "theorems": [
    "Esat.C114_least_squares",
    "Esat.C114_se_regression"
   ],
   "note": ""
  },
  {
   "property": "C115",
   "status": "proved",
   "theorems": [
    "Esat.C115_profile_mean_one",
    "Esat.C115_plot_means",
    "Esat.C115_label_correct_iff"
   ],
   "note": "Discrepancy: two of three labels are wrong."
  },
  {
   "property": "C116",
   "status": "proved",
   "theorems": [
    "Esat.C116_rejected_iff",
    "Esat.C116_pie",
    "Esat.C116_large_threshold"
   ],
   "note": "Discrepancy: thresholds above 50 are accepted."
  },
  {
   "property": "C117",
   "status": "proved",
   "theorems": [
    "Esat.C117_with_handler",
    "Esat.C117_without_handler_no_failure",
    "Esat.C117_shifted_labels",
    "Esat.C117_wrong_best"
   ],
   "note": "Discrepancy: labels shift after failed models without a data handler."
  },
  {
   "property": "C118",
   "status": "proved",
   "theorems": [
    "Esat.C118_outcome"
   ],
   "note": "Discrepancy: both raises IndexError."
  },
  {
   "property": "C119",
   "status": "proved",
   "theorems": [
    "Esat.C119_sum",
    "Esat.C119_zero_data"
   ],
   "note": "Discrepancy: documented as share of the sum of all factors."
  },
  {
   "property": "C120",
   "status": "proved",
   "theorems": [
    "Esat.C120_one_to_one",
    "Esat.C120_regression"
   ],
   "note": ""
  },
  {
   "property": "C121",
   "status": "proved",
   "theorems": [
    "Esat.C121_estimate",
    "Esat.C121_plot_data"
   ],
   "note": "Discrepancy: aggregated input is assigned to V_prime_plot, input_data_plot stays None."
  },
  {
   "property": "C122",
   "status": "proved",
   "theorems": [
    "Esat.C122_title"
   ],
   "note": "Discrepancy: the default None raises TypeError."
  },
  {
   "property": "C123",
   "status": "proved",
   "theorems": [
    "Esat.C123_bars"
   ],
   "note": ""
  },
  {
   "property": "C124",
   "status": "proved",
   "theorems": [
    "Esat.C124_axis"
   ],
   "note": "Discrepancy: concentrations below one are cut off."
  },
  {
   "property": "C125",
   "status": "proved",
   "theorems": [
    "Esat.C125_load",
    "Esat.C125_load_iff",
    "Esat.C125_save",
    "Esat.C125_round_trip",
    "Esat.C125_simulator",
    "Esat.C125_disp_text",
    "Esat.C125_bs_text"
   ],
   "note": "Proved. The simulator returns True/False instead of a path."
  },
  {
   "property": "C126",
   "status": "proved",
   "theorems": [
    "Esat.C126_none",
    "Esat.C126_never_path"
   ],
   "note": "Proved as stated; it disagrees with the docstring (the path on success)."
  },
  {
   "property": "C127",
   "status": "proved",
   "theorems": [
    "Esat.C127_text"
   ],
   "note": "Proved as stated; it disagrees with the docstring."
  },
  {
   "property": "C128",
   "status": "proved",
   "theorems": [
    "Esat.C128_recovered",
    "Esat.C128_list",
    "Esat.C128_pairs",
    "Esat.C128_excluded",
    "Esat.C128_bootstrap"
   ],
   "note": "Proved for the value type PyVal (None, booleans, numbers, texts, numpy numbers and arrays, lists, dictionaries with text keys, other objects)."
  },
  {
   "property": "C129",
   "status": "proved",
   "theorems": [
    "Esat.C129_tables",
    "Esat.C129_percentages",
    "Esat.C129_swaps"
   ],
   "note": "Proved. The counters are not reset, so a second run adds to the first (C129_tables); swap entries never exceed count entries (C129_percentages)."
  },
  {
   "property": "C130",
   "status": "proved",
   "theorems": [
    "Esat.C130_drops",
    "Esat.C130_last_missed"
   ],
   "note": "Proved as stated; the loop ends before the last key, so the last run is missed."
  },
  {
   "property": "C131",
   "status": "proved",
   "theorems": [
    "Esat.C131_fit",
    "Esat.C131_zero"
   ],
   "note": "Proved."
  },
  {
   "property": "C132",
   "status": "proved",
   "theorems": [
    "Esat.C132_largest",
    "Esat.C132_decrease"
   ],
   "note": "Proved. C81_sign shows that the columns have no positive entries."
  },
  {
   "property": "C133",
   "status": "proved",
   "theorems": [
    "Esat.C133_rows"
   ],
   "note": "Proved for distinct levels."
  },
  {
   "property": "C134",
   "status": "proved",
   "theorems": [
    "Esat.C134_rows",
    "Esat.C134_level",
    "Esat.C134_bsdisp"
   ],
   "note": "Proved. Disagreement with the docstring of BSDISP.plot_profile and plot_contribution recorded in C134_bsdisp."
  },
  {
   "property": "C135",
   "status": "proved",
   "theorems": [
    "Esat.C135_base",
    "Esat.C135_changed_iff"
   ],
   "note": "Proved as stated; base_H is the array of the base model, so a summary changes the model."
  },
  {
   "property": "C136",
   "status": "proved",
   "theorems": [
    "Esat.C136_contribution",
    "Esat.C136_exact",
    "Esat.C136_profile",
    "Esat.C136_sum"
   ],
   "note": "Proved. Rounding is any function with bounded error."
  },
  {
   "property": "C137",
   "status": "proved",
   "theorems": [
    "Esat.C137_position"
   ],
   "note": "Proved as stated; the documentation maps bootstrap factors to base factors."
  },
  {
   "property": "C138",
   "status": "proved",
   "theorems": [
    "Esat.C138_nothing",
    "Esat.C138_figure",
    "Esat.C138_disp"
   ],
   "note": "Proved. Figures are represented by the numbers given to plotly."
  },
  {
   "property": "C139",
   "status": "proved",
   "theorems": [
    "Esat.C139_sign"
   ],
   "note": "Arbitrary symmetric rounding of magnitudes (overflow and underflow included), arbitrary order, grouping and fusing of the sums. Inputs with -0 are excluded: x / -0 would be negative."
  },
  {
   "property": "C140",
   "status": "proved",
   "theorems": [
    "Esat.C140_zero"
   ],
   "note": "Same arithmetic as C139."
  },
  {
   "property": "C141",
   "status": "proved",
   "theorems": [
    "Esat.C141_loss"
   ],
   "note": "Same arithmetic as C139; no hypothesis on the inputs."
  },
  {
   "property": "C142",
   "status": "proved",
   "theorems": [
    "Esat.C142_ws",
    "Esat.C142_parts"
   ],
   "note": "The products with the diagonal weight matrix and the new W are arbitrary, so the claim covers the NumPy and the compiled version."
  },
  {
   "property": "C143",
   "status": "proved",
   "theorems": [
    "Esat.C143_spoilt",
    "Esat.C143_never_converges",
    "Esat.C143_held_row"
   ],
   "note": "At least one sample, feature and factor."
  },
  {
   "property": "C144",
   "status": "proved",
   "theorems": [
    "Esat.C144_underflow",
    "Esat.C144_overflow"
   ],
   "note": "Two concrete evaluations in binary32."
  },
  {
   "property": "C145",
   "status": "proved",
   "theorems": [
    "Esat.C145_accuracy",
    "Esat.C145_format",
    "Esat.C145_binary32",
    "Esat.C145_exact"
   ],
   "note": "C145_format shows the accuracy hypothesis for every binary format, C145_binary32 for float32; C145_exact identifies the exact update with the model used by the other ls-nmf theorems."
  },
  {
   "property": "C146",
   "status": "proved",
   "theorems": [
    "Esat.C146_increase"
   ],
   "note": "One concrete evaluation in binary32."
  },
  {
   "property": "C147",
   "status": "proved",
   "theorems": [
    "Esat.C147_never"
   ],
   "note": "Disagreement with the documentation: the class cannot be used."
  },
  {
   "property": "C148",
   "status": "proved",
   "theorems": [
    "Esat.C148_default",
    "Esat.C148_rejected",
    "Esat.C148_filled",
    "Esat.C148_mean"
   ],
   "note": "impute is modelled for an object created in some other way. The scikit-learn imputers are an arbitrary function for the missing cells."
  },
  {
   "property": "C149",
   "status": "proved",
   "theorems": [
    "Esat.C149_standardize"
   ],
   "note": ""
  },
  {
   "property": "C150",
   "status": "proved",
   "theorems": [
    "Esat.C150_sum",
    "Esat.C150_sum_wrong",
    "Esat.C150_reorder",
    "Esat.C150_feature",
    "Esat.C150_plot_factors",
    "Esat.C150_count"
   ],
   "note": "The label of the count says strictly above the threshold."
  },
  {
   "property": "C151",
   "status": "proved",
   "theorems": [
    "Esat.C151_converges",
    "Esat.C151_first_iteration",
    "Esat.C151_python"
   ],
   "note": "Proved for the compiled and the Python loop in exact arithmetic, from positive starting factors, data without empty rows or columns and non-zero uncertainties."
  },
  {
   "property": "C152",
   "status": "proved",
   "theorems": [
    "Esat.C152_never"
   ],
   "note": "Proved for the compiled loop."
  },
  {
   "property": "C153",
   "status": "proved",
   "theorems": [
    "Esat.C153_bounds"
   ],
   "note": "Proved for every schedule of H updates."
  },
  {
   "property": "C154",
   "status": "proved",
   "theorems": [
    "Esat.C154_settled",
    "Esat.C154_runs",
    "Esat.C154_limit_point",
    "Esat.C154_positive_limit_point",
    "Esat.C154_limit_optimal"
   ],
   "note": "Proved over the reals for endless sequences of updates (C154_settled: without assuming that the update of the limit is defined) and for the results of longer and longer compiled runs (C154_runs); whether the factors converge at all is not claimed."
  },
  {
   "property": "C155",
   "status": "proved",
   "theorems": [
    "Esat.C155_one_factor"
   ],
   "note": "Proved for every weight matrix without negative entries."
  },
  {
   "property": "C156",
   "status": "proved",
   "theorems": [
    "Esat.C156_reweighting",
    "Esat.C156_update",
    "Esat.C156_reported_can_increase"
   ],
   "note": "Proved; the reported robust loss is shown to increase in a case in which the reweighted loss decreases."
  },
  {
   "property": "C157",
   "status": "proved",
   "theorems": [
    "Esat.C157_no_effect",
    "Esat.C157_documented_differs"
   ],
   "note": "Proved: the parameters are only stored in the metadata. Disagreement with the documentation, which the second theorem shows to describe different factors."
  },
  {
   "property": "C158",
   "status": "proved",
   "theorems": [
    "Esat.C158_entry_fixed_iff",
    "Esat.C158_nonneg_iff",
    "Esat.C158_fixed_identity",
    "Esat.C158_one_factor",
    "Esat.C158_exact"
   ],
   "note": "The square-root multiplicative step of ws-nmf is the one of semi-NMF, but it splits the product of positive and negative parts of W differently from the derivation: the fixed points are not stationary points of the loss when contributions are negative. C158_exact with its example shows an exact factorisation which an update destroys."
  },
  {
   "property": "C159",
   "status": "proved",
   "theorems": [
    "Esat.C159_single_feature"
   ],
   "note": "The smallest case of C158: with a negative sample the profile is multiplied by a factor above one for ever."
  },
  {
   "property": "C160",
   "status": "proved",
   "theorems": [
    "Esat.C160_rows",
    "Esat.C160_raises_iff"
   ],
   "note": "Constraints with a target other than feature and sample are left out of C160_raises_iff. The second index of a constraint on a contribution is compared with the number of samples in add_constraint, hence the second condition."
  },
  {
   "property": "C161",
   "status": "proved",
   "theorems": [
    "Esat.C161_values",
    "Esat.C161_raises"
   ],
   "note": "Elements of type sample are covered by C86 (the table reads another entry). Each element at most once per expression, as in C84."
  },
  {
   "property": "C162",
   "status": "proved",
   "theorems": [
    "Esat.C162_factor_figures",
    "Esat.C162_profile_index",
    "Esat.C162_g_space",
    "Esat.C162_fingerprints",
    "Esat.C162_feature_number"
   ],
   "note": "Disagreement: exchanged titles in ConstrainedModel.plot_g_space. The highlighting of constrained elements in plot_profile (constrained.py:930-944) is computed but not used in the figure and is not modelled."
  },
  {
   "property": "C163",
   "status": "proved",
   "theorems": [
    "Esat.C163_quadratic",
    "Esat.C163_stationary"
   ],
   "note": "The loss evaluated by the searches is q_loss with the base contributions; base_Q is the loss before EPSILON is added to the profiles and enters as a separate constant."
  },
  {
   "property": "C164",
   "status": "proved",
   "theorems": [
    "Esat.C164_upper",
    "Esat.C164_lower"
   ],
   "note": "Exact arithmetic. The reach conditions are explicit hypotheses; an instance is checked beside the theorems."
  },
  {
   "property": "C165",
   "status": "proved",
   "theorems": [
    "Esat.C165_sound",
    "Esat.C165_refit"
   ],
   "note": "Holds without any assumption of optimality. The converse (that refitting reaches no further) is false in general and not claimed."
  },
  {
   "property": "C166",
   "status": "proved",
   "theorems": [
    "Esat.C166_means"
   ],
   "note": "The means are wrong in general: run B, the last key, is missing and the first-finished run is counted twice (or, if it is run B itself, all is well). The same loop bounds were recorded for the drops in C130."
  },
  {
   "property": "C167",
   "status": "proved",
   "theorems": [
    "Esat.C167_python",
    "Esat.C167_training"
   ],
   "note": "Over any ordered field; both algorithms run by the Rust loop. Scaling of a factor of the starting point is a special case (r = c = 1)."
  },
  {
   "property": "C168",
   "status": "proved",
   "theorems": [
    "Esat.C168_update",
    "Esat.C168_samples"
   ],
   "note": "EPSILON makes the profile update of ws-nmf depend on the unit of a feature (disagreement with the documentation, which describes a scale-free method)."
  },
  {
   "property": "C169",
   "status": "proved",
   "theorems": [
    "Esat.C169_start",
    "Esat.C169_training"
   ],
   "note": "About half of the entries of the default start are floored at 1e-12, in every unit (C10); those entries are what depends on the unit."
  },
  {
   "property": "C170",
   "status": "proved",
   "theorems": [
    "Esat.C170_blocks",
    "Esat.C170_overlap"
   ],
   "note": "Disagreement: rows of the last block are never drawn without overlap; with overlap the rows at both ends are under-represented. The statement counts over all sequences of draws, each equally likely."
  },
  {
   "property": "C171",
   "status": "proved",
   "theorems": [
    "Esat.C171_interpolation",
    "Esat.C171_order",
    "Esat.C171_counts",
    "Esat.C171_median"
   ],
   "note": "Exact numbers; pandas and numpy interpolate linearly by default."
  },
  {
   "property": "C172",
   "status": "proved",
   "theorems": [
    "Esat.C172_columns",
    "Esat.C172_within",
    "Esat.C172_identical",
    "Esat.C172_row",
    "Esat.C172_losses"
   ],
   "note": "The table value of a run is rounded to four decimals (np.round, ties to even) and the base value is not: exact reproduction counts as outside the IQR in general (C172_identical). The standard deviation is represented by its square."
  },
  {
   "property": "C173",
   "status": "proved",
   "theorems": [
    "Esat.C173_metrics",
    "Esat.C173_exact"
   ],
   "note": "NaN as missing values."
  },
  {
   "property": "C174",
   "status": "proved",
   "theorems": [
    "Esat.C174_multipliers",
    "Esat.C174_table",
    "Esat.C174_multipliers_exact",
    "Esat.C174_row"
   ],
   "note": "The factor index 1 is written into the code (perturbation.py:248). Zeros are written over the difference where the mean is below 1e-6."
  },
  {
   "property": "C175",
   "status": "proved",
   "theorems": [
    "Esat.C175_groups",
    "Esat.C175_ties",
    "Esat.C175_output"
   ],
   "note": "Disagreement with the purpose of the function: the aggregated series is sorted by size (C175_groups) and repeated values raise a ValueError because the labels no longer fit the edges (C175_ties)."
  },
  {
   "property": "C176",
   "status": "proved",
   "theorems": [
    "Esat.C176_ok_iff",
    "Esat.C176_exit_iff",
    "Esat.C176_zero",
    "Esat.C176_command_line",
    "Esat.C176_unknown"
   ],
   "note": "Exact characterisation. Disagreements: `index_col=0` is ignored (`if index_col:`), and every value from a configuration file is text, so the default 0 of `setup` is looked up as a column name. Column names of a file are distinct (pandas makes them so); negative positions are not modelled."
  },
  {
   "property": "C177",
   "status": "proved",
   "theorems": [
    "Esat.C177_history",
    "Esat.C177_relative",
    "Esat.C177_relative_pickle"
   ],
   "note": "Exact characterisation of the data used by `run`, `estimate`, `compare` and `plot` for any history. Disagreement: `run` trains on data that are not the ones saved, since `get_data` draws again. Writing always succeeds; what `run` writes to `output` is left out."
  },
  {
   "property": "C178",
   "status": "proved",
   "theorems": [
    "Esat.C178_constraints",
    "Esat.C178_expressions",
    "Esat.C178_defaults",
    "Esat.C178_loop"
   ],
   "note": "Exact characterisation; indices have two entries, as in the default configuration."
  },
  {
   "property": "C179",
   "status": "proved",
   "theorems": [
    "Esat.C179_test",
    "Esat.C179_compiled",
    "Esat.C179_overflow",
    "Esat.C179_training",
    "Esat.C179_infinite",
    "Esat.C179_python"
   ],
   "note": "Exact characterisation of both loops on sequences of IEEE losses. Disagreement: a finite loss followed by an overflow is reported as convergence."
  },
  {
   "property": "C180",
   "status": "proved",
   "theorems": [
    "Esat.C180_difference",
    "Esat.C180_sound",
    "Esat.C180_exact",
    "Esat.C180_coarse"
   ],
   "note": "Sterbenz' lemma and monotonicity of rounding to nearest, proved for all binary formats with the rounding of Model/Ieee.lean. For single precision and a loss above 2^21 the spacing is at least 1/4, so the default tolerance 0.1 then means no drop at all."
  },
  {
   "property": "C181",
   "status": "proved",
   "theorems": [
    "Esat.C181_default",
    "Esat.C181_given",
    "Esat.C181_bound"
   ],
   "note": "C181_given records the disagreement that BSDISP(cores=…) has no effect."
  },
  {
   "property": "C182",
   "status": "proved",
   "theorems": [
    "Esat.C182_schedule",
    "Esat.C182_order",
    "Esat.C182_failure",
    "Esat.C182_second",
    "Esat.C182_tables"
   ],
   "note": "Resampling, training and mapping are arbitrary functions of the seed and may fail. C182_order gives the order of the entries on a new object."
  },
  {
   "property": "C183",
   "status": "proved",
   "theorems": [
    "Esat.C183_state",
    "Esat.C183_select",
    "Esat.C183_search",
    "Esat.C183_figures",
    "Esat.C183_model_zero",
    "Esat.C183_one_factor",
    "Esat.C183_perfect",
    "Esat.C183_pairing",
    "Esat.C183_bars",
    "Esat.C183_scale"
   ],
   "note": "C183_state and C183_scale record disagreements: selecting a model stores a batch without comparing it; the profile bars depend on the scale of the factors."
  },
  {
   "property": "C184",
   "status": "proved",
   "theorems": [
    "Esat.C184_sections",
    "Esat.C184_never",
    "Esat.C184_exact",
    "Esat.C184_wh"
   ],
   "note": "C184_never records the disagreement that load_pmf_output never returns an instance. Cells are given after splitting the lines at the tabs. C184_exact says exactly when an object is made and with which factors."
  },
  {
   "property": "C185",
   "status": "proved",
   "theorems": [
    "Esat.C185_run",
    "Esat.C185_bars_total",
    "Esat.C185_same",
    "Esat.C185_metrics"
   ],
   "note": "C185_metrics records the disagreement that the metrics are arranged by the mapping twice."
  },
  {
   "property": "C186",
   "status": "proved",
   "theorems": [
    "Esat.C186_best",
    "Esat.C186_scale",
    "Esat.C186_member"
   ],
   "note": ""
  },
  {
   "property": "C187",
   "status": "proved",
   "theorems": [
    "Esat.C187_figures",
    "Esat.C187_raises",
    "Esat.C187_default",
    "Esat.C187_processed",
    "Esat.C187_no_dates",
    "Esat.C187_fits"
   ],
   "note": "C187_figures records the disagreement that six commands never show anything: the handler they create has not processed the data. Whether the library functions work on given numbers is a parameter. C187_fits says for every state of the analysis when plot_estimated_observed and plot_estimated_timeseries show a figure or raise."
  },
  {
   "property": "C188",
   "status": "proved",
   "theorems": [
    "Esat.C188_table",
    "Esat.C188_count",
    "Esat.C188_robust"
   ],
   "note": ""
  },
  {
   "property": "C189",
   "status": "proved",
   "theorems": [
    "Esat.C189_order",
    "Esat.C189_complete",
    "Esat.C189_exception",
    "Esat.C189_nth",
    "Esat.C189_returns",
    "Esat.C189_flags"
   ],
   "note": "Transition system with the atomic queue operations as steps; all interleavings. Disagreement between the modes: sequentially an exception of the callback is dropped (`let _ = cb.call1`) and the callback goes on being called, in parallel it ends the listener thread and later reports are silently dropped (C189_exception, C189_nth). When a worker fails, `DONE` is never put and the daemon thread waits until the manager is shut down; the model ends in the state `failed` there."
  },
  {
   "property": "C190",
   "status": "proved",
   "theorems": [
    "Esat.C190_rounding",
    "Esat.C190_zero",
    "Esat.C190_error",
    "Esat.C190_overflow",
    "Esat.C190_data"
   ],
   "note": "IEEE rounding to nearest even in binary32, proved for every binary format; instantiates the rounding that the theorems on the data handler (C50-C52) have as a parameter."
  },
  {
   "property": "C191",
   "status": "proved",
   "theorems": [
    "Esat.C191_handed",
    "Esat.C191_override",
    "Esat.C191_raises",
    "Esat.C191_zero",
    "Esat.C191_aux",
    "Esat.C191_constraints_only",
    "Esat.C191_iteration"
   ],
   "note": "C191_handed, C191_override, C191_constraints_only, C191_raises, C191_zero and C191_aux. scipy's lsq_linear is a parameter: it raises unless the lower bound is below the upper one and respects the bounds. Disagreements: _Qaux_loss is given the target plus the pull and subtracts the pull again, so the scaling of the expression pull never sees how far it goes from the base model (C191_aux); expressions whose elements are also set to zero stop the training with an exception at the second iteration (C191_zero)."
  },
  {
   "property": "C192",
   "status": "proved",
   "theorems": [
    "Esat.C192_table",
    "Esat.C192_ratio",
    "Esat.C192_telescopes",
    "Esat.C192_scale",
    "Esat.C192_schedule",
    "Esat.C192_raises",
    "Esat.C192_rounding",
    "Esat.C192_percent",
    "Esat.C192_estimate",
    "Esat.C192_lines"
   ],
   "note": "C192_schedule, C192_raises, C192_table, C192_telescopes, C192_scale, C192_estimate, C192_percent, C192_rounding and C192_lines. Disagreements: the share of test values has no effect on the test errors or the estimate (C192_percent); the rounding of the errors to five digits makes the estimate depend on the units of the data, down to -1 for every data set with small numbers (C192_rounding). A division by zero in Delta Ratio is reported as not finite."
  },
  {
   "property": "C193",
   "status": "proved",
   "theorems": [
    "Esat.C193_model",
    "Esat.C193_trains_iff",
    "Esat.C193_training",
    "Esat.C193_zero"
   ],
   "note": "C193_model, C193_trains_iff, C193_training and C193_zero join the theorems about the data handler, the constructor, initialize and LS-NMF; float32_ok shows that the IEEE conversion meets the assumptions on the conversion. Disagreement: tables with a feature or a row of zeros are loaded and validated although no training of two updates is defined on them (C193_zero)."
  },
  {
   "property": "C194",
   "status": "proved",
   "theorems": [
    "Esat.C194_curves",
    "Esat.C194_boxes",
    "Esat.C194_details",
    "Esat.C194_no_best",
    "Esat.C194_trained",
    "Esat.C194_falling",
    "Esat.C194_commands"
   ],
   "note": "Failed models are `none`. **Disagreements:** the hover texts of plot_loss_distribution count from zero, plot_loss and details from one; with all losses NaN the best position is -2 and details reports the last but one model as number -1; Steps is one less than the number of updates; the commands make a missing directory and then raise. Figures are the data handed to plotly."
  },
  {
   "property": "C195",
   "status": "proved",
   "theorems": [
    "Esat.C195_process",
    "Esat.C195_separate",
    "Esat.C195_leak",
    "Esat.C195_message",
    "Esat.C195_done",
    "Esat.C195_input",
    "Esat.C195_get"
   ],
   "note": "**Disagreements:** the configurations are module objects that the commands change in place, so setup after simulator setup in one process writes the synthetic data paths; a directory name with a single % is refused after the directory was made; the paths of the synthetic data are relative to the current directory although the simulator writes them into the project directory, and index_col = 0 is read as a name. Writing and reading a file with configparser is taken as the identity; which values it accepts is a parameter."
  },
  {
   "property": "C196",
   "status": "proved",
   "theorems": [
    "Esat.C196_state",
    "Esat.C196_shown",
    "Esat.C196_boxes",
    "Esat.C196_markers",
    "Esat.C196_summary"
   ],
   "note": "**Disagreement:** plot_factor and plot_contribution show other base markers after summary or show_factor_results than before, because these zero small entries of the base model in place (C135); a feature that is small in all profiles loses its markers (0/0). The table of Q values is left out; the numbers in the factor tables are C171 and C172."
  },
  {
   "property": "C197",
   "status": "proved",
   "theorems": [
    "Esat.C197_label_injective",
    "Esat.C197_text",
    "Esat.C197_refines",
    "Esat.C197_listing",
    "Esat.C197_add",
    "Esat.C197_expressions"
   ],
   "note": "Texts are lists of characters; integers are written in decimal. Justifies the representation of labels by numbers in Model/Constrained. Disagreement: remove_constraint raises for an unknown label, remove_expression ignores an unknown number."
  },
  {
   "property": "C198",
   "status": "proved",
   "theorems": [
    "Esat.C198_points",
    "Esat.C198_closed",
    "Esat.C198_apart",
    "Esat.C198_sides",
    "Esat.C198_conc",
    "Esat.C198_percent"
   ],
   "note": "**Disagreement:** a summed concentration of zero is shown as 1e-10 after the logarithm, so a bar of height zero never occurs, and for zero the height is not the logarithm of the sum plus one."
  },
  {
   "property": "C199",
   "status": "proved",
   "theorems": [
    "Esat.C199_names",
    "Esat.C199_shown_iff",
    "Esat.C199_bars",
    "Esat.C199_stack"
   ],
   "note": "Names are lists of characters; the R² values in the titles are parameters."
  },
  {
   "property": "C200",
   "status": "proved",
   "theorems": [
    "Esat.C200_times",
    "Esat.C200_fresh",
    "Esat.C200_stale",
    "Esat.C200_update",
    "Esat.C200_custom",
    "Esat.C200_random",
    "Esat.C200_positive"
   ],
   "note": "**Disagreement:** the documentation of update_contribution says that input and uncertainty data are recalculated with each update, but only get_data does so (C200_stale, C200_update). **Disagreement:** syn_sa.Qrobust is the pair returned by qr_loss and not a number (C200_fresh). The caller's array of custom profiles is changed (C200_custom). Not modelled: sharing of memory between frames and arrays, results that are not finite."
  },
  {
   "property": "C201",
   "status": "proved",
   "theorems": [
    "Esat.C201_estimate",
    "Esat.C201_outcome",
    "Esat.C201_values",
    "Esat.C201_markers"
   ],
   "note": "**Disagreement:** the number in the title is the index counted from zero, unlike the labels of the other figures, and negative indices are not rejected. **Disagreement:** eval/profile_compare_test.py:101 calls to_numpy on base_V_estimate, which is an array and has no such method, so that script raises after the comparison (not modelled)."
  },
  {
   "property": "C202",
   "status": "proved",
   "theorems": [
    "Esat.C202_key",
    "Esat.C202_record",
    "Esat.C202_last",
    "Esat.C202_traces",
    "Esat.C202_figure",
    "Esat.C202_cleanup",
    "Esat.C202_bench"
   ],
   "note": "Model/Runtime.lean. Times and losses are arbitrary values; the training itself, reading the data and drawing are not modelled here. Disagreement: the clean up tests for the results file it has just removed instead of the figure, so an old figure is never removed; the benchmark runs a repeated size again but shows only its first times."
  },
  {
   "property": "C203",
   "status": "proved",
   "theorems": [
    "Esat.C203_value",
    "Esat.C203_same",
    "Esat.C203_shapes",
    "Esat.C203_train",
    "Esat.C203_loop"
   ],
   "note": "Model/Gpu.lean (shapes), Model/Metrics.lean (values over the reals; square roots exact). Candle's element-wise operations are taken to need equal shapes, as for C75. Disagreement: the report of the last iteration always fails, so GPU training returns False even without the defects of C75; C203_loop shows that the loop itself could succeed."
  },
  {
   "property": "C204",
   "status": "proved",
   "theorems": [
    "Esat.C204_rows",
    "Esat.C204_modes",
    "Esat.C204_tables",
    "Esat.C204_missing"
   ],
   "note": "Model/DispRun.lean on top of Model/Displacement.lean. The loss and the retraining are arbitrary functions. Exceptions in the tasks are the subject of C267. Disagreement: the tables are never reset and their columns follow the order in which the factors came in the first run, so a sequential run after a parallel one still books swaps under the wrong factor."
  },
  {
   "property": "C205",
   "status": "proved",
   "theorems": [
    "Esat.C205_value",
    "Esat.C205_zero",
    "Esat.C205_negative",
    "Esat.C205_same",
    "Esat.C205_stops"
   ],
   "note": "Disagreement between the two implementations for a negative robust_alpha: the Python loop ends after one iteration because Q(robust) is NaN, the compiled loop does not look at it. The value for alpha = 0 (an infinite robust uncertainty) is modelled by the quotient it leads to."
  },
  {
   "property": "C206",
   "status": "proved",
   "theorems": [
    "Esat.C206_ls",
    "Esat.C206_py",
    "Esat.C206_ws"
   ],
   "note": "Exact arithmetic: in floating point the sums are taken in another order and the runs differ by rounding. For ws-nmf the hypothesis on the inverse is met by the true inverse (example in the file); the SVD pseudo-inverse of the compiled code is not modelled at value level."
  },
  {
   "property": "C207",
   "status": "proved",
   "theorems": [
    "Esat.C207_emc",
    "Esat.C207_compared",
    "Esat.C207_copies",
    "Esat.C207_raae_order"
   ],
   "note": "Disagreement: emc is described as a comparison of effective mass contributions, but the mean contribution is a common factor which the correlation does not see."
  },
  {
   "property": "C208",
   "status": "proved",
   "theorems": [
    "Esat.C208_system",
    "Esat.C208_equation"
   ],
   "note": "The solver itself is not modelled; the matrix and vector given to it are. Disagreement: the right hand side of the expression as written is not used, and the vector holds the sum of the current values without the coefficients."
  },
  {
   "property": "C209",
   "status": "proved",
   "theorems": [
    "Esat.C209_short",
    "Esat.C209_short_block",
    "Esat.C209_rule",
    "Esat.C209_no_run",
    "Esat.C209_order",
    "Esat.C209_units",
    "Esat.C209_units_block"
   ],
   "note": "Exact real arithmetic, NaN for a constant window. Disagreement: the comment in the code says that the largest significant lag is used; its position in the array is used, which is one less (C209_no_run)."
  },
  {
   "property": "C210",
   "status": "proved",
   "theorems": [
    "Esat.C210_default",
    "Esat.C210_product",
    "Esat.C210_update",
    "Esat.C210_prior"
   ],
   "note": "Draws and the clustering are arguments of the model; exact real arithmetic. Disagreement with the documentation of H: given profiles are not kept, every feature is rescaled by its own factor (C210_prior), and the contributions of the start 'update' can be negative with ls-nmf because the profiles are not yet replaced (C210_update, C19_update_refuted)."
  },
  {
   "property": "C211",
   "status": "proved",
   "theorems": [
    "Esat.C211_cell",
    "Esat.C211_band",
    "Esat.C211_exact"
   ],
   "note": "The draws are arguments of the model; exact arithmetic."
  },
  {
   "property": "C212",
   "status": "proved",
   "theorems": [
    "Esat.C212_exists",
    "Esat.C212_single",
    "Esat.C212_all",
    "Esat.C212_menu",
    "Esat.C212_command"
   ],
   "note": "**Disagreement**: the index of `plot-feature` is ignored."
  },
  {
   "property": "C213",
   "status": "proved",
   "theorems": [
    "Esat.C213_index",
    "Esat.C213_points",
    "Esat.C213_lines",
    "Esat.C213_window"
   ],
   "note": "**Disagreement**: the message names a bound that is rejected; points with a negative value lie outside the axes."
  },
  {
   "property": "C214",
   "status": "proved",
   "theorems": [
    "Esat.C214_frequency",
    "Esat.C214_daily",
    "Esat.C214_incomplete",
    "Esat.C214_index",
    "Esat.C214_wrong_column",
    "Esat.C214_list",
    "Esat.C214_command"
   ],
   "note": "**Disagreement**: the number is taken modulo the rows; always daily means; the command `plot-timeseries` always raises."
  },
  {
   "property": "C215",
   "status": "proved",
   "theorems": [
    "Esat.C215_symmetric",
    "Esat.C215_range",
    "Esat.C215_nan",
    "Esat.C215_diagonal",
    "Esat.C215_units",
    "Esat.C215_colours"
   ],
   "note": "The value of the other methods of `corr` is not modelled."
  },
  {
   "property": "C216",
   "status": "proved",
   "theorems": [
    "Esat.C216_spacing",
    "Esat.C216_curve",
    "Esat.C216_points",
    "Esat.C216_figure",
    "Esat.C216_density"
   ],
   "note": "**Disagreement**: with the logarithmic axis one feature without two different positive values prevents the figure."
  },
  {
   "property": "C217",
   "status": "proved",
   "theorems": [
    "Esat.C217_exists",
    "Esat.C217_daily",
    "Esat.C217_residual",
    "Esat.C217_average"
   ],
   "note": "**Disagreement**: data whose smallest step is not one hour make the figures raise; the title (avg=1) of the percent curves."
  },
  {
   "property": "C218",
   "status": "proved",
   "theorems": [
    "Esat.C218_exists",
    "Esat.C218_rows"
   ],
   "note": "The tables need at least one row (hypothesis of C218_rows); for none numpy gives NaN. **Disagreement**: the last column, see C73."
  },
  {
   "property": "C219",
   "status": "proved",
   "theorems": [
    "Esat.C219_anderson",
    "Esat.C219_rejected",
    "Esat.C219_se"
   ],
   "note": "The statistics and p-values of the three tests are arguments. **Disagreement**: a level is shown for residuals rejected at 5 %; the standard error uses the population deviation."
  },
  {
   "property": "C220",
   "status": "proved",
   "theorems": [
    "Esat.C220_panels",
    "Esat.C220_legend"
   ],
   "note": "**Disagreement**: no legend without the first factor."
  },
  {
   "property": "C221",
   "status": "proved",
   "theorems": [
    "Esat.C221_shown",
    "Esat.C221_mass",
    "Esat.C221_percentage",
    "Esat.C221_feature"
   ],
   "note": "Zeros are taken as positive zeros. **Disagreement**: fractions under the title Percentage (%)."
  },
  {
   "property": "C222",
   "status": "proved",
   "theorems": [
    "Esat.C222_up",
    "Esat.C222_down",
    "Esat.C222_direction"
   ],
   "note": "The metrics themselves are in FactorCompare (C66, C67). **Disagreement**: the two maps of the class point in opposite directions."
  },
  {
   "property": "C223",
   "status": "proved",
   "theorems": [
    "Esat.C223_stored",
    "Esat.C223_raises",
    "Esat.C223_stop",
    "Esat.C223_losses",
    "Esat.C223_no_iterations"
   ],
   "note": "Model/ConstrainedTrain. C223_stored, C223_stop, C223_losses; C223_no_iterations records a Disagreement (max_iterations = 0 stores a model and then raises), as does the example beside it (losses recorded before entries <= 0 are replaced). Exceptions in an iteration are those of the pull matrices and the update; an exception in the progress bar, in the construction of SA (whose input the base model passed already) and division by a zero base Q(robust) in the log message are not modelled."
  },
  {
   "property": "C224",
   "status": "proved",
   "theorems": [
    "Esat.C224_sqrt",
    "Esat.C224_format",
    "Esat.C224_binary64",
    "Esat.C224_accuracy",
    "Esat.C224_exact"
   ],
   "note": "Model/Ieee (WsColumn, WsProd). C224_sqrt, C224_format (square roots), C224_binary64, C224_accuracy (one column), C224_exact (the exact side is wsStepH). The update of W by a matrix inverse is not covered in floating point."
  },
  {
   "property": "C225",
   "status": "proved",
   "theorems": [
    "Esat.C225_format",
    "Esat.C225_binary32",
    "Esat.C225_binary64",
    "Esat.C225_residual",
    "Esat.C225_loss",
    "Esat.C225_evaluations",
    "Esat.C225_stop"
   ],
   "note": ""
  },
  {
   "property": "C226",
   "status": "proved",
   "theorems": [
    "Esat.C226_loss",
    "Esat.C226_floor",
    "Esat.C226_exact"
   ],
   "note": ""
  },
  {
   "property": "C227",
   "status": "proved",
   "theorems": [
    "Esat.C227_displacement",
    "Esat.C227_bsdisp"
   ],
   "note": "Positive profiles hold for every displacement object (EPSILON is added). Combines C80_stored, C204_rows and the merge of BS-DISP; the columns dQ_drop and swap are covered elsewhere. Titles, colours and hover texts of the figures are not modelled."
  },
  {
   "property": "C228",
   "status": "proved",
   "theorems": [
    "Esat.C228_step",
    "Esat.C228_next",
    "Esat.C228_run",
    "Esat.C228_binary32",
    "Esat.C228_weights",
    "Esat.C228_recorded"
   ],
   "note": "C228_step, C228_next, C228_run, C228_weights, C228_recorded, C228_binary32. `StepRange` collects the range conditions of C145. The examples meet the hypotheses with a 2x2 problem, with and without held profiles, and with the two updates of C146 during which the recorded loss increases. The bound is not sharp: the loss of the zero model enters because a relative error of the product is an absolute error of the residual."
  },
  {
   "property": "C229",
   "status": "proved",
   "theorems": [
    "Esat.C229_large",
    "Esat.C229_accurate",
    "Esat.C229_zero_iff",
    "Esat.C229_weight",
    "Esat.C229_product",
    "Esat.C229_ignored"
   ],
   "note": "C229_weight, C229_zero_iff, C229_accurate, C229_large, C229_product, C229_ignored. **Disagreement**: an entry with an uncertainty of 2^64 or more has weight exactly zero in the update while the recorded loss still divides by the uncertainty; with NumPy's overflow warning switched off this is silent."
  },
  {
   "property": "C230",
   "status": "proved",
   "theorems": [
    "Esat.C230_upper",
    "Esat.C230_lower",
    "Esat.C230_optimal"
   ],
   "note": "C230_upper, C230_lower, C230_optimal. Exact arithmetic after the conversion; the rounding of the loss itself is C225. Uncertainties below EPSILON are excluded because they are replaced (C18, C229)."
  },
  {
   "property": "C231",
   "status": "proved",
   "theorems": [
    "Esat.C231_same",
    "Esat.C231_unpicklable",
    "Esat.C231_modes"
   ],
   "note": "C231_same, C231_unpicklable, C231_modes. **Disagreement**: the tasks are handed progress_callback although they use it only when there is no queue, which is when there is no callback; leaving it out would make every callable work in both modes. That Pool reports an argument it cannot pickle as a failure of the task is an assumption about the library."
  },
  {
   "property": "C232",
   "status": "proved",
   "theorems": [
    "Esat.C232_temporal_exists",
    "Esat.C232_temporal_column",
    "Esat.C232_temporal_residual",
    "Esat.C232_scatter",
    "Esat.C232_series",
    "Esat.C232_scaled"
   ],
   "note": "**Disagreement**: the temporal residuals of a feature after a removed column are computed from another column; weak features are scaled by different uncertainties in the statistics and in the histogram."
  },
  {
   "property": "C233",
   "status": "proved",
   "theorems": [
    "Esat.C233_completes",
    "Esat.C233_stored",
    "Esat.C233_unperturbed"
   ],
   "note": "**Disagreement**: the bipartite matching is meant to resolve conflicts, but its result makes the comparison raise (values of different shapes cannot be stacked). For the relative error, the default."
  },
  {
   "property": "C234",
   "status": "proved",
   "theorems": [
    "Esat.C234_never_pickled",
    "Esat.C234_view_iff",
    "Esat.C234_views",
    "Esat.C234_run_error",
    "Esat.C234_reason",
    "Esat.C234_error_views"
   ],
   "note": "Disagreement: ConstrainedModel.save(pickle_model=True) pickles the inner SA solution, so the seven commands of analysis-constrained and run-error with constrained_config always raise. Of pickled objects only the class is kept; os.mkdir inside an existing directory is taken to succeed; a text file is assumed not to be a pickled constrained model."
  },
  {
   "property": "C235",
   "status": "proved",
   "theorems": [
    "Esat.C235_estimate",
    "Esat.C235_available",
    "Esat.C235_entries"
   ],
   "note": "Exact characterisation of the returned dictionary. Disagreement: for every model of up to 2^30 bytes the text for the available memory is 1024 times too large (a megabyte number with the unit GB), and the entry `available_memory_bytes` is in gigabytes. The cases for kilobytes and bytes cannot be reached, as the estimate includes 150 MiB. Numbers exact (float formatting not modelled)."
  },
  {
   "property": "C236",
   "status": "proved",
   "theorems": [
    "Esat.C236_colours",
    "Esat.C236_no_highlight",
    "Esat.C236_raises",
    "Esat.C236_trained"
   ],
   "note": "Disagreement: the comments promise that elements in expressions and constrained elements are highlighted, but the computed colours are not passed to any trace, and the test for constrained elements compares the constraint type with the text `feature`, which is a target and not a type."
  },
  {
   "property": "C237",
   "status": "proved",
   "theorems": [
    "Esat.C237_arrays",
    "Esat.C237_batch",
    "Esat.C237_limit",
    "Esat.C237_cells",
    "Esat.C237_positive",
    "Esat.C237_program"
   ],
   "note": "Put together from the models of the parts; the numbers of the models are reals (the arrays are single precision, as in the code), the random draws are inputs. The relative noise is normal with scale 0.02, so draws beyond one half are possible in principle and excluded by hypothesis. Disagreement: more than 127 models fail because the compiled function takes the model number as a signed byte."
  },
  {
   "property": "C238",
   "status": "proved",
   "theorems": [
    "Esat.C238_step",
    "Esat.C238_rate",
    "Esat.C238_bound",
    "Esat.C238_attained",
    "Esat.C238_limit",
    "Esat.C238_train",
    "Esat.C238_ws"
   ],
   "note": "Exact arithmetic. The rate comes from a logarithmic potential: one update of the contributions satisfies Q(W') - Q(X) ≤ 2 Σ X b (log W' - log W) + |WH|² - |W'H|² for every non-negative X, which telescopes. For ws-nmf the matrix inverse is a parameter assumed to be a left inverse for the optimality part only."
  },
  {
   "property": "C239",
   "status": "proved",
   "theorems": [
    "Esat.C239_moved",
    "Esat.C239_pull",
    "Esat.C239_total",
    "Esat.C239_converged"
   ],
   "note": "C239_moved and C239_pull are the decrease of one update (profiles held or not), C239_total sums them over a run, C239_converged is the guarantee of a run reported as converged (compiled loop, exact arithmetic). Movement and optimality violations are written out in amountMoved, profilePull, contributionPull without reference to the update."
  },
  {
   "property": "C240",
   "status": "proved",
   "theorems": [
    "Esat.C240_sample",
    "Esat.C240_feature",
    "Esat.C240_contributions",
    "Esat.C240_profile",
    "Esat.C240_exact"
   ],
   "note": "C240_exact is the exact characterisation in exact arithmetic; C240_sample, C240_feature, C240_contributions, C240_profile are the outcomes in floating point for every evaluation order, rounding and fused multiply-add. Neither the constructor nor the validation of SA rejects such data."
  },
  {
   "property": "C241",
   "status": "proved",
   "theorems": [
    "Esat.C241_search",
    "Esat.C241_precision",
    "Esat.C241_usual"
   ],
   "note": "C241_search characterises the returned value by the first bisection point that ends the search, C241_precision bounds its distance from the limit, C241_usual is the closed form for limits up to one hundred (the constant of the code), where the search stops at the first admissible power of two. Complements C47 and C83."
  },
  {
   "property": "C242",
   "status": "proved",
   "theorems": [
    "Esat.C242_down",
    "Esat.C242_down_monotone",
    "Esat.C242_requested",
    "Esat.C242_up"
   ],
   "note": "Model/Constrained (pullDownLoop, pullUpBound, pullUpLoop). C242_down, C242_up: closed forms for limits up to 100; C242_down_monotone: halved or multiplied by 0.2888; C242_requested: range of the requested decrease in _apply_constraints. Disagreement: a limit that does not allow halving leads to a larger pull, and a limit that does not allow doubling to no pull up."
  },
  {
   "property": "C243",
   "status": "proved",
   "theorems": [
    "Esat.C243_run",
    "Esat.C243_proportional"
   ],
   "note": "C243_run (whole compiled run, exact arithmetic), C243_proportional. Extends C05 and C167 (scaled and reordered factors) to copies."
  },
  {
   "property": "C244",
   "status": "proved",
   "theorems": [
    "Esat.C244_ls",
    "Esat.C244_ws",
    "Esat.C244_bootstrap",
    "Esat.C244_ws_python"
   ],
   "note": "C244_ls, C244_ws, C244_bootstrap (compiled loop), C251_sample_copies and C244_ws_python (Python loop), exact arithmetic. The bootstrap starts ls-nmf with new random contributions (bs_i_sa.initialize(H=_H)) instead of the resampled ones, so for ls-nmf copies of a sample generally do not start equal there; _resample returns the resampled contributions for nothing."
  },
  {
   "property": "C245",
   "status": "proved",
   "theorems": [
    "Esat.C245_bound",
    "Esat.C245_exceeds"
   ],
   "note": "C245_bound (with C02), C245_exceeds (witness computed in the kernel with the model of the whole iteration). Disagreement: the searches measure the change of Q from the factors of the iteration, not from the base solution (expressions are compared with the base, C46)."
  },
  {
   "property": "C246",
   "status": "proved",
   "theorems": [
    "Esat.C246_features",
    "Esat.C246_samples",
    "Esat.C246_empty_model",
    "Esat.C246_unchanged",
    "Esat.C246_run"
   ],
   "note": "C246_features and C246_samples: identity and comparison with all multiples for the two steps; C246_empty_model: one update is at least as good as predicting zero, per sample and in total; C246_unchanged: decomposition of the sum of squares at unchanged factors; C246_run: all losses a training records. Exact arithmetic; in floating point the statements hold up to rounding only."
  },
  {
   "property": "C247",
   "status": "proved",
   "theorems": [
    "Esat.C247_ws_iteration",
    "Esat.C247_ws_training",
    "Esat.C247_one_factor_update",
    "Esat.C247_one_factor_iteration"
   ],
   "note": "C247_ws_iteration, C247_ws_training: contributions under ws-nmf; C247_one_factor_update, C247_one_factor_iteration: one factor under ls-nmf. **Disagreement** with the documentation of the constraints, which does not mention either case. Q(aux) and with it the number of iterations still depend on the constraints."
  },
  {
   "property": "C248",
   "status": "proved",
   "theorems": [
    "Esat.C248_ws_start",
    "Esat.C248_one_factor_start",
    "Esat.C248_samples",
    "Esat.C248_ws_samples",
    "Esat.C248_python_ws"
   ],
   "note": "C248_ws_start; C248_one_factor_start; C248_samples (ls-nmf) and C248_ws_samples. The statement on samples is about the updates, not about the stopping rule, which looks at the loss of all samples together. C248_python_ws is about the Python loop."
  },
  {
   "property": "C249",
   "status": "proved",
   "theorems": [
    "Esat.C249_python",
    "Esat.C249_sequential",
    "Esat.C249_parallel",
    "Esat.C249_all_features",
    "Esat.C249_numbers",
    "Esat.C249_bsdisp",
    "Esat.C249_bootstrap_sequential",
    "Esat.C249_bootstrap_parallel"
   ],
   "note": "**Disagreement** with the purpose of the code: DISP and BS-DISP with the default settings raise an OverflowError for every data set with factors times features above 127, for example six factors and the 41 features of the Baton Rouge data in the repository. C79 is about the list of tasks; here it is whole runs, the state they leave behind, any list of requested features, the sequential mode, BS-DISP and the Python fallback. Resampling, the searches and training are those of C204 and C182; the conversion of the arguments by PyO3 is trusted."
  },
  {
   "property": "C250",
   "status": "proved",
   "theorems": [
    "Esat.C250_qr",
    "Esat.C250_vector",
    "Esat.C250_pseudo",
    "Esat.C250_inverse"
   ],
   "note": "**Disagreement** with the comment in the code (pseudo-inverse using SVD decomposition). Shapes of tensors only; checks of the element types are left out, so the errors do not depend on them. candle's checks of rank and shape are trusted as described in Verif/Model/RustPseudo."
  },
  {
   "property": "C251",
   "status": "proved",
   "theorems": [
    "Esat.C251_losses",
    "Esat.C251_converged",
    "Esat.C251_held",
    "Esat.C251_factor_copies",
    "Esat.C251_proportional",
    "Esat.C251_sample_copies",
    "Esat.C251_one_factor"
   ],
   "note": "Exact arithmetic; lsTrainPy is the Python loop on a fresh model with a robust loss that is always a number (robust_alpha as in C205). C251_factor_copies, C251_proportional, C251_sample_copies and C251_one_factor hold for every converge_n, including those with which the loop raises. C251_one_factor needs at least one iteration and profiles that are not held."
  },
  {
   "property": "C252",
   "status": "proved",
   "theorems": [
    "Esat.C252_update",
    "Esat.C252_losses",
    "Esat.C252_converges",
    "Esat.C252_ls",
    "Esat.C252_moved",
    "Esat.C252_one_factor",
    "Esat.C252_python",
    "Esat.C252_python_moved",
    "Esat.C252_python_converges",
    "Esat.C252_python_ls"
   ],
   "note": "The contribution step loses exactly the squared change of the model (normal equations), the profile step at least the squared change of what every factor explains: with the ratio r under the root, the bound of the step falls by (r-1)^2 times a positive number. Assumes exact arithmetic and inverses that are inverses; with negative recomputed contributions the statements are false (C77_refuted). C252_python, C252_python_moved, C252_python_converges and C252_python_ls are about the Python loop."
  },
  {
   "property": "C253",
   "status": "proved",
   "theorems": [
    "Esat.C253_step",
    "Esat.C253_identity",
    "Esat.C253_rise",
    "Esat.C253_run",
    "Esat.C253_rises"
   ],
   "note": "The auxiliary function argument of semi-NMF, applied to the products of parts the code forms. **Disagreement**: the code uses the products of the positive and of the negative parts of W, not the positive and negative parts of the products W^T W, so what it descends is not the loss."
  },
  {
   "property": "C254",
   "status": "proved",
   "theorems": [
    "Esat.C254_rows",
    "Esat.C254_order",
    "Esat.C254_raises",
    "Esat.C254_fine"
   ],
   "note": "Exact arithmetic; the order of equal rows is left open (quicksort). Disagreement: with only model number 0 in the catalog the reports raise ZeroDivisionError (the model count stays zero, see C69); with more than 10000 models the descending percentages need not be descending counts."
  },
  {
   "property": "C255",
   "status": "proved",
   "theorems": [
    "Esat.C255_update",
    "Esat.C255_limit",
    "Esat.C255_run",
    "Esat.C255_delayed",
    "Esat.C255_not_best"
   ],
   "note": "C255_update (one update, any ordered field), C255_limit (the limit statements, over the reals), C255_run (returned factors of long compiled and Python runs), C255_delayed (with delay_h), C255_not_best (a start that is returned unchanged although it is not best). Only the complementarity part of the optimality conditions is proved: at a limit point an entry of zero may have a negative derivative. Exact arithmetic; the example shows that runs of every length occur (converge_delta = 0)."
  },
  {
   "property": "C256",
   "status": "proved",
   "theorems": [
    "Esat.C256_update",
    "Esat.C256_limit",
    "Esat.C256_run",
    "Esat.C256_python"
   ],
   "note": "C256_update (one update), C256_limit (the limit statements), C256_run (returned factors). Exact real arithmetic; the inverse routine and the sign of the contributions are hypotheses (WsProper), met by every run with one factor (example). C256_python is about the Python loop."
  },
  {
   "property": "C257",
   "status": "proved",
   "theorems": [
    "Esat.C257_updates",
    "Esat.C257_run",
    "Esat.C257_fixed_number",
    "Esat.C257_jump",
    "Esat.C257_python",
    "Esat.C257_python_fixed"
   ],
   "note": "C257_updates, C257_run (compiled loop, over the reals, along any filter), C257_fixed_number (a negative converge_delta meets the condition), C257_python and C257_python_fixed (the Python loop), C257_jump (the condition is needed). Exact arithmetic."
  },
  {
   "property": "C258",
   "status": "proved",
   "theorems": [
    "Esat.C258_run",
    "Esat.C258_precision"
   ],
   "note": "C258_run, C258_precision (against the course of the exact model); computed_runs_exist shows that the runs spoken of exist in every arithmetic. The bound grows by a factor of 14 per update, so in single precision it is informative for a few updates only; the loss of long runs is bounded in C228. The weights are taken as exactly given (their own roundings: C229)."
  },
  {
   "property": "C259",
   "status": "proved",
   "theorems": [
    "Esat.C259_python",
    "Esat.C259_ls",
    "Esat.C259_ws_contributions",
    "Esat.C259_ws_profiles"
   ],
   "note": "C259_ls is about the whole compiled loop, C259_python about the Python loop; the copies need not be exact, only proportional in values and in uncertainties. The ws-nmf counterexample has one sample, one factor and three features."
  },
  {
   "property": "C260",
   "status": "proved",
   "theorems": [
    "Esat.C260_distance",
    "Esat.C260_rate",
    "Esat.C260_limit",
    "Esat.C260_train",
    "Esat.C260_start",
    "Esat.C260_python"
   ],
   "note": "C238 has the limits of the loss and of the modelled values and a rate with an unspecified constant; here the contributions themselves converge and the constant is given. C260_start: two factors with the same profile, where two different starts are limits of themselves. C260_python is about the Python loop."
  },
  {
   "property": "C261",
   "status": "proved",
   "theorems": [
    "Esat.C261_update",
    "Esat.C261_best",
    "Esat.C261_rate",
    "Esat.C261_train",
    "Esat.C261_product_needed"
   ],
   "note": "C155 has that each half update is an exact least squares fit; C261 has the global minimum and a rate. C261_product_needed: V = identity, uncertainty 1 on the diagonal and 1/2 off it."
  },
  {
   "property": "C262",
   "status": "proved",
   "theorems": [
    "Esat.C262_shorter",
    "Esat.C262_round_trip",
    "Esat.C262_doubled",
    "Esat.C262_refused",
    "Esat.C262_setup",
    "Esat.C262_read",
    "Esat.C262_elsewhere"
   ],
   "note": "**Disagreement**: the directory is stored without doubling its percent signs (esat_cli.py:161,195,201). The rules are those of BasicInterpolation in the Python library; values with line breaks are not modelled. C262_setup joins them to the model of the commands, in which which values are accepted is a parameter."
  },
  {
   "property": "C263",
   "status": "proved",
   "theorems": [
    "Esat.C263_ignores",
    "Esat.C263_run",
    "Esat.C263_cells",
    "Esat.C263_parts",
    "Esat.C263_python"
   ],
   "note": "Exact arithmetic; the limit. In single precision weights are zero from 2^64 on (C229), and a sample or feature all of whose weights are zero becomes NaN (C240): weakening a whole sample works up to there only. C263_python: the Python loop."
  },
  {
   "property": "C264",
   "status": "proved",
   "theorems": [
    "Esat.C264_updates",
    "Esat.C264_run",
    "Esat.C264_one_factor",
    "Esat.C264_held",
    "Esat.C264_needed",
    "Esat.C264_python"
   ],
   "note": "C264_updates and C264_run (compiled loop, along any filter), C264_one_factor and C264_held (when the condition holds), C264_needed (contributions diverge at dependent profiles). Exact arithmetic; the EPSILON of the profile update keeps its denominators positive. C264_python: the Python loop."
  },
  {
   "property": "C265",
   "status": "proved",
   "theorems": [
    "Esat.C265_run",
    "Esat.C265_parts",
    "Esat.C265_one_factor",
    "Esat.C265_python"
   ],
   "note": "C265_run is the general statement; C265_parts multiplies whole samples and features by c and compares with the training of the code on the data without them; C265_one_factor discharges the condition on the profiles for one factor. keptTrainWs_all shows that the kept training is the one of the code when all cells are kept. The example has a feature that keeps its starting profile 7. Exact real arithmetic; C265_run is the compiled loop, C265_python the Python loop."
  },
  {
   "property": "C266",
   "status": "proved",
   "theorems": [
    "Esat.C266_ls_python",
    "Esat.C266_ws_python",
    "Esat.C266_empty_python",
    "Esat.C266_ls",
    "Esat.C266_ws",
    "Esat.C266_empty"
   ],
   "note": "C266_ls, C266_ws and C266_empty for the compiled loop, C266_ls_python, C266_ws_python and C266_empty_python for the Python loop. Exact real arithmetic. C266_empty needs no condition on the inverse. That ls-nmf produces NaN for a sample of zeros is C240."
  },
  {
   "property": "C267",
   "status": "proved",
   "theorems": [
    "Esat.C267_clean",
    "Esat.C267_parallel",
    "Esat.C267_sequential",
    "Esat.C267_rows",
    "Esat.C267_tables"
   ],
   "note": "Model/DispFault, on top of Model/DispRun. C267_clean, C267_parallel, C267_sequential, C267_rows, C267_tables. Which column of the swap table a factor has depends on the order in which the results were first stored (C204), so only the sum over the columns is stated. An exception outside of the tasks and the death of a worker process are not modelled."
  }
 ]
}