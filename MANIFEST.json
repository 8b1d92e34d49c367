{
 "claims": [
  {
   "property": "C01",
   "status": "proved",
   "theorems": [
    "Ompy.C01_rebin_exact_share",
    "Ompy.C01_rebin_short_axis"
   ],
   "note": ""
  },
  {
   "property": "C02",
   "status": "proved",
   "theorems": [
    "Ompy.C02_rebin_total",
    "Ompy.C02_rebin_conserves",
    "Ompy.C02_rebin_never_grows"
   ],
   "note": ""
  },
  {
   "property": "C03",
   "status": "proved",
   "theorems": [
    "Ompy.C03_rebin_linear",
    "Ompy.C03_rebin_nonneg",
    "Ompy.C03_rebin_same_axis"
   ],
   "note": ""
  },
  {
   "property": "C04",
   "status": "proved",
   "theorems": [
    "Ompy.C04_rows_independent",
    "Ompy.C04_cols_independent",
    "Ompy.C04_bad_axis",
    "Ompy.C04_rows_conserve",
    "Ompy.C04_cols_conserve",
    "Ompy.C04_axes_commute"
   ],
   "note": ""
  },
  {
   "property": "C05",
   "status": "proved",
   "theorems": [
    "Ompy.C05_index_closest",
    "Ompy.C05_index_in_range",
    "Ompy.C05_unsorted_not_closest"
   ],
   "note": ""
  },
  {
   "property": "C06",
   "status": "proved",
   "theorems": [
    "Ompy.C06_iFromE_first_closest",
    "Ompy.C06_agree_or_tie",
    "Ompy.C06_tie"
   ],
   "note": ""
  },
  {
   "property": "C07",
   "status": "partial",
   "theorems": [
    "Ompy.C07_copy",
    "Ompy.C07_copy_raises",
    "Ompy.C07_cut_like",
    "Ompy.C07_cut_Ex_window_partial",
    "Ompy.C07_cut_Eg_window_partial",
    "Ompy.C07_inclusive_exact",
    "Ompy.C07_default_limits",
    "Ompy.C07_exclusive_offgrid_fails",
    "Ompy.C07_window_below_fails",
    "Ompy.C07_std_not_cut_fails"
   ],
   "note": "Proved for windows whose end points fall on the axis range; the failing windows (negative slice end, uncut std) have witnesses."
  },
  {
   "property": "C08",
   "status": "proved",
   "theorems": [
    "Ompy.C08_cut_block",
    "Ompy.C08_cut_none"
   ],
   "note": ""
  },
  {
   "property": "C09",
   "status": "proved",
   "theorems": [
    "Ompy.C09_frame",
    "Ompy.C09_result",
    "Ompy.C09_reflected_result",
    "Ompy.C09_binning_checked",
    "Ompy.C09_units_not_checked"
   ],
   "note": ""
  },
  {
   "property": "C10",
   "status": "proved",
   "theorems": [
    "Ompy.C10_conversion_history",
    "Ompy.C10_idempotent",
    "Ompy.C10_round_trip",
    "Ompy.C10_unknown_units"
   ],
   "note": ""
  },
  {
   "property": "C11",
   "status": "proved",
   "theorems": [
    "Ompy.C11_transform_values",
    "Ompy.C11_transform_std",
    "Ompy.C11_group_law",
    "Ompy.C11_identity",
    "Ompy.C11_inverse"
   ],
   "note": ""
  },
  {
   "property": "C12",
   "status": "proved",
   "theorems": [
    "Ompy.C12_cumulative_sums",
    "Ompy.C12_factor",
    "Ompy.C12_differences",
    "Ompy.C12_monotone"
   ],
   "note": ""
  },
  {
   "property": "C13",
   "status": "proved",
   "theorems": [
    "Ompy.C13_closest_right",
    "Ompy.C13_closest_left",
    "Ompy.C13_closest_std",
    "Ompy.C13_unsorted",
    "Ompy.C13_right_end_is_zero"
   ],
   "note": ""
  },
  {
   "property": "C14",
   "status": "proved",
   "theorems": [
    "Ompy.C14_cut_nan",
    "Ompy.C14_idempotent"
   ],
   "note": ""
  },
  {
   "property": "C15",
   "status": "proved",
   "theorems": [
    "Ompy.C15_projection_total",
    "Ompy.C15_projection_window_Ex",
    "Ompy.C15_projection_window_Eg",
    "Ompy.C15_projection_normalized",
    "Ompy.C15_bad_axis"
   ],
   "note": ""
  },
  {
   "property": "C16",
   "status": "proved",
   "theorems": [
    "Ompy.C16_fill_history",
    "Ompy.C16_fill_order",
    "Ompy.C16_fill_one_bin"
   ],
   "note": ""
  },
  {
   "property": "C17",
   "status": "proved",
   "theorems": [
    "Ompy.C17_fill_negative_max_row",
    "Ompy.C17_fill_negative_max_rows"
   ],
   "note": ""
  },
  {
   "property": "C18",
   "status": "partial",
   "theorems": [
    "Ompy.C18_fill_negative_gauss_partial",
    "Ompy.C18_largest_weight_first_fails"
   ],
   "note": "Conservation and sign proved; the documented order (largest weight first) is false, witness given."
  },
  {
   "property": "C19",
   "status": "proved",
   "theorems": [
    "Ompy.C19_remove_negative",
    "Ompy.C19_idempotent",
    "Ompy.C19_fill_and_remove"
   ],
   "note": ""
  },
  {
   "property": "C20",
   "status": "partial",
   "theorems": [
    "Ompy.C20_diagonal_elements_partial",
    "Ompy.C20_column_off_by_one_fails"
   ],
   "note": "True characterisation proved; the documented one (last non-zero element) is false, witness given."
  },
  {
   "property": "C21",
   "status": "proved",
   "theorems": [
    "Ompy.C21_bin_round_trip",
    "Ompy.C21_short_axis"
   ],
   "note": ""
  },
  {
   "property": "C22",
   "status": "proved",
   "theorems": [
    "Ompy.C22_round_ties",
    "Ompy.C22_emax_is_N",
    "Ompy.C22_N_given",
    "Ompy.C22_Emax_given",
    "Ompy.C22_both_or_neither"
   ],
   "note": ""
  },
  {
   "property": "C23",
   "status": "partial",
   "theorems": [
    "Ompy.C23_suffix",
    "Ompy.C23_vector_numpy",
    "Ompy.C23_numpy_suffix_fails",
    "Ompy.C23_vector_txt_partial",
    "Ompy.C23_txt_single_bin_fails",
    "Ompy.C23_vector_csv",
    "Ompy.C23_vector_tar_partial",
    "Ompy.C23_tar_stale_std_fails",
    "Ompy.C23_matrix_binary",
    "Ompy.C23_matrix_txt",
    "Ompy.C23_matrix_save_errors",
    "Ompy.C23_frame",
    "Ompy.C23_history",
    "Ompy.C23_tar_clobbers_fails",
    "Ompy.C23_tar_no_suffix_fails"
   ],
   "note": "Round trips proved per format with the exact conditions; false cases (npy suffix, single-bin txt, stale std, clobbered files) have witnesses."
  },
  {
   "property": "C24",
   "status": "partial",
   "theorems": [
    "Ompy.C24_matrix_size",
    "Ompy.C24_vector_size",
    "Ompy.C24_read_axis",
    "Ompy.C24_vector_round_trip",
    "Ompy.C24_matrix_round_trip",
    "Ompy.C24_axis_precision",
    "Ompy.C24_only_equidistant",
    "Ompy.C24_MeV_fails",
    "Ompy.C24_std_writes_values_fails"
   ],
   "note": "Round trip proved for keV data on equidistant axes; false for MeV vectors and which='std', witnesses given."
  },
  {
   "property": "C25",
   "status": "proved",
   "theorems": [
    "Ompy.C25_formula",
    "Ompy.C25_formula_damped",
    "Ompy.C25_step_weights",
    "Ompy.C25_apply_weights"
   ],
   "note": ""
  },
  {
   "property": "C26",
   "status": "partial",
   "theorems": [
    "Ompy.C26_iteration",
    "Ompy.C26_result",
    "Ompy.C26_refuses",
    "Ompy.C26_lowest_row_partial",
    "Ompy.C26_zero_iterations_fails",
    "Ompy.C26_row_dependency"
   ],
   "note": "Lowest row and dependency proved for at least one iteration; zero iterations returns the flat guess, witness given."
  },
  {
   "property": "C27",
   "status": "partial",
   "theorems": [
    "Ompy.C27_frame_partial",
    "Ompy.C27_history_partial",
    "Ompy.C27_valley_cut_fails"
   ],
   "note": "Frame proved without valley correction; with it the caller's matrix is changed, witness given."
  },
  {
   "property": "C28",
   "status": "partial",
   "theorems": [
    "Ompy.C28_statistical_formula",
    "Ompy.C28_total_formula",
    "Ompy.C28_statistical_nonneg_partial",
    "Ompy.C28_total_nonneg",
    "Ompy.C28_negative_shift_fails",
    "Ompy.C28_negative_threshold_fails",
    "Ompy.C28_div0_finite",
    "Ompy.C28_normalization"
   ],
   "note": "Sign proved for non-negative threshold and shift; otherwise false, witnesses given."
  },
  {
   "property": "C29",
   "status": "proved",
   "theorems": [
    "Ompy.C29_fold",
    "Ompy.C29_fold_refuses",
    "Ompy.C29_accepts",
    "Ompy.C29_refuses",
    "Ompy.C29_counts_conserved",
    "Ompy.C29_fixed_point",
    "Ompy.C29_identity",
    "Ompy.C29_rows_independent",
    "Ompy.C29_error_recursion",
    "Ompy.C29_converges"
   ],
   "note": ""
  },
  {
   "property": "C30",
   "status": "partial",
   "theorems": [
    "Ompy.C30_chi_square",
    "Ompy.C30_fluctuations",
    "Ompy.C30_score",
    "Ompy.C30_first_nan",
    "Ompy.C30_select_partial",
    "Ompy.C30_apply_partial",
    "Ompy.C30_too_few_iterations_fails",
    "Ompy.C30_not_best_fails",
    "Ompy.C30_minimum_leaks_fails",
    "Ompy.C30_object_after"
   ],
   "note": "The selected iteration is characterised exactly; that it is the best allowed one, that few iterations work and that the object is left unchanged are false, witnesses given."
  },
  {
   "property": "C31",
   "status": "proved",
   "theorems": [
    "Ompy.C31_matrix_cols",
    "Ompy.C31_kernel",
    "Ompy.C31_conserves",
    "Ompy.C31_length_mismatch",
    "Ompy.C31_matrix_rows"
   ],
   "note": ""
  },
  {
   "property": "C32",
   "status": "proved",
   "theorems": [
    "Ompy.C32_rows",
    "Ompy.C32_schedule",
    "Ompy.C32_schedule_finishes",
    "Ompy.C32_defined"
   ],
   "note": ""
  },
  {
   "property": "C33",
   "status": "proved",
   "theorems": [
    "Ompy.C33_invariant",
    "Ompy.C33_unique"
   ],
   "note": "Invariance, and uniqueness of the transformation for positive solutions."
  },
  {
   "property": "C34",
   "status": "proved",
   "theorems": [
    "Ompy.C34_refuses",
    "Ompy.C34_grid",
    "Ompy.C34_index",
    "Ompy.C34_counts",
    "Ompy.C34_counted_unused_fails"
   ],
   "note": "The code comment that masked elements are those unused in chi-square is false (half a bin), witness given."
  },
  {
   "property": "C35",
   "status": "proved",
   "theorems": [
    "Ompy.C35_chisquare_sum",
    "Ompy.C35_diagonal_sum",
    "Ompy.C35_nonneg_zero"
   ],
   "note": ""
  },
  {
   "property": "C36",
   "status": "partial",
   "theorems": [
    "Ompy.C36_rows_partial",
    "Ompy.C36_matrix_partial",
    "Ompy.C36_without_std_fails",
    "Ompy.C36_zero_row_fails",
    "Ompy.C36_input_mutated_fails",
    "Ompy.C36_refuses"
   ],
   "note": "Normalisation of non-zero rows and refusals proved; missing std (TypeError), zero rows with uncertainty (division by zero) and the changed input matrix are false cases with witnesses."
  },
  {
   "property": "C37",
   "status": "proved",
   "theorems": [
    "Ompy.C37_offers",
    "Ompy.C37_map_raises",
    "Ompy.C37_replay",
    "Ompy.C37_replay_error",
    "Ompy.C37_history",
    "Ompy.C37_curry_call",
    "Ompy.C37_map",
    "Ompy.C37_base"
   ],
   "note": ""
  },
  {
   "property": "C38",
   "status": "proved",
   "theorems": [
    "Ompy.C38_lengths_agree",
    "Ompy.C38_constructor_rejects",
    "Ompy.C38_raising_rebin_leaves_inconsistent"
   ],
   "note": ""
  },
  {
   "property": "C39",
   "status": "partial",
   "theorems": [
    "Ompy.C39_resume_without_bg",
    "Ompy.C39_resume_bg_partial",
    "Ompy.C39_bg_fails",
    "Ompy.C39_mutating_method_fails"
   ],
   "note": "Proved for every number of crashes at any file operation of any process without background; with background exactly up to a crash between prompt+bg_i and bg_i, where it is false (witness); also false if a user-supplied method changes its argument."
  },
  {
   "property": "C40",
   "status": "proved",
   "theorems": [
    "Ompy.C40_schedule",
    "Ompy.C40_finishes",
    "Ompy.C40_serial",
    "Ompy.C40_prefix",
    "Ompy.C40_regenerate"
   ],
   "note": ""
  },
  {
   "property": "C41",
   "status": "partial",
   "theorems": [
    "Ompy.C41_ascending_partial",
    "Ompy.C41_permutation_partial",
    "Ompy.C41_corrupt",
    "Ompy.C41_order_fails",
    "Ompy.C41_alphabetical_fails"
   ],
   "note": "Proved for listings in member order; any order gives a permutation. False for other directory orders and for alphabetical order from 11 members on, witnesses given."
  },
  {
   "property": "C42",
   "status": "partial",
   "theorems": [
    "Ompy.C42_nonneg",
    "Ompy.C42_gradual",
    "Ompy.C42_recurrence",
    "Ompy.C42_agree",
    "Ompy.C42_beyond_diagonal_fails"
   ],
   "note": "Non-negativity for every input; bounded steps, the recurrence and agreement of the C++ and Python versions for arrays of the sizes used; a spectrum reaching beyond the diagonal makes the C++ version read outside its array, witness given."
  },
  {
   "property": "C43",
   "status": "partial",
   "theorems": [
    "Ompy.C43_split",
    "Ompy.C43_peaks",
    "Ompy.C43_table",
    "Ompy.C43_probabilities_partial",
    "Ompy.C43_probabilities_fails",
    "Ompy.C43_rows"
   ],
   "note": "Peak placement, table values and row normalisation proved; probabilities add up to 1 within the table only; outside, the continued full-energy probability becomes negative, witness given."
  },
  {
   "property": "C44",
   "status": "proved",
   "theorems": [
    "Ompy.C44_formula",
    "Ompy.C44_bounds",
    "Ompy.C44_monotone",
    "Ompy.C44_edge",
    "Ompy.C44_derivative",
    "Ompy.C44_derivative_pos",
    "Ompy.C44_angle"
   ],
   "note": ""
  },
  {
   "property": "C45",
   "status": "partial",
   "theorems": [
    "Ompy.C45_rejects_partial",
    "Ompy.C45_accepts",
    "Ompy.C45_extrapolation_fails",
    "Ompy.C45_method_fails",
    "Ompy.C45_emax_fails",
    "Ompy.C45_emax",
    "Ompy.C45_method",
    "Ompy.C45_is_changed",
    "Ompy.C45_is_changed_partial",
    "Ompy.C45_list_fails",
    "Ompy.C45_optional_fails",
    "Ompy.C45_check_emax_fails"
   ],
   "note": "Rejection proved for the classes that freeze and every history; extrapolation models never freeze, methods can be overwritten, Emax cannot be set before Sn, unset lists raise NameError and the optional A is checked: witnesses given. Exact condition for is_changed to pass proved."
  },
  {
   "property": "C46",
   "status": "proved",
   "theorems": [
    "Ompy.C46_relation",
    "Ompy.C46_inverse",
    "Ompy.C46_monotone"
   ],
   "note": "Both conversions, their relation to the published formula, inverse and monotone, for every model with a positive spin-cut at Sn; real arithmetic."
  },
  {
   "property": "C47",
   "status": "partial",
   "theorems": [
    "Ompy.C47_compare",
    "Ompy.C47_compare_scalar",
    "Ompy.C47_saved",
    "Ompy.C47_pairs",
    "Ompy.C47_sum",
    "Ompy.C47_refuses",
    "Ompy.C47_cache_partial",
    "Ompy.C47_dict_fails",
    "Ompy.C47_array_fails",
    "Ompy.C47_shape_fails"
   ],
   "note": "Visited pairs proved for every half-integer spin and every orbital momentum; the cache is transparent for every history without changes of a dictionary or array in place and with energies of one shape; witnesses for each of the three exceptions."
  },
  {
   "property": "C48",
   "status": "proved",
   "theorems": [
    "Ompy.C48_extrapolation",
    "Ompy.C48_no_range",
    "Ompy.C48_linear",
    "Ompy.C48_width",
    "Ompy.C48_unique",
    "Ompy.C48_formula",
    "Ompy.C48_again",
    "Ompy.C48_total",
    "Ompy.C48_needs_zero",
    "Ompy.C48_again_fails",
    "Ompy.C48_method_fails"
   ],
   "note": "Width of the results proved for every successful normalisation, with sufficient conditions for success, linearity, uniqueness of B and the published sum. Gg_before_norm called after the normalisation is a mixture (exact value and witness)."
  },
  {
   "property": "C49",
   "status": "partial",
   "theorems": [
    "Ompy.C49_recursion",
    "Ompy.C49_documented_partial",
    "Ompy.C49_self_term_fails",
    "Ompy.C49_multiplicity_bounds"
   ],
   "note": "Exact recursion computed by the code proved; the documented one differs by a self term when the lowest gamma bin has counts, witness given."
  },
  {
   "property": "C50",
   "status": "partial",
   "theorems": [
    "Ompy.C50_table_axis",
    "Ompy.C50_parts",
    "Ompy.C50_entry",
    "Ompy.C50_smooth_background",
    "Ompy.C50_shift_down",
    "Ompy.C50_double_escape_fails",
    "Ompy.C50_errors"
   ],
   "note": "Compton subtraction formula, shifts and errors proved; the double escape is shifted by 1024 instead of 2*511 keV, witness given."
  },
  {
   "property": "C51",
   "status": "partial",
   "theorems": [
    "Ompy.C51_load_generated_partial",
    "Ompy.C51_action_lost_fails"
   ],
   "note": "Proved when the actions change nothing and files are listed in order; false with an action, since files hold the matrices before the action."
  },
  {
   "property": "C52",
   "status": "partial",
   "theorems": [
    "Ompy.C52_fixed_point",
    "Ompy.C52_low_gamma_fails"
   ],
   "note": "Proved when every non-zero bin is constrained as the code counts it; false for gamma bins of negative energy, witness given."
  },
  {
   "property": "C53",
   "status": "proved",
   "theorems": [
    "Ompy.C53_gauge"
   ],
   "note": ""
  },
  {
   "property": "C54",
   "status": "partial",
   "theorems": [
    "Ompy.C54_Eg",
    "Ompy.C54_Ex",
    "Ompy.C54_copy_partial",
    "Ompy.C54_both_partial",
    "Ompy.C54_copy_values_partial",
    "Ompy.C54_copy_drops_fails",
    "Ompy.C54_std_fails",
    "Ompy.C54_std_stale_fails",
    "Ompy.C54_refuses",
    "Ompy.C54_factor_axis",
    "Ompy.C54_factor_conserves",
    "Ompy.C54_factor_step_fails",
    "Ompy.C54_factor_small_fails"
   ],
   "note": "Proved for matrices without std; std is not rebinned, copies drop std and state, factor does not scale the step; witnesses given."
  },
  {
   "property": "C55",
   "status": "partial",
   "theorems": [
    "Ompy.C55_refuses",
    "Ompy.C55_axis",
    "Ompy.C55_labels_partial",
    "Ompy.C55_labels_fails",
    "Ompy.C55_limits",
    "Ompy.C55_igmax"
   ],
   "note": "Axis, limits and igmax proved; labels proved for an extension of at least half a bin, false without, witness given."
  },
  {
   "property": "C56",
   "status": "partial",
   "theorems": [
    "Ompy.C56_second_member_fails",
    "Ompy.C56_std_is_mean_fails"
   ],
   "note": "False of the code: for two or more members it always raises (proved for all binnings), and the uncertainty is the mean; witnesses given."
  },
  {
   "property": "C57",
   "status": "partial",
   "theorems": [
    "Ompy.C57_row_limits",
    "Ompy.C57_normalize",
    "Ompy.C57_rows",
    "Ompy.C57_std_unscaled_fails",
    "Ompy.C57_elem_nonneg",
    "Ompy.C57_nonneg",
    "Ompy.C57_reduced_partial",
    "Ompy.C57_rows_weight",
    "Ompy.C57_chisquare_fails"
   ],
   "note": "Row sums, non-negativity and the exact value of the chi-square proved; uncertainties are not scaled and the chi-square is divided once per row, witnesses given."
  },
  {
   "property": "C58",
   "status": "proved",
   "theorems": [
    "Ompy.C58_pad",
    "Ompy.C58_limits"
   ],
   "note": ""
  },
  {
   "property": "C59",
   "status": "partial",
   "theorems": [
    "Ompy.C59_total_partial",
    "Ompy.C59_resolution",
    "Ompy.C59_refuses",
    "Ompy.C59_not_covered_fails"
   ],
   "note": "Proved for output bins of at most 400 keV that end below the Compton axis; an axis that starts above it raises, witness given."
  },
  {
   "property": "C60",
   "status": "proved",
   "theorems": [
    "Ompy.C60_tabulated"
   ],
   "note": ""
  },
  {
   "property": "C61",
   "status": "partial",
   "theorems": [
    "Ompy.C61_rows_partial",
    "Ompy.C61_rows_fails",
    "Ompy.C61_axis",
    "Ompy.C61_refuses"
   ],
   "note": "Rows proved for tables sorted by energy, false otherwise (witness); the axis is that of the calibration exactly if its offset is 0; refusal of missing spectra proved."
  },
  {
   "property": "C62",
   "status": "partial",
   "theorems": [
    "Ompy.C62_EB05_monotone",
    "Ompy.C62_disc_sigmaSn",
    "Ompy.C62_disc_EB05",
    "Ompy.C62_positive_partial",
    "Ompy.C62_emp_fails",
    "Ompy.C62_integer_fails",
    "Ompy.C62_refuses"
   ],
   "note": "Positivity proved except for the empirical formula at or below half the pairing energy (sigma^2 = 0, no distribution) and integer energies with the constant model (truncated): witnesses."
  },
  {
   "property": "C63",
   "status": "partial",
   "theorems": [
    "Ompy.C63_fresh_partial",
    "Ompy.C63_fitrange",
    "Ompy.C63_fitrange_short",
    "Ompy.C63_stale_fails",
    "Ompy.C63_second_gsf_fails"
   ],
   "note": "True for new model objects, false for a second strength function (ranges stay; the width cannot be computed if it starts higher); fit ranges proved for at least 8 energies, error below."
  },
  {
   "property": "C64",
   "status": "partial",
   "theorems": [
    "Ompy.C64_value",
    "Ompy.C64_gauss_partial",
    "Ompy.C64_extra",
    "Ompy.C64_needs_std",
    "Ompy.C64_refuses",
    "Ompy.C64_gauss_fails",
    "Ompy.C64_error"
   ],
   "note": "The value is proved; against the Gaussian log-likelihood the sum of ln sigma has weight 1/2 instead of 1, which changes the order of parameters (witness)."
  },
  {
   "property": "C65",
   "status": "partial",
   "theorems": [
    "Ompy.C65_gauge",
    "Ompy.C65_zero_iff",
    "Ompy.C65_unique",
    "Ompy.C65_best_fails"
   ],
   "note": "Uniqueness and the zero of the chi-square proved; the exact parameters need not have the largest likelihood (witness)."
  },
  {
   "property": "C66",
   "status": "partial",
   "theorems": [
    "Ompy.C66_no_file",
    "Ompy.C66_failed_fit",
    "Ompy.C66_file",
    "Ompy.C66_restore",
    "Ompy.C66_result_partial",
    "Ompy.C66_refuses",
    "Ompy.C66_saved_fails",
    "Ompy.C66_no_path_fails",
    "Ompy.C66_discrete_fails",
    "Ompy.C66_discrete_argument_fails",
    "Ompy.C66_std_fails"
   ],
   "note": "Result proved for regenerate=True. False: the argument discrete is not used by the fit, levels of the caller are converted in place, made up uncertainties stick, saved results are returned whatever the arguments."
  },
  {
   "property": "C67",
   "status": "partial",
   "theorems": [
    "Ompy.C67_history_partial",
    "Ompy.C67_refuses",
    "Ompy.C67_none_fails",
    "Ompy.C67_vector_fails"
   ],
   "note": "Proved for histories of vectors or of files with changes of the resolution. False: None does not clear, a vector after a file is overwritten by the file when the resolution is set."
  },
  {
   "property": "C68",
   "status": "partial",
   "theorems": [
    "Ompy.C68_newton",
    "Ompy.C68_erfinv_accuracy",
    "Ompy.C68_normal",
    "Ompy.C68_normal_ends",
    "Ompy.C68_scale_zero",
    "Ompy.C68_erfinv_odd",
    "Ompy.C68_erfinv",
    "Ompy.C68_erfinv_ends",
    "Ompy.C68_truncnorm",
    "Ompy.C68_shift",
    "Ompy.C68_scale",
    "Ompy.C68_log",
    "Ompy.C68_zero",
    "Ompy.C68_refuses",
    "Ompy.C68_prior",
    "Ompy.C68_bounds_fails",
    "Ompy.C68_guess_partial",
    "Ompy.C68_order_fails"
   ],
   "note": "Ranges, monotony and one-sided accuracy of erfinv proved. False: the bounds of the user limit only the first fit and not the prior; bounds in another order than the default mislabel the guess."
  },
  {
   "property": "C69",
   "status": "partial",
   "theorems": [
    "Ompy.C69_regex",
    "Ompy.C69_defined",
    "Ompy.C69_call",
    "Ompy.C69_call_sites",
    "Ompy.C69_value",
    "Ompy.C69_syntax_fails"
   ],
   "note": "Equal to the greedy regular expression; right for all calls in the code. False for calls with a comment in parentheses, nested calls, attributes and calls over several lines."
  },
  {
   "property": "C70",
   "status": "partial",
   "theorems": [
    "Ompy.C70_constructor",
    "Ompy.C70_failed",
    "Ompy.C70_result",
    "Ompy.C70_width",
    "Ompy.C70_refuses",
    "Ompy.C70_again",
    "Ompy.C70_attributes_fails",
    "Ompy.C70_caller_fails",
    "Ompy.C70_caller_partial",
    "Ompy.C70_results_nld_fails"
   ],
   "note": "Exact condition of success, width, errors and idempotence proved. False: nld and nld_model given to the constructor are never used; the caller's gsf in keV is converted in place; the results keep the level density of the normaliser, not the one used."
  },
  {
   "property": "C71",
   "status": "partial",
   "theorems": [
    "Ompy.C71_step_vectors",
    "Ompy.C71_member",
    "Ompy.C71_pool",
    "Ompy.C71_pool_belongs",
    "Ompy.C71_serial_partial",
    "Ompy.C71_fallback",
    "Ompy.C71_caller_fails",
    "Ompy.C71_serial_fails",
    "Ompy.C71_cut",
    "Ompy.C71_xor"
   ],
   "note": "Pool: proved. One process: proved equal to the pool if all level densities have standard deviations and all strength functions the same energies. False: a level density without standard deviations spoils all later ones; the extractor's vectors are cut and converted in place."
  },
  {
   "property": "C72",
   "status": "partial",
   "theorems": [
    "Ompy.C72_rows",
    "Ompy.C72_total",
    "Ompy.C72_optional_fails",
    "Ompy.C72_max_fails",
    "Ompy.C72_refuses",
    "Ompy.C72_from_res"
   ],
   "note": "Rows, exact matching of samples and vectors, conditions of success and errors proved. False: a missing vector ends in ValueError although both are optional; N_max has no effect on lists."
  },
  {
   "property": "C73",
   "status": "partial",
   "theorems": [
    "Ompy.C73_values",
    "Ompy.C73_common_partial",
    "Ompy.C73_same_ends_fails",
    "Ompy.C73_unchanged",
    "Ompy.C73_lost_fails",
    "Ompy.C73_keep_partial",
    "Ompy.C73_std_fails"
   ],
   "note": "Values and grid proved where ends differ. False: vectors with equal ends but different energies are left; energies only of a vector in the middle are dropped with their values; uncertainties keep their old length."
  },
  {
   "property": "C74",
   "status": "partial",
   "theorems": [
    "Ompy.C74_kernel",
    "Ompy.C74_smoothed",
    "Ompy.C74_smooth_total",
    "Ompy.C74_smooth_bounds",
    "Ompy.C74_levels",
    "Ompy.C74_accepts",
    "Ompy.C74_single_fails",
    "Ompy.C74_refuses",
    "Ompy.C74_functions"
   ],
   "note": "Counts, sums, conservation by the smoothing and the exact conditions of success proved. False: a file with a single level ends in TypeError."
  },
  {
   "property": "C75",
   "status": "partial",
   "theorems": [
    "Ompy.C75_value",
    "Ompy.C75_bound",
    "Ompy.C75_history",
    "Ompy.C75_restored",
    "Ompy.C75_best_partial",
    "Ompy.C75_fixed_fails",
    "Ompy.C75_restored_fails",
    "Ompy.C75_results",
    "Ompy.C75_flag_fails"
   ],
   "note": "Value, independence of the history, optimum for fitted extrapolations, parameters after success and results proved. False: fixed extrapolations are not scaled with B; D0 stays changed after an error; the flags for made-up standard deviations stay up after an error. The nested sampling is an arbitrary list of points."
  },
  {
   "property": "C76",
   "status": "proved",
   "theorems": [
    "Ompy.C76_recovers",
    "Ompy.C76_optimum",
    "Ompy.C76_refuses",
    "Ompy.C76_spill_fails"
   ],
   "note": "Proved for a minimiser that returns a minimum whenever one exists (shown to be consistent). C76_spill_fails shows that the condition of no counts beyond the diagonal is needed: the matrix is normalised over all gamma bins, the product only up to the diagonal, and the best fit then differs from the true functions."
  },
  {
   "property": "C77",
   "status": "partial",
   "theorems": [
    "Ompy.C77_trapezoid_partial",
    "Ompy.C77_above_fails",
    "Ompy.C77_auto",
    "Ompy.C77_last_column_fails",
    "Ompy.C77_unconstrained_fails",
    "Ompy.C77_call",
    "Ompy.C77_idempotent",
    "Ompy.C77_shrinks_fails"
   ],
   "note": "Proved: the rectangle and the entries strictly below the diagonal for Eg_max <= Ex_max, the automatic limit, idempotence with explicit limits, the effect of the call. False: the diagonal itself is erased, so the column at Eg_max is always zero and the last gsf bin unconstrained (C77_last_column_fails, C77_unconstrained_fails); for Eg_max > Ex_max there is no diagonal cut at all (C77_above_fails); the automatic limit shrinks with every call and a last row of zeros raises TypeError (C77_shrinks_fails, C77_auto)."
  },
  {
   "property": "C78",
   "status": "partial",
   "theorems": [
    "Ompy.C78_matrix",
    "Ompy.C78_order",
    "Ompy.C78_refused",
    "Ompy.C78_library_partial",
    "Ompy.C78_vertical_fails",
    "Ompy.C78_line_fails"
   ],
   "note": "Proved for the method (C78_matrix, C78_order, C78_refused). The library function erases the line itself (C78_line_fails) and, for a vertical line, the whole matrix (C78_vertical_fails); what it keeps otherwise is C78_library_partial."
  },
  {
   "property": "C79",
   "status": "partial",
   "theorems": [
    "Ompy.C79_shape",
    "Ompy.C79_columns",
    "Ompy.C79_bsfg",
    "Ompy.C79_guess",
    "Ompy.C79_refused",
    "Ompy.C79_choice",
    "Ompy.C79_random",
    "Ompy.C79_single_fails"
   ],
   "note": "Proved for axes of at least two bins (all that decompose produces). False for one bin: the default start value is NaN and the check `np.isfinite(x0).all` lacks the call, so it passes (C79_single_fails)."
  },
  {
   "property": "C80",
   "status": "partial",
   "theorems": [
    "Ompy.C80_files",
    "Ompy.C80_reload",
    "Ompy.C80_resume_partial",
    "Ompy.C80_limit_kept",
    "Ompy.C80_auto_limit",
    "Ompy.C80_offgrid_fails",
    "Ompy.C80_resume_cut_fails",
    "Ompy.C80_resume_random_fails",
    "Ompy.C80_arguments",
    "Ompy.C80_algorithm_fails"
   ],
   "note": "Proved: files and results agree (C80_files), reloading (C80_reload), resuming with a limit on the grid and a fit without random numbers (C80_resume_partial), the fate of the limit (C80_limit_kept, C80_auto_limit), arguments. False: a limit off the grid cuts member 0 differently (C80_offgrid_fails); without a limit, or with random start values, a resumed run differs (C80_resume_cut_fails, C80_resume_random_fails); unknown algorithms do nothing (C80_algorithm_fails)."
  },
  {
   "property": "C81",
   "status": "partial",
   "theorems": [
    "Ompy.C81_mean",
    "Ompy.C81_bounds",
    "Ompy.C81_order",
    "Ompy.C81_refused",
    "Ompy.C81_unconstrained",
    "Ompy.C81_resolution",
    "Ompy.C81_resolution_refused",
    "Ompy.C81_axis_fails"
   ],
   "note": "Proved except that members on different axes of equal length are averaged without notice (C81_axis_fails)."
  },
  {
   "property": "C82",
   "status": "partial",
   "theorems": [
    "Ompy.C82_rebin",
    "Ompy.C82_conserves",
    "Ompy.C82_refused",
    "Ompy.C82_reload_fails",
    "Ompy.C82_std_bound"
   ],
   "note": "Proved except for loading afterwards: only the standard deviations are saved (C82_reload_fails)."
  },
  {
   "property": "C83",
   "status": "partial",
   "theorems": [
    "Ompy.C83_generate",
    "Ompy.C83_cut_fails",
    "Ompy.C83_refused",
    "Ompy.C83_get",
    "Ompy.C83_state_fails",
    "Ompy.C83_axes_fails",
    "Ompy.C83_constructor",
    "Ompy.C83_firstgen",
    "Ompy.C83_before"
   ],
   "note": "Proved for actions that keep the shape of raw. False: actions that cut raise after the whole calculation (C83_cut_fails); members in a list and raw members have no state (C83_state_fails); axes of unfolded members are overwritten (C83_axes_fails); Ensemble() raises AttributeError (C83_constructor)."
  },
  {
   "property": "C84",
   "status": "partial",
   "theorems": [
    "Ompy.C84_gaussian",
    "Ompy.C84_poisson",
    "Ompy.C84_poisson_moments",
    "Ompy.C84_bias_fails",
    "Ompy.C84_states",
    "Ompy.C84_generate",
    "Ompy.C84_method_fails"
   ],
   "note": "Proved: shapes, signs, exact moments of the Poisson method, dispatch. False: the Gaussian method is biased upwards by up to a quarter of a count and has too small a spread (C84_bias_fails); the method is not looked at if a file exists (C84_method_fails)."
  },
  {
   "property": "C85",
   "status": "partial",
   "theorems": [
    "Ompy.C85_matrix_partial",
    "Ompy.C85_vector_partial",
    "Ompy.C85_reflexive",
    "Ompy.C85_class",
    "Ompy.C85_shape_fails",
    "Ompy.C85_std_fails",
    "Ompy.C85_small_fails",
    "Ompy.C85_symmetry_fails",
    "Ompy.C85_different",
    "Ompy.C85_broadcast_fails"
   ],
   "note": "Proved for equal shapes and std both present or both absent. False: shapes that differ raise (C85_shape_fails), std present on one side raises, differently for the two orders (C85_std_fails), not symmetric (C85_symmetry_fails), everything below 1e-8 is equal (C85_small_fails), NaN (C85_reflexive). Vectors of one number are broadcast and equal to longer ones (C85_broadcast_fails)."
  },
  {
   "property": "C86",
   "status": "partial",
   "theorems": [
    "Ompy.C86_setter",
    "Ompy.C86_equal",
    "Ompy.C86_number_fails",
    "Ompy.C86_text_partial",
    "Ompy.C86_text_fails"
   ],
   "note": "Proved: setter, equality between states. False: unknown names raise KeyError (C86_setter), == and != with a number are both false (C86_number_fails), four of six texts are not accepted (C86_text_fails)."
  },
  {
   "property": "C87",
   "status": "partial",
   "theorems": [
    "Ompy.C87_product_partial",
    "Ompy.C87_result",
    "Ompy.C87_rectangular_fails",
    "Ompy.C87_inner_fails",
    "Ompy.C87_std_fails",
    "Ompy.C87_type",
    "Ompy.C87_dot",
    "Ompy.C87_vector_fails"
   ],
   "note": "Proved for square left factors. False: rectangular left factors are refused (C87_rectangular_fails), inner axes are not compared (C87_inner_fails), the std of the left factor is kept (C87_std_fails), AttributeError for other operands (C87_type), the product of vectors is stored as values of a vector (C87_vector_fails)."
  },
  {
   "property": "C88",
   "status": "partial",
   "theorems": [
    "Ompy.C88_zeros",
    "Ompy.C88_std_fails",
    "Ompy.C88_values_fails",
    "Ompy.C88_equidistant",
    "Ompy.C88_drift",
    "Ompy.C88_grid",
    "Ompy.C88_tolerance_fails",
    "Ompy.C88_both_fails",
    "Ompy.C88_vector_partial",
    "Ompy.C88_integer_fails",
    "Ompy.C88_init",
    "Ompy.C88_shape_axes"
   ],
   "note": "False: ZerosMatrix(std=True) always raises (C88_std_fails), shape discards the values (C88_values_fails), the tolerance is absolute and accepts constant axes (C88_tolerance_fails), 'both' checks Eg only (C88_both_fails), integer energies give integer values (C88_integer_fails)."
  },
  {
   "property": "C89",
   "status": "partial",
   "theorems": [
    "Ompy.C89_calibration_grid",
    "Ompy.C89_rows_partial",
    "Ompy.C89_refused",
    "Ompy.C89_formats_partial",
    "Ompy.C89_names_fails",
    "Ompy.C89_order_fails",
    "Ompy.C89_calibration",
    "Ompy.C89_path"
   ],
   "note": "Same result as LoadZip for ascending integer energies without offset, the longest spectrum last (C89_formats_partial). False otherwise: C89_names_fails, C89_order_fails."
  },
  {
   "property": "C90",
   "status": "partial",
   "theorems": [
    "Ompy.C90_identity",
    "Ompy.C90_entry",
    "Ompy.C90_refused",
    "Ompy.C90_two_partial",
    "Ompy.C90_border_fails"
   ],
   "note": "1D proved completely. 2D for inner points; border rows and columns are set to zero (C90_border_fails)."
  },
  {
   "property": "C91",
   "status": "partial",
   "theorems": [
    "Ompy.C91_order",
    "Ompy.C91_median",
    "Ompy.C91_coverage_partial",
    "Ompy.C91_coverage_fails",
    "Ompy.C91_permutation",
    "Ompy.C91_nan",
    "Ompy.C91_columns",
    "Ompy.C91_refused",
    "Ompy.C91_broadcast_fails",
    "Ompy.C91_figure_fails",
    "Ompy.C91_affine",
    "Ompy.C91_coverage_upper"
   ],
   "note": "Proved: order, median, permutation, scaling, NaN, columns, refusals. Coverage up to one sample (C91_coverage_partial, C91_coverage_upper); exactly the stated fraction is false for few samples (C91_coverage_fails). False: a vector of one number is broadcast (C91_broadcast_fails); return_stats without models returns an empty figure (C91_figure_fails)."
  },
  {
   "property": "C92",
   "status": "partial",
   "theorems": [
    "Ompy.C92_stem",
    "Ompy.C92_interrupted",
    "Ompy.C92_empty",
    "Ompy.C92_names_partial",
    "Ompy.C92_names_fails",
    "Ompy.C92_files",
    "Ompy.C92_suffix_fails",
    "Ompy.C92_stale_fails",
    "Ompy.C92_samples_refused"
   ],
   "note": "Proved for the numbered members and for suffixes without a dot. False: suffixes with dots share files (C92_names_fails), the suffix of the ensemble is ignored (C92_suffix_fails), files of an earlier larger ensemble stay (C92_stale_fails), two files are written before the samples are refused (C92_samples_refused)."
  },
  {
   "property": "C93",
   "status": "partial",
   "theorems": [
    "Ompy.C93_negative",
    "Ompy.C93_digits",
    "Ompy.C93_names",
    "Ompy.C93_order_fails",
    "Ompy.C93_zero_fails",
    "Ompy.C93_path_partial",
    "Ompy.C93_path_fails",
    "Ompy.C93_edges_refused",
    "Ompy.C93_edges",
    "Ompy.C93_sn_uncertainty",
    "Ompy.C93_asymmetry_fails"
   ],
   "note": "Proved: digits, names, warnings, relative uncertainty. False: an interval of width 0 raises behind the sampling (C93_zero_fails); a guess with keys in another order exchanges parameters (C93_order_fails); the path is checked member by member, so the eleventh can fail (C93_path_fails, C93_path_partial for short paths); the interval of the level density is not the image of that of the spacing (C93_asymmetry_fails)."
  },
  {
   "property": "C94",
   "status": "partial",
   "theorems": [
    "Ompy.C94_terminates",
    "Ompy.C94_accuracy",
    "Ompy.C94_distribution",
    "Ompy.C94_centre_fails",
    "Ompy.C94_loop_fails"
   ],
   "note": "Proved for all probabilities (C94_terminates, C94_accuracy, C94_distribution). False: draws around one half all give 0 (C94_centre_fails); for arguments above 1.001 the loop never ends (C94_loop_fails)."
  },
  {
   "property": "C95",
   "status": "partial",
   "theorems": [
    "Ompy.C95_start",
    "Ompy.C95_perturb",
    "Ompy.C95_nan_fails",
    "Ompy.C95_errors",
    "Ompy.C95_none_fails",
    "Ompy.C95_draws",
    "Ompy.C95_exact",
    "Ompy.C95_negative_fails",
    "Ompy.C95_repeat_fails",
    "Ompy.C95_lengths"
   ],
   "note": "Proved: start values, perturbation, decomposition of the uncertainties, draws, exact spectra, lengths. False: NaN if a spectrum is perturbed to nothing (C95_nan_fails), nunc=0 (C95_none_fails), negative bins give an uncertainty of their own (C95_negative_fails), the shared default generator makes equal calls differ (C95_repeat_fails)."
  },
  {
   "property": "C96",
   "status": "partial",
   "theorems": [
    "Ompy.C96_method_partial",
    "Ompy.C96_method_fails",
    "Ompy.C96_fit",
    "Ompy.C96_independent_partial",
    "Ompy.C96_independent_fails",
    "Ompy.C96_nld",
    "Ompy.C96_refused",
    "Ompy.C96_gsf",
    "Ompy.C96_fixed"
   ],
   "note": "Proved: fits, statistics, refusals. False: only the method of the lower model counts (C96_method_fails, partial for equal methods); guessed fit ranges of the first sample are kept for all (C96_independent_fails, partial for ranges that are set)."
  },
  {
   "property": "C97",
   "status": "partial",
   "theorems": [
    "Ompy.C97_window",
    "Ompy.C97_rounded",
    "Ompy.C97_default_scale",
    "Ompy.C97_unchanged",
    "Ompy.C97_refused",
    "Ompy.C97_coord_partial",
    "Ompy.C97_coord_fails",
    "Ompy.C97_ticks_partial",
    "Ompy.C97_ticks_fails",
    "Ompy.C97_ticks_zero_fails",
    "Ompy.C97_shade",
    "Ompy.C97_ascii",
    "Ompy.C97_ascii_fails"
   ],
   "note": "Proved: matrix unchanged, refusals, shades, characters; positions for equidistant axes (C97_coord_partial, false otherwise: C97_coord_fails); ticks without rounding (C97_ticks_partial). With rounding the ticks of an axis below 5 are a single 0 (C97_ticks_fails), or an OverflowError (C97_ticks_zero_fails); negative counts without positive ones cannot be drawn (C97_ascii_fails)."
  },
  {
   "property": "C98",
   "status": "proved",
   "theorems": [
    "Ompy.C98_language",
    "Ompy.C98_digits",
    "Ompy.C98_sign",
    "Ompy.C98_again",
    "Ompy.C98_order",
    "Ompy.C98_exact",
    "Ompy.C98_no_separator",
    "Ompy.C98_read"
   ],
   "note": "Printing and reading of decimal numbers on characters; exact for all rationals."
  },
  {
   "property": "C99",
   "status": "partial",
   "theorems": [
    "Ompy.C99_line_ends",
    "Ompy.C99_thin_fails",
    "Ompy.C99_vector_partial",
    "Ompy.C99_matrix_partial",
    "Ompy.C99_second",
    "Ompy.C99_axis",
    "Ompy.C99_comment_fails",
    "Ompy.C99_table_partial",
    "Ompy.C99_table_fails",
    "Ompy.C99_header_fails"
   ],
   "note": "Proved for comments of one line (C99_vector_partial, C99_matrix_partial), C99_second, C99_axis; a comment of two lines makes the file unreadable (C99_comment_fails). Tables: C99_table_partial for headers without carriage return, C99_table_fails with one; header=False raises TypeError and empties the file (C99_header_fails)."
  },
  {
   "property": "C100",
   "status": "partial",
   "theorems": [
    "Ompy.C100_firstgen_partial",
    "Ompy.C100_firstgen_fails",
    "Ompy.C100_damping",
    "Ompy.C100_unfold_partial",
    "Ompy.C100_unfold_fails",
    "Ompy.C100_decompose",
    "Ompy.C100_chain_partial"
   ],
   "note": "Proved for weights of the fluctuations 0 or 1 (C100_unfold_partial), for one to five iterations (C100_firstgen_partial), for normalize (C100_decompose) and for the chain (C100_chain_partial). False otherwise: from the sixth iteration on, weights in counts are mixed with normalised ones (C100_firstgen_fails; the damping is quantified in C100_damping), and scores add what scales with counts to what does not (C100_unfold_fails)."
  },
  {
   "property": "C101",
   "status": "proved",
   "theorems": [
    "Ompy.C101_energy",
    "Ompy.C101_normalisation",
    "Ompy.C101_fixed_point",
    "Ompy.C101_stays",
    "Ompy.C101_area",
    "Ompy.C101_direct",
    "Ompy.C101_ambiguous_fails"
   ],
   "note": "C101_energy, C101_normalisation, C101_fixed_point, C101_stays, C101_area (undamped passes) and C101_direct. Recovery of F from the actual start of the loop is proved for direct decay only; it cannot hold in general, since different cascades have the same spectra of all generations (C101_ambiguous_fails)."
  },
  {
   "property": "C102",
   "status": "partial",
   "theorems": [
    "Ompy.C102_seed",
    "Ompy.C102_samples",
    "Ompy.C102_negative",
    "Ompy.C102_copies_fails",
    "Ompy.C102_schedule_fails",
    "Ompy.C102_one_process_partial",
    "Ompy.C102_repeated_fails",
    "Ompy.C102_seed_fails"
   ],
   "note": "C102_samples and C102_negative hold. The independence of the members is false for more than one process: C102_copies_fails (first members of two processes use the same deviates, for every generator), C102_schedule_fails, C102_repeated_fails; C102_one_process_partial proves it for one process. C102_seed_fails: making an extractor resets the global generator."
  },
  {
   "property": "C103",
   "status": "proved",
   "theorems": [
    "Ompy.C103_selection",
    "Ompy.C103_join",
    "Ompy.C103_cut"
   ],
   "note": "C103_selection, C103_join, C103_cut; apply_iff reduces apply to what happens to a single spectrum. gaussian_filter1d and gauss_smoothing are arbitrary functions of one row."
  },
  {
   "property": "C104",
   "status": "partial",
   "theorems": [
    "Ompy.C104_nld",
    "Ompy.C104_nld_best",
    "Ompy.C104_made_up",
    "Ompy.C104_gsf_partial",
    "Ompy.C104_simultaneous",
    "Ompy.C104_search_fails",
    "Ompy.C104_fixed_fails"
   ],
   "note": "C104_nld, C104_nld_best, C104_simultaneous and C104_made_up hold in general. C104_gsf_partial needs extrapolations that are fitted; with fixed ones the stepwise result depends on the gauge (C104_fixed_fails). The search itself is tied to a gauge: optimize refuses negative slopes and has bounds (C104_search_fails)."
  },
  {
   "property": "C105",
   "status": "partial",
   "theorems": [
    "Ompy.C105_runs_fails",
    "Ompy.C105_choice",
    "Ompy.C105_round_trip",
    "Ompy.C105_no_file",
    "Ompy.C105_other_directories",
    "Ompy.C105_regenerate",
    "Ompy.C105_first_fails",
    "Ompy.C105_ensemble_fails",
    "Ompy.C105_path_none_fails",
    "Ompy.C105_partial_results_fails",
    "Ompy.C105_flag_fails"
   ],
   "note": "C105_round_trip, C105_no_file, C105_other_directories and C105_regenerate hold. That the results belong to the normalisers of the program fails: the file of the first program decides (C105_first_fails). A loaded extractor has no ensemble (C105_ensemble_fails), path=None never works (C105_path_none_fails), a failing run leaves partial results (C105_partial_results_fails), and the flag comes from the file (C105_flag_fails)."
  },
  {
   "property": "C106",
   "status": "partial",
   "theorems": [
    "Ompy.C106_rebin",
    "Ompy.C106_matrix_rebin",
    "Ompy.C106_index",
    "Ompy.C106_cut",
    "Ompy.C106_projection",
    "Ompy.C106_line",
    "Ompy.C106_fill",
    "Ompy.C106_vector_cut",
    "Ompy.C106_first_generation",
    "Ompy.C106_trapezoid",
    "Ompy.C106_extraction",
    "Ompy.C106_response_fails",
    "Ompy.C106_origin"
   ],
   "note": "Holds for all functions named (C106_rebin, C106_matrix_rebin, C106_index, C106_cut, C106_vector_cut, C106_projection, C106_line, C106_fill, C106_first_generation, C106_trapezoid, C106_extraction), given that np.allclose and np.isclose treat both units alike. It fails for the response, which has 511 keV written into it (C106_response_fails). C106_origin shows that the origin may not be displaced in the first generation method."
  },
  {
   "property": "C107",
   "status": "partial",
   "theorems": [
    "Ompy.C107_cells",
    "Ompy.C107_cells_sum",
    "Ompy.C107_indices",
    "Ompy.C107_cut_like",
    "Ompy.C107_cut_like_fails",
    "Ompy.C107_shift_matrix",
    "Ompy.C107_examples",
    "Ompy.C107_example_response_fails",
    "Ompy.C107_disjoint_rows",
    "Ompy.C107_read_response_fails",
    "Ompy.C107_gettype",
    "Ompy.C107_gettype_fails",
    "Ompy.C107_multiplicity",
    "Ompy.C107_version",
    "Ompy.C107_version_fails",
    "Ompy.C107_cut_like_left"
   ],
   "note": "C107_cells, C107_cells_sum, C107_indices, C107_cut_like, C107_shift_matrix, C107_examples, C107_disjoint_rows, C107_gettype, C107_multiplicity, C107_version. It fails for example_response and read_response (every call raises), for cut_like in place when an exception is raised, for a module with a name ending in typing and for the working directory after an ImportError (theorems ending in _fails)."
  },
  {
   "property": "C108",
   "status": "partial",
   "theorems": [
    "Ompy.C108_annotate_default",
    "Ompy.C108_vector_partial",
    "Ompy.C108_vector_fails",
    "Ompy.C108_projection",
    "Ompy.C108_limits_partial",
    "Ompy.C108_given",
    "Ompy.C108_scale_by",
    "Ompy.C108_limits_fails",
    "Ompy.C108_axes_fails",
    "Ompy.C108_colourbar",
    "Ompy.C108_extraction",
    "Ompy.C108_frame",
    "Ompy.C108_legend_partial",
    "Ompy.C108_legend_fails",
    "Ompy.C108_selection_legend",
    "Ompy.C108_selection",
    "Ompy.C108_dummy_partial",
    "Ompy.C108_dummy_fails",
    "Ompy.C108_interactive_fails",
    "Ompy.C108_annotate_partial",
    "Ompy.C108_annotate_fails",
    "Ompy.C108_annotate_axes_fails"
   ],
   "note": "C108_vector_partial, C108_projection, C108_limits_partial, C108_given, C108_scale_by, C108_colourbar, C108_extraction, C108_frame, C108_legend_partial, C108_selection, C108_selection_legend, C108_dummy_partial, C108_annotate_partial. False: the kind bar, the lower colour limit if a standard deviation vanishes, axes given to Ensemble.plot, the legend and the dummy sample when error bars have no caps (the default), the interactive plot for fixed parameters, and annotate_heatmap unless both axes are the same (theorems ending in _fails)."
  },
  {
   "property": "C109",
   "status": "partial",
   "theorems": [
    "Ompy.C109_own_level",
    "Ompy.C109_default_level",
    "Ompy.C109_single_fails",
    "Ompy.C109_slabs",
    "Ompy.C109_get",
    "Ompy.C109_available_iff",
    "Ompy.C109_available_partial",
    "Ompy.C109_available_fails",
    "Ompy.C109_names_listed_fails",
    "Ompy.C109_written_partial",
    "Ompy.C109_written_fails",
    "Ompy.C109_names",
    "Ompy.C109_names_fails",
    "Ompy.C109_hook_partial",
    "Ompy.C109_hook_title",
    "Ompy.C109_hook_fails",
    "Ompy.C109_calls_partial",
    "Ompy.C109_calls_fails"
   ],
   "note": "C109_get, C109_available_iff, C109_available_partial, C109_written_partial, C109_names, C109_hook_partial, C109_hook_title, C109_calls_partial. False: the list raises IndexError for a name with \"ompy\" and without a dot, lists loggers of other packages and cuts names of subpackages; messages are written twice if the package and a module were asked for; the hook raises for results that are not tuples or have fewer names, uses up generators, draws a single matrix row by row, and does not count calls that raise (theorems ending in _fails)."
  },
  {
   "property": "C110",
   "status": "partial",
   "theorems": [
    "Ompy.C110_index",
    "Ompy.C110_product_iff",
    "Ompy.C110_product",
    "Ompy.C110_resolution_fails",
    "Ompy.C110_resolution_taken",
    "Ompy.C110_chisquare_iff",
    "Ompy.C110_chisquare",
    "Ompy.C110_chisquare_fails",
    "Ompy.C110_chisquare_diagonal_iff",
    "Ompy.C110_decompose_partial",
    "Ompy.C110_decompose_fails",
    "Ompy.C110_rebin_iff",
    "Ompy.C110_rebin",
    "Ompy.C110_rebin_fails",
    "Ompy.C110_cpp_fails"
   ],
   "note": "C110_index, C110_product_iff, C110_product, C110_chisquare_iff, C110_chisquare, C110_chisquare_diagonal_iff, C110_rebin_iff, C110_rebin, C110_resolution_taken, C110_decompose_partial (increasing axes). False: sizes are not compared, so that a resolution for each gamma energy, as documented, is read beyond its end or taken for another (C110_resolution_fails); matrices of other shapes are accepted or read beyond their end (C110_chisquare_fails); decreasing axes of two bins give an empty level density axis (C110_decompose_fails); short counts are accepted by rebin_1D (C110_rebin_fails); columns outside of the arrays of rhosigchi.cpp are elements of other rows (C110_cpp_fails)."
  },
  {
   "property": "C111",
   "status": "partial",
   "theorems": [
    "Ompy.C111_refused",
    "Ompy.C111_double_near",
    "Ompy.C111_double_mono",
    "Ompy.C111_double_exact",
    "Ompy.C111_integer_axes",
    "Ompy.C111_double_fails",
    "Ompy.C111_bins_partial",
    "Ompy.C111_bins_fails",
    "Ompy.C111_index_error",
    "Ompy.C111_decompose_fails",
    "Ompy.C111_index_closest",
    "Ompy.C111_index_hit",
    "Ompy.C111_mask",
    "Ompy.C111_product",
    "Ompy.C111_double_partial",
    "Ompy.C111_diagonal_fails"
   ],
   "note": "C111_double_near, C111_double_mono, C111_double_exact, C111_integer_axes, C111_index_closest, C111_index_hit, C111_mask, C111_product, C111_bins_partial (right number of bins or one more; np.round would always be right), C111_double_partial. False: with energies in MeV the quotient in np.ceil can be just above a whole number, giving one bin too many (C111_double_fails); for every grid there are axes arbitrarily near to it with one bin too many (C111_bins_fails), and then decompose ends with an exception after the fit (C111_index_error, C111_decompose_fails); chisquare_diagonal loses the diagonal when the excitation energies are below the gamma energies by a rounding error (C111_diagonal_fails)."
  },
  {
   "property": "C112",
   "status": "partial",
   "theorems": [
    "Ompy.C112_share",
    "Ompy.C112_total",
    "Ompy.C112_double",
    "Ompy.C112_nonneg",
    "Ompy.C112_first_two",
    "Ompy.C112_errors",
    "Ompy.C112_exact",
    "Ompy.C112_same_axis_fails",
    "Ompy.C112_total_fails",
    "Ompy.C112_drift_fails",
    "Ompy.C112_whole",
    "Ompy.C112_same_axis_partial"
   ],
   "note": "C112_share, C112_total, C112_double, C112_nonneg, C112_first_two, C112_errors, C112_exact (without rounding the model of C01-C04), C112_whole, C112_same_axis_partial. False: in doubles rebinning onto the same axis is not the identity (C112_same_axis_fails), the sum is not exactly conserved (C112_total_fails), and an error of the first two mid-points is multiplied with the number of the bin, so that mid-points right to a hundredth of a bin can put counts into another bin (C112_drift_fails)."
  },
  {
   "property": "C113",
   "status": "partial",
   "theorems": [
    "Ompy.C113_extrapolation_saved",
    "Ompy.C113_property_in_file",
    "Ompy.C113_round_trip_partial",
    "Ompy.C113_extrapolation_fails",
    "Ompy.C113_extrapolation_model",
    "Ompy.C113_failed_save_fails",
    "Ompy.C113_missing",
    "Ompy.C113_other_class_fails",
    "Ompy.C113_asdict_partial",
    "Ompy.C113_asdict_fails",
    "Ompy.C113_asdict_methods_fails",
    "Ompy.C113_str_partial",
    "Ompy.C113_str_lines",
    "Ompy.C113_str_fails"
   ],
   "note": "C113_round_trip_partial, C113_missing, C113_asdict_partial, C113_str_partial, C113_str_lines. False: extrapolation models can be saved but not loaded (C113_extrapolation_fails, C113_extrapolation_model); a dump that fails destroys the file that was there (C113_failed_save_fails); a file of another class is loaded halfway (C113_other_class_fails); asdict and printing raise TypeError for parameters of the normalisation without Sn (C113_asdict_fails, C113_str_fails); asdict contains methods (C113_asdict_methods_fails). The partial theorems cover all other cases."
  },
  {
   "property": "C114",
   "status": "partial",
   "theorems": [
    "Ompy.C114_short",
    "Ompy.C114_one_bin",
    "Ompy.C114_axes_partial",
    "Ompy.C114_axes_fails",
    "Ompy.C114_shapes_fails",
    "Ompy.C114_shapes",
    "Ompy.C114_limits",
    "Ompy.C114_exact",
    "Ompy.C114_whole_partial",
    "Ompy.C114_whole_fails"
   ],
   "note": "C114_axes_partial, C114_limits, C114_whole_partial, C114_exact, C114_shapes. False: the two axes are made by two calls of np.arange and can differ by one bin (C114_axes_fails: 20 and 21 bins for 100.1 keV; C114_whole_fails for whole numbers), after which the error analysis raises ValueError (C114_shapes_fails). The partial theorem gives every bin of both axes and bounds the lengths to the exact number or one more; C114_whole_partial proves equality when width, first energy and extension are whole numbers and the first energy is a multiple of the width."
  },
  {
   "property": "C115",
   "status": "partial",
   "theorems": [
    "Ompy.C115_edges_fails",
    "Ompy.C115_defaults",
    "Ompy.C115_empty",
    "Ompy.C115_closest",
    "Ompy.C115_bounds_partial",
    "Ompy.C115_cut_partial",
    "Ompy.C115_far_fails",
    "Ompy.C115_infinite_fails",
    "Ompy.C115_upper",
    "Ompy.C115_vector",
    "Ompy.C115_trapezoid_partial",
    "Ompy.C115_trapezoid_whole",
    "Ompy.C115_trapezoid_fails"
   ],
   "note": "C115_bounds_partial, C115_cut_partial, C115_vector, C115_upper, C115_closest, C115_trapezoid_partial, C115_trapezoid_whole. False: a lower limit of -inf, or far below the axis, keeps only the last bin (C115_infinite_fails for every axis and rounding, C115_far_fails); on MeV axes in doubles the diagonal of the trapezoid is ragged (C115_trapezoid_fails). The partial theorems cover all finite limits from which neighbouring bins can be told apart and all entries off the diagonal."
  },
  {
   "property": "C116",
   "status": "partial",
   "theorems": [
    "Ompy.C116_number_partial",
    "Ompy.C116_number_whole",
    "Ompy.C116_number_fails",
    "Ompy.C116_axis",
    "Ompy.C116_conserves",
    "Ompy.C116_exact",
    "Ompy.C116_refused"
   ],
   "note": "C116_number_partial, C116_number_whole, C116_axis, C116_conserves, C116_exact, C116_refused. False: int(n/f) truncates a rounded quotient, so 33 bins with factor 1.1 become 29 instead of 30 (C116_number_fails). The partial theorem covers all quotients that are not whole numbers up to rounding and bounds the difference by one bin otherwise; whole factors are exact."
  },
  {
   "property": "C117",
   "status": "partial",
   "theorems": [
    "Ompy.C117_sum",
    "Ompy.C117_sum_signed",
    "Ompy.C117_loop",
    "Ompy.C117_numpy",
    "Ompy.C117_rows",
    "Ompy.C117_unit",
    "Ompy.C117_unit_fails",
    "Ompy.C117_negative_fails",
    "Ompy.C117_first_generation",
    "Ompy.C117_product",
    "Ompy.C117_chisquare",
    "Ompy.C117_diagonal_partial",
    "Ompy.C117_diagonal_fails",
    "Ompy.C117_underflow_fails"
   ],
   "note": "C117_sum, C117_sum_signed, C117_loop, C117_numpy, C117_rows, C117_unit, C117_first_generation, C117_product, C117_chisquare, C117_diagonal_partial. False: a normalised row need not add up to one and normalising again changes it (C117_unit_fails); with entries of both signs the row can be lost (C117_negative_fails); chisquare_diagonal counts another bin when Ex + resolution is rounded up to a gamma energy (C117_diagonal_fails); standard deviations below 2^-538 raise ZeroDivisionError (C117_underflow_fails). Overflow is not modelled."
  },
  {
   "property": "C118",
   "status": "proved",
   "theorems": [
    "Ompy.C118_extracted",
    "Ompy.C118_fit",
    "Ompy.C118_recovers",
    "Ompy.C118_truth",
    "Ompy.C118_same"
   ],
   "note": "C118_extracted, C118_fit, C118_recovers, C118_truth, C118_same. The fit of the code maximises a likelihood instead of minimising chi-square; what this changes is C119. Perfect fits are assumptions (scipy, multinest)."
  },
  {
   "property": "C119",
   "status": "partial",
   "theorems": [
    "Ompy.C119_factor",
    "Ompy.C119_made_up",
    "Ompy.C119_bin",
    "Ompy.C119_best",
    "Ompy.C119_unique",
    "Ompy.C119_never_fails",
    "Ompy.C119_joint_fails",
    "Ompy.C119_fit",
    "Ompy.C119_chain_fails"
   ],
   "note": "C119_factor, C119_made_up, C119_bin, C119_best, C119_unique, C119_fit. That the truth is the most likely is false for all data (C119_never_fails, C119_joint_fails) and end to end (C119_chain_fails). Where the joint maximum over all four parameters lies is not determined; C119_best is for given temperature and shift."
  },
  {
   "property": "C120",
   "status": "partial",
   "theorems": [
    "Ompy.C120_gsf",
    "Ompy.C120_lines",
    "Ompy.C120_legend",
    "Ompy.C120_label",
    "Ompy.C120_colour_fails",
    "Ompy.C120_fixed_fails",
    "Ompy.C120_inner",
    "Ompy.C120_no_label_fails",
    "Ompy.C120_marker_fails",
    "Ompy.C120_both",
    "Ompy.C120_arguments_fails"
   ],
   "note": "C120_gsf, C120_lines, C120_legend, C120_label, C120_inner, C120_both. False: that further keyword arguments can be given (C120_colour_fails, C120_marker_fails), that a given extrapolation can be plotted (C120_fixed_fails), that add_label and results of the plots have an effect (C120_no_label_fails, C120_arguments_fails)."
  },
  {
   "property": "C121",
   "status": "partial",
   "theorems": [
    "Ompy.C121_double_nearest",
    "Ompy.C121_MeV_stable",
    "Ompy.C121_keV_stable",
    "Ompy.C121_convert",
    "Ompy.C121_saved",
    "Ompy.C121_exact",
    "Ompy.C121_round_trip",
    "Ompy.C121_order",
    "Ompy.C121_round_trip_partial",
    "Ompy.C121_round_trip_fails",
    "Ompy.C121_levels_fails",
    "Ompy.C121_no_drift"
   ],
   "note": "The round trip itself is false for whole keV energies (C121_round_trip_fails, witness 1001 keV); proved for multiples of 125 keV, and up to two roundings in general."
  },
  {
   "property": "C122",
   "status": "partial",
   "theorems": [
    "Ompy.C122_value",
    "Ompy.C122_std",
    "Ompy.C122_sign",
    "Ompy.C122_mono",
    "Ompy.C122_identity",
    "Ompy.C122_bins",
    "Ompy.C122_history",
    "Ompy.C122_history_std",
    "Ompy.C122_identity_fails",
    "Ompy.C122_inverse_fails"
   ],
   "note": "Exact identity and inverse are false in double precision (C122_identity_fails, C122_inverse_fails); bounds proved for all histories."
  },
  {
   "property": "C123",
   "status": "partial",
   "theorems": [
    "Ompy.C123_dot",
    "Ompy.C123_exact",
    "Ompy.C123_step",
    "Ompy.C123_counts",
    "Ompy.C123_shrinks",
    "Ompy.C123_stable",
    "Ompy.C123_detector",
    "Ompy.C123_rate",
    "Ompy.C123_fixed",
    "Ompy.C123_counts_fails",
    "Ompy.C123_double"
   ],
   "note": "Exact conservation of counts is false in double precision (C123_counts_fails); stability, error of counts and rate of convergence proved for any number of passes."
  },
  {
   "property": "C124",
   "status": "partial",
   "theorems": [
    "Ompy.C124_threshold",
    "Ompy.C124_values",
    "Ompy.C124_exact_values",
    "Ompy.C124_step_weights",
    "Ompy.C124_weights",
    "Ompy.C124_lowest_row",
    "Ompy.C124_multiplicities",
    "Ompy.C124_exact",
    "Ompy.C124_row_dependency",
    "Ompy.C124_normalization",
    "Ompy.C124_dot",
    "Ompy.C124_step_near",
    "Ompy.C124_unstable_fails",
    "Ompy.C124_threshold_fails"
   ],
   "note": "That the result of several iterations is near the exact one is false (C124_unstable_fails), as is the sliding threshold at its edge (C124_threshold_fails); weights, lowest row, dependency of rows, multiplicities, normalisation and one step proved."
  },
  {
   "property": "C125",
   "status": "partial",
   "theorems": [
    "Ompy.C125_bins",
    "Ompy.C125_mean",
    "Ompy.C125_variance",
    "Ompy.C125_std",
    "Ompy.C125_zero",
    "Ompy.C125_double",
    "Ompy.C125_constant_partial",
    "Ompy.C125_constant_fails",
    "Ompy.C125_exact"
   ],
   "note": "That equal values always get standard deviation zero is false (C125_constant_fails): such bins are not ignored by chi-square but dominate it. Proved for whole multiples of a power of two (C125_constant_partial); error bounds proved for all values."
  },
  {
   "property": "C126",
   "status": "partial",
   "theorems": [
    "Ompy.C126_point",
    "Ompy.C126_skips",
    "Ompy.C126_zero_width",
    "Ompy.C126_window",
    "Ompy.C126_counts",
    "Ompy.C126_reach",
    "Ompy.C126_exactly_fails",
    "Ompy.C126_uneven_fails",
    "Ompy.C126_errors",
    "Ompy.C126_exact_window"
   ],
   "note": "That the number of counts is preserved exactly is false for doubles (C126_exactly_fails), and on unequal bins the counts become NaN (C126_uneven_fails). Proved up to D(n)+n+2 roundings for nearly equal bins."
  },
  {
   "property": "C127",
   "status": "partial",
   "theorems": [
    "Ompy.C127_vertical_fails",
    "Ompy.C127_shapes",
    "Ompy.C127_matrix_partial",
    "Ompy.C127_diagonal",
    "Ompy.C127_on_line_fails",
    "Ompy.C127_refused",
    "Ompy.C127_closest",
    "Ompy.C127_library_partial",
    "Ompy.C127_library_fails"
   ],
   "note": "On the line the treatment depends on rounding and on the order of the points (C127_on_line_fails, C127_library_fails): a point that defines the line is cut away. Proved for all entries off the line, and for entries on lines with dyadic slope."
  },
  {
   "property": "C128",
   "status": "partial",
   "theorems": [
    "Ompy.C128_calibration",
    "Ompy.C128_whole",
    "Ompy.C128_emax",
    "Ompy.C128_calibration_errors",
    "Ompy.C128_plot_partial",
    "Ompy.C128_plot_whole",
    "Ompy.C128_plot_short",
    "Ompy.C128_plot_fails",
    "Ompy.C128_limits_partial",
    "Ompy.C128_offset",
    "Ompy.C128_limits_whole",
    "Ompy.C128_limits_fails"
   ],
   "note": "Plotting changes the axes in the last digits (C128_plot_fails) and find_limits can lose the bin at the upper limit (C128_limits_fails). Proved up to rounding, and exactly for whole multiples of powers of two."
  },
  {
   "property": "C129",
   "status": "partial",
   "theorems": [
    "Ompy.C129_convert",
    "Ompy.C129_convert_fails",
    "Ompy.C129_call",
    "Ompy.C129_refused",
    "Ompy.C129_readonly",
    "Ompy.C129_inputs",
    "Ompy.C129_lost_fails",
    "Ompy.C129_int",
    "Ompy.C129_results",
    "Ompy.C129_order_fails",
    "Ompy.C129_layout",
    "Ompy.C129_size",
    "Ompy.C129_three_fails"
   ],
   "note": "Results are lost without an error if rho or sig are not C-ordered doubles (C129_lost_fails, C129_order_fails); arrays with three axes are accepted but no element can be reached (C129_three_fails). Proved for all arrays otherwise."
  },
  {
   "property": "C130",
   "status": "partial",
   "theorems": [
    "Ompy.C130_limit",
    "Ompy.C130_expected",
    "Ompy.C130_std_fails",
    "Ompy.C130_poisson",
    "Ompy.C130_gauss_fails",
    "Ompy.C130_background",
    "Ompy.C130_background_fails"
   ],
   "note": "The squared standard deviation over n members is too small by the factor 1 - 1/n on average (C130_std_fails); with Gaussian perturbations the limit of the average is above v and that of the standard deviation below sqrt(v) (C130_gauss_fails); after a background subtraction the limit of the average is above the difference of the counts (C130_background_fails). Everything else is proved in full."
  },
  {
   "property": "C131",
   "status": "partial",
   "theorems": [
    "Ompy.C131_series",
    "Ompy.C131_inverse",
    "Ompy.C131_moments",
    "Ompy.C131_amplified",
    "Ompy.C131_total",
    "Ompy.C131_members",
    "Ompy.C131_returned_fails"
   ],
   "note": "Proved in full for the iterations (one iteration for all members, no Compton subtraction). What is returned has its negative counts removed and is therefore not right on average wherever a count in another bin lowers the result (C131_returned_fails)."
  },
  {
   "property": "C132",
   "status": "proved",
   "theorems": [
    "Ompy.C132_expected",
    "Ompy.C132_truth",
    "Ompy.C132_members",
    "Ompy.C132_counting",
    "Ompy.C132_propagation"
   ],
   "note": "Exact arithmetic. The first-order statement concerns the propagation of uncertainties; the normalised values themselves are biased at second order."
  },
  {
   "property": "C133",
   "status": "proved",
   "theorems": [
    "Ompy.C133_normalised",
    "Ompy.C133_spread",
    "Ompy.C133_energy",
    "Ompy.C133_multiplicity",
    "Ompy.C133_statistical"
   ],
   "note": "Exact arithmetic, Poisson counts. Counts after unfolding are not Poisson numbers; the theorems apply to raw matrices handed to the functions."
  },
  {
   "property": "C134",
   "status": "proved",
   "theorems": [
    "Ompy.C134_place",
    "Ompy.C134_between",
    "Ompy.C134_limit",
    "Ompy.C134_share",
    "Ompy.C134_weights_fails",
    "Ompy.C134_equal"
   ],
   "note": "Exact arithmetic. That members count alike whatever the number of their samples is false of the code: C134_weights_fails; C134_equal is the case of equal numbers."
  },
  {
   "property": "C135",
   "status": "partial",
   "theorems": [
    "Ompy.C135_deviation",
    "Ompy.C135_settles_fails",
    "Ompy.C135_settles_partial"
   ],
   "note": "Exact arithmetic. That the iteration settles at the primary spectra for all exact cascades is false of the code: C135_settles_fails (the default of ten iterations gives 30 gammas instead of 10, eleven give none); C135_settles_partial is the case of ladders of one step."
  },
  {
   "property": "C136",
   "status": "partial",
   "theorems": [
    "Ompy.C136_no_writes",
    "Ompy.C136_copy",
    "Ompy.C136_own_numbers_partial",
    "Ompy.C136_own_numbers_fails",
    "Ompy.C136_each_kind_fails",
    "Ompy.C136_frame",
    "Ompy.C136_rebin_shares",
    "Ompy.C136_one_axis"
   ],
   "note": "That every program behaves as if objects had their own numbers is false of the code (C136_own_numbers_fails, C136_each_kind_fails for each kind of call, C136_rebin_shares and C136_one_axis for all numbers); C136_own_numbers_partial covers the programs without such calls. Numbers are exact; arrays handed out by projection and attributes written by the caller are not modelled."
  },
  {
   "property": "C137",
   "status": "proved",
   "theorems": [
    "Ompy.C137_symmetric_iff",
    "Ompy.C137_limit",
    "Ompy.C137_settles_iff",
    "Ompy.C137_solution",
    "Ompy.C137_below_iff",
    "Ompy.C137_detector_iff",
    "Ompy.C137_resolution",
    "Ompy.C137_mode",
    "Ompy.C137_dead",
    "Ompy.C137_settles_fails"
   ],
   "note": "That the iteration settles for every invertible response is false of the code (C137_settles_fails); which responses settle is characterised (C137_settles_iff, C137_below_iff, C137_detector_iff, C137_symmetric_iff). Without rounding, and before iterations are selected and negative counts removed."
  },
  {
   "property": "C138",
   "status": "partial",
   "theorems": [
    "Ompy.C138_npy",
    "Ompy.C138_never_wrong",
    "Ompy.C138_resume_partial",
    "Ompy.C138_stuck",
    "Ompy.C138_resume_fails",
    "Ompy.C138_regenerate",
    "Ompy.C138_ends"
   ],
   "note": "That generation can be resumed after every interruption is false of the code (C138_resume_fails: an interruption right after the first file was opened; C138_stuck: forever). The part that holds is C138_resume_partial. The pieces of a file appear on the disk in the order in which they are written."
  },
  {
   "property": "C139",
   "status": "partial",
   "theorems": [
    "Ompy.C139_pairs_partial",
    "Ompy.C139_never_wrong",
    "Ompy.C139_mixed_fails",
    "Ompy.C139_resumes_iff",
    "Ompy.C139_resume_fails",
    "Ompy.C139_regenerate",
    "Ompy.C139_whole",
    "Ompy.C139_ensemble_fails"
   ],
   "note": "False of the code if a call with regenerate=True is interrupted (C139_mixed_fails, C139_ensemble_fails) and an extraction cannot be resumed after an interruption inside a strength function (C139_resume_fails). What holds: C139_pairs_partial, C139_never_wrong, C139_resumes_iff, C139_regenerate. With complete files the model agrees with that of C80 (C139_whole)."
  },
  {
   "property": "C140",
   "status": "proved",
   "theorems": [
    "Ompy.C140_names",
    "Ompy.C140_separate",
    "Ompy.C140_isolated",
    "Ompy.C140_members",
    "Ompy.C140_path",
    "Ompy.C140_fresh",
    "Ompy.C140_fallback",
    "Ompy.C140_default",
    "Ompy.C140_resume_fails",
    "Ompy.C140_shared_fails"
   ],
   "note": "For the members of one ensemble: C140_names, C140_separate, C140_isolated, C140_members, C140_fresh, C140_default, C140_fallback, C140_path. MultiNest is an arbitrary program on files with its base name; writing a file is one step. Between programs that share the directory it is false (C140_shared_fails), and multinest_kwargs without resume reuses old files (C140_resume_fails)."
  },
  {
   "property": "C141",
   "status": "proved",
   "theorems": [
    "Ompy.C141_accepts",
    "Ompy.C141_bound",
    "Ompy.C141_curry",
    "Ompy.C141_replayable",
    "Ompy.C141_never",
    "Ompy.C141_needs",
    "Ompy.C141_ruined",
    "Ompy.C141_cut",
    "Ompy.C141_later",
    "Ompy.C141_positional_fails",
    "Ompy.C141_second_call_fails",
    "Ompy.C141_inplace_fails",
    "Ompy.C141_limits",
    "Ompy.C141_same",
    "Ompy.C141_rhosigchi_fails"
   ],
   "note": "C141_accepts, C141_bound (python's binding of arguments), C141_curry, C141_replayable, C141_never, C141_needs, C141_ruined, C141_cut, C141_later, C141_limits, C141_same. An Action that works on the matrices need not work for an extraction: C141_positional_fails, C141_second_call_fails, C141_inplace_fails (a cut recorded with inplace=False is without effect), C141_rhosigchi_fails. Bodies of methods other than trapezoid are arbitrary."
  },
  {
   "property": "C142",
   "status": "proved",
   "theorems": [
    "Ompy.C142_stop",
    "Ompy.C142_attributes",
    "Ompy.C142_again",
    "Ompy.C142_later",
    "Ompy.C142_ends",
    "Ompy.C142_files",
    "Ompy.C142_old_none_new",
    "Ompy.C142_never_wrong",
    "Ompy.C142_load",
    "Ompy.C142_lost",
    "Ompy.C142_stuck",
    "Ompy.C142_repair",
    "Ompy.C142_unpicklable",
    "Ompy.C142_pickle",
    "Ompy.C142_resume_fails",
    "Ompy.C142_dump_fails"
   ],
   "note": "C142_ends (the eight ways a call can end), C142_files, C142_old_none_new, C142_never_wrong, C142_load, C142_lost, C142_stuck, C142_repair, C142_unpicklable, C142_later for every format in which no proper beginning can be read; C142_pickle shows that pickles (opcodes up to STOP) are one; C142_stop, C142_attributes, C142_again say what is loaded from them. That an interrupted normalisation can be resumed is false: C142_resume_fails, C142_dump_fails. Simplification: calculation and attributes are arbitrary functions; the files of multinest are not part of the model."
  },
  {
   "property": "C143",
   "status": "proved",
   "theorems": [
    "Ompy.C143_table",
    "Ompy.C143_lines",
    "Ompy.C143_spectrum",
    "Ompy.C143_matrix",
    "Ompy.C143_last_digit",
    "Ompy.C143_last_digit_right",
    "Ompy.C143_wrong_number",
    "Ompy.C143_wrong_number_fails",
    "Ompy.C143_mama",
    "Ompy.C143_mama_short",
    "Ompy.C143_mama_spectrum"
   ],
   "note": "C143_table, C143_lines, C143_spectrum, C143_matrix, C143_last_digit, C143_last_digit_right, C143_wrong_number, C143_mama, C143_mama_short, C143_mama_spectrum. That incomplete files are refused, or that all numbers read are right, is false: C143_wrong_number_fails. Simplification: writing is interrupted between two characters; numbers are rationals."
  },
  {
   "property": "C144",
   "status": "partial",
   "theorems": [
    "Ompy.C144_axes_fit",
    "Ompy.C144_std_fits_partial",
    "Ompy.C144_std_fits_fails"
   ],
   "note": "Values and axes: proved for all programs. Standard deviations: the full statement is false (C144_std_fits_fails: cut and trapezoid in place do not cut std of a matrix, rebin of a vector assigns before its check); proved for programs without exceptions in which no matrix with std is cut in place."
  },
  {
   "property": "C145",
   "status": "partial",
   "theorems": [
    "Ompy.C145_raise_keeps",
    "Ompy.C145_rebin_vec",
    "Ompy.C145_rebin_mat_partial",
    "Ompy.C145_rebin_mat_fails",
    "Ompy.C145_rebin_both"
   ],
   "note": "Proved for all calls but rebin of both axes in place, for which C145_rebin_mat_fails has a witness and C145_rebin_both says what else can be the case."
  },
  {
   "property": "C146",
   "status": "partial",
   "theorems": [
    "Ompy.C146_agrees_mat",
    "Ompy.C146_mat_tar",
    "Ompy.C146_vec_return",
    "Ompy.C146_vec_raise",
    "Ompy.C146_vec_forget",
    "Ompy.C146_vec_forget_fails",
    "Ompy.C146_vec_one_file",
    "Ompy.C146_vec_std_partial",
    "Ompy.C146_vec_std_fails",
    "Ompy.C146_mat_return_partial",
    "Ompy.C146_mat_return_fails",
    "Ompy.C146_vec_matrix_tar",
    "Ompy.C146_mama_cross",
    "Ompy.C146_mat_std_stays",
    "Ompy.C146_mat_raise",
    "Ompy.C146_agrees_vec"
   ],
   "note": "C146_vec_std_partial: std comes from some load of the history; that it is the load the values are from is false (C146_vec_std_fails). C146_mat_return_partial leaves out tar files, for which C146_mat_return_fails refutes the statement for every vector with std. C146_vec_forget holds for npy, txt and csv, C146_vec_forget_fails is the MAMA witness."
  },
  {
   "property": "C147",
   "status": "proved",
   "theorems": [
    "Ompy.C147_curves",
    "Ompy.C147_lnlike_value",
    "Ompy.C147_width",
    "Ompy.C147_zero",
    "Ompy.C147_reproduces",
    "Ompy.C147_transformed",
    "Ompy.C147_double",
    "Ompy.C147_last",
    "Ompy.C147_monotone",
    "Ompy.C147_scaled",
    "Ompy.C147_two",
    "Ompy.C147_lnlike"
   ],
   "note": "Overflow and underflow are left out. The error of the energies of the grid themselves is not propagated through strength function and level density, which are arbitrary functions."
  },
  {
   "property": "C148",
   "status": "partial",
   "theorems": [
    "Ompy.C148_duplicates",
    "Ompy.C148_separate",
    "Ompy.C148_save_alone",
    "Ompy.C148_load_alone",
    "Ompy.C148_save_and_load",
    "Ompy.C148_names",
    "Ompy.C148_two_saves",
    "Ompy.C148_same_stem_fails",
    "Ompy.C148_readers_partial",
    "Ompy.C148_readers_fails"
   ],
   "note": "The full statements fail and witnesses are proved: paths that differ only in the suffix share their temporary files, so that an archive silently holds the array of another process (C148_same_stem_fails), and of two processes that load the same archive one can raise FileNotFoundError (C148_readers_fails). C148_readers_partial is what remains for readers: the right arrays or FileNotFoundError. Steps are atomic and archives are not buffered in the model."
  },
  {
   "property": "C149",
   "status": "proved",
   "theorems": [
    "Ompy.C149_spin",
    "Ompy.C149_round_trip",
    "Ompy.C149_double",
    "Ompy.C149_same_fails",
    "Ompy.C149_antitone",
    "Ompy.C149_density",
    "Ompy.C149_spin_sum",
    "Ompy.C149_spin_sum_refused"
   ],
   "note": "Overflow and underflow are left out. Exact equality of D0 after conversion there and back fails (C149_same_fails, D0 = 7 eV). The spin-cut parameter itself is an input; its own roundings are not propagated."
  },
  {
   "property": "C150",
   "status": "partial",
   "theorems": [
    "Ompy.C150_peak",
    "Ompy.C150_content",
    "Ompy.C150_place",
    "Ompy.C150_index_partial",
    "Ompy.C150_index_fails",
    "Ompy.C150_exact"
   ],
   "note": "The full statement (every peak on the axis is added) fails: on the axis 32.8 + 159.4 k with four channels the annihilation peak is computed to be above the last channel and IndexError is raised (C150_index_fails). C150_index_partial covers peaks at least one channel below the end. The interpolated probabilities are inputs."
  },
  {
   "property": "C151",
   "status": "partial",
   "theorems": [
    "Ompy.C151_segment",
    "Ompy.C151_exact",
    "Ompy.C151_node",
    "Ompy.C151_outside",
    "Ompy.C151_table",
    "Ompy.C151_exact_zero",
    "Ompy.C151_double",
    "Ompy.C151_monotone",
    "Ompy.C151_nonneg_partial",
    "Ompy.C151_nonneg_fails"
   ],
   "note": "The last sentence fails: a table that falls from 0.9 to 0 between 100 and 200 keV is evaluated to -1/2^53 at 200 keV when it is interpolated with fill_value='extrapolate' (C151_nonneg_fails). C151_nonneg_partial covers rising segments. interp1d and np.interp are external; the order of their operations is modelled. Overflow and subnormal numbers are left out, as in C111."
  },
  {
   "property": "C152",
   "status": "partial",
   "theorems": [
    "Ompy.C152_derivative",
    "Ompy.C152_order",
    "Ompy.C152_electron",
    "Ompy.C152_relative_fails",
    "Ompy.C152_angle_partial",
    "Ompy.C152_angle_fails",
    "Ompy.C152_fan",
    "Ompy.C152_fan_nonneg",
    "Ompy.C152_fan_double",
    "Ompy.C152_exact"
   ],
   "note": "The angle is not found at the computed edge itself: for 500 keV the argument of arccos is -1 - 1/2^50 there (C152_angle_fails); C152_angle_partial covers energies four roundings below the edge. The relative error of the electron energy is not bounded (C152_relative_fails). The computed sine and cosine, the two channels and the counts are inputs of the fan entry."
  },
  {
   "property": "C153",
   "status": "proved",
   "theorems": [
    "Ompy.C153_chi",
    "Ompy.C153_double",
    "Ompy.C153_zero",
    "Ompy.C153_symmetric",
    "Ompy.C153_scale",
    "Ompy.C153_scale_fails",
    "Ompy.C153_monotone",
    "Ompy.C153_uncertainty",
    "Ompy.C153_exact"
   ],
   "note": "The standard deviations have the shape of the vector. Overflow and underflow are left out, as in C111 (see C117_underflow_fails). Factors that are no powers of two can change the last bit (C153_scale_fails)."
  },
  {
   "property": "C154",
   "status": "proved",
   "theorems": [
    "Ompy.C154_interp",
    "Ompy.C154_node",
    "Ompy.C154_outside",
    "Ompy.C154_domain",
    "Ompy.C154_monotone",
    "Ompy.C154_double",
    "Ompy.C154_model"
   ],
   "note": "Curves with values that are zero or negative are the error undefined. np.log and np.exp are any functions with the stated errors; interp1d and np.interp are external, the order of their operations is modelled."
  },
  {
   "property": "C155",
   "status": "proved",
   "theorems": [
    "Ompy.C155_upper",
    "Ompy.C155_model",
    "Ompy.C155_model_exact",
    "Ompy.C155_model_rises",
    "Ompy.C155_sn",
    "Ompy.C155_logs",
    "Ompy.C155_sum",
    "Ompy.C155_domain",
    "Ompy.C155_lnlike",
    "Ompy.C155_double",
    "Ompy.C155_exact"
   ],
   "note": "The two parts are taken after Vector.transform (C122). C155_lnlike compares with the exact sums for the computed model values; near the data the difference to the exact model cancels, so the distance to the chi-square with the exact model is bounded for the roots (C155_upper). np.log and np.exp are any functions with the stated errors."
  },
  {
   "property": "C156",
   "status": "partial",
   "theorems": [
    "Ompy.C156_scale",
    "Ompy.C156_order",
    "Ompy.C156_place_partial",
    "Ompy.C156_place_fails",
    "Ompy.C156_entry",
    "Ompy.C156_double",
    "Ompy.C156_exact"
   ],
   "note": "That the bins are those of the exact position is false (C156_place_fails: scale 1/49, 49 bins above the edge); proved are the bound by one bin and equality away from whole numbers (C156_place_partial). The Compton energies and the bins of the edges are inputs (C152)."
  },
  {
   "property": "C157",
   "status": "proved",
   "theorems": [
    "Ompy.C157_value",
    "Ompy.C157_range",
    "Ompy.C157_rises",
    "Ompy.C157_domain",
    "Ompy.C157_exact",
    "Ompy.C157_double"
   ],
   "note": "np.log10 and the power are any functions with the stated errors. The truncated normal priors are in C68."
  }
 ]
}
