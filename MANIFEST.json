{
 "claims": [
  {
   "property": "C01",
   "status": "proved",
   "theorems": [
    "SeismoStats.Props.C01_batched_download_complete",
    "SeismoStats.Props.C01_batch_count",
    "SeismoStats.Props.C01_batch_requests"
   ],
   "note": ""
  },
  {
   "property": "C02",
   "status": "proved",
   "theorems": [
    "SeismoStats.Props.C02_probes_logarithmic",
    "SeismoStats.Props.C02_batch_size_zero_diverges"
   ],
   "note": ""
  },
  {
   "property": "C03",
   "status": "proved",
   "theorems": [
    "SeismoStats.Props.C03_request_parameters",
    "SeismoStats.Props.C03_paged_parameters"
   ],
   "note": ""
  },
  {
   "property": "C04",
   "status": "proved",
   "theorems": [
    "SeismoStats.Props.C04_get_option",
    "SeismoStats.Props.C04_set_option",
    "SeismoStats.Props.C04_isolation"
   ],
   "note": ""
  },
  {
   "property": "C05",
   "status": "proved",
   "theorems": [
    "SeismoStats.Props.C05_cleanup_rounding_is_identity",
    "SeismoStats.Props.C05_bin_to_precision",
    "SeismoStats.Props.C05_error_bound",
    "SeismoStats.Props.C05_rounding_unique",
    "SeismoStats.Props.C05_half_up",
    "SeismoStats.Props.C05_small_bin_raises"
   ],
   "note": ""
  },
  {
   "property": "C06",
   "status": "proved",
   "theorems": [
    "SeismoStats.Props.C06_idempotent",
    "SeismoStats.Props.C06_monotone",
    "SeismoStats.Props.C06_translation"
   ],
   "note": ""
  },
  {
   "property": "C07",
   "status": "proved",
   "theorems": [
    "SeismoStats.Props.C07_normal_round",
    "SeismoStats.Props.C07_fixes_decimals",
    "SeismoStats.Props.C07_idempotent"
   ],
   "note": ""
  },
  {
   "property": "C08",
   "status": "proved",
   "theorems": [
    "SeismoStats.Props.C08_verdict",
    "SeismoStats.Props.C08_grid_accepted",
    "SeismoStats.Props.C08_order_and_nan_independent",
    "SeismoStats.Props.C08_shift_invariant",
    "SeismoStats.Props.C08_no_numbers_raises",
    "SeismoStats.Props.C08_check_larger",
    "SeismoStats.Props.C08_delta_zero_always_raises"
   ],
   "note": ""
  },
  {
   "property": "C09",
   "status": "proved",
   "theorems": [
    "SeismoStats.Props.C09_get_fmd",
    "SeismoStats.Props.C09_nonpositive_bin_raises",
    "SeismoStats.Props.C09_bad_input_raises",
    "SeismoStats.Props.C09_bad_position_raises"
   ],
   "note": ""
  },
  {
   "property": "C10",
   "status": "proved",
   "theorems": [
    "SeismoStats.Props.C10_get_cum_fmd",
    "SeismoStats.Props.C10_monotone_and_total",
    "SeismoStats.Props.C10_unbinned"
   ],
   "note": ""
  },
  {
   "property": "C11",
   "status": "proved",
   "theorems": [
    "SeismoStats.Props.C11_selection",
    "SeismoStats.Props.C11_positions_unique",
    "SeismoStats.Props.C11_empty_is_nan",
    "SeismoStats.Props.C11_weights_length",
    "SeismoStats.Props.C11_weights_negative",
    "SeismoStats.Props.C11_all_nan_raises"
   ],
   "note": ""
  },
  {
   "property": "C12",
   "status": "proved",
   "theorems": [
    "SeismoStats.Props.C12_no_memory",
    "SeismoStats.Props.C12_readings",
    "SeismoStats.Props.C12_before_first_call",
    "SeismoStats.Props.C12_failed_keeps_b",
    "SeismoStats.Props.C12_reading_is_last_success",
    "SeismoStats.Props.C12_failed_call_mixes_data",
    "SeismoStats.Props.C12_assignments_forgotten"
   ],
   "note": ""
  },
  {
   "property": "C13",
   "status": "proved",
   "theorems": [
    "SeismoStats.Props.C13_classic_is_mle",
    "SeismoStats.Props.C13_law_is_gutenberg_richter"
   ],
   "note": ""
  },
  {
   "property": "C14",
   "status": "proved",
   "theorems": [
    "SeismoStats.Props.C14_shift_invariant",
    "SeismoStats.Props.C14_scale"
   ],
   "note": ""
  },
  {
   "property": "C15",
   "status": "proved",
   "theorems": [
    "SeismoStats.Props.C15_scale_weights",
    "SeismoStats.Props.C15_equal_weights",
    "SeismoStats.Props.C15_integer_weights",
    "SeismoStats.Props.C15_zero_weights"
   ],
   "note": ""
  },
  {
   "property": "C16",
   "status": "proved",
   "theorems": [
    "SeismoStats.Props.C16_weighted",
    "SeismoStats.Props.C16_unweighted"
   ],
   "note": ""
  },
  {
   "property": "C17",
   "status": "proved",
   "theorems": [
    "SeismoStats.Props.C17_a_result",
    "SeismoStats.Props.C17_b_result",
    "SeismoStats.Props.C17_b_attributes",
    "SeismoStats.Props.C17_b_silent"
   ],
   "note": ""
  },
  {
   "property": "C18",
   "status": "proved",
   "theorems": [
    "SeismoStats.Props.C18_utsu_le_classic"
   ],
   "note": ""
  },
  {
   "property": "C19",
   "status": "proved",
   "theorems": [
    "SeismoStats.Props.C19_inverse",
    "SeismoStats.Props.C19_values",
    "SeismoStats.Props.C19_beta",
    "SeismoStats.Props.C19_std_beta",
    "SeismoStats.Props.C19_estimate_b"
   ],
   "note": ""
  },
  {
   "property": "C20",
   "status": "proved",
   "theorems": [
    "SeismoStats.Props.C20_formula",
    "SeismoStats.Props.C20_formula_beta",
    "SeismoStats.Props.C20_nonneg_zero_iff",
    "SeismoStats.Props.C20_shift",
    "SeismoStats.Props.C20_order",
    "SeismoStats.Props.C20_too_few"
   ],
   "note": ""
  },
  {
   "property": "C21",
   "status": "proved",
   "theorems": [
    "SeismoStats.Props.C21_error_iff",
    "SeismoStats.Props.C21_value",
    "SeismoStats.Props.C21_single"
   ],
   "note": ""
  },
  {
   "property": "C22",
   "status": "proved",
   "theorems": [
    "SeismoStats.Props.C22_differences",
    "SeismoStats.Props.C22_order_unique",
    "SeismoStats.Props.C22_grid_differences",
    "SeismoStats.Props.C22_lower_bound",
    "SeismoStats.Props.C22_result_is_mle",
    "SeismoStats.Props.C22_negative_dmc",
    "SeismoStats.Props.C22_no_difference"
   ],
   "note": ""
  },
  {
   "property": "C23",
   "status": "proved",
   "theorems": [
    "SeismoStats.Props.C23_permutation",
    "SeismoStats.Props.C23_time_axis",
    "SeismoStats.Props.C23_shift"
   ],
   "note": ""
  },
  {
   "property": "C24",
   "status": "proved",
   "theorems": [
    "SeismoStats.Props.C24_find_next_larger"
   ],
   "note": ""
  },
  {
   "property": "C25",
   "status": "proved",
   "theorems": [
    "SeismoStats.Props.C25_no_pair",
    "SeismoStats.Props.C25_pairs",
    "SeismoStats.Props.C25_ranks_unique",
    "SeismoStats.Props.C25_lower_bound",
    "SeismoStats.Props.C25_result_is_mle",
    "SeismoStats.Props.C25_continuous_magnitudes_raise"
   ],
   "note": ""
  },
  {
   "property": "C26",
   "status": "proved",
   "theorems": [
    "SeismoStats.Props.C26_kept",
    "SeismoStats.Props.C26_first_kept",
    "SeismoStats.Props.C26_time_order",
    "SeismoStats.Props.C26_idempotent"
   ],
   "note": ""
  },
  {
   "property": "C27",
   "status": "proved",
   "theorems": [
    "SeismoStats.Props.C27_returns",
    "SeismoStats.Props.C27_unknown_parameter",
    "SeismoStats.Props.C27_exceptions",
    "SeismoStats.Props.C27_return_n_alone_raises"
   ],
   "note": ""
  },
  {
   "property": "C28",
   "status": "proved",
   "theorems": [
    "SeismoStats.Props.C28_count",
    "SeismoStats.Props.C28_empty",
    "SeismoStats.Props.C28_order",
    "SeismoStats.Props.C28_monotone"
   ],
   "note": ""
  },
  {
   "property": "C29",
   "status": "proved",
   "theorems": [
    "SeismoStats.Props.C29_reference",
    "SeismoStats.Props.C29_scaling",
    "SeismoStats.Props.C29_two_steps",
    "SeismoStats.Props.C29_rate",
    "SeismoStats.Props.C29_missing_b",
    "SeismoStats.Props.C29_missing_b_leaves_value"
   ],
   "note": ""
  },
  {
   "property": "C30",
   "status": "proved",
   "theorems": [
    "SeismoStats.Props.C30_rate",
    "SeismoStats.Props.C30_at_least_pairs",
    "SeismoStats.Props.C30_permutation",
    "SeismoStats.Props.C30_time_axis",
    "SeismoStats.Props.C30_stale_times"
   ],
   "note": ""
  },
  {
   "property": "C31",
   "status": "proved",
   "theorems": [
    "SeismoStats.Props.C31_falsy_b",
    "SeismoStats.Props.C31_rate",
    "SeismoStats.Props.C31_permutation",
    "SeismoStats.Props.C31_time_axis"
   ],
   "note": ""
  },
  {
   "property": "C32",
   "status": "proved",
   "theorems": [
    "SeismoStats.Props.C32_result",
    "SeismoStats.Props.C32_is_mle",
    "SeismoStats.Props.C32_empty_period_nan",
    "SeismoStats.Props.C32_no_event",
    "SeismoStats.Props.C32_refused",
    "SeismoStats.Props.C32_beta_unbound",
    "SeismoStats.Props.C32_shift",
    "SeismoStats.Props.C32_order"
   ],
   "note": ""
  },
  {
   "property": "C33",
   "status": "proved",
   "theorems": [
    "SeismoStats.Props.C33_result",
    "SeismoStats.Props.C33_refused",
    "SeismoStats.Props.C33_root_is_mle",
    "SeismoStats.Props.C33_std_positive",
    "SeismoStats.Props.C33_exposure",
    "SeismoStats.Props.C33_single_bin_nan",
    "SeismoStats.Props.C33_above_last_bin",
    "SeismoStats.Props.C33_beta_unbound",
    "SeismoStats.Props.C33_unique_zero"
   ],
   "note": ""
  },
  {
   "property": "C34",
   "status": "proved",
   "theorems": [
    "SeismoStats.Props.C34_points",
    "SeismoStats.Props.C34_monotone",
    "SeismoStats.Props.C34_range",
    "SeismoStats.Props.C34_mass"
   ],
   "note": ""
  },
  {
   "property": "C35",
   "status": "proved",
   "theorems": [
    "SeismoStats.Props.C35_under_mc",
    "SeismoStats.Props.C35_p_value",
    "SeismoStats.Props.C35_distance",
    "SeismoStats.Props.C35_simulated",
    "SeismoStats.Props.C35_distance_bounds",
    "SeismoStats.Props.C35_option",
    "SeismoStats.Props.C35_option_changes_result",
    "SeismoStats.Props.C35_empty_raises",
    "SeismoStats.Props.C35_order"
   ],
   "note": ""
  },
  {
   "property": "C36",
   "status": "proved",
   "theorems": [
    "SeismoStats.Props.C36_given_empty",
    "SeismoStats.Props.C36_candidates",
    "SeismoStats.Props.C36_tested",
    "SeismoStats.Props.C36_smallest",
    "SeismoStats.Props.C36_none",
    "SeismoStats.Props.C36_stop",
    "SeismoStats.Props.C36_list_order",
    "SeismoStats.Props.C36_option",
    "SeismoStats.Props.C36_equal_magnitudes"
   ],
   "note": ""
  },
  {
   "property": "C37",
   "status": "proved",
   "theorems": [
    "SeismoStats.Props.C37_maxc",
    "SeismoStats.Props.C37_order_and_nan",
    "SeismoStats.Props.C37_raises"
   ],
   "note": ""
  },
  {
   "property": "C38",
   "status": "proved",
   "theorems": [
    "SeismoStats.Props.C38_tiny_bins",
    "SeismoStats.Props.C38_tested",
    "SeismoStats.Props.C38_most_stable",
    "SeismoStats.Props.C38_first_stable",
    "SeismoStats.Props.C38_nan_first",
    "SeismoStats.Props.C38_difference",
    "SeismoStats.Props.C38_candidates",
    "SeismoStats.Props.C38_default_candidates",
    "SeismoStats.Props.C38_one_step",
    "SeismoStats.Props.C38_returns"
   ],
   "note": ""
  },
  {
   "property": "C39",
   "status": "proved",
   "theorems": [
    "SeismoStats.Props.C39_formula",
    "SeismoStats.Props.C39_infinite",
    "SeismoStats.Props.C39_raises",
    "SeismoStats.Props.C39_affine",
    "SeismoStats.Props.C39_triangle"
   ],
   "note": ""
  },
  {
   "property": "C40",
   "status": "proved",
   "theorems": [
    "SeismoStats.Props.C40_formula",
    "SeismoStats.Props.C40_same_n",
    "SeismoStats.Props.C40_fixed_point",
    "SeismoStats.Props.C40_compose",
    "SeismoStats.Props.C40_increasing",
    "SeismoStats.Props.C40_raises"
   ],
   "note": ""
  },
  {
   "property": "C41",
   "status": "proved",
   "theorems": [
    "SeismoStats.Props.C41_pieces",
    "SeismoStats.Props.C41_raises"
   ],
   "note": ""
  },
  {
   "property": "C42",
   "status": "proved",
   "theorems": [
    "SeismoStats.Props.C42_every_window_once",
    "SeismoStats.Props.C42_windows",
    "SeismoStats.Props.C42_p_value",
    "SeismoStats.Props.C42_x_variable",
    "SeismoStats.Props.C42_mc_not_reordered",
    "SeismoStats.Props.C42_limit_weights"
   ],
   "note": ""
  },
  {
   "property": "C43",
   "status": "proved",
   "theorems": [
    "SeismoStats.Props.C43_part_by_part",
    "SeismoStats.Props.C43_keywords",
    "SeismoStats.Props.C43_order_free",
    "SeismoStats.Props.C43_independent",
    "SeismoStats.Props.C43_raises",
    "SeismoStats.Props.C43_surplus_dropped",
    "SeismoStats.Props.C43_scaling_missing",
    "SeismoStats.Props.C43_scaling_unused",
    "SeismoStats.Props.C43_limit_weights_length",
    "SeismoStats.Props.C43_defect_weights_by_position"
   ],
   "note": ""
  },
  {
   "property": "C44",
   "status": "proved",
   "theorems": [
    "SeismoStats.Props.C44_declustering",
    "SeismoStats.Props.C44_unique",
    "SeismoStats.Props.C44_clusters",
    "SeismoStats.Props.C44_window_ok",
    "SeismoStats.Props.C44_idempotent",
    "SeismoStats.Props.C44_row_order",
    "SeismoStats.Props.C44_label_out_of_range",
    "SeismoStats.Props.C44_labels_as_positions"
   ],
   "note": ""
  },
  {
   "property": "C45",
   "status": "proved",
   "theorems": [
    "SeismoStats.Props.C45_positive",
    "SeismoStats.Props.C45_space_monotone",
    "SeismoStats.Props.C45_time_monotone",
    "SeismoStats.Props.C45_gardner_knopoff_drop",
    "SeismoStats.Props.C45_cutoff",
    "SeismoStats.Props.C45_cutoff_zero_ignored",
    "SeismoStats.Props.C45_gruenthal_undefined",
    "SeismoStats.Props.C45_formulas"
   ],
   "note": ""
  },
  {
   "property": "C46",
   "status": "proved",
   "theorems": [
    "SeismoStats.Props.C46_great_circle",
    "SeismoStats.Props.C46_symmetric",
    "SeismoStats.Props.C46_bounds",
    "SeismoStats.Props.C46_zero_iff",
    "SeismoStats.Props.C46_triangle",
    "SeismoStats.Props.C46_date_line"
   ],
   "note": ""
  },
  {
   "property": "C47",
   "status": "proved",
   "theorems": [
    "SeismoStats.Props.C47_isolated",
    "SeismoStats.Props.C47_one_record_per_event",
    "SeismoStats.Props.C47_document",
    "SeismoStats.Props.C47_malformed",
    "SeismoStats.Props.C47_truncated",
    "SeismoStats.Props.C47_white_space",
    "SeismoStats.Props.C47_text_is_trimmed",
    "SeismoStats.Props.C47_chunks",
    "SeismoStats.Props.C47_defect_cut_at_space",
    "SeismoStats.Props.C47_defect_one_bad_event"
   ],
   "note": ""
  },
  {
   "property": "C48",
   "status": "proved",
   "theorems": [
    "SeismoStats.Props.C48_preferred_magnitude",
    "SeismoStats.Props.C48_preferred_origin",
    "SeismoStats.Props.C48_secondary",
    "SeismoStats.Props.C48_no_exception",
    "SeismoStats.Props.C48_missing_type_raises",
    "SeismoStats.Props.C48_defect_type_overwritten",
    "SeismoStats.Props.C48_defect_underscore"
   ],
   "note": ""
  },
  {
   "property": "C49",
   "status": "proved",
   "theorems": [
    "SeismoStats.Props.C49_drop_uncertainties",
    "SeismoStats.Props.C49_drop_ids",
    "SeismoStats.Props.C49_idempotent_and_commute",
    "SeismoStats.Props.C49_class_unchanged",
    "SeismoStats.Props.C49_from_dict",
    "SeismoStats.Props.C49_drops_other_names"
   ],
   "note": ""
  },
  {
   "property": "C50",
   "status": "proved",
   "theorems": [
    "SeismoStats.Props.C50_inplace",
    "SeismoStats.Props.C50_copy",
    "SeismoStats.Props.C50_errors",
    "SeismoStats.Props.C50_idempotent"
   ],
   "note": ""
  },
  {
   "property": "C51",
   "status": "proved",
   "theorems": [
    "SeismoStats.Props.C51_estimate_b",
    "SeismoStats.Props.C51_estimate_a",
    "SeismoStats.Props.C51_missing",
    "SeismoStats.Props.C51_history",
    "SeismoStats.Props.C51_estimate_mc",
    "SeismoStats.Props.C51_mc_lost",
    "SeismoStats.Props.C51_ks_uses_stored_b",
    "SeismoStats.Props.C51_unsupported_weights_dropped"
   ],
   "note": ""
  },
  {
   "property": "C52",
   "status": "proved",
   "theorems": [
    "SeismoStats.Props.C52_one_event_per_row",
    "SeismoStats.Props.C52_round_trip",
    "SeismoStats.Props.C52_defect_contained",
    "SeismoStats.Props.C52_defect_missing_type",
    "SeismoStats.Props.C52_wrapped",
    "SeismoStats.Props.C52_forecast_refused",
    "SeismoStats.Props.C52_forecast",
    "SeismoStats.Props.C52_defect_space"
   ],
   "note": ""
  },
  {
   "property": "C53",
   "status": "proved",
   "theorems": [
    "SeismoStats.Props.C53_round_trip",
    "SeismoStats.Props.C53_defect_out_of_bounds",
    "SeismoStats.Props.C53_empty",
    "SeismoStats.Props.C53_defect_numbers",
    "SeismoStats.Props.C53_refused",
    "SeismoStats.Props.C53_defect_missing_time",
    "SeismoStats.Props.C53_read",
    "SeismoStats.Props.C53_defect_read_out_of_bounds",
    "SeismoStats.Props.C53_defect_read_numbers",
    "SeismoStats.Props.C53_missing_unit"
   ],
   "note": ""
  },
  {
   "property": "C54",
   "status": "proved",
   "theorems": [
    "SeismoStats.Props.C54_class",
    "SeismoStats.Props.C54_attributes",
    "SeismoStats.Props.C54_merge_concat",
    "SeismoStats.Props.C54_attributes_survive",
    "SeismoStats.Props.C54_plain_stays_plain",
    "SeismoStats.Props.C54_content",
    "SeismoStats.Props.C54_set_column",
    "SeismoStats.Props.C54_forecast_from_catalog"
   ],
   "note": ""
  },
  {
   "property": "C55",
   "status": "proved",
   "theorems": [
    "SeismoStats.Props.C55_cell_numbers",
    "SeismoStats.Props.C55_incomplete_data",
    "SeismoStats.Props.C55_same_cell_iff",
    "SeismoStats.Props.C55_defect_missing_bound",
    "SeismoStats.Props.C55_defect_selection_renumbers",
    "SeismoStats.Props.C55_concat",
    "SeismoStats.Props.C55_concat_levels",
    "SeismoStats.Props.C55_concat_attribute",
    "SeismoStats.Props.C55_concat_timed"
   ],
   "note": ""
  },
  {
   "property": "C56",
   "status": "proved",
   "theorems": [
    "SeismoStats.Props.C56_one_row_per_cell",
    "SeismoStats.Props.C56_bounds_kept",
    "SeismoStats.Props.C56_defect_bounds_aggregated",
    "SeismoStats.Props.C56_defect_no_depth",
    "SeismoStats.Props.C56_defect_row_dropped",
    "SeismoStats.Props.C56_one_row_per_label",
    "SeismoStats.Props.C56_no_numbers",
    "SeismoStats.Props.C56_no_values"
   ],
   "note": ""
  },
  {
   "property": "C57",
   "status": "proved",
   "theorems": [
    "SeismoStats.Props.C57_runs",
    "SeismoStats.Props.C57_raises",
    "SeismoStats.Props.C57_names",
    "SeismoStats.Props.C57_every_call"
   ],
   "note": ""
  },
  {
   "property": "C58",
   "status": "proved",
   "theorems": [
    "SeismoStats.Props.C58_filter",
    "SeismoStats.Props.C58_nested",
    "SeismoStats.Props.C58_defect_swapped",
    "SeismoStats.Props.C58_defect_empty",
    "SeismoStats.Props.C58_defect_twice",
    "SeismoStats.Props.C58_defect_column",
    "SeismoStats.Props.C58_missing_columns"
   ],
   "note": ""
  },
  {
   "property": "C59",
   "status": "proved",
   "theorems": [
    "SeismoStats.Props.C59_truncated",
    "SeismoStats.Props.C59_untruncated",
    "SeismoStats.Props.C59_every_magnitude",
    "SeismoStats.Props.C59_defect_max_zero",
    "SeismoStats.Props.C59_errors",
    "SeismoStats.Props.C59_binned",
    "SeismoStats.Props.C59_defect_binned_above_max"
   ],
   "note": ""
  },
  {
   "property": "C60",
   "status": "proved",
   "theorems": [
    "SeismoStats.Props.C60_dither",
    "SeismoStats.Props.C60_rejected",
    "SeismoStats.Props.C60_defect_equal_magnitudes",
    "SeismoStats.Props.C60_defect_order",
    "SeismoStats.Props.C60_defect_edge_zero"
   ],
   "note": ""
  },
  {
   "property": "C61",
   "status": "proved",
   "theorems": [
    "SeismoStats.Props.C61_round_trip",
    "SeismoStats.Props.C61_round_trip_local",
    "SeismoStats.Props.C61_reference_is_origin",
    "SeismoStats.Props.C61_round_trip_arrays",
    "SeismoStats.Props.C61_polygon_vertices",
    "SeismoStats.Props.C61_polygon_round_trip",
    "SeismoStats.Props.C61_bounding_box",
    "SeismoStats.Props.C61_box_round_trip",
    "SeismoStats.Props.C61_defect_argument_order"
   ],
   "note": ""
  },
  {
   "property": "C62",
   "status": "proved",
   "theorems": [
    "SeismoStats.Props.C62_conversion",
    "SeismoStats.Props.C62_idempotent",
    "SeismoStats.Props.C62_increasing",
    "SeismoStats.Props.C62_defect_decreasing",
    "SeismoStats.Props.C62_defect_other_types"
   ],
   "note": ""
  },
  {
   "property": "C63",
   "status": "proved",
   "theorems": [
    "SeismoStats.Props.C63_curve",
    "SeismoStats.Props.C63_decreasing",
    "SeismoStats.Props.C63_reference"
   ],
   "note": ""
  },
  {
   "property": "C64",
   "status": "proved",
   "theorems": [
    "SeismoStats.Props.C64_dot_size",
    "SeismoStats.Props.C64_reverse",
    "SeismoStats.Props.C64_defect_equal",
    "SeismoStats.Props.C64_zero_power",
    "SeismoStats.Props.C64_defect_negative_power"
   ],
   "note": ""
  },
  {
   "property": "C65",
   "status": "proved",
   "theorems": [
    "SeismoStats.Props.C65_curves",
    "SeismoStats.Props.C65_all_events",
    "SeismoStats.Props.C65_errors"
   ],
   "note": ""
  },
  {
   "property": "C66",
   "status": "proved",
   "theorems": [
    "SeismoStats.Props.C66_line",
    "SeismoStats.Props.C66_defect_lists_grow",
    "SeismoStats.Props.C66_defect_years_second_call",
    "SeismoStats.Props.C66_errors"
   ],
   "note": ""
  },
  {
   "property": "C67",
   "status": "proved",
   "theorems": [
    "SeismoStats.Props.C67_denotes",
    "SeismoStats.Props.C67_pad_year",
    "SeismoStats.Props.C67_every_year",
    "SeismoStats.Props.C67_defect_offset_ignored",
    "SeismoStats.Props.C67_column"
   ],
   "note": ""
  },
  {
   "property": "C68",
   "status": "proved",
   "theorems": [
    "SeismoStats.Props.C68_missing_column",
    "SeismoStats.Props.C68_strip_inplace",
    "SeismoStats.Props.C68_strip_copy",
    "SeismoStats.Props.C68_idempotent",
    "SeismoStats.Props.C68_string_cleanup",
    "SeismoStats.Props.C68_other_cells_kept",
    "SeismoStats.Props.C68_constructor_content",
    "SeismoStats.Props.C68_conversion_idempotent",
    "SeismoStats.Props.C68_strip_forecast"
   ],
   "note": ""
  },
  {
   "property": "C69",
   "status": "proved",
   "theorems": [
    "SeismoStats.Props.C69_column_lookup",
    "SeismoStats.Props.C69_caller_wins"
   ],
   "note": ""
  },
  {
   "property": "C70",
   "status": "proved",
   "theorems": [
    "SeismoStats.Props.C70_no_memory",
    "SeismoStats.Props.C70_readings",
    "SeismoStats.Props.C70_estimate_a"
   ],
   "note": ""
  },
  {
   "property": "C71",
   "status": "proved",
   "theorems": [
    "SeismoStats.Props.C71_cumulative_points",
    "SeismoStats.Props.C71_line_starts_on_data",
    "SeismoStats.Props.C71_mc_above",
    "SeismoStats.Props.C71_defect_weights",
    "SeismoStats.Props.C71_defect_nan_weights",
    "SeismoStats.Props.C71_fmd_points"
   ],
   "note": ""
  },
  {
   "property": "C73",
   "status": "proved",
   "theorems": [
    "SeismoStats.Props.C73_values",
    "SeismoStats.Props.C73_band"
   ],
   "note": ""
  },
  {
   "property": "C74",
   "status": "proved",
   "theorems": [
    "SeismoStats.Props.C74_values",
    "SeismoStats.Props.C74_right_uses_no_later_event",
    "SeismoStats.Props.C74_right_uses_no_later_event_x",
    "SeismoStats.Props.C74_permutation",
    "SeismoStats.Props.C74_errors",
    "SeismoStats.Props.C74_few_events"
   ],
   "note": ""
  },
  {
   "property": "C75",
   "status": "proved",
   "theorems": [
    "SeismoStats.Props.C75_points",
    "SeismoStats.Props.C75_returns",
    "SeismoStats.Props.C75_too_few",
    "SeismoStats.Props.C75_default",
    "SeismoStats.Props.C75_list_mc",
    "SeismoStats.Props.C75_list_nms",
    "SeismoStats.Props.C75_x_variable",
    "SeismoStats.Props.C75_band"
   ],
   "note": ""
  },
  {
   "property": "C77",
   "status": "proved",
   "theorems": [
    "SeismoStats.Props.C77_channel",
    "SeismoStats.Props.C77_order",
    "SeismoStats.Props.C77_negative"
   ],
   "note": ""
  },
  {
   "property": "C78",
   "status": "proved",
   "theorems": [
    "SeismoStats.Props.C78_resamples",
    "SeismoStats.Props.C78_draw_order",
    "SeismoStats.Props.C78_weighted_defect",
    "SeismoStats.Props.C78_no_events"
   ],
   "note": ""
  },
  {
   "property": "C72",
   "status": "proved",
   "theorems": [
    "SeismoStats.Props.C72_extent",
    "SeismoStats.Props.C72_dots",
    "SeismoStats.Props.C72_default_sizes",
    "SeismoStats.Props.C72_country",
    "SeismoStats.Props.C72_axes",
    "SeismoStats.Props.C72_history",
    "SeismoStats.Props.C72_errors",
    "SeismoStats.Props.C72_rectangle"
   ],
   "note": ""
  },
  {
   "property": "C76",
   "status": "proved",
   "theorems": [
    "SeismoStats.Props.C76_test",
    "SeismoStats.Props.C76_shift",
    "SeismoStats.Props.C76_scale_order",
    "SeismoStats.Props.C76_not_estimated",
    "SeismoStats.Props.C76_continuous",
    "SeismoStats.Props.C76_binned",
    "SeismoStats.Props.C76_range",
    "SeismoStats.Props.C76_no_repetition",
    "SeismoStats.Props.C76_coarse",
    "SeismoStats.Props.C76_off_grid"
   ],
   "note": ""
  },
  {
   "property": "C79",
   "status": "proved",
   "theorems": [
    "SeismoStats.Props.C79_single",
    "SeismoStats.Props.C79_batched",
    "SeismoStats.Props.C79_batching_irrelevant",
    "SeismoStats.Props.C79_times",
    "SeismoStats.Props.C79_lost_events",
    "SeismoStats.Props.C79_malformed",
    "SeismoStats.Props.C79_catalog",
    "SeismoStats.Props.C79_defect_no_magnitude"
   ],
   "note": ""
  },
  {
   "property": "C80",
   "status": "proved",
   "theorems": [
    "SeismoStats.Props.C80_rounding",
    "SeismoStats.Props.C80_noise_removed",
    "SeismoStats.Props.C80_binning",
    "SeismoStats.Props.C80_half_up_unique",
    "SeismoStats.Props.C80_exact_model",
    "SeismoStats.Props.C80_monotone",
    "SeismoStats.Props.C80_idempotent"
   ],
   "note": ""
  },
  {
   "property": "C81",
   "status": "proved",
   "theorems": [
    "SeismoStats.Props.C81_threshold",
    "SeismoStats.Props.C81_threshold_noise",
    "SeismoStats.Props.C81_selection",
    "SeismoStats.Props.C81_exact_model",
    "SeismoStats.Props.C81_continuous",
    "SeismoStats.Props.C81_difference",
    "SeismoStats.Props.C81_positive_differences",
    "SeismoStats.Props.C81_next_larger",
    "SeismoStats.Props.C81_defect_half_bin"
   ],
   "note": ""
  },
  {
   "property": "C82",
   "status": "proved",
   "theorems": [
    "SeismoStats.Props.C82_fmd",
    "SeismoStats.Props.C82_fmd_noise",
    "SeismoStats.Props.C82_exact_model",
    "SeismoStats.Props.C82_cumulative",
    "SeismoStats.Props.C82_maxc",
    "SeismoStats.Props.C82_maxc_selection"
   ],
   "note": ""
  },
  {
   "property": "C83",
   "status": "proved",
   "theorems": [
    "SeismoStats.Props.C83_candidates",
    "SeismoStats.Props.C83_window",
    "SeismoStats.Props.C83_window_selection",
    "SeismoStats.Props.C83_window_exact_sum",
    "SeismoStats.Props.C83_defect_window",
    "SeismoStats.Props.C83_defect_last_candidate"
   ],
   "note": ""
  },
  {
   "property": "C84",
   "status": "proved",
   "theorems": [
    "SeismoStats.Props.C84_accepts",
    "SeismoStats.Props.C84_rejects",
    "SeismoStats.Props.C84_defect_rejects_binned",
    "SeismoStats.Props.C84_tiny",
    "SeismoStats.Props.C84_larger",
    "SeismoStats.Props.C84_refused"
   ],
   "note": ""
  },
  {
   "property": "C85",
   "status": "proved",
   "theorems": [
    "SeismoStats.Props.C85_reading_is_last_success",
    "SeismoStats.Props.C85_assignment",
    "SeismoStats.Props.C85_std_mixes_data",
    "SeismoStats.Props.C85_more_positive_std",
    "SeismoStats.Props.C85_bootstrap_unassigned",
    "SeismoStats.Props.C85_defect_assigned_weights_error",
    "SeismoStats.Props.C85_defect_stale_weights",
    "SeismoStats.Props.C85_a_assignment",
    "SeismoStats.Props.C85_no_estimate"
   ],
   "note": ""
  },
  {
   "property": "C86",
   "status": "proved",
   "theorems": [
    "SeismoStats.Props.C86_round_trip",
    "SeismoStats.Props.C86_declared",
    "SeismoStats.Props.C86_same_number",
    "SeismoStats.Props.C86_defect_unescaped",
    "SeismoStats.Props.C86_defect_gap",
    "SeismoStats.Props.C86_references",
    "SeismoStats.Props.C86_wrong_reference",
    "SeismoStats.Props.C86_duplicate_attribute"
   ],
   "note": ""
  },
  {
   "property": "C87",
   "status": "proved",
   "theorems": [
    "SeismoStats.Props.C87_truncated"
   ],
   "note": ""
  },
  {
   "property": "C88",
   "status": "proved",
   "theorems": [
    "SeismoStats.Props.C88_from_dict",
    "SeismoStats.Props.C88_round_trip",
    "SeismoStats.Props.C88_defect_no_magnitude",
    "SeismoStats.Props.C88_empty"
   ],
   "note": ""
  },
  {
   "property": "C89",
   "status": "proved",
   "theorems": [
    "SeismoStats.Props.C89_estimate_b",
    "SeismoStats.Props.C89_maximum_likelihood",
    "SeismoStats.Props.C89_row_order",
    "SeismoStats.Props.C89_defect_dmc_column",
    "SeismoStats.Props.C89_limit_weights_column",
    "SeismoStats.Props.C89_estimate_a",
    "SeismoStats.Props.C89_count",
    "SeismoStats.Props.C89_row_order_a",
    "SeismoStats.Props.C89_no_times",
    "SeismoStats.Props.C89_defect_stored_b"
   ],
   "note": ""
  },
  {
   "property": "C90",
   "status": "proved",
   "theorems": [
    "SeismoStats.Props.C90_cum_fmd",
    "SeismoStats.Props.C90_fmd",
    "SeismoStats.Props.C90_defect_line_of_b",
    "SeismoStats.Props.C90_cum_count",
    "SeismoStats.Props.C90_cum_count_all",
    "SeismoStats.Props.C90_defect_first_nan",
    "SeismoStats.Props.C90_mc_vs_b",
    "SeismoStats.Props.C90_mc_vs_b_no_bin",
    "SeismoStats.Props.C90_limit_mc_vs_b",
    "SeismoStats.Props.C90_in_space",
    "SeismoStats.Props.C90_mags_in_time",
    "SeismoStats.Props.C90_errors"
   ],
   "note": ""
  },
  {
   "property": "C91",
   "status": "proved",
   "theorems": [
    "SeismoStats.Props.C91_calculate",
    "SeismoStats.Props.C91_practice",
    "SeismoStats.Props.C91_continuous"
   ],
   "note": ""
  },
  {
   "property": "C92",
   "status": "proved",
   "theorems": [
    "SeismoStats.Props.C92_calculate",
    "SeismoStats.Props.C92_practice"
   ],
   "note": ""
  },
  {
   "property": "C93",
   "status": "proved",
   "theorems": [
    "SeismoStats.Props.GridClass.C93_operation",
    "SeismoStats.Props.GridClass.C93_operation_succeeds",
    "SeismoStats.Props.GridClass.C93_history",
    "SeismoStats.Props.GridClass.C93_strip",
    "SeismoStats.Props.GridClass.C93_strip_inplace",
    "SeismoStats.Props.GridClass.C93_strip_refused",
    "SeismoStats.Props.GridClass.C93_strip_new",
    "SeismoStats.Props.GridClass.C93_assign",
    "SeismoStats.Props.GridClass.C93_defect_grid_id_stripped",
    "SeismoStats.Props.GridClass.C93_defect_n_grids"
   ],
   "note": ""
  },
  {
   "property": "C94",
   "status": "proved",
   "theorems": [
    "SeismoStats.Props.C94_given",
    "SeismoStats.Props.C94_simulated",
    "SeismoStats.Props.C94_practice"
   ],
   "note": ""
  },
  {
   "property": "C95",
   "status": "proved",
   "theorems": [
    "SeismoStats.Props.C95_truncated",
    "SeismoStats.Props.C95_untruncated",
    "SeismoStats.Props.C95_binned",
    "SeismoStats.Props.C95_binned_truncated",
    "SeismoStats.Props.C95_bin_mass",
    "SeismoStats.Props.C95_beta"
   ],
   "note": ""
  },
  {
   "property": "C96",
   "status": "proved",
   "theorems": [
    "SeismoStats.Props.C96_classic",
    "SeismoStats.Props.C96_utsu",
    "SeismoStats.Props.C96_classic_binned",
    "SeismoStats.Props.C96_utsu_binned_biased",
    "SeismoStats.Props.C96_positive",
    "SeismoStats.Props.C96_positive_binned",
    "SeismoStats.Props.C96_positive_default"
   ],
   "note": ""
  },
  {
   "property": "C97",
   "status": "proved",
   "theorems": [
    "SeismoStats.Props.C97_std",
    "SeismoStats.Props.C97_coverage"
   ],
   "note": ""
  },
  {
   "property": "C98",
   "status": "proved",
   "theorems": [
    "SeismoStats.Props.C98_binned",
    "SeismoStats.Props.C98_continuous_biased",
    "SeismoStats.Props.C98_continuous"
   ],
   "note": ""
  },
  {
   "property": "C99",
   "status": "proved",
   "theorems": [
    "SeismoStats.Props.C99_std",
    "SeismoStats.Props.C99_coverage",
    "SeismoStats.Props.C99_coverage_binned",
    "SeismoStats.Props.C99_coverage_default",
    "SeismoStats.Props.C99_undercoverage",
    "SeismoStats.Props.C99_std_binned"
   ],
   "note": ""
  },
  {
   "property": "C100",
   "status": "proved",
   "theorems": [
    "SeismoStats.Props.C100_expected",
    "SeismoStats.Props.C100_vanishes",
    "SeismoStats.Props.C100_permutations",
    "SeismoStats.Props.C100_series"
   ],
   "note": ""
  },
  {
   "property": "C101",
   "status": "proved",
   "theorems": [
    "SeismoStats.Props.C101_level",
    "SeismoStats.Props.C101_mc",
    "SeismoStats.Props.C101_level_warnings",
    "SeismoStats.Props.C101_single"
   ],
   "note": ""
  },
  {
   "property": "C102",
   "status": "proved",
   "theorems": [
    "SeismoStats.Props.C102_values",
    "SeismoStats.Props.C102_recovered"
   ],
   "note": ""
  },
  {
   "property": "C103",
   "status": "proved",
   "theorems": [
    "SeismoStats.Props.C103_more_positive",
    "SeismoStats.Props.C103_default"
   ],
   "note": ""
  },
  {
   "property": "C104",
   "status": "proved",
   "theorems": [
    "SeismoStats.Props.C104_terminates",
    "SeismoStats.Props.C104_failures_lose_only",
    "SeismoStats.Props.C104_probe_failures",
    "SeismoStats.Props.C104_growing",
    "SeismoStats.Props.C104_steady",
    "SeismoStats.Props.C104_first_probe_fails",
    "SeismoStats.Props.C104_one_batch_left",
    "SeismoStats.Props.C104_event_twice",
    "SeismoStats.Props.C104_event_missing"
   ],
   "note": ""
  },
  {
   "property": "C105",
   "status": "proved",
   "theorems": [
    "SeismoStats.Props.C105_classic",
    "SeismoStats.Props.C105_classic_binned",
    "SeismoStats.Props.C105_positive",
    "SeismoStats.Props.C105_positive_binned",
    "SeismoStats.Props.C105_positive_default"
   ],
   "note": ""
  },
  {
   "property": "C106",
   "status": "proved",
   "theorems": [
    "SeismoStats.Props.C106_more_positive",
    "SeismoStats.Props.C106_binned",
    "SeismoStats.Props.C106_default"
   ],
   "note": ""
  },
  {
   "property": "C107",
   "status": "proved",
   "theorems": [
    "SeismoStats.Props.C107_any_b",
    "SeismoStats.Props.C107_any_b_binned",
    "SeismoStats.Props.C107_workflow",
    "SeismoStats.Props.C107_workflow_binned"
   ],
   "note": ""
  },
  {
   "property": "C108",
   "status": "proved",
   "theorems": [
    "SeismoStats.Props.C108_maxc",
    "SeismoStats.Props.C108_ks",
    "SeismoStats.Props.C108_stability",
    "SeismoStats.Props.C108_failed",
    "SeismoStats.Props.C108_other_columns",
    "SeismoStats.Props.C108_row_order",
    "SeismoStats.Props.C108_same_b",
    "SeismoStats.Props.C108_same_b_stability",
    "SeismoStats.Props.C108_none",
    "SeismoStats.Props.C108_then",
    "SeismoStats.Props.C108_defect_nan_b",
    "SeismoStats.Props.C108_series_empty"
   ],
   "note": ""
  },
  {
   "property": "C109",
   "status": "proved",
   "theorems": [
    "SeismoStats.Props.C109_classic",
    "SeismoStats.Props.C109_utsu",
    "SeismoStats.Props.C109_classic_binned",
    "SeismoStats.Props.C109_off_bins_biased",
    "SeismoStats.Props.C109_utsu_binned_biased"
   ],
   "note": ""
  },
  {
   "property": "C110",
   "status": "proved",
   "theorems": [
    "SeismoStats.Props.C110_workflow",
    "SeismoStats.Props.C110_correction_biased"
   ],
   "note": ""
  },
  {
   "property": "C111",
   "status": "proved",
   "theorems": [
    "SeismoStats.Props.C111_hidden_detection",
    "SeismoStats.Props.C111_hidden",
    "SeismoStats.Props.C111_hidden_classic",
    "SeismoStats.Props.C111_positive",
    "SeismoStats.Props.C111_positive_binned",
    "SeismoStats.Props.C111_positive_default"
   ],
   "note": ""
  },
  {
   "property": "C112",
   "status": "proved",
   "theorems": [
    "SeismoStats.Props.C112_more_positive",
    "SeismoStats.Props.C112_default",
    "SeismoStats.Props.C112_records_larger",
    "SeismoStats.Props.C112_not_smaller",
    "SeismoStats.Props.C112_hidden"
   ],
   "note": ""
  },
  {
   "property": "C113",
   "status": "proved",
   "theorems": [
    "SeismoStats.Props.C113_detects",
    "SeismoStats.Props.C113_detects_prob",
    "SeismoStats.Props.C113_wrong_b",
    "SeismoStats.Props.C113_low_mc",
    "SeismoStats.Props.C113_mc"
   ],
   "note": ""
  },
  {
   "property": "C114",
   "status": "proved",
   "theorems": [
    "SeismoStats.Props.C114_classic",
    "SeismoStats.Props.C114_utsu",
    "SeismoStats.Props.C114_biased",
    "SeismoStats.Props.C114_decreasing",
    "SeismoStats.Props.C114_vanishes",
    "SeismoStats.Props.C114_large"
   ],
   "note": ""
  },
  {
   "property": "C115",
   "status": "proved",
   "theorems": [
    "SeismoStats.Props.C115_kijko",
    "SeismoStats.Props.C115_kijko_binned",
    "SeismoStats.Props.C115_edges_biased",
    "SeismoStats.Props.C115_centres_biased"
   ],
   "note": ""
  },
  {
   "property": "C116",
   "status": "proved",
   "theorems": [
    "SeismoStats.Props.C116_calculate",
    "SeismoStats.Props.C116_continuous",
    "SeismoStats.Props.C116_practice"
   ],
   "note": ""
  },
  {
   "property": "C117",
   "status": "proved",
   "theorems": [
    "SeismoStats.Props.C117_classic",
    "SeismoStats.Props.C117_utsu",
    "SeismoStats.Props.C117_binned",
    "SeismoStats.Props.C117_std",
    "SeismoStats.Props.C117_coverage",
    "SeismoStats.Props.C117_defect_equal_weights",
    "SeismoStats.Props.C117_own_magnitude"
   ],
   "note": ""
  },
  {
   "property": "C118",
   "status": "proved",
   "theorems": [
    "SeismoStats.Props.C118_more_positive",
    "SeismoStats.Props.C118_binned",
    "SeismoStats.Props.C118_default",
    "SeismoStats.Props.C118_dead_time"
   ],
   "note": ""
  },
  {
   "property": "C119",
   "status": "proved",
   "theorems": [
    "SeismoStats.Props.C119_consistent",
    "SeismoStats.Props.C119_rate",
    "SeismoStats.Props.C119_default_last_year"
   ],
   "note": ""
  },
  {
   "property": "C120",
   "status": "proved",
   "theorems": [
    "SeismoStats.Props.C120_normal",
    "SeismoStats.Props.C120_level"
   ],
   "note": ""
  },
  {
   "property": "C121",
   "status": "proved",
   "theorems": [
    "SeismoStats.Props.C121_limit",
    "SeismoStats.Props.C121_power"
   ],
   "note": ""
  },
  {
   "property": "C122",
   "status": "proved",
   "theorems": [
    "SeismoStats.Props.C122_exists",
    "SeismoStats.Props.C122_mean",
    "SeismoStats.Props.C122_biased",
    "SeismoStats.Props.C122_variance",
    "SeismoStats.Props.C122_two"
   ],
   "note": ""
  },
  {
   "property": "C123",
   "status": "proved",
   "theorems": [
    "SeismoStats.Props.C123_bins",
    "SeismoStats.Props.C123_sub_catalogues",
    "SeismoStats.Props.C123_defect_edge"
   ],
   "note": ""
  },
  {
   "property": "C124",
   "status": "proved",
   "theorems": [
    "SeismoStats.Props.C124_kijko_smit",
    "SeismoStats.Props.C124_weichert_ignored",
    "SeismoStats.Props.C124_defect_weichert"
   ],
   "note": ""
  },
  {
   "property": "C125",
   "status": "proved",
   "theorems": [
    "SeismoStats.Props.C125_year",
    "SeismoStats.Props.C125_kijko_smit",
    "SeismoStats.Props.C125_weichert",
    "SeismoStats.Props.C125_limit_fraction",
    "SeismoStats.Props.C125_missing"
   ],
   "note": ""
  },
  {
   "property": "C126",
   "status": "proved",
   "theorems": [
    "SeismoStats.Props.C126_ks_given",
    "SeismoStats.Props.C126_defect_ks",
    "SeismoStats.Props.C126_defect_stability",
    "SeismoStats.Props.C126_stability_complete",
    "SeismoStats.Props.C126_ks_complete"
   ],
   "note": ""
  },
  {
   "property": "C127",
   "status": "proved",
   "theorems": [
    "SeismoStats.Props.C127_missing_times",
    "SeismoStats.Props.C127_complete"
   ],
   "note": ""
  },
  {
   "property": "C128",
   "status": "proved",
   "theorems": [
    "SeismoStats.Props.C128_extent",
    "SeismoStats.Props.C128_defect_first_lon",
    "SeismoStats.Props.C128_defect_first_lat",
    "SeismoStats.Props.C128_sizes_series",
    "SeismoStats.Props.C128_defect_sizes",
    "SeismoStats.Props.C128_complete"
   ],
   "note": ""
  },
  {
   "property": "C129",
   "status": "proved",
   "theorems": [
    "SeismoStats.Props.C129_b_last",
    "SeismoStats.Props.C129_b_complete",
    "SeismoStats.Props.C129_a_nan",
    "SeismoStats.Props.C129_a_used",
    "SeismoStats.Props.C129_b_limit"
   ],
   "note": ""
  },
  {
   "property": "C130",
   "status": "proved",
   "theorems": [
    "SeismoStats.Props.C130_given",
    "SeismoStats.Props.C130_same_span",
    "SeismoStats.Props.C130_unweighted",
    "SeismoStats.Props.C130_defect_first",
    "SeismoStats.Props.C130_complete"
   ],
   "note": ""
  },
  {
   "property": "C131",
   "status": "proved",
   "theorems": [
    "SeismoStats.Props.C131_limit_fmd",
    "SeismoStats.Props.C131_limit_cum",
    "SeismoStats.Props.C131_defect_cum_unbinned",
    "SeismoStats.Props.C131_unweighted",
    "SeismoStats.Props.C131_fmd_complete",
    "SeismoStats.Props.C131_cum_complete",
    "SeismoStats.Props.C131_defect_plot_weights",
    "SeismoStats.Props.C131_plots"
   ],
   "note": ""
  },
  {
   "property": "C132",
   "status": "proved",
   "theorems": [
    "SeismoStats.Props.C132_per_event",
    "SeismoStats.Props.C132_one",
    "SeismoStats.Props.C132_placed"
   ],
   "note": ""
  }
 ]
}