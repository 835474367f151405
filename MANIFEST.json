{
 "claims": [
  {
   "property": "C01",
   "status": "proved",
   "theorems": [
    "SweepDesign.C01_axis_history",
    "SweepDesign.C01_axis_history_from_start",
    "SweepDesign.C01_never_stale"
   ],
   "note": ""
  },
  {
   "property": "C02",
   "status": "proved",
   "theorems": [
    "SweepDesign.C02_array_shape",
    "SweepDesign.C02_zero_sample"
   ],
   "note": ""
  },
  {
   "property": "C03",
   "status": "proved",
   "theorems": [
    "SweepDesign.C03_exact_spacing",
    "SweepDesign.C03_spacing_bound"
   ],
   "note": ""
  },
  {
   "property": "C04",
   "status": "proved",
   "theorems": [
    "SweepDesign.C04_unrounded_lossless",
    "SweepDesign.C04_short_arrays_raise"
   ],
   "note": ""
  },
  {
   "property": "C05",
   "status": "proved",
   "theorems": [
    "SweepDesign.C05_rounded_acceptance",
    "SweepDesign.C05_whole_or_reciprocal",
    "SweepDesign.C05_integer_arrays",
    "SweepDesign.C05_rejected_witness"
   ],
   "note": ""
  },
  {
   "property": "C06",
   "status": "proved",
   "theorems": [
    "SweepDesign.C06_common_axis",
    "SweepDesign.C06_semilattice"
   ],
   "note": ""
  },
  {
   "property": "C07",
   "status": "proved",
   "theorems": [
    "SweepDesign.C07_constructor"
   ],
   "note": ""
  },
  {
   "property": "C08",
   "status": "proved",
   "theorems": [
    "SweepDesign.C08_built_balanced"
   ],
   "note": ""
  },
  {
   "property": "C09",
   "status": "proved",
   "theorems": [
    "SweepDesign.C09_get_data",
    "SweepDesign.C09_three_outcomes"
   ],
   "note": ""
  },
  {
   "property": "C10",
   "status": "proved",
   "theorems": [
    "SweepDesign.C10_select_window"
   ],
   "note": ""
  },
  {
   "property": "C11",
   "status": "proved",
   "theorems": [
    "SweepDesign.C11_select_all",
    "SweepDesign.C11_select_compose",
    "SweepDesign.C11_select_idempotent"
   ],
   "note": ""
  },
  {
   "property": "C12",
   "status": "proved",
   "theorems": [
    "SweepDesign.C12_nearest_sample",
    "SweepDesign.C12_slice"
   ],
   "note": ""
  },
  {
   "property": "C13",
   "status": "proved",
   "theorems": [
    "SweepDesign.C13_integrate_values"
   ],
   "note": ""
  },
  {
   "property": "C14",
   "status": "proved",
   "theorems": [
    "SweepDesign.C14_diff_values"
   ],
   "note": ""
  },
  {
   "property": "C15",
   "status": "proved",
   "theorems": [
    "SweepDesign.C15_accepted"
   ],
   "note": ""
  },
  {
   "property": "C16",
   "status": "proved",
   "theorems": [
    "SweepDesign.C16_diff_integrate",
    "SweepDesign.C16_integrate_diff"
   ],
   "note": ""
  },
  {
   "property": "C17",
   "status": "proved",
   "theorems": [
    "SweepDesign.C17_integrate_linear",
    "SweepDesign.C17_diff_linear"
   ],
   "note": ""
  },
  {
   "property": "C18",
   "status": "proved",
   "theorems": [
    "SweepDesign.C18_norm_formula",
    "SweepDesign.C18_norm_scaling",
    "SweepDesign.C18_norm_positive",
    "SweepDesign.C18_norm_backwards",
    "SweepDesign.C18_norm_opposite_sample",
    "SweepDesign.C18_norm_negative_sample",
    "SweepDesign.C18_complex_witness"
   ],
   "note": "Norm formula for every balanced relation; for complex values the norm is the integral of the plain square and vanishes on a non-zero relation (witness)."
  },
  {
   "property": "C19",
   "status": "proved",
   "theorems": [
    "SweepDesign.C19_own_axis"
   ],
   "note": ""
  },
  {
   "property": "C20",
   "status": "proved",
   "theorems": [
    "SweepDesign.C20_piecewise_linear",
    "SweepDesign.C20_at_relation_or_points",
    "SweepDesign.C20_determined",
    "SweepDesign.C20_bounds"
   ],
   "note": ""
  },
  {
   "property": "C21",
   "status": "proved",
   "theorems": [
    "SweepDesign.C21_lines"
   ],
   "note": ""
  },
  {
   "property": "C22",
   "status": "proved",
   "theorems": [
    "SweepDesign.C22_equalize",
    "SweepDesign.C22_identity_irrelevant"
   ],
   "note": ""
  },
  {
   "property": "C23",
   "status": "proved",
   "theorems": [
    "SweepDesign.C23_with_number",
    "SweepDesign.C23_all_operators"
   ],
   "note": "Non-finite results (division by zero, undefined powers) are Err.nonFinite in the model."
  },
  {
   "property": "C24",
   "status": "proved",
   "theorems": [
    "SweepDesign.C24_equal_axes"
   ],
   "note": ""
  },
  {
   "property": "C25",
   "status": "proved",
   "theorems": [
    "SweepDesign.C25_different_axes",
    "SweepDesign.C25_commutative"
   ],
   "note": "The only failure in the model is a non-finite value (division by the zero extension, undefined powers)."
  },
  {
   "property": "C26",
   "status": "proved",
   "theorems": [
    "SweepDesign.C26_ring_laws"
   ],
   "note": ""
  },
  {
   "property": "C27",
   "status": "proved",
   "theorems": [
    "SweepDesign.C27_shift"
   ],
   "note": ""
  },
  {
   "property": "C28",
   "status": "proved",
   "theorems": [
    "SweepDesign.C28_values",
    "SweepDesign.C28_general",
    "SweepDesign.C28_commutative",
    "SweepDesign.C28_linear",
    "SweepDesign.C28_impulse"
   ],
   "note": ""
  },
  {
   "property": "C29",
   "status": "proved",
   "theorems": [
    "SweepDesign.C29_values",
    "SweepDesign.C29_swap",
    "SweepDesign.C29_autocorrelation"
   ],
   "note": ""
  },
  {
   "property": "C30",
   "status": "proved",
   "theorems": [
    "SweepDesign.C30_accepted"
   ],
   "note": ""
  },
  {
   "property": "C31",
   "status": "proved",
   "theorems": [
    "SweepDesign.C31_incompatible_operand",
    "SweepDesign.C31_spectrum_converting_error",
    "SweepDesign.C31_operands_are_converted",
    "SweepDesign.C31_convolve_errors"
   ],
   "note": "TypeFuncError part for the default math method in exact arithmetic; conversion and dispatch parts for every Config."
  },
  {
   "property": "C32",
   "status": "proved",
   "theorems": [
    "SweepDesign.C32_call_changes_nothing",
    "SweepDesign.C32_history_changes_nothing",
    "SweepDesign.C32_defaults",
    "SweepDesign.C32_contract_needed"
   ],
   "note": "Config methods obey GoodMethods/GoodConv (they do not modify the objects they are given; proved for the defaults); C32_contract_needed shows the contract cannot be dropped."
  },
  {
   "property": "C33",
   "status": "proved",
   "theorems": [
    "SweepDesign.C33_result_has_own_parts",
    "SweepDesign.C33_equalize_results_differ",
    "SweepDesign.C33_editing_the_result",
    "SweepDesign.C33_editing_the_operands",
    "SweepDesign.C33_built_on_an_axis_shares_it"
   ],
   "note": ""
  },
  {
   "property": "C34",
   "status": "proved",
   "theorems": [
    "SweepDesign.C34_get_data_copies"
   ],
   "note": ""
  },
  {
   "property": "C35",
   "status": "proved",
   "theorems": [
    "SweepDesign.C35_augmented_assignment"
   ],
   "note": ""
  },
  {
   "property": "C36",
   "status": "proved",
   "theorems": [
    "SweepDesign.C36_round_trip"
   ],
   "note": ""
  },
  {
   "property": "C37",
   "status": "proved",
   "theorems": [
    "SweepDesign.C37_rotation"
   ],
   "note": ""
  },
  {
   "property": "C38",
   "status": "proved",
   "theorems": [
    "SweepDesign.C38_default_inverse"
   ],
   "note": ""
  },
  {
   "property": "C39",
   "status": "proved",
   "theorems": [
    "SweepDesign.C39_rebuild"
   ],
   "note": ""
  },
  {
   "property": "C40",
   "status": "proved",
   "theorems": [
    "SweepDesign.C40_phase_arithmetic"
   ],
   "note": ""
  },
  {
   "property": "C41",
   "status": "proved",
   "theorems": [
    "SweepDesign.C41_circular_delay"
   ],
   "note": ""
  },
  {
   "property": "C42",
   "status": "proved",
   "theorems": [
    "SweepDesign.C42_convolve",
    "SweepDesign.C42_nonzero_start"
   ],
   "note": ""
  },
  {
   "property": "C43",
   "status": "proved",
   "theorems": [
    "SweepDesign.C43_explicit_frequency"
   ],
   "note": ""
  },
  {
   "property": "C44",
   "status": "proved",
   "theorems": [
    "SweepDesign.C44_same_spectrum_object",
    "SweepDesign.C44_original_signal_object",
    "SweepDesign.C44_frequency_replaces",
    "SweepDesign.C44_same_signal_object"
   ],
   "note": ""
  },
  {
   "property": "C45",
   "status": "proved",
   "theorems": [
    "SweepDesign.C45_reverse_filter",
    "SweepDesign.C45_exists"
   ],
   "note": ""
  },
  {
   "property": "C46",
   "status": "proved",
   "theorems": [
    "SweepDesign.C46_phase"
   ],
   "note": ""
  },
  {
   "property": "C47",
   "status": "proved",
   "theorems": [
    "SweepDesign.C47_default",
    "SweepDesign.C47_array_description",
    "SweepDesign.C47_callable_description",
    "SweepDesign.C47_absent_descriptions",
    "SweepDesign.C47_exact_quadrature",
    "SweepDesign.C47_succeeds"
   ],
   "note": ""
  },
  {
   "property": "C48",
   "status": "proved",
   "theorems": [
    "SweepDesign.C48_envelope",
    "SweepDesign.C48_defaults"
   ],
   "note": ""
  },
  {
   "property": "C49",
   "status": "proved",
   "theorems": [
    "SweepDesign.C49_time_axis",
    "SweepDesign.C49_no_time",
    "SweepDesign.C49_array_needs_time"
   ],
   "note": ""
  },
  {
   "property": "C50",
   "status": "proved",
   "theorems": [
    "SweepDesign.C50_own_axis",
    "SweepDesign.C50_another_axis",
    "SweepDesign.C50_one_value",
    "SweepDesign.C50_misplaced_witness"
   ],
   "note": ""
  },
  {
   "property": "C51",
   "status": "proved",
   "theorems": [
    "SweepDesign.C51_closed_form",
    "SweepDesign.C51_succeeds",
    "SweepDesign.C51_array_time"
   ],
   "note": ""
  },
  {
   "property": "C52",
   "status": "proved",
   "theorems": [
    "SweepDesign.C52_shape",
    "SweepDesign.C52_ones",
    "SweepDesign.C52_locations",
    "SweepDesign.C52_ends",
    "SweepDesign.C52_plateau"
   ],
   "note": ""
  },
  {
   "property": "C53",
   "status": "proved",
   "theorems": [
    "SweepDesign.C53_short_segment",
    "SweepDesign.C53_rearrangement",
    "SweepDesign.C53_description_in_band",
    "SweepDesign.C53_sweep_in_band",
    "SweepDesign.C53_rounding_leaves_band"
   ],
   "note": ""
  },
  {
   "property": "C54",
   "status": "proved",
   "theorems": [
    "SweepDesign.C54_norm",
    "SweepDesign.C54_silent",
    "SweepDesign.C54_succeeds",
    "SweepDesign.C54_backwards"
   ],
   "note": ""
  },
  {
   "property": "C55",
   "status": "proved",
   "theorems": [
    "SweepDesign.C55_operation",
    "SweepDesign.C55_description_unused",
    "SweepDesign.C55_normalised",
    "SweepDesign.C55_not_normalised",
    "SweepDesign.C55_description_lost_witness"
   ],
   "note": ""
  },
  {
   "property": "C56",
   "status": "proved",
   "theorems": [
    "SweepDesign.C56_derived_descriptions",
    "SweepDesign.C56_stored_time",
    "SweepDesign.C56_given_axis",
    "SweepDesign.C56_given_array",
    "SweepDesign.C56_constructor",
    "SweepDesign.C56_assignment",
    "SweepDesign.C56_later_call",
    "SweepDesign.C56_apriori_raw",
    "SweepDesign.C56_apriori_normalised"
   ],
   "note": "Descriptions given as functions are taken to be pure. Holds of UncalculatedSweep and of a-priori sweeps that are not normalised; C56_apriori_normalised shows that a normalised a-priori sweep is on a new axis object. C56_later_call: any history between the assignment and the later call that does not assign to that axis."
  },
  {
   "property": "C57",
   "status": "proved",
   "theorems": [
    "SweepDesign.C57_simple",
    "SweepDesign.C57_proportional"
   ],
   "note": ""
  },
  {
   "property": "C58",
   "status": "proved",
   "theorems": [
    "SweepDesign.C58_index_error",
    "SweepDesign.C58_no_cutoff",
    "SweepDesign.C58_shape",
    "SweepDesign.C58_positive",
    "SweepDesign.C58_from_zero",
    "SweepDesign.C58_through_zero",
    "SweepDesign.C58_selected",
    "SweepDesign.C58_call_raises"
   ],
   "note": ""
  },
  {
   "property": "C59",
   "status": "proved",
   "theorems": [
    "SweepDesign.C59_repeat"
   ],
   "note": ""
  },
  {
   "property": "C60",
   "status": "proved",
   "theorems": [
    "SweepDesign.C60_one_period",
    "SweepDesign.C60_sum",
    "SweepDesign.C60_values"
   ],
   "note": ""
  },
  {
   "property": "C61",
   "status": "proved",
   "theorems": [
    "SweepDesign.C61_code_length",
    "SweepDesign.C61_code_full",
    "SweepDesign.C61_small",
    "SweepDesign.C61_relation",
    "SweepDesign.C61_in_place",
    "SweepDesign.C61_full_relation"
   ],
   "note": ""
  },
  {
   "property": "C62",
   "status": "proved",
   "theorems": [
    "SweepDesign.C62_relation",
    "SweepDesign.C62_axis",
    "SweepDesign.C62_sweep_of_relation",
    "SweepDesign.C62_empty",
    "SweepDesign.C62_signal",
    "SweepDesign.C62_sweep",
    "SweepDesign.C62_signal_succeeds"
   ],
   "note": "Values: for bases whose start and end are whole multiples of the sample (end >= 0); axis and success: every base with end >= 0."
  },
  {
   "property": "C63",
   "status": "proved",
   "theorems": [
    "SweepDesign.C63_first_column",
    "SweepDesign.C63_row",
    "SweepDesign.C63_limit",
    "SweepDesign.C63_amplified",
    "SweepDesign.C63_attenuated",
    "SweepDesign.C63_succeeds",
    "SweepDesign.C63_negative_limit"
   ],
   "note": "For a positive limit and a percentage that is not negative; C63_negative_limit shows that a negative limit flips signs."
  },
  {
   "property": "C64",
   "status": "proved",
   "theorems": [
    "SweepDesign.C64_bounded",
    "SweepDesign.C64_early",
    "SweepDesign.C64_stable",
    "SweepDesign.C64_shape",
    "SweepDesign.C64_succeeds",
    "SweepDesign.C64_may_not_end"
   ],
   "note": "Decomposition = arbitrary function; shape and success for every decomposition that keeps the length, positive limits, mass not 0. C64_may_not_end: without limit_iteration the loop need not end."
  },
  {
   "property": "C65",
   "status": "partial",
   "theorems": [
    "SweepDesign.C65_no_window",
    "SweepDesign.C65_no_modes",
    "SweepDesign.C65_window_partial",
    "SweepDesign.C65_window_witness"
   ],
   "note": "Without window: proved for all signals. With window the claim as stated is false: the step of the window axis is rounded (C65_window_witness, sample 0.7). C65_window_partial gives the claim under the exact conditions; C72 says what happens otherwise."
  },
  {
   "property": "C66",
   "status": "proved",
   "theorems": [
    "SweepDesign.C66_captured_at_construction",
    "SweepDesign.C66_only_captured_methods_matter",
    "SweepDesign.C66_binary_operation",
    "SweepDesign.C66_sweep_methods",
    "SweepDesign.C66_sweep_binary_operation",
    "SweepDesign.C66_captured_method_is_called",
    "SweepDesign.C66_current_config_is_called",
    "SweepDesign.C66_transforms",
    "SweepDesign.C66_sweep_config_is_called"
   ],
   "note": "The identical-run theorems for sweeps assume GoodMethods (the methods in Config do not modify the objects they are given)."
  },
  {
   "property": "C67",
   "status": "proved",
   "theorems": [
    "SweepDesign.C67_single_entry",
    "SweepDesign.C67_at_least_two",
    "SweepDesign.C67_two_or_more",
    "SweepDesign.C67_rounding_witness",
    "SweepDesign.C67_short_sweeps"
   ],
   "note": ""
  },
  {
   "property": "C68",
   "status": "proved",
   "theorems": [
    "SweepDesign.C68_function",
    "SweepDesign.C68_array",
    "SweepDesign.C68_empty"
   ],
   "note": ""
  },
  {
   "property": "C69",
   "status": "proved",
   "theorems": [
    "SweepDesign.C69_fourier_sum"
   ],
   "note": ""
  },
  {
   "property": "C70",
   "status": "proved",
   "theorems": [
    "SweepDesign.C70_spectrum_linear"
   ],
   "note": ""
  },
  {
   "property": "C71",
   "status": "proved",
   "theorems": [
    "SweepDesign.C71_parseval"
   ],
   "note": ""
  },
  {
   "property": "C72",
   "status": "proved",
   "theorems": [
    "SweepDesign.C72_whole_or_reciprocal",
    "SweepDesign.C72_rejected",
    "SweepDesign.C72_sample"
   ],
   "note": ""
  },
  {
   "property": "C73",
   "status": "proved",
   "theorems": [
    "SweepDesign.C73_one_object",
    "SweepDesign.C73_construct",
    "SweepDesign.C73_two_objects",
    "SweepDesign.C73_array_operand",
    "SweepDesign.C73_sharing_irrelevant",
    "SweepDesign.C73_history_irrelevant"
   ],
   "note": ""
  },
  {
   "property": "C74",
   "status": "proved",
   "theorems": [
    "SweepDesign.C74_convolution",
    "SweepDesign.C74_correlation",
    "SweepDesign.C74_autocorrelation"
   ],
   "note": ""
  },
  {
   "property": "C75",
   "status": "proved",
   "theorems": [
    "SweepDesign.C75_envelope",
    "SweepDesign.C75_frequency",
    "SweepDesign.C75_tone",
    "SweepDesign.C75_scaling",
    "SweepDesign.C75_sweep"
   ],
   "note": ""
  },
  {
   "property": "C76",
   "status": "proved",
   "theorems": [
    "SweepDesign.C76_tapered",
    "SweepDesign.C76_ends",
    "SweepDesign.C76_norm",
    "SweepDesign.C76_no_data",
    "SweepDesign.C76_no_central",
    "SweepDesign.C76_succeeds"
   ],
   "note": ""
  },
  {
   "property": "C77",
   "status": "proved",
   "theorems": [
    "SweepDesign.C77_shift",
    "SweepDesign.C77_convolution_sweep",
    "SweepDesign.C77_one_number",
    "SweepDesign.C77_rotated_witness"
   ],
   "note": ""
  },
  {
   "property": "C78",
   "status": "proved",
   "theorems": [
    "SweepDesign.C78_shape",
    "SweepDesign.C78_frequencies_forgotten",
    "SweepDesign.C78_degenerate"
   ],
   "note": ""
  },
  {
   "property": "C79",
   "status": "proved",
   "theorems": [
    "SweepDesign.C79_time_given",
    "SweepDesign.C79_lossless",
    "SweepDesign.C79_default"
   ],
   "note": ""
  },
  {
   "property": "C80",
   "status": "proved",
   "theorems": [
    "SweepDesign.C80_spectrum",
    "SweepDesign.C80_pulse",
    "SweepDesign.C80_inverse",
    "SweepDesign.C80_band_moved"
   ],
   "note": ""
  },
  {
   "property": "C81",
   "status": "proved",
   "theorems": [
    "SweepDesign.C81_spectrum",
    "SweepDesign.C81_round_trip",
    "SweepDesign.C81_energy",
    "SweepDesign.C81_zero_phase",
    "SweepDesign.C81_lost"
   ],
   "note": ""
  },
  {
   "property": "C82",
   "status": "proved",
   "theorems": [
    "SweepDesign.C82_signals",
    "SweepDesign.C82_wrong_length",
    "SweepDesign.C82_changes_nothing",
    "SweepDesign.C82_editing_one",
    "SweepDesign.C82_add_up"
   ],
   "note": ""
  },
  {
   "property": "C83",
   "status": "proved",
   "theorems": [
    "SweepDesign.C83_copy_shares",
    "SweepDesign.C83_unread_copy",
    "SweepDesign.C83_assignment_ends_sharing",
    "SweepDesign.C83_relation_from_relation",
    "SweepDesign.C83_witness"
   ],
   "note": ""
  },
  {
   "property": "C84",
   "status": "proved",
   "theorems": [
    "SweepDesign.C84_get_spectrum",
    "SweepDesign.C84_spectrum_calls",
    "SweepDesign.C84_from_amp_phase",
    "SweepDesign.C84_signal_calls",
    "SweepDesign.C84_convolve_correlate",
    "SweepDesign.C84_cache_fits"
   ],
   "note": ""
  },
  {
   "property": "C85",
   "status": "proved",
   "theorems": [
    "SweepDesign.C85_untouched",
    "SweepDesign.C85_history",
    "SweepDesign.C85_defaults"
   ],
   "note": "Relation objects; which axis objects and arrays a call writes to is C32/C33. Operands of convolve and correlate must exist."
  },
  {
   "property": "C86",
   "status": "proved",
   "theorems": [
    "SweepDesign.C86_signal_spectrum",
    "SweepDesign.C86_spectrum_signal",
    "SweepDesign.C86_no_transform",
    "SweepDesign.C86_spectrum_rejects",
    "SweepDesign.C86_add_phase"
   ],
   "note": "C86_signal_spectrum and C86_spectrum_signal ask that what is cached in the right operand is of the other kind; C87 proves this of every session."
  },
  {
   "property": "C87",
   "status": "proved",
   "theorems": [
    "SweepDesign.C87_call",
    "SweepDesign.C87_history",
    "SweepDesign.C87_start",
    "SweepDesign.C87_returns",
    "SweepDesign.C87_mixed",
    "SweepDesign.C87_defaults"
   ],
   "note": ""
  },
  {
   "property": "C88",
   "status": "proved",
   "theorems": [
    "SweepDesign.C88_data",
    "SweepDesign.C88_combine",
    "SweepDesign.C88_arithmetic",
    "SweepDesign.C88_calculus",
    "SweepDesign.C88_silent",
    "SweepDesign.C88_get_spectrum",
    "SweepDesign.C88_get_spectrum_padded",
    "SweepDesign.C88_get_signal",
    "SweepDesign.C88_amp_phase",
    "SweepDesign.C88_objects"
   ],
   "note": "Object version (C88_objects) for the calls on one relation, signal or spectrum object."
  },
  {
   "property": "C89",
   "status": "proved",
   "theorems": [
    "SweepDesign.C89_constructor",
    "SweepDesign.C89_operators",
    "SweepDesign.C89_generator_init",
    "SweepDesign.C89_generator_call",
    "SweepDesign.C89_private",
    "SweepDesign.C89_apriori"
   ],
   "note": "The spectrogram object itself is not compared, only whether making it raises. Constructing an ApriorUncalculatedSweep from a spectrum is in the value layer only (C54)."
  },
  {
   "property": "C90",
   "status": "proved",
   "theorems": [
    "SweepDesign.C90_image",
    "SweepDesign.C90_nonneg",
    "SweepDesign.C90_affine",
    "SweepDesign.C90_constant",
    "SweepDesign.C90_energy",
    "SweepDesign.C90_axes",
    "SweepDesign.C90_frequency_witness"
   ],
   "note": "scipy.signal.spectrogram with its default arguments is modelled in exact arithmetic from its documented behaviour (Model/Spectro). C90_nonneg and C90_axes are for a positive step."
  },
  {
   "property": "C91",
   "status": "proved",
   "theorems": [
    "SweepDesign.C91_constructor",
    "SweepDesign.C91_operation",
    "SweepDesign.C91_generator",
    "SweepDesign.C91_linear",
    "SweepDesign.C91_negative_witness"
   ],
   "note": "C91_negative_witness: the positive step is needed."
  },
  {
   "property": "C92",
   "status": "proved",
   "theorems": [
    "SweepDesign.C92_exact",
    "SweepDesign.C92_size",
    "SweepDesign.C92_points",
    "SweepDesign.C92_increasing",
    "SweepDesign.C92_size_double",
    "SweepDesign.C92_representable"
   ],
   "note": "Rounded arithmetic with unbounded exponent."
  },
  {
   "property": "C93",
   "status": "proved",
   "theorems": [
    "SweepDesign.C93_reciprocal",
    "SweepDesign.C93_whole",
    "SweepDesign.C93_accepted",
    "SweepDesign.C93_double",
    "SweepDesign.C93_witness"
   ],
   "note": "C93_witness: outside the bounds the array is rejected."
  },
  {
   "property": "C94",
   "status": "proved",
   "theorems": [
    "SweepDesign.C94_reorder",
    "SweepDesign.C94_witness",
    "SweepDesign.C94_spectrum"
   ],
   "note": "C94_witness: the code misplaces the sample at time zero on some axes."
  },
  {
   "property": "C95",
   "status": "proved",
   "theorems": [
    "SweepDesign.C95_select",
    "SweepDesign.C95_clear",
    "SweepDesign.C95_select_all",
    "SweepDesign.C95_witness"
   ],
   "note": "C95_witness: the code leaves out the sample at the bound on some axes."
  },
  {
   "property": "C96",
   "status": "proved",
   "theorems": [
    "SweepDesign.C96_integrate",
    "SweepDesign.C96_diff",
    "SweepDesign.C96_shift",
    "SweepDesign.C96_correlate",
    "SweepDesign.C96_signal",
    "SweepDesign.C96_shift_witness"
   ],
   "note": "C96_shift_witness: outside the bound the shifted relation is rejected."
  },
  {
   "property": "C97",
   "status": "proved",
   "theorems": [
    "SweepDesign.C97_full_period",
    "SweepDesign.C97_recurrence",
    "SweepDesign.C97_balance",
    "SweepDesign.C97_autocorrelation",
    "SweepDesign.C97_windows",
    "SweepDesign.C97_code",
    "SweepDesign.C97_sign_start"
   ],
   "note": "scipy's algorithm and table of taps are modelled; scipy itself is not in the repository."
  },
  {
   "property": "C98",
   "status": "proved",
   "theorems": [
    "SweepDesign.C98_call",
    "SweepDesign.C98_permanent",
    "SweepDesign.C98_session"
   ],
   "note": ""
  },
  {
   "property": "C99",
   "status": "proved",
   "theorems": [
    "SweepDesign.C99_never_ends",
    "SweepDesign.C99_items",
    "SweepDesign.C99_tail",
    "SweepDesign.C99_samples",
    "SweepDesign.C99_reversed",
    "SweepDesign.C99_other",
    "SweepDesign.C99_unpack",
    "SweepDesign.C99_unpack_witness",
    "SweepDesign.C99_no_list",
    "SweepDesign.C99_in",
    "SweepDesign.C99_in_witness"
   ],
   "note": ""
  },
  {
   "property": "C100",
   "status": "proved",
   "theorems": [
    "SweepDesign.C100_spectrum",
    "SweepDesign.C100_signal",
    "SweepDesign.C100_permanent",
    "SweepDesign.C100_defaults"
   ],
   "note": "C100_spectrum and C100_signal for every configuration whose transforms hand back a given axis; C100_defaults: the default transforms do; C100_permanent: after any history."
  },
  {
   "property": "C101",
   "status": "proved",
   "theorems": [
    "SweepDesign.C101_described"
   ],
   "note": "For a time that is no relation (see aprInfo). Normalised sweeps lose their description: C55."
  },
  {
   "property": "C102",
   "status": "proved",
   "theorems": [
    "SweepDesign.C102_one",
    "SweepDesign.C102_two",
    "SweepDesign.C102_position_forgotten"
   ],
   "note": "Class Relation; Signal.shift is the circular delay of C41. Errors are covered: both sides raise the same exception."
  },
  {
   "property": "C103",
   "status": "proved",
   "theorems": [
    "SweepDesign.C103_own_axis",
    "SweepDesign.C103_equal_axes",
    "SweepDesign.C103_commutative",
    "SweepDesign.C103_values",
    "SweepDesign.C103_witness"
   ],
   "note": "Real samples. The formula of np.interp is modelled without fused multiply-add; overflow and subnormals are left out (DESIGN 4.3)."
  },
  {
   "property": "C104",
   "status": "proved",
   "theorems": [
    "SweepDesign.C104_integrate",
    "SweepDesign.C104_diff",
    "SweepDesign.C104_norm",
    "SweepDesign.C104_convolve",
    "SweepDesign.C104_correlate",
    "SweepDesign.C104_witness"
   ],
   "note": "Real samples. The orders of summation of numpy are arguments of the model: Sums and SumsProducts ask only that the terms are added with rounding in some order; both are shown to be satisfiable."
  },
  {
   "property": "C105",
   "status": "proved",
   "theorems": [
    "SweepDesign.C105_no_sample",
    "SweepDesign.C105_own_point",
    "SweepDesign.C105_nearest",
    "SweepDesign.C105_position",
    "SweepDesign.C105_tie"
   ],
   "note": "Real samples; v is a real number."
  },
  {
   "property": "C106",
   "status": "proved",
   "theorems": [
    "SweepDesign.C106_changes_nothing",
    "SweepDesign.C106_signal",
    "SweepDesign.C106_spectrum",
    "SweepDesign.C106_relation",
    "SweepDesign.C106_array",
    "SweepDesign.C106_later",
    "SweepDesign.C106_stale"
   ],
   "note": "A relation passed as time is not modelled (C99: reading it never ends). The conversion method is any program that keeps existing objects. C106_later is about real samples and the default methods."
  },
  {
   "property": "C107",
   "status": "proved",
   "theorems": [
    "SweepDesign.C107_axis",
    "SweepDesign.C107_relation",
    "SweepDesign.C107_two",
    "SweepDesign.C107_spectrum",
    "SweepDesign.C107_phases",
    "SweepDesign.C107_signal",
    "SweepDesign.C107_array_witness",
    "SweepDesign.C107_sweep",
    "SweepDesign.C107_quadrature"
   ],
   "note": "Times are given as axes (the constructor from arrays rounds the step; C107_array_witness). For sweeps: samples, frequency_time and amplitude_time; the spectrogram method is a parameter, and the new call gives a sweep if it works in the new unit. f absent means f(t) = t, which is t/c² in the new unit."
  },
  {
   "property": "C108",
   "status": "proved",
   "theorems": [
    "SweepDesign.C108_description",
    "SweepDesign.C108_reached",
    "SweepDesign.C108_not_reached",
    "SweepDesign.C108_sweep"
   ],
   "note": "np.cos, np.linspace and np.round in exact arithmetic; random.shuffle is any function that keeps the number of entries."
  },
  {
   "property": "C109",
   "status": "proved",
   "theorems": [
    "SweepDesign.C109_relation",
    "SweepDesign.C109_operators",
    "SweepDesign.C109_numbers",
    "SweepDesign.C109_two",
    "SweepDesign.C109_spectrum",
    "SweepDesign.C109_phases",
    "SweepDesign.C109_signal",
    "SweepDesign.C109_sweep"
   ],
   "note": "Powers are outside: an exponent cannot take a factor. For sweeps the spectrogram method is a parameter: the new call gives a sweep if it works on the new samples."
  },
  {
   "property": "C110",
   "status": "proved",
   "theorems": [
    "SweepDesign.C110_methods",
    "SweepDesign.C110_follows",
    "SweepDesign.C110_sweep"
   ],
   "note": "Exact arithmetic. That the new call gives a sweep is proved for a positive step and configured methods that work on relations with a positive step; what it gives is proved without this."
  },
  {
   "property": "C111",
   "status": "proved",
   "theorems": [
    "SweepDesign.C111_number",
    "SweepDesign.C111_exp",
    "SweepDesign.C111_pair",
    "SweepDesign.C111_diff",
    "SweepDesign.C111_integrate",
    "SweepDesign.C111_additive",
    "SweepDesign.C111_unfitting_witness"
   ],
   "note": "The laws for diff and integrate are for axes that are a whole number of samples long; C111_unfitting_witness shows why. Exact arithmetic."
  },
  {
   "property": "C112",
   "status": "proved",
   "theorems": [
    "SweepDesign.C112_bounds",
    "SweepDesign.C112_triangle",
    "SweepDesign.C112_factor",
    "SweepDesign.C112_backwards",
    "SweepDesign.C112_shift"
   ],
   "note": "Exact transforms. Called without frequency and without is_start_zero, on signals without cached spectrum; the cache is C44."
  },
  {
   "property": "C113",
   "status": "proved",
   "theorems": [
    "SweepDesign.C113_empty_code",
    "SweepDesign.C113_long_code",
    "SweepDesign.C113_relation_m_sequence",
    "SweepDesign.C113_start_sequence",
    "SweepDesign.C113_short_array",
    "SweepDesign.C113_axis_from_array",
    "SweepDesign.C113_repeated_time",
    "SweepDesign.C113_wrong_length",
    "SweepDesign.C113_no_time",
    "SweepDesign.C113_zero_sample",
    "SweepDesign.C113_shuffle",
    "SweepDesign.C113_a_priori",
    "SweepDesign.C113_backwards"
   ],
   "note": "Exceptions not already fixed by other properties (C61, C62 and C68, for example, fix more). ZeroDivisionError stands for it or for the OverflowError/ValueError of round(inf)/round(nan) with numpy scalars; AttributeError of None is modelled as typeError."
  },
  {
   "property": "C114",
   "status": "proved",
   "theorems": [
    "SweepDesign.C114_max_min",
    "SweepDesign.C114_resampled",
    "SweepDesign.C114_arithmetic",
    "SweepDesign.C114_mean",
    "SweepDesign.C114_order",
    "SweepDesign.C114_rising",
    "SweepDesign.C114_parallelogram",
    "SweepDesign.C114_triangle",
    "SweepDesign.C114_convolve",
    "SweepDesign.C114_convolve_sum",
    "SweepDesign.C114_correlate"
   ],
   "note": "Real (linearly ordered) values, except the parallelogram law and the sum of a convolution, which hold for complex values too. Exact arithmetic."
  },
  {
   "property": "C115",
   "status": "proved",
   "theorems": [
    "SweepDesign.C115_there_and_back",
    "SweepDesign.C115_through",
    "SweepDesign.C115_integral",
    "SweepDesign.C115_extremes"
   ],
   "note": "The statements about later resampling, the integral and the extremes are for rising axes with equal ends and at least two samples; going there and back needs only that the finer axis contains the points. Integral and extremes for real values. Exact arithmetic: in floating point a finer axis contains the points only up to rounding."
  },
  {
   "property": "C116",
   "status": "proved",
   "theorems": [
    "SweepDesign.C116_laws",
    "SweepDesign.C116_sub",
    "SweepDesign.C116_disjoint",
    "SweepDesign.C116_different_grids"
   ],
   "note": "Exact arithmetic on a grid with a positive step. The failure on different grids is a proved concrete case."
  },
  {
   "property": "C117",
   "status": "proved",
   "theorems": [
    "SweepDesign.C117_bits",
    "SweepDesign.C117_bits_power",
    "SweepDesign.C117_bits_large",
    "SweepDesign.C117_code",
    "SweepDesign.C117_code_power",
    "SweepDesign.C117_code_last",
    "SweepDesign.C117_never",
    "SweepDesign.C117_length",
    "SweepDesign.C117_relation",
    "SweepDesign.C117_relation_power",
    "SweepDesign.C117_relation_last",
    "SweepDesign.C117_double",
    "SweepDesign.C117_double_29"
   ],
   "note": "The logarithm of the C library is any function with a relative error of at most 2^-50, the division any rounding with such an error that fixes 1. The numbers 29 and 31 in the double precision case are proved from the assumption that the library rounds the logarithms of the powers of two correctly, which C libraries do not promise."
  },
  {
   "property": "C118",
   "status": "proved",
   "theorems": [
    "SweepDesign.C118_changes_nothing",
    "SweepDesign.C118_relations_keep",
    "SweepDesign.C118_start_sequence",
    "SweepDesign.C118_own_parts",
    "SweepDesign.C118_zinger_same_object",
    "SweepDesign.C118_sweeps_on_time",
    "SweepDesign.C118_m_sequence",
    "SweepDesign.C118_editing_the_result",
    "SweepDesign.C118_editing_the_arguments",
    "SweepDesign.C118_assignment_reaches_time",
    "SweepDesign.C118_operator_drops_a_priori",
    "SweepDesign.C118_dwell_no_a_priori",
    "SweepDesign.C118_classes"
   ],
   "note": "The number functions (frequencies, windows, max_len_seq, soft_clip, the decomposition) are arbitrary functions of values; the methods in Config keep the contracts of C32 and C33. The loop of get_correction_for_source is cut off after any number of passes; the theorems are about calls that finish before and about the objects touched until then."
  },
  {
   "property": "C119",
   "status": "proved",
   "theorems": [
    "SweepDesign.C119_dwell",
    "SweepDesign.C119_zinger",
    "SweepDesign.C119_segments",
    "SweepDesign.C119_linear",
    "SweepDesign.C119_shuffle",
    "SweepDesign.C119_m_sequence",
    "SweepDesign.C119_m_sequence_from",
    "SweepDesign.C119_correction",
    "SweepDesign.C119_correct_sweep"
   ],
   "note": "Exact arithmetic; max_len_seq, the random numbers, the shuffling, the decomposition into IMFs and coefficient_function are arbitrary functions. The while loop of get_correction_for_source is followed for any number of passes. For get_dwell_sweep the conversion method is any method that assigns to nothing that existed, and the samples of its spectrum are real like all samples of the store. get_convolution_sweep_and_code and Signal or Sweep arguments of the two code functions are in C126."
  },
  {
   "property": "C120",
   "status": "proved",
   "theorems": [
    "SweepDesign.C120_associative",
    "SweepDesign.C120_chain",
    "SweepDesign.C120_axes_witness",
    "SweepDesign.C120_power_sums",
    "SweepDesign.C120_diff"
   ],
   "note": "Relations whose axes are whole numbers of one common sample long; exact arithmetic. That the axes of the two orders differ for different durations is a proved concrete case."
  },
  {
   "property": "C121",
   "status": "proved",
   "theorems": [
    "SweepDesign.C121_delay",
    "SweepDesign.C121_signal_delay"
   ],
   "note": "Delay by a whole number of samples, recording long enough to hold the whole delayed relation, no noise; exact arithmetic. For Signal.correlate the signals begin at zero."
  },
  {
   "property": "C122",
   "status": "proved",
   "theorems": [
    "SweepDesign.C122_initial_phase",
    "SweepDesign.C122_half_and_whole_period",
    "SweepDesign.C122_integral_error"
   ],
   "note": "Exact arithmetic with the sine of the real numbers; the integration method is any function of frequency function and limits. The error bound is for a frequency given as a function."
  },
  {
   "property": "C123",
   "status": "proved",
   "theorems": [
    "SweepDesign.C123_aliases",
    "SweepDesign.C123_backwards"
   ],
   "note": "Exact arithmetic with the sine and pi of the real numbers. In double precision the phase of a high frequency loses digits, so aliases agree only up to rounding."
  },
  {
   "property": "C124",
   "status": "proved",
   "theorems": [
    "SweepDesign.C124_tone",
    "SweepDesign.C124_ends"
   ],
   "note": "Exact arithmetic; rfft is the Fourier sum it is documented to be. Time zero lies on the axis: otherwise the code pads the signal with zeros to it and N counts the padded samples (C69)."
  },
  {
   "property": "C125",
   "status": "proved",
   "theorems": [
    "SweepDesign.C125_circular",
    "SweepDesign.C125_m_sequence"
   ],
   "note": "Exact arithmetic; max_len_seq is modelled with the table of taps of scipy and any random digits (C97). Axes are whole numbers of one sample long."
  },
  {
   "property": "C126",
   "status": "proved",
   "theorems": [
    "SweepDesign.C126_spectrum_phase",
    "SweepDesign.C126_signal_phase",
    "SweepDesign.C126_convolve_correlate",
    "SweepDesign.C126_zinger",
    "SweepDesign.C126_segments",
    "SweepDesign.C126_convolution"
   ],
   "note": "Exact arithmetic with real samples embedded in the complex numbers of the heap; a cached spectrum is the one of the current values. Sweeps are compared by axis and samples; their descriptions come from external functions that are assumed to succeed."
  },
  {
   "property": "C127",
   "status": "proved",
   "theorems": [
    "SweepDesign.C127_zinger",
    "SweepDesign.C127_zinger_zero",
    "SweepDesign.C127_zinger_full",
    "SweepDesign.C127_segments",
    "SweepDesign.C127_segments_zero",
    "SweepDesign.C127_silent"
   ],
   "note": "Exact arithmetic; the axis of the base is a whole number of samples long and contains time zero as a sample. The class dispatch (Signal.shift for signals and sweeps) is in C126."
  },
  {
   "property": "C128",
   "status": "proved",
   "theorems": [
    "SweepDesign.C128_spectrum",
    "SweepDesign.C128_zero",
    "SweepDesign.C128_twice",
    "SweepDesign.C128_back",
    "SweepDesign.C128_order",
    "SweepDesign.C128_energy"
   ],
   "note": "Exact arithmetic; rfft and irfft are the sums they are documented to be. In double precision the laws hold up to rounding."
  },
  {
   "property": "C129",
   "status": "proved",
   "theorems": [
    "SweepDesign.C129_interpolate",
    "SweepDesign.C129_interpolate_rough",
    "SweepDesign.C129_integrate",
    "SweepDesign.C129_one_integrate",
    "SweepDesign.C129_norm",
    "SweepDesign.C129_diff",
    "SweepDesign.C129_diff_smooth",
    "SweepDesign.C129_reached"
   ],
   "note": "Exact arithmetic; the samples are exact values of the function. Integration and differentiation are stated for axes that are a whole number of samples long, interpolation for every axis."
  },
  {
   "property": "C130",
   "status": "proved",
   "theorems": [
    "SweepDesign.C130_sampled_law",
    "SweepDesign.C130_linear_law",
    "SweepDesign.C130_two_ways"
   ],
   "note": "Exact arithmetic with the sine and pi of the real numbers. quad enters only through a bound on its error. The time axis begins at zero: on other axes array descriptions are misplaced (C50)."
  },
  {
   "property": "C131",
   "status": "proved",
   "theorems": [
    "SweepDesign.C131_tone",
    "SweepDesign.C131_product"
   ],
   "note": "Exact arithmetic; rfft is the sum it is documented to be. The tone may have any frequency and the axis may begin anywhere on the grid; the product of two signals is stated for axes from zero."
  },
  {
   "property": "C132",
   "status": "proved",
   "theorems": [
    "SweepDesign.C132_succeeds",
    "SweepDesign.C132_resampled",
    "SweepDesign.C132_other_length",
    "SweepDesign.C132_one_value",
    "SweepDesign.C132_accuracy",
    "SweepDesign.C132_linear",
    "SweepDesign.C132_double"
   ],
   "note": "Every operation rounds with relative error u (overflow and underflow are left out as in C92). The axis begins at zero, where the stretching of InterpolateArray is exact. np.sin enters through a bound on its absolute error. The spectrogram of the sweep is not part of this model. get_linear_sweep is taken without a taper."
  },
  {
   "property": "C133",
   "status": "proved",
   "theorems": [
    "SweepDesign.C133_spectrum",
    "SweepDesign.C133_later",
    "SweepDesign.C133_earlier",
    "SweepDesign.C133_rotated",
    "SweepDesign.C133_round_trip",
    "SweepDesign.C133_default",
    "SweepDesign.C133_double",
    "SweepDesign.C133_sharp"
   ],
   "note": "Every operation on the axes rounds with relative error u (overflow and underflow are left out as in C92); the samples go through np.fft only, which enters by the lengths of its results and, where eps occurs, by a bound on its error. get_spectrum is taken without a frequency argument and without a cached spectrum. On axes around time zero the samples come back rotated (C37), whatever the rounding."
  },
  {
   "property": "C134",
   "status": "proved",
   "theorems": [
    "SweepDesign.C134_never_stale",
    "SweepDesign.C134_objects",
    "SweepDesign.C134_descriptions",
    "SweepDesign.C134_data",
    "SweepDesign.C134_cached",
    "SweepDesign.C134_cached_signal",
    "SweepDesign.C134_config",
    "SweepDesign.C134_generators",
    "SweepDesign.C134_same_sweep",
    "SweepDesign.C134_kinds"
   ],
   "note": "Sessions are lists of actions on a heap of objects (Heap/Session). Number operations, plugged-in methods and the decomposition are parameters; the methods are assumed not to change existing objects (GoodPackage, met by the defaults), for (g) also not to mix up the classes (PairPackage). Functions given as descriptions are pure. The loop of get_correction_for_source is cut off after a number of passes which is part of the action."
  },
  {
   "property": "C135",
   "status": "proved",
   "theorems": [
    "SweepDesign.C135_same_axis",
    "SweepDesign.C135_no_common_type",
    "SweepDesign.C135_number",
    "SweepDesign.C135_number_wide",
    "SweepDesign.C135_exact",
    "SweepDesign.C135_exact_number",
    "SweepDesign.C135_negative_power",
    "SweepDesign.C135_other_axis",
    "SweepDesign.C135_division",
    "SweepDesign.C135_with_floats",
    "SweepDesign.C135_unaffected",
    "SweepDesign.C135_diff",
    "SweepDesign.C135_integrate",
    "SweepDesign.C135_norm",
    "SweepDesign.C135_codes",
    "SweepDesign.C135_unsigned",
    "SweepDesign.C135_undo",
    "SweepDesign.C135_commute",
    "SweepDesign.C135_typed",
    "SweepDesign.C135_wrap_witness",
    "SweepDesign.C135_norm_witness",
    "SweepDesign.C135_unsigned_witness"
   ],
   "note": "The integer rules of numpy and scipy (wrapping, promotion, refusal of negative exponents, conversion by interp1d and division) are written down from these libraries, which are not in /repo. Conversion of integers to floats is taken as exact, which for int64 holds up to 2**53. The reduced precision of exp on int8 and int16 is left out; booleans are in C144. Division by zero gives no number on either side (Err.nonFinite)."
  },
  {
   "property": "C136",
   "status": "proved",
   "theorems": [
    "SweepDesign.C136_interpolate",
    "SweepDesign.C136_own_axis",
    "SweepDesign.C136_same_axis",
    "SweepDesign.C136_number",
    "SweepDesign.C136_other_axes",
    "SweepDesign.C136_agrees",
    "SweepDesign.C136_agrees_number",
    "SweepDesign.C136_agrees_interpolate",
    "SweepDesign.C136_agrees_shift",
    "SweepDesign.C136_sum_order",
    "SweepDesign.C136_diff",
    "SweepDesign.C136_integrate",
    "SweepDesign.C136_agrees_diff",
    "SweepDesign.C136_agrees_integrate",
    "SweepDesign.C136_norm",
    "SweepDesign.C136_agrees_norm",
    "SweepDesign.C136_shift",
    "SweepDesign.C136_convolve",
    "SweepDesign.C136_agrees_convolve",
    "SweepDesign.C136_agrees_correlate",
    "SweepDesign.C136_max",
    "SweepDesign.C136_min",
    "SweepDesign.C136_raises",
    "SweepDesign.C136_raises_norm",
    "SweepDesign.C136_raises_convolve",
    "SweepDesign.C136_division_witness",
    "SweepDesign.C136_spread_witness",
    "SweepDesign.C136_single_witness"
   ],
   "note": "The special values of IEEE 754, the order of steps of np.interp on one interval and that np.convolve adds the products of existing samples only are written down from these libraries, which are not in /repo. No rounding, hence no overflow into inf; axes are finite; samples are real; powers are left out except the square in get_norm. Agreement with the finite model is C136_agrees and its variants."
  },
  {
   "property": "C137",
   "status": "proved",
   "theorems": [
    "SweepDesign.C137_samples",
    "SweepDesign.C137_coarser",
    "SweepDesign.C137_longer",
    "SweepDesign.C137_common",
    "SweepDesign.C137_halved",
    "SweepDesign.C137_alias_witness"
   ],
   "note": "Exact arithmetic; rfft is the sum it is documented to be. Target axes whose sample is not a whole multiple of the signal's sample are left out (the linear interpolation between samples, C20, then enters)."
  },
  {
   "property": "C138",
   "status": "proved",
   "theorems": [
    "SweepDesign.C138_objects",
    "SweepDesign.C138_convolve",
    "SweepDesign.C138_correlate",
    "SweepDesign.C138_rest",
    "SweepDesign.C138_witness"
   ],
   "note": "Exact arithmetic; rfft is the sum it is documented to be; a cached spectrum is the one of the current samples. Spectra with different steps are resampled first (C22, C28_general)."
  },
  {
   "property": "C139",
   "status": "proved",
   "theorems": [
    "SweepDesign.C139_diff_early",
    "SweepDesign.C139_diff_late",
    "SweepDesign.C139_integral",
    "SweepDesign.C139_parity_witness"
   ],
   "note": "Exact arithmetic; rfft is the sum it is documented to be. Signals of two samples (diff then has one, C15) and, for diff, axes without time zero or ending there are left out."
  },
  {
   "property": "C140",
   "status": "proved",
   "theorems": [
    "SweepDesign.C140_changes_nothing",
    "SweepDesign.C140_axis",
    "SweepDesign.C140_relation",
    "SweepDesign.C140_complex_item"
   ],
   "note": "The numbers that are formatted are modelled, not the text. Exact arithmetic for the values; C140_changes_nothing holds for any arithmetic."
  },
  {
   "property": "C141",
   "status": "proved",
   "theorems": [
    "SweepDesign.C141_session",
    "SweepDesign.C141_readable",
    "SweepDesign.C141_as_shipped",
    "SweepDesign.C141_assignment_breaks"
   ],
   "note": "The session is the one of C134. Assignments to axes that carry relations are excluded; they do break the relation (example beside the theorem)."
  },
  {
   "property": "C142",
   "status": "proved",
   "theorems": [
    "SweepDesign.C142_whole",
    "SweepDesign.C142_reciprocal",
    "SweepDesign.C142_root",
    "SweepDesign.C142_exponents",
    "SweepDesign.C142_magnitude",
    "SweepDesign.C142_root_of_square",
    "SweepDesign.C142_product",
    "SweepDesign.C142_base",
    "SweepDesign.C142_zero_base",
    "SweepDesign.C142_negative_base",
    "SweepDesign.C142_relation",
    "SweepDesign.C142_exp",
    "SweepDesign.C142_complex",
    "SweepDesign.C142_other_axes"
   ],
   "note": "Real samples with numpy's float power (PyPow ℝ: nan for a negative base with a fractional exponent, no value for zero to a negative power), complex samples with the principal power. C142_root_of_square and C142_other_axes are the counterexamples named in the statement. Exact arithmetic: no overflow of large powers."
  },
  {
   "property": "C143",
   "status": "proved",
   "theorems": [
    "SweepDesign.C143_unique",
    "SweepDesign.C143_number",
    "SweepDesign.C143_base",
    "SweepDesign.C143_same_axis",
    "SweepDesign.C143_other_axes",
    "SweepDesign.C143_exp",
    "SweepDesign.C143_agrees_number",
    "SweepDesign.C143_agrees",
    "SweepDesign.C143_agrees_exp",
    "SweepDesign.C143_witness"
   ],
   "note": "Floating point numbers with special values but without rounding, overflow and underflow, as in C136. IsPower is stated by limits, not by the table of the C library that the model uses; C143_unique shows that it fixes the result."
  },
  {
   "property": "C144",
   "status": "proved",
   "theorems": [
    "SweepDesign.C144_or_and",
    "SweepDesign.C144_exact",
    "SweepDesign.C144_difference",
    "SweepDesign.C144_powers",
    "SweepDesign.C144_number",
    "SweepDesign.C144_division",
    "SweepDesign.C144_with_integers",
    "SweepDesign.C144_diff",
    "SweepDesign.C144_integrate",
    "SweepDesign.C144_norm",
    "SweepDesign.C144_other",
    "SweepDesign.C144_witness"
   ],
   "note": "The rules for booleans (sum is or, difference refused, diff is differs, square is int8) are written down from numpy and scipy, which are not in /repo. select_data, shift, interpolation, convolve, correlate, indexing, max and min of booleans are covered by C135_unaffected, which is about samples of any type."
  },
  {
   "property": "C145",
   "status": "proved",
   "theorems": [
    "SweepDesign.C145_echoes",
    "SweepDesign.C145_noise",
    "SweepDesign.C145_apart",
    "SweepDesign.C145_detect",
    "SweepDesign.C145_signal",
    "SweepDesign.C145_witness"
   ],
   "note": "Exact arithmetic, real samples. Echoes cut off by the end of the recording are left out (their missing part can be written as noise)."
  },
  {
   "property": "C146",
   "status": "proved",
   "theorems": [
    "SweepDesign.C146_positive_sample",
    "SweepDesign.C146_negative_sample",
    "SweepDesign.C146_values",
    "SweepDesign.C146_witness"
   ],
   "note": "Exact arithmetic; rfft is the sum it is documented to be. is_start_zero=False (the default). Axes off the grid of whole multiples are left out."
  },
  {
   "property": "C147",
   "status": "proved",
   "theorems": [
    "SweepDesign.C147_operation",
    "SweepDesign.C147_apart",
    "SweepDesign.C147_witness_sum",
    "SweepDesign.C147_convolve",
    "SweepDesign.C147_correlate",
    "SweepDesign.C147_witness_convolve",
    "SweepDesign.C147_select",
    "SweepDesign.C147_witness_select"
   ],
   "note": ""
  },
  {
   "property": "C148",
   "status": "proved",
   "theorems": [
    "SweepDesign.C148_array",
    "SweepDesign.C148_zero_sample",
    "SweepDesign.C148_from_array",
    "SweepDesign.C148_least_step",
    "SweepDesign.C148_is_along",
    "SweepDesign.C148_along_array",
    "SweepDesign.C148_along_data",
    "SweepDesign.C148_along_select",
    "SweepDesign.C148_along_item",
    "SweepDesign.C148_along_shift",
    "SweepDesign.C148_along_shift_off",
    "SweepDesign.C148_along_integrate",
    "SweepDesign.C148_along_diff",
    "SweepDesign.C148_along_operation",
    "SweepDesign.C148_along_norm",
    "SweepDesign.C148_along_interpolate",
    "SweepDesign.C148_along_other_axis",
    "SweepDesign.C148_along_convolve",
    "SweepDesign.C148_item",
    "SweepDesign.C148_select",
    "SweepDesign.C148_python_numbers",
    "SweepDesign.C148_sideways"
   ],
   "note": "class Relation with default Config, exact arithmetic; order of numpy complex numbers and scipy interpolation on complex positions written down from those libraries"
  },
  {
   "property": "C149",
   "status": "proved",
   "theorems": [
    "SweepDesign.C149_spectrum",
    "SweepDesign.C149_imaginary_ignored",
    "SweepDesign.C149_fourier_sum",
    "SweepDesign.C149_round_trip",
    "SweepDesign.C149_methods",
    "SweepDesign.C149_spectrum_operand",
    "SweepDesign.C149_shift",
    "SweepDesign.C149_convolve",
    "SweepDesign.C149_correlate_values",
    "SweepDesign.C149_witness",
    "SweepDesign.C149_sweep_needs_descriptions",
    "SweepDesign.C149_sweep_operation",
    "SweepDesign.C149_sweep_times_number",
    "SweepDesign.C149_sweep_fast",
    "SweepDesign.C149_sweep_quarter",
    "SweepDesign.C149_sweep_slow"
   ],
   "note": "Default configuration, exact arithmetic. That rfft casts complex arrays to real ones, hilbert rejects them and spectrogram becomes two-sided is written down from numpy 1.23 and scipy 1.9. The step of a sweep is positive; class Signal without cached spectrum."
  },
  {
   "property": "C150",
   "status": "proved",
   "theorems": [
    "SweepDesign.C150_plain",
    "SweepDesign.C150_row",
    "SweepDesign.C150_row_interpolated",
    "SweepDesign.C150_row_of_one",
    "SweepDesign.C150_row_arithmetic",
    "SweepDesign.C150_row_norm",
    "SweepDesign.C150_row_not_selected",
    "SweepDesign.C150_row_item",
    "SweepDesign.C150_row_not_convolved",
    "SweepDesign.C150_plain_two",
    "SweepDesign.C150_column",
    "SweepDesign.C150_column_arithmetic",
    "SweepDesign.C150_column_two_axes",
    "SweepDesign.C150_column_not_convolved",
    "SweepDesign.C150_column_and_plain",
    "SweepDesign.C150_column_norm",
    "SweepDesign.C150_constructor",
    "SweepDesign.C150_table",
    "SweepDesign.C150_table_calculus",
    "SweepDesign.C150_extremes",
    "SweepDesign.C150_plain_signal",
    "SweepDesign.C150_signal_column",
    "SweepDesign.C150_signal_row",
    "SweepDesign.C150_signal_row_fails"
   ],
   "note": "Class Relation with the default functions and Signal.get_spectrum without cached spectrum, exact arithmetic. What numpy 1.23 and scipy 1.9 do with arrays of two dimensions is written down from those libraries."
  },
  {
   "property": "C151",
   "status": "proved",
   "theorems": [
    "SweepDesign.C151_resample",
    "SweepDesign.C151_window",
    "SweepDesign.C151_values",
    "SweepDesign.C151_calculus",
    "SweepDesign.C151_arithmetic",
    "SweepDesign.C151_number",
    "SweepDesign.C151_no_bound",
    "SweepDesign.C151_convolve",
    "SweepDesign.C151_spectrum"
   ],
   "note": "Exact arithmetic, default configuration; rounding itself is C92 to C96, C103 to C105, C132, C133. Class Relation for all but the spectra, which are those of class Signal without cached spectrum."
  },
  {
   "property": "C152",
   "status": "proved",
   "theorems": [
    "SweepDesign.C152_repeated",
    "SweepDesign.C152_pass",
    "SweepDesign.C152_passes"
   ],
   "note": "Exact arithmetic; the array has two columns as in get_correction_for_source. What the decomposition makes of the growing force is a parameter."
  },
  {
   "property": "C153",
   "status": "proved",
   "theorems": [
    "SweepDesign.C153_equalize",
    "SweepDesign.C153_there_and_back",
    "SweepDesign.C153_difference",
    "SweepDesign.C153_quotient",
    "SweepDesign.C153_quotient_back",
    "SweepDesign.C153_witness"
   ],
   "note": "Class Relation with the default functions on axes, real samples; overflow and subnormal numbers are not modelled. The quotient is an entry that is not finite, which the model reports as an error kind of its own."
  },
  {
   "property": "C154",
   "status": "proved",
   "theorems": [
    "SweepDesign.C154_convolve",
    "SweepDesign.C154_correlate",
    "SweepDesign.C154_witness"
   ],
   "note": "Class Relation with the default functions on axes, real samples; overflow and subnormal numbers are not modelled. The order in which numpy sums is a parameter."
  },
  {
   "property": "C155",
   "status": "proved",
   "theorems": [
    "SweepDesign.C155_back",
    "SweepDesign.C155_witness"
   ],
   "note": "Default functions, no cached spectrum, real samples; overflow and subnormal numbers are not modelled. The transforms are parameters with the error bound of C133. The samples in the statement about arithmetic are arbitrary, not the computed ones."
  },
  {
   "property": "C156",
   "status": "proved",
   "theorems": [
    "SweepDesign.C156_axis",
    "SweepDesign.C156_data",
    "SweepDesign.C156_shift",
    "SweepDesign.C156_select",
    "SweepDesign.C156_item",
    "SweepDesign.C156_interpolate",
    "SweepDesign.C156_arithmetic",
    "SweepDesign.C156_diff",
    "SweepDesign.C156_integrate",
    "SweepDesign.C156_norm",
    "SweepDesign.C156_convolve",
    "SweepDesign.C156_extremes",
    "SweepDesign.C156_spectrum",
    "SweepDesign.C156_witness"
   ],
   "note": "class Relation (and get_spectrum of Signal) with the default Config, exact arithmetic. Single-point axes with different ends are excluded by Reaches; the witness shows why."
  },
  {
   "property": "C157",
   "status": "proved",
   "theorems": [
    "SweepDesign.C157_shifts",
    "SweepDesign.C157_same_samples",
    "SweepDesign.C157_once",
    "SweepDesign.C157_witness"
   ],
   "note": "Class Relation with the default functions on axes, real samples; overflow and subnormal numbers are not modelled. The quotient is an entry that is not finite, which the model reports as an error kind of its own."
  },
  {
   "property": "C158",
   "status": "proved",
   "theorems": [
    "SweepDesign.C158_image",
    "SweepDesign.C158_real",
    "SweepDesign.C158_conjugate",
    "SweepDesign.C158_zero_step",
    "SweepDesign.C158_constant",
    "SweepDesign.C158_factor",
    "SweepDesign.C158_tone"
   ],
   "note": "Exact arithmetic; that scipy computes a two-sided spectrum for complex input without doubling is written down from scipy, which is not in the repository."
  },
  {
   "property": "C159",
   "status": "proved",
   "theorems": [
    "SweepDesign.C159_diff",
    "SweepDesign.C159_integrate",
    "SweepDesign.C159_integrate_alias",
    "SweepDesign.C159_back",
    "SweepDesign.C159_norm",
    "SweepDesign.C159_norm_periods",
    "SweepDesign.C159_norm_alias",
    "SweepDesign.C159_between",
    "SweepDesign.C159_tutorial"
   ],
   "note": "Class Relation with the default functions, exact arithmetic."
  },
  {
   "property": "C160",
   "status": "proved",
   "theorems": [
    "SweepDesign.C160_kernel",
    "SweepDesign.C160_spectrum",
    "SweepDesign.C160_amplitude",
    "SweepDesign.C160_leak",
    "SweepDesign.C160_tutorial"
   ],
   "note": "Class Signal without cached spectrum, default functions, exact arithmetic; the transform is the exact discrete Fourier sum."
  },
  {
   "property": "C161",
   "status": "proved",
   "theorems": [
    "SweepDesign.C161_spectrum",
    "SweepDesign.C161_convolve",
    "SweepDesign.C161_correlate",
    "SweepDesign.C161_tutorial"
   ],
   "note": "Class Relation (spectra: class Signal without cached spectrum) with the default functions, real samples, exact arithmetic; both operands have the same sample and whole numbers of samples."
  },
  {
   "property": "C162",
   "status": "proved",
   "theorems": [
    "SweepDesign.C162_energy"
   ],
   "note": "get_linear_sweep without taper on an axis that starts at 0 and has a whole number of steps; class Relation norm with the default functions, exact arithmetic; sin and pi of the primitives are the real ones."
  },
  {
   "property": "C163",
   "status": "proved",
   "theorems": [
    "SweepDesign.C163_lag_zero",
    "SweepDesign.C163_norm",
    "SweepDesign.C163_sum",
    "SweepDesign.C163_sweep"
   ],
   "note": "Class Relation with the default functions, real samples, exact arithmetic, axes of a whole number of positive steps; C163_sum on equal axes."
  },
  {
   "property": "C164",
   "status": "proved",
   "theorems": [
    "SweepDesign.C164_sizes",
    "SweepDesign.C164_conversion",
    "SweepDesign.C164_operation",
    "SweepDesign.C164_copies"
   ],
   "note": "Texts as lists of characters; types of operands enter as the text Python makes of them; copying as CPython does it (class and args). The link to the places that raise is by citation, for Relation also by Rel.make."
  },
  {
   "property": "C165",
   "status": "proved",
   "theorems": [
    "SweepDesign.C165_choice",
    "SweepDesign.C165_allowed"
   ],
   "note": "Final releases of three numbers; that numpy.typing exists from 1.20.0 on is a fact about numpy written into the model."
  },
  {
   "property": "C166",
   "status": "proved",
   "theorems": [
    "SweepDesign.C166_taper"
   ],
   "note": "Axis from 0 with a whole number of positive steps; sin and pi of the primitives are the real ones; exact arithmetic."
  },
  {
   "property": "C167",
   "status": "proved",
   "theorems": [
    "SweepDesign.C167_circular",
    "SweepDesign.C167_flat",
    "SweepDesign.C167_recipe"
   ],
   "note": "Signals without cached spectrum, default configuration, exact arithmetic and exact logarithm of the code length (C117 for floats); the samples of the code as real numbers."
  },
  {
   "property": "C168",
   "status": "proved",
   "theorems": [
    "SweepDesign.C168_norm",
    "SweepDesign.C168_alias"
   ],
   "note": "Axes of a whole number of positive steps, default functions, exact arithmetic."
  },
  {
   "property": "C169",
   "status": "proved",
   "theorems": [
    "SweepDesign.C169_comb"
   ],
   "note": "Signals without cached spectrum, default configuration, exact arithmetic."
  },
  {
   "property": "C170",
   "status": "proved",
   "theorems": [
    "SweepDesign.C170_one_oscillation",
    "SweepDesign.C170_smaller",
    "SweepDesign.C170_shuffle",
    "SweepDesign.C170_exists"
   ],
   "note": "Generators of the value layer in exact arithmetic; the shuffle is a parameter; the existence of the shuffle sweep assumes that the spectrogram function returns."
  },
  {
   "property": "C171",
   "status": "proved",
   "theorems": [
    "SweepDesign.C171_carrier",
    "SweepDesign.C171_sum",
    "SweepDesign.C171_arrays"
   ],
   "note": "Value layer, exact arithmetic; the sum is compared by axis and samples."
  }
 ]
}