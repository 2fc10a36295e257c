{
 "claims": [
  {
   "property": "C01",
   "status": "proved",
   "theorems": [
    "Acs.Props.C01_int_mvm_exact",
    "Acs.Props.C01_strict_uninit"
   ],
   "note": "gcc semantics of <<; under ISO C++17 alone the constructor already reads an uninitialised field"
  },
  {
   "property": "C02",
   "status": "proved",
   "theorems": [
    "Acs.Props.C02_bnn_mvm_exact"
   ],
   "note": ""
  },
  {
   "property": "C03",
   "status": "proved",
   "theorems": [
    "Acs.Props.C03_tnn_mvm_exact"
   ],
   "note": "gcc semantics of << for TNN_II to TNN_V"
  },
  {
   "property": "C04",
   "status": "proved",
   "theorems": [
    "Acs.Props.C04_mvm_effects"
   ],
   "note": ""
  },
  {
   "property": "C05",
   "status": "proved",
   "theorems": [
    "Acs.Props.C05_cells_are_last_write"
   ],
   "note": "digital and analog, arbitrary matrices"
  },
  {
   "property": "C06",
   "status": "proved",
   "theorems": [
    "Acs.Props.C06_refines_matrix_store"
   ],
   "note": "in mappings that keep row sums all calls have the same width"
  },
  {
   "property": "C07",
   "status": "proved",
   "theorems": [
    "Acs.Props.C07_matrix_argument_ignored"
   ],
   "note": ""
  },
  {
   "property": "C08",
   "status": "partial",
   "theorems": [
    "Acs.Props.C08_subblock_partial",
    "Acs.Props.C08_false_for_row_sums"
   ],
   "note": "false for fewer columns in the four mappings that keep row sums; proved otherwise"
  },
  {
   "property": "C09",
   "status": "partial",
   "theorems": [
    "Acs.Props.C09_rejected_partial",
    "Acs.Props.C09_served",
    "Acs.Props.C09_update",
    "Acs.Props.C09_false_null",
    "Acs.Props.C09_false_dims",
    "Acs.Props.C09_false_negative"
   ],
   "note": "proved for the C interface and cpy_mtrx_pb with M, N < 2^31; false for exe_mvm_pb and for negative dimensions on larger crossbars"
  },
  {
   "property": "C10",
   "status": "proved",
   "theorems": [
    "Acs.Props.C10_write_memory_safe",
    "Acs.Props.C10_mvm_memory_safe",
    "Acs.Props.C10_digital_write_total",
    "Acs.Props.C10_digital_calls_total",
    "Acs.Props.C10_ideal_calls_total"
   ],
   "note": "memory safety for all values, digital and analog; no fault at all for legal calls, digital and ideal analog (ideal converter)"
  },
  {
   "property": "C11",
   "status": "partial",
   "theorems": [
    "Acs.Props.C11_bad_weight_aborts_partial",
    "Acs.Props.C11_bad_input_aborts_partial",
    "Acs.Props.C11_false_for_weights",
    "Acs.Props.C11_false_for_inputs"
   ],
   "note": "false in the modes that do not look at the value; proved in all others"
  },
  {
   "property": "C12",
   "status": "proved",
   "theorems": [
    "Acs.Props.C12_slicing_lossless"
   ],
   "note": ""
  },
  {
   "property": "C13",
   "status": "proved",
   "theorems": [
    "Acs.Props.C13_mode_independent"
   ],
   "note": ""
  },
  {
   "property": "C14",
   "status": "partial",
   "theorems": [
    "Acs.Props.C14_weights_cut_partial",
    "Acs.Props.C14_computed",
    "Acs.Props.C14_exact_if",
    "Acs.Props.C14_false"
   ],
   "note": "false; what a digital multiplication computes from any weights and inputs is characterised modulo 2^32, with the exact cases"
  },
  {
   "property": "C15",
   "status": "proved",
   "theorems": [
    "Acs.Props.C15_current_is_nominal",
    "Acs.Props.C15_end_points",
    "Acs.Props.C15_current_in_range"
   ],
   "note": "all histories; exact arithmetic"
  },
  {
   "property": "C16",
   "status": "proved",
   "theorems": [
    "Acs.Props.C16_programmed_current",
    "Acs.Props.C16_current_nonneg",
    "Acs.Props.C16_write_local"
   ],
   "note": "all noise streams; the second array of BNN_III and BNN_IV is never programmed"
  },
  {
   "property": "C17",
   "status": "proved",
   "theorems": [
    "Acs.Props.C17_analog_int_exact"
   ],
   "note": "gcc semantics of << for I_OFFS_W_DIFF"
  },
  {
   "property": "C18",
   "status": "proved",
   "theorems": [
    "Acs.Props.C18_analog_bnn_exact"
   ],
   "note": ""
  },
  {
   "property": "C19",
   "status": "proved",
   "theorems": [
    "Acs.Props.C19_analog_tnn_exact"
   ],
   "note": ""
  },
  {
   "property": "C20",
   "status": "partial",
   "theorems": [
    "Acs.Props.C20_false",
    "Acs.Props.C20_bnn_tnn_partial",
    "Acs.Props.C20_int_partial"
   ],
   "note": "False as stated, in each of the 17 modes: C20_false gives, with IEEE rounding after every float and double operation, a 1x1 product with small integer device parameters that comes out wrong. Proved instead: if HRS and the step between states lie on a binary grid (step a power of two) and the sums stay below 2^24, every legal call sequence is exact in single precision. Missing: exactness for other parameters, which is false; C65, C69 and C70 bound the error there and give conditions for exactness, also for I_UINT_W_OFFS."
  },
  {
   "property": "C21",
   "status": "proved",
   "theorems": [
    "Acs.Props.C21_adc_monotone"
   ],
   "note": "under any monotone rounding"
  },
  {
   "property": "C22",
   "status": "proved",
   "theorems": [
    "Acs.Props.C22_adc_saturates",
    "Acs.Props.C22_adc_output_range"
   ],
   "note": ""
  },
  {
   "property": "C23",
   "status": "proved",
   "theorems": [
    "Acs.Props.C23_adc_half_step"
   ],
   "note": ""
  },
  {
   "property": "C24",
   "status": "proved",
   "theorems": [
    "Acs.Props.C24_sym_zero",
    "Acs.Props.C24_one_bit"
   ],
   "note": "resolution >= 2 as stated; C24_one_bit shows that resolution 1 divides by zero"
  },
  {
   "property": "C25",
   "status": "proved",
   "theorems": [
    "Acs.Props.C25_code_count"
   ],
   "note": ""
  },
  {
   "property": "C26",
   "status": "partial",
   "theorems": [
    "Acs.Props.C26_max_error_partial",
    "Acs.Props.C26_max_exact_partial",
    "Acs.Props.C26_in_range_error",
    "Acs.Props.C26_in_range_exact",
    "Acs.Props.C26_bound_false",
    "Acs.Props.C26_exact_false"
   ],
   "note": "bound proved except for TNN_IV and TNN_V with HRS != 0, exactness proved in the mappings whose scaled currents are integers; both are false otherwise"
  },
  {
   "property": "C27",
   "status": "partial",
   "theorems": [
    "Acs.Props.C27_currents_in_range_partial",
    "Acs.Props.C27_model_range",
    "Acs.Props.C27_false_tnn4",
    "Acs.Props.C27_false_tnn5"
   ],
   "note": "false for TNN_IV and TNN_V with HRS != 0, proved otherwise"
  },
  {
   "property": "C28",
   "status": "proved",
   "theorems": [
    "Acs.Props.C28_calibrated_range",
    "Acs.Props.C28_uncalibrated_conversion",
    "Acs.Props.C28_uncalibrated_mvm"
   ],
   "note": ""
  },
  {
   "property": "C29",
   "status": "proved",
   "theorems": [
    "Acs.Props.C29_converter_fits"
   ],
   "note": "all reachable states, also after exceptions"
  },
  {
   "property": "C30",
   "status": "proved",
   "theorems": [
    "Acs.Props.C30_counts",
    "Acs.Props.C30_consecutive",
    "Acs.Props.C30_all_traced",
    "Acs.Props.C30_no_software_refresh",
    "Acs.Props.C30_cell_reads"
   ],
   "note": "counters are natural numbers in the model"
  },
  {
   "property": "C31",
   "status": "partial",
   "theorems": [
    "Acs.Props.C31_cycles_partial",
    "Acs.Props.C31_minus_counts_writes_only",
    "Acs.Props.C31_false_for_minus"
   ],
   "note": "false for refreshes of the second array in BNN_V, TNN_IV, TNN_V and the other mappings that are not differential; proved otherwise"
  },
  {
   "property": "C32",
   "status": "proved",
   "theorems": [
    "Acs.Props.C32_factor_monotone",
    "Acs.Props.C32_factor_formula",
    "Acs.Props.C32_real_functions"
   ],
   "note": "any monotone rounding; real power and exponential functions"
  },
  {
   "property": "C33",
   "status": "partial",
   "theorems": [
    "Acs.Props.C33_disturbed_current_partial",
    "Acs.Props.C33_not_yet_disturbed",
    "Acs.Props.C33_hrs_cells",
    "Acs.Props.C33_cycles",
    "Acs.Props.C33_false_for_minus"
   ],
   "note": "second array is never disturbed in the mappings that are not differential; with c2c variation see C39, C54"
  },
  {
   "property": "C34",
   "status": "proved",
   "theorems": [
    "Acs.Props.C34_write_heals"
   ],
   "note": ""
  },
  {
   "property": "C35",
   "status": "proved",
   "theorems": [
    "Acs.Props.C35_refresh",
    "Acs.Props.C35_bound"
   ],
   "note": "exact arithmetic"
  },
  {
   "property": "C36",
   "status": "partial",
   "theorems": [
    "Acs.Props.C36_within_tolerance_partial",
    "Acs.Props.C36_band_or_programmed",
    "Acs.Props.C36_false_with_noise",
    "Acs.Props.C36_every_state_partial"
   ],
   "note": "false if programming varies in LRS, proved otherwise"
  },
  {
   "property": "C37",
   "status": "proved",
   "theorems": [
    "Acs.Props.C37_repeatable",
    "Acs.Props.C37_result_determined"
   ],
   "note": "Any mapping, converter, history, with or without parasitics; the same buffer contents give the same result and leave the same cells.  With profiling the repetition may fail in the histogram but cannot return another result."
  },
  {
   "property": "C38",
   "status": "proved",
   "theorems": [
    "Acs.Props.C38_c2c_removed"
   ],
   "note": "any rounding"
  },
  {
   "property": "C39",
   "status": "partial",
   "theorems": [
    "Acs.Props.C39_stored_currents_partial",
    "Acs.Props.C39_mvm_ignores_disturb",
    "Acs.Props.C39_false"
   ],
   "note": "false: the multiplication works on the originally programmed currents"
  },
  {
   "property": "C40",
   "status": "proved",
   "theorems": [
    "Acs.Props.C40_column_currents",
    "Acs.Props.C40_conducts"
   ],
   "note": "exact arithmetic; for crossbars whose solver is in sync with the programmed currents (C42) and blocks inside the solver arrays (C43)"
  },
  {
   "property": "C41",
   "status": "proved",
   "theorems": [
    "Acs.Props.C41_antitone",
    "Acs.Props.C41_bound",
    "Acs.Props.C41_limit"
   ],
   "note": "exact arithmetic; same conditions as C40"
  },
  {
   "property": "C42",
   "status": "partial",
   "theorems": [
    "Acs.Props.C42_programmed_conductances_partial",
    "Acs.Props.C42_updates_ignored",
    "Acs.Props.C42_false_slices",
    "Acs.Props.C42_false_disturb",
    "Acs.Props.C42_false_variation"
   ],
   "note": "proved after a write and during multiplications without read disturb and variation; false after read-disturb updates, for cycle-to-cycle variation and for cell rows beyond M"
  },
  {
   "property": "C43",
   "status": "partial",
   "theorems": [
    "Acs.Props.C43_write_safe_partial",
    "Acs.Props.C43_mvm_safe_partial",
    "Acs.Props.C43_false_write",
    "Acs.Props.C43_false_write_lines",
    "Acs.Props.C43_false_mvm",
    "Acs.Props.C43_false_mvm_unwritten",
    "Acs.Props.C43_false_mvm_rows",
    "Acs.Props.C43_false_mvm_taps",
    "Acs.Props.C43_false_refresh"
   ],
   "note": "proved where word lines and returned currents fit; false with two word lines per input and more than N/2 columns, with several currents per row, for more rows than the latest write, before the first write and at software refreshes of two-line mappings"
  },
  {
   "property": "C44",
   "status": "partial",
   "theorems": [
    "Acs.Props.C44_constraints_partial",
    "Acs.Props.C44_loaded_partial",
    "Acs.Props.C44_updated_partial",
    "Acs.Props.C44_false_resolution",
    "Acs.Props.C44_false_disturb"
   ],
   "note": "the positive resolution and the mapping family for read disturb in digital configurations are not enforced; the rest is proved"
  },
  {
   "property": "C45",
   "status": "proved",
   "theorems": [
    "Acs.Props.C45_rebuild_iff_structural",
    "Acs.Props.C45_keys_complete"
   ],
   "note": ""
  },
  {
   "property": "C46",
   "status": "partial",
   "theorems": [
    "Acs.Props.C46_effective_partial",
    "Acs.Props.C46_false_disturb",
    "Acs.Props.C46_false_profile",
    "Acs.Props.C46_false_accepted",
    "Acs.Props.C46_digital_partial",
    "Acs.Props.C46_behaves_partial"
   ],
   "note": "false for read_disturb, adc_profile and acceptance of the file; proved for all other parameters; crossbars from the same file answer all calls alike: digital files always, analog files from the same generator position and profile, with equal adc_profile when the converter is ideal"
  },
  {
   "property": "C47",
   "status": "partial",
   "theorems": [
    "Acs.Props.C47_matches_partial",
    "Acs.Props.C47_false"
   ],
   "note": "proved for all states reached without exceptions; false after an exception in update_config"
  },
  {
   "property": "C48",
   "status": "partial",
   "theorems": [
    "Acs.Props.C48_rebuilt_partial",
    "Acs.Props.C48_ignored",
    "Acs.Props.C48_false_stale",
    "Acs.Props.C48_false_null"
   ],
   "note": "false: w_res has no effect on an existing crossbar and can lead to a null dereference"
  },
  {
   "property": "C49",
   "status": "partial",
   "theorems": [
    "Acs.Props.C49_update_samples",
    "Acs.Props.C49_update_counts",
    "Acs.Props.C49_mvm_samples",
    "Acs.Props.C49_session_samples",
    "Acs.Props.C49_in_bounds_partial",
    "Acs.Props.C49_false_top",
    "Acs.Props.C49_false_mvm",
    "Acs.Props.C49_false_reconfigured"
   ],
   "note": "one count per conversion: proved for all sessions; in bounds: proved for values at least one bin width below the upper end of the range, false at the upper end for every profiling mapping"
  },
  {
   "property": "C50",
   "status": "partial",
   "theorems": [
    "Acs.Props.C50_label_partial",
    "Acs.Props.C50_false_all",
    "Acs.Props.C50_false"
   ],
   "note": "the label is the upper end of the bin: within one bin width (exact arithmetic); false within half a bin width"
  },
  {
   "property": "C51",
   "status": "proved",
   "theorems": [
    "Acs.Props.C51_mvm_exact",
    "Acs.Props.C51_mvm_returns",
    "Acs.Props.C51_overflow",
    "Acs.Props.C51_mvm_forwards",
    "Acs.Props.C51_mvm_faults",
    "Acs.Props.C51_noops",
    "Acs.Props.C51_others_forward",
    "Acs.Props.C51_warns_once"
   ],
   "note": "exact whenever it returns; returns when index, products and partial sums fit into int32_t (C51_overflow: otherwise undefined). The return code of a callback is dropped. There is no set_config in this library"
  },
  {
   "property": "C52",
   "status": "proved",
   "theorems": [
    "Acs.Props.C52_convert",
    "Acs.Props.C52_convert_unique",
    "Acs.Props.C52_convert_total",
    "Acs.Props.C52_slice",
    "Acs.Props.C52_slice_fails",
    "Acs.Props.C52_profile"
   ],
   "note": "interleavings of reads and writes of all elements"
  },
  {
   "property": "C53",
   "status": "partial",
   "theorems": [
    "Acs.Props.C53_release_partial",
    "Acs.Props.C53_false"
   ],
   "note": "false for binary and ternary mappings; proved for integer mappings and without verbose"
  },
  {
   "property": "C54",
   "status": "partial",
   "theorems": [
    "Acs.Props.C54_unchanged_partial",
    "Acs.Props.C54_due",
    "Acs.Props.C54_zero_unusable",
    "Acs.Props.C54_false_with_c2c",
    "Acs.Props.C54_false_frequency"
   ],
   "note": "false with c2c variation and for the frequency 0, which is accepted"
  },
  {
   "property": "C55",
   "status": "proved",
   "theorems": [
    "Acs.Props.C55_superposition"
   ],
   "note": ""
  },
  {
   "property": "C56",
   "status": "proved",
   "theorems": [
    "Acs.Props.C56_names",
    "Acs.Props.C56_injective",
    "Acs.Props.C56_family",
    "Acs.Props.C56_loaded"
   ],
   "note": ""
  },
  {
   "property": "C57",
   "status": "proved",
   "theorems": [
    "Acs.Props.C57_session_exact",
    "Acs.Props.C57_session_write"
   ],
   "note": ""
  },
  {
   "property": "C58",
   "status": "proved",
   "theorems": [
    "Acs.Props.C58_session_is_run",
    "Acs.Props.C58_boot"
   ],
   "note": ""
  },
  {
   "property": "C59",
   "status": "partial",
   "theorems": [
    "Acs.Props.C59_report",
    "Acs.Props.C59_variance_partial",
    "Acs.Props.C59_false_variance",
    "Acs.Props.C59_all_layers"
   ],
   "note": "samples, bins and mean proved in exact arithmetic; variance proved for integer labels and false otherwise"
  },
  {
   "property": "C60",
   "status": "proved",
   "theorems": [
    "Acs.Props.C60_transparent"
   ],
   "note": ""
  },
  {
   "property": "C61",
   "status": "proved",
   "theorems": [
    "Acs.Props.C61_libraries_agree"
   ],
   "note": ""
  },
  {
   "property": "C62",
   "status": "proved",
   "theorems": [
    "Acs.Props.C62_deviating_cells",
    "Acs.Props.C62_deviating_cells_total",
    "Acs.Props.C62_bounded_variation",
    "Acs.Props.C62_gain_attained",
    "Acs.Props.C62_not_rounded"
   ],
   "note": "BNN and TNN mappings with an ideal converter, in exact arithmetic. C62_not_rounded shows that the unit per truncation cannot be replaced by rounding."
  },
  {
   "property": "C63",
   "status": "proved",
   "theorems": [
    "Acs.Props.C63_configuration_keeps",
    "Acs.Props.C63_write_keeps",
    "Acs.Props.C63_multiplication_counts",
    "Acs.Props.C63_session_counts"
   ],
   "note": ""
  },
  {
   "property": "C64",
   "status": "proved",
   "theorems": [
    "Acs.Props.C64_cell_based",
    "Acs.Props.C64_software",
    "Acs.Props.C64_unmitigated"
   ],
   "note": "exact arithmetic, BNN and TNN mappings with an ideal converter; about calls that return, since the model stops where the transition time is not finite"
  },
  {
   "property": "C65",
   "status": "proved",
   "theorems": [
    "Acs.Props.C65_deviating_cells",
    "Acs.Props.C65_deviating_cells_total",
    "Acs.Props.C65_bounded_variation",
    "Acs.Props.C65_exact",
    "Acs.Props.C65_ieee",
    "Acs.Props.C65_single_precision",
    "Acs.Props.C65_window_matters"
   ],
   "note": "BNN and TNN mappings with an ideal converter and no read disturb in the total statements. Overflow of binary32 is not modelled; the window is restricted to 2^-80..2^80, which keeps all intermediate numbers far below it. C65_window_matters shows that the condition on the window cannot be dropped in the mappings that add currents before removing the offset."
  },
  {
   "property": "C66",
   "status": "proved",
   "theorems": [
    "Acs.Props.C66_interface_transparent",
    "Acs.Props.C66_interface_faults",
    "Acs.Props.C66_digital",
    "Acs.Props.C66_ideal",
    "Acs.Props.C66_variation",
    "Acs.Props.C66_rounding",
    "Acs.Props.C66_single_precision"
   ],
   "note": "For binary and ternary mappings the sanity conditions on the configuration follow from its acceptance; for integer mappings CfgOk is a hypothesis because the parser does not check SPLIT against W_BIT. Variation and rounding bounds are for BNN and TNN with an ideal converter and no read disturb."
  },
  {
   "property": "C67",
   "status": "proved",
   "theorems": [
    "Acs.Props.C67_deviating_cells",
    "Acs.Props.C67_absorbed",
    "Acs.Props.C67_deviating_cells_total",
    "Acs.Props.C67_bounded_variation",
    "Acs.Props.C67_variation_absorbed",
    "Acs.Props.C67_max_converts",
    "Acs.Props.C67_bound_nominal",
    "Acs.Props.C67_interface",
    "Acs.Props.C67_half_sharp"
   ],
   "note": "exact arithmetic, BNN and TNN mappings, no profiling and no parasitics; integer mappings never add programming noise. C67_max_converts discharges the range hypothesis for MAX calibration."
  },
  {
   "property": "C68",
   "status": "proved",
   "theorems": [
    "Acs.Props.C68_cell_based",
    "Acs.Props.C68_software",
    "Acs.Props.C68_unmitigated"
   ],
   "note": "exact arithmetic; about calls that return, since the model stops where the transition time is not finite"
  },
  {
   "property": "C69",
   "status": "proved",
   "theorems": [
    "Acs.Props.C69_deviating_cells",
    "Acs.Props.C69_deviating_cells_total",
    "Acs.Props.C69_bounded_variation",
    "Acs.Props.C69_max_converts",
    "Acs.Props.C69_exact",
    "Acs.Props.C69_interface",
    "Acs.Props.C69_single_precision"
   ],
   "note": "BNN and TNN mappings, no profiling and no parasitics; C69_deviating_cells also covers states after read disturb, the sequences do not. Assumes round-to-nearest without overflow."
  },
  {
   "property": "C70",
   "status": "proved",
   "theorems": [
    "Acs.Props.C70_session",
    "Acs.Props.C70_exact",
    "Acs.Props.C70_interface",
    "Acs.Props.C70_ieee",
    "Acs.Props.C70_single_precision"
   ],
   "note": "Crossbars without variation (the integer mappings have no programming noise), profiling and parasitics. I_OFFS_W_DIFF needs gcc semantics of left shifts. Assumes round-to-nearest without overflow."
  },
  {
   "property": "C71",
   "status": "proved",
   "theorems": [
    "Acs.Props.C71_states",
    "Acs.Props.C71_weights",
    "Acs.Props.C71_currents",
    "Acs.Props.C71_nominal",
    "Acs.Props.C71_cell_counters",
    "Acs.Props.C71_operations",
    "Acs.Props.C71_refreshes",
    "Acs.Props.C71_size",
    "Acs.Props.C71_unloaded",
    "Acs.Props.C71_without_disturb",
    "Acs.Props.C71_illegal_state"
   ],
   "note": "Legality of the weights is needed: C71_illegal_state shows a state of -1 that Python sees as 4294967295. A getter returns the contents at the time of the call; the lifetime of the C pointer is not modelled."
  },
  {
   "property": "C72",
   "status": "proved",
   "theorems": [
    "Acs.Props.C72_new",
    "Acs.Props.C72_new_top",
    "Acs.Props.C72_update",
    "Acs.Props.C72_report",
    "Acs.Props.C72_order",
    "Acs.Props.C72_empty",
    "Acs.Props.C72_single_precision"
   ],
   "note": "The parallel reductions are modelled in index order."
  },
  {
   "property": "C73",
   "status": "proved",
   "theorems": [
    "Acs.Props.C73_refresh_counter",
    "Acs.Props.C73_balance",
    "Acs.Props.C73_multiplication",
    "Acs.Props.C73_write",
    "Acs.Props.C73_never",
    "Acs.Props.C73_first_array_only"
   ],
   "note": "In mappings that are not differential the code does not count refreshes of the second array, neither per cell nor in total (see C31); the statement says so."
  },
  {
   "property": "C74",
   "status": "proved",
   "theorems": [
    "Acs.Props.C74_cell_based",
    "Acs.Props.C74_software",
    "Acs.Props.C74_unmitigated",
    "Acs.Props.C74_cell_based_converter",
    "Acs.Props.C74_software_converter",
    "Acs.Props.C74_unmitigated_converter",
    "Acs.Props.C74_unread_worn_cell",
    "Acs.Props.C74_false_when_worn"
   ],
   "note": "Exact arithmetic, no cycle-to-cycle variation, no parasitics. The power function is any one with the monotonicity of RdArith; the condition on worn-out cells is AllSpared."
  },
  {
   "property": "C75",
   "status": "proved",
   "theorems": [
    "Acs.Props.C75_bounded",
    "Acs.Props.C75_absorbed",
    "Acs.Props.C75_disturbed",
    "Acs.Props.C75_write",
    "Acs.Props.C75_session",
    "Acs.Props.C75_session_disturbed",
    "Acs.Props.C75_interface",
    "Acs.Props.C75_wires_matter"
   ],
   "note": "Exact arithmetic. Wires are the series-parallel reduction of parasitics.cpp. Nominal currents have to be inside the range of the converter."
  },
  {
   "property": "C76",
   "status": "proved",
   "theorems": [
    "Acs.Props.C76_loaded",
    "Acs.Props.C76_in_use",
    "Acs.Props.C76_needs_no_exception"
   ],
   "note": "Parameters without a meaning (e.g. analog ones of a digital configuration) keep old values, see C46. After a file that is no JSON, whose exception the caller survives, the document is gone while the configuration stays (C76_needs_no_exception)."
  },
  {
   "property": "C77",
   "status": "proved",
   "theorems": [
    "Acs.Props.C77_accepted",
    "Acs.Props.C77_accepted_first",
    "Acs.Props.C77_refused"
   ],
   "note": "About load_cfg; the constructor of the crossbar can still fail afterwards (C81). A fraction outside the range of its integer type is undefined behaviour and counts as refused."
  },
  {
   "property": "C78",
   "status": "partial",
   "theorems": [
    "Acs.Props.C78_read_partial",
    "Acs.Props.C78_read_offset_partial",
    "Acs.Props.C78_agree_partial",
    "Acs.Props.C78_two_complement",
    "Acs.Props.C78_fitting",
    "Acs.Props.C78_false"
   ],
   "note": "false; what both paths compute is characterised for all inputs, and they agree where both use the same number (always in I_TC_W_DIFF)"
  },
  {
   "property": "C79",
   "status": "partial",
   "theorems": [
    "Acs.Props.C79_takes_effect_partial",
    "Acs.Props.C79_as_loaded_partial",
    "Acs.Props.C79_merged",
    "Acs.Props.C79_double",
    "Acs.Props.C79_false"
   ],
   "note": "Proved: the parameters after the update are those of the merged document, which always exists, and agree with those of a process that loads it, for values whose comparison needs no narrowing conversion (IEEE doubles qualify). Missing: the full statement, which is false: C79_false shows an inadmissible read voltage that is accepted and ignored because it compares equal to -1."
  },
  {
   "property": "C80",
   "status": "partial",
   "theorems": [
    "Acs.Props.C80_short_partial",
    "Acs.Props.C80_kept",
    "Acs.Props.C80_multiples",
    "Acs.Props.C80_long",
    "Acs.Props.C80_false"
   ],
   "note": "False. Proved: what digital multiplications compute with slices of at most W_BIT bits together (the weights without their lowest bits), when that is exact, and that slices of more bits make every write of a non-empty matrix fail (digital and analog)."
  },
  {
   "property": "C81",
   "status": "proved",
   "theorems": [
    "Acs.Props.C81_built",
    "Acs.Props.C81_throws",
    "Acs.Props.C81_matching",
    "Acs.Props.C81_offset",
    "Acs.Props.C81_decay",
    "Acs.Props.C81_set_config",
    "Acs.Props.C81_boot",
    "Acs.Props.C81_exception",
    "Acs.Props.C81_not_all"
   ],
   "note": "With the wrap-around reading of shifts (env.strict = false) and the ISO reading; under the latter digital sliced mappings also read an uninitialised current."
  },
  {
   "property": "C82",
   "status": "proved",
   "theorems": [
    "Acs.Props.C82_update",
    "Acs.Props.C82_patched",
    "Acs.Props.C82_editable",
    "Acs.Props.C82_exception"
   ],
   "note": "What is returned and which state results is C45 and C79."
  },
  {
   "property": "C83",
   "status": "partial",
   "theorems": [
    "Acs.Props.C83_zero_partial",
    "Acs.Props.C83_mvm_partial",
    "Acs.Props.C83_int_erases",
    "Acs.Props.C83_int_blind",
    "Acs.Props.C83_int_exits",
    "Acs.Props.C83_false_int",
    "Acs.Props.C83_false_disturb"
   ],
   "note": "False as stated. Proved for binary and ternary mappings without read disturb; refuted for each integer mapping and with read disturb."
  },
  {
   "property": "C84",
   "status": "partial",
   "theorems": [
    "Acs.Props.C84_nominal_partial",
    "Acs.Props.C84_ignored",
    "Acs.Props.C84_false"
   ],
   "note": "False as stated: the switch has no effect (C84_ignored). Proved for cells whose state has deviation zero."
  },
  {
   "property": "C85",
   "status": "proved",
   "theorems": [
    "Acs.Props.C85_new_process",
    "Acs.Props.C85_digital_accepted",
    "Acs.Props.C85_analog_accepted",
    "Acs.Props.C85_config_json",
    "Acs.Props.C85_digital",
    "Acs.Props.C85_sharp",
    "Acs.Props.C85_integer",
    "Acs.Props.C85_integer_exact",
    "Acs.Props.C85_exact_iff",
    "Acs.Props.C85_ternary_errors"
   ],
   "note": "The documents are transcribed in SpecShipped. digital/TNN_V_split.json names TNN_IV, so it is the TNN_IV document; the document for TNN_V is what the file presumably should say. The errors of TNN_IV and TNN_V with analog files are bounded in C88."
  },
  {
   "property": "C86",
   "status": "proved",
   "theorems": [
    "Acs.Props.C86_bounded",
    "Acs.Props.C86_write",
    "Acs.Props.C86_session",
    "Acs.Props.C86_interface",
    "Acs.Props.C86_wires_matter"
   ],
   "note": "The slices of a write must fit into the first M rows, because set_conductance of the code reads only those. I_TC is excluded: it cannot be combined with parasitics (C81). Cycle-to-cycle variation and read disturb are off."
  },
  {
   "property": "C87",
   "status": "proved",
   "theorems": [
    "Acs.Props.C87_program",
    "Acs.Props.C87_reload",
    "Acs.Props.C87_boot",
    "Acs.Props.C87_unique"
   ],
   "note": "The configurations must be usable: digital, or analog with ideal cells and wires in exact arithmetic and any converter; integer mappings need slices that match W_BIT. Signed left shifts behave as with gcc. Updates that keep the crossbar are covered for digital configurations only. Getters are not part of the programs."
  },
  {
   "property": "C88",
   "status": "proved",
   "theorems": [
    "Acs.Props.C88_saturates",
    "Acs.Props.C88_total",
    "Acs.Props.C88_variation",
    "Acs.Props.C88_interface",
    "Acs.Props.C88_max_exceeds",
    "Acs.Props.C88_in_range",
    "Acs.Props.C88_rounded",
    "Acs.Props.C88_rounded_variation",
    "Acs.Props.C88_rounded_exact",
    "Acs.Props.C88_shipped",
    "Acs.Props.C88_shipped_exact",
    "Acs.Props.C88_overshoot_attained",
    "Acs.Props.C88_saturation_matters"
   ],
   "note": "One excess is used for all conversions of a multiplication. With read disturb the bound holds for the calls that return, in terms of the cells they find. Integer mappings are in C70."
  },
  {
   "property": "C89",
   "status": "proved",
   "theorems": [
    "Acs.Props.C89_flag",
    "Acs.Props.C89_getter",
    "Acs.Props.C89_getter_exits",
    "Acs.Props.C89_digital",
    "Acs.Props.C89_upward",
    "Acs.Props.C89_from_calls",
    "Acs.Props.C89_no_current",
    "Acs.Props.C89_limit",
    "Acs.Props.C89_limit_rounded"
   ],
   "note": "The counters are natural numbers (no wrap-around). The second array of BNN_V holds cells in LRS that are never asked about."
  },
  {
   "property": "C90",
   "status": "proved",
   "theorems": [
    "Acs.Props.C90_accepted",
    "Acs.Props.C90_unmitigated",
    "Acs.Props.C90_boundaries",
    "Acs.Props.C90_software",
    "Acs.Props.C90_cell_based",
    "Acs.Props.C90_more_cycles"
   ],
   "note": "Over the real numbers, without rounding; rounded versions of the limits are in C89. The golden model of helper/rd_model.py is transcribed in SpecRdTest. The counters are natural numbers (no wrap-around)."
  },
  {
   "property": "C91",
   "status": "proved",
   "theorems": [
    "Acs.Props.C91_nearest",
    "Acs.Props.C91_monotone",
    "Acs.Props.C91_accuracy",
    "Acs.Props.C91_reads",
    "Acs.Props.C91_session",
    "Acs.Props.C91_interface"
   ],
   "note": "The list of currents and factors of a mapping is the spec function conversions, the combination is rowResult. Without variation, wires, read disturb and profiling. I_OFFS shifts a signed number to the left, as gcc does."
  },
  {
   "property": "C92",
   "status": "proved",
   "theorems": [
    "Acs.Props.C92_rounding",
    "Acs.Props.C92_session",
    "Acs.Props.C92_offset_whole",
    "Acs.Props.C92_offset",
    "Acs.Props.C92_offset_unit",
    "Acs.Props.C92_accepted",
    "Acs.Props.C92_tests"
   ],
   "note": "In exact arithmetic and without variation, as in the files of the tests. C92_offset_unit is a concrete configuration on which I_UINT_W_OFFS misses the assertion. I_OFFS shifts a signed number to the left, as gcc does."
  },
  {
   "property": "C93",
   "status": "proved",
   "theorems": [
    "Acs.Props.C93_replies",
    "Acs.Props.C93_unique",
    "Acs.Props.C93_returns",
    "Acs.Props.C93_resumes"
   ],
   "note": "A callback does not call back into the library. A program returns if its callbacks do and the emulated multiplications fit into int32_t."
  },
  {
   "property": "C94",
   "status": "proved",
   "theorems": [
    "Acs.Props.C94_signs",
    "Acs.Props.C94_signs_false",
    "Acs.Props.C94_hrs",
    "Acs.Props.C94_hrs_false",
    "Acs.Props.C94_lrs",
    "Acs.Props.C94_room",
    "Acs.Props.C94_verbose"
   ],
   "note": "Exact arithmetic, no read disturb; the claims on updates without noise and cycle-to-cycle variation. C94_signs_false: the bound on the samples is sharp. C94_hrs_false: the unconditional assertion of the update test fails for a crossbar full of ones."
  },
  {
   "property": "C95",
   "status": "proved",
   "theorems": [
    "Acs.Props.C95_accepted",
    "Acs.Props.C95_tc",
    "Acs.Props.C95_sharp",
    "Acs.Props.C95_columns",
    "Acs.Props.C95_int",
    "Acs.Props.C95_false"
   ],
   "note": "Exact arithmetic. Buffers hold numbers up to 2^20. C95_false: with 16 columns and the values of the tests BNN_I returns 15 instead of 16. TNN_IV and TNN_V are left out because the range of their converters is too small (C88). The tests of the integer mappings have exact results for their matrices, which the bound does not show."
  },
  {
   "property": "C96",
   "status": "proved",
   "theorems": [
    "Acs.Props.C96_one",
    "Acs.Props.C96_depends",
    "Acs.Props.C96_true",
    "Acs.Props.C96_false",
    "Acs.Props.C96_values",
    "Acs.Props.C96_missing",
    "Acs.Props.C96_text",
    "Acs.Props.C96_empty",
    "Acs.Props.C96_boot",
    "Acs.Props.C96_reset",
    "Acs.Props.C96_void",
    "Acs.Props.C96_tests"
   ],
   "note": "Files do not change during a call. C96_void is about the C interface, whose calls check the dimensions."
  },
  {
   "property": "C97",
   "status": "proved",
   "theorems": [
    "Acs.Props.C97_entries",
    "Acs.Props.C97_unknown",
    "Acs.Props.C97_plain",
    "Acs.Props.C97_file",
    "Acs.Props.C97_reload",
    "Acs.Props.C97_needs_resolution"
   ],
   "note": "For states in which a file has been loaded and no exception was caught. C97_needs_resolution: with a resolution of -1, which is accepted (C46), every update ends the program."
  },
  {
   "property": "C98",
   "status": "proved",
   "theorems": [
    "Acs.Props.C98_states",
    "Acs.Props.C98_currents",
    "Acs.Props.C98_counts",
    "Acs.Props.C98_test_gd",
    "Acs.Props.C98_pairs",
    "Acs.Props.C98_test_ia"
   ],
   "note": "C98_test_ia: IEEE single precision. The digital test needs gcc shifts where the mapping shifts signed numbers."
  },
  {
   "property": "C99",
   "status": "proved",
   "theorems": [
    "Acs.Props.C99_write",
    "Acs.Props.C99_rejected",
    "Acs.Props.C99_lost",
    "Acs.Props.C99_mvm"
   ],
   "note": "C99_mvm: gcc shifts where the mapping shifts signed numbers."
  },
  {
   "property": "C100",
   "status": "proved",
   "theorems": [
    "Acs.Props.C100_computed",
    "Acs.Props.C100_computed_tnn5",
    "Acs.Props.C100_weights",
    "Acs.Props.C100_inputs",
    "Acs.Props.C100_checked",
    "Acs.Props.C100_exact"
   ],
   "note": "Digital crossbars."
  },
  {
   "property": "C101",
   "status": "proved",
   "theorems": [
    "Acs.Props.C101_write",
    "Acs.Props.C101_lost",
    "Acs.Props.C101_digital"
   ],
   "note": "Integer mappings: exact arithmetic and no empty slice."
  },
  {
   "property": "C102",
   "status": "proved",
   "theorems": [
    "Acs.Props.C102_write",
    "Acs.Props.C102_mvm",
    "Acs.Props.C102_history",
    "Acs.Props.C102_fixed",
    "Acs.Props.C102_ideal_bnn",
    "Acs.Props.C102_ideal_tnn"
   ],
   "note": "The number seen may lie just outside int32 (-2147483648 in BNN_I and BNN_III is seen as -2147483649); calls with it are calls of the model."
  },
  {
   "property": "C103",
   "status": "partial",
   "theorems": [
    "Acs.Props.C103_write_partial",
    "Acs.Props.C103_mvm_partial",
    "Acs.Props.C103_write_any_partial",
    "Acs.Props.C103_mvm_any_partial",
    "Acs.Props.C103_layout",
    "Acs.Props.C103_converted",
    "Acs.Props.C103_lost",
    "Acs.Props.C103_witness",
    "Acs.Props.C103_false_matrix",
    "Acs.Props.C103_false_vector",
    "Acs.Props.C103_false_type"
   ],
   "note": "False as stated: int32 arrays are read in memory order whatever their strides (a transposed matrix is stored untransposed, every second element of a vector is read as consecutive elements), and results for an array of another type are lost. Proved for operands of int32 stored row by row or of other types and not transposed, and results of int32: on a digital crossbar with exact results, on any crossbar as equality with the call on the elements shown (C103_write_any_partial, C103_mvm_any_partial). C103_layout and C103_converted show that these layouts are necessary."
  },
  {
   "property": "C104",
   "status": "proved",
   "theorems": [
    "Acs.Props.C104_reads",
    "Acs.Props.C104_mvm"
   ],
   "note": "In mappings that do not look at their inputs, sufficiency is stated for inputs of the alphabet (C102 for the others)."
  },
  {
   "property": "C105",
   "status": "proved",
   "theorems": [
    "Acs.Props.C105_write",
    "Acs.Props.C105_mvm",
    "Acs.Props.C105_mvm_python"
   ],
   "note": "Dimensions below 2^31."
  },
  {
   "property": "C106",
   "status": "proved",
   "theorems": [
    "Acs.Props.C106_replies",
    "Acs.Props.C106_cells",
    "Acs.Props.C106_exact",
    "Acs.Props.C106_wide",
    "Acs.Props.C106_normal"
   ],
   "note": "Profiling of the converter is excluded: its bins have a fixed size. C106_wide is about rounding with unbounded exponents, with which float agrees in its normal range (C106_normal)."
  },
  {
   "property": "C107",
   "status": "proved",
   "theorems": [
    "Acs.Props.C107_rows",
    "Acs.Props.C107_one_sided",
    "Acs.Props.C107_cell_refresh"
   ],
   "note": "C107_one_sided and C107_cell_refresh are the counterexamples with noise on one of the two states only and with noisy refreshes of single cells."
  },
  {
   "property": "C108",
   "status": "proved",
   "theorems": [
    "Acs.Props.C108_equal_rows",
    "Acs.Props.C108_c2c",
    "Acs.Props.C108_noise",
    "Acs.Props.C108_reads"
   ],
   "note": "C108_c2c, C108_noise and C108_reads show that the settings excluded by EvenCells do tell equal rows apart."
  },
  {
   "property": "C109",
   "status": "proved",
   "theorems": [
    "Acs.Props.C109_order",
    "Acs.Props.C109_session",
    "Acs.Props.C109_interface",
    "Acs.Props.C109_largest",
    "Acs.Props.C109_others",
    "Acs.Props.C109_iff"
   ],
   "note": "C109_order is for any ordered field, C109_iff states both directions over the rationals; C109_others refutes the claim for each of the other mappings by a run of the model."
  },
  {
   "property": "C110",
   "status": "proved",
   "theorems": [
    "Acs.Props.C110_columns",
    "Acs.Props.C110_digital",
    "Acs.Props.C110_float_false"
   ],
   "note": "C110_float_false runs the model with IEEE single precision."
  },
  {
   "property": "C111",
   "status": "partial",
   "theorems": [
    "Acs.Props.C111_differential",
    "Acs.Props.C111_claim",
    "Acs.Props.C111_opposite_partial",
    "Acs.Props.C111_max_centred",
    "Acs.Props.C111_false"
   ],
   "note": "True without exception for the two differential integer mappings (C111_claim). False for BNN_VI and TNN_I (C111_false): a current halfway between two levels is read as the upper one for both signs. C111_opposite_partial proves the claim for currents that are not halfway."
  },
  {
   "property": "C112",
   "status": "proved",
   "theorems": [
    "Acs.Props.C112_digital",
    "Acs.Props.C112_interface",
    "Acs.Props.C112_analog",
    "Acs.Props.C112_adc"
   ],
   "note": "All 17 mappings."
  },
  {
   "property": "C113",
   "status": "proved",
   "theorems": [
    "Acs.Props.C113_place",
    "Acs.Props.C113_block",
    "Acs.Props.C113_digital"
   ],
   "note": "All 17 mappings."
  },
  {
   "property": "C114",
   "status": "partial",
   "theorems": [
    "Acs.Props.C114_padding_partial",
    "Acs.Props.C114_digital",
    "Acs.Props.C114_iff"
   ],
   "note": "False for I_OFFS_W_DIFF and TNN_III, which apply a voltage for the input zero (C114_iff says that these are the only ones); there C114_padding_partial needs zero weights in the added columns. Digital crossbars: true in every mapping."
  },
  {
   "property": "C115",
   "status": "partial",
   "theorems": [
    "Acs.Props.C115_flip_partial",
    "Acs.Props.C115_digital",
    "Acs.Props.C115_others",
    "Acs.Props.C115_iff"
   ],
   "note": "Analog: holds exactly for BNN_V, BNN_VI, TNN_I and (where only columns with the input zero can be changed) I_UINT_W_DIFF and I_UINT_W_OFFS; false for each of the other twelve mappings (C115_others). Digital: true in every mapping."
  },
  {
   "property": "C116",
   "status": "proved",
   "theorems": [
    "Acs.Props.C116_related"
   ],
   "note": "The numbers added to the result are the same up to the sign given by the pair; both crossbars may be in any state reached by calls."
  },
  {
   "property": "C117",
   "status": "partial",
   "theorems": [
    "Acs.Props.C117_mirror_partial",
    "Acs.Props.C117_digital",
    "Acs.Props.C117_never"
   ],
   "note": "Analog: proved for the eleven mappings that treat both cells of a weight alike, with a symmetric range and no current halfway between two levels; without these conditions false for each mapping (C117_never). Digital: true in every mapping."
  },
  {
   "property": "C118",
   "status": "partial",
   "theorems": [
    "Acs.Props.C118_widen_partial",
    "Acs.Props.C118_digital",
    "Acs.Props.C118_max_zero",
    "Acs.Props.C118_others",
    "Acs.Props.C118_iff"
   ],
   "note": "Analog: holds exactly for the mappings other than I_OFFS_W_DIFF and I_TC_W_DIFF, for which it is false (C118_others). Digital: true in every mapping."
  },
  {
   "property": "C119",
   "status": "partial",
   "theorems": [
    "Acs.Props.C119_thick_partial",
    "Acs.Props.C119_digital",
    "Acs.Props.C119_offset",
    "Acs.Props.C119_iff"
   ],
   "note": "Analog: holds exactly for the integer mappings other than I_UINT_W_OFFS, for which it is false (C119_offset). Digital: true in every integer mapping."
  },
  {
   "property": "C120",
   "status": "partial",
   "theorems": [
    "Acs.Props.C120_blank_partial",
    "Acs.Props.C120_digital",
    "Acs.Props.C120_others",
    "Acs.Props.C120_iff"
   ],
   "note": "Analog: holds exactly for the mappings with the weight zero other than I_UINT_W_OFFS, TNN_IV and TNN_V, for which it is false (C120_others). Digital: true in every mapping."
  }
 ]
}