{
 "claims": [
  {
   "property": "C01",
   "status": "proved",
   "theorems": [
    "QMix.Props.C01_round_trip",
    "QMix.Props.C01_set_succeeds"
   ],
   "note": "Real arithmetic. Success entails a recognised unit and non-negative power; C01_set_succeeds gives the converse."
  },
  {
   "property": "C02",
   "status": "proved",
   "theorems": [
    "QMix.Props.C02_units_consistent",
    "QMix.Props.C02_set_then_read"
   ],
   "note": "Real arithmetic."
  },
  {
   "property": "C03",
   "status": "proved",
   "theorems": [
    "QMix.Props.C03_frame_vt",
    "QMix.Props.C03_frame_freq",
    "QMix.Props.C03_frame_name",
    "QMix.Props.C03_out_of_range",
    "QMix.Props.C03_out_of_range_fp"
   ],
   "note": "A raising call returns no new state in the model; every exception precedes the single assignment."
  },
  {
   "property": "C04",
   "status": "proved",
   "theorems": [
    "QMix.Props.C04_divider"
   ],
   "note": ""
  },
  {
   "property": "C05",
   "status": "proved",
   "theorems": [
    "QMix.Props.C05_freq_units",
    "QMix.Props.C05_same_frequency",
    "QMix.Props.C05_photon_voltage",
    "QMix.Props.C05_norm",
    "QMix.Props.C05_unknown_unit",
    "QMix.Props.C05_constructor"
   ],
   "note": "Stated for gap voltage and frequency related by h/e, which the constructor establishes from one parameter."
  },
  {
   "property": "C06",
   "status": "partial",
   "theorems": [
    "QMix.Props.C06_norm_refused",
    "QMix.Props.C06_false",
    "QMix.Props.C06_norm_partial"
   ],
   "note": "False of the code (C06_false): the guard compares a method with a string. Proved when a gap parameter is given."
  },
  {
   "property": "C07",
   "status": "partial",
   "theorems": [
    "QMix.Props.C07_validates",
    "QMix.Props.C07_result",
    "QMix.Props.C07_gap_current_partial",
    "QMix.Props.C07_gap_current_false"
   ],
   "note": "Validation and result proved; the gap current is left unset when the gap is given as a frequency (C07_gap_current_false), and vgap with rn = 0 raises ZeroDivisionError."
  },
  {
   "property": "C08",
   "status": "proved",
   "theorems": [
    "QMix.Props.C08_locked_writes_raise",
    "QMix.Props.C08_locked_step",
    "QMix.Props.C08_locked_history",
    "QMix.Props.C08_lock_unlock_values",
    "QMix.Props.C08_unlock_restores"
   ],
   "note": "Histories of setters, direct writes, harmonic balance, lock and unlock."
  },
  {
   "property": "C09",
   "status": "proved",
   "theorems": [
    "QMix.Props.C09_read_back",
    "QMix.Props.C09_error"
   ],
   "note": "Character-level model of the file. Doubles are a sign and a magnitude in an arbitrary format with nearest rounding. Entries with index 0 are not saved and read back as zero."
  },
  {
   "property": "C10",
   "status": "proved",
   "theorems": [
    "QMix.Props.C10_idempotent"
   ],
   "note": "Any floating-point format with nearest rounding."
  },
  {
   "property": "C11",
   "status": "proved",
   "theorems": [
    "QMix.Props.C11_no_stray_access",
    "QMix.Props.C11_rejects"
   ],
   "note": "All reads and writes of the model go through the checked accessors; a valid request succeeds, an invalid one is refused by assertion."
  },
  {
   "property": "C12",
   "status": "proved",
   "theorems": [
    "QMix.Props.C12_matrix_layout"
   ],
   "note": ""
  },
  {
   "property": "C13",
   "status": "proved",
   "theorems": [
    "QMix.Props.C13_phase_factors"
   ],
   "note": "Convolution limited to the array size max(num_b), see C25."
  },
  {
   "property": "C14",
   "status": "proved",
   "theorems": [
    "QMix.Props.C14_mtsda"
   ],
   "note": "Real arithmetic; Bessel functions by their integral."
  },
  {
   "property": "C15",
   "status": "proved",
   "theorems": [
    "QMix.Props.C15_negative_frequency"
   ],
   "note": ""
  },
  {
   "property": "C16",
   "status": "proved",
   "theorems": [
    "QMix.Props.C16_dc_real"
   ],
   "note": ""
  },
  {
   "property": "C17",
   "status": "partial",
   "theorems": [
    "QMix.Props.C17_undriven_tone_partial",
    "QMix.Props.C17_false_for_larger_limit"
   ],
   "note": "Proved for num_p <= 2 or when the new limit is not the largest; false otherwise (C17_false_for_larger_limit)."
  },
  {
   "property": "C18",
   "status": "proved",
   "theorems": [
    "QMix.Props.C18_undriven_harmonic",
    "QMix.Props.C18_current"
   ],
   "note": "Coefficients for every index; current where no product of the new order falls on the frequency."
  },
  {
   "property": "C19",
   "status": "proved",
   "theorems": [
    "QMix.Props.C19_permute_tones"
   ],
   "note": ""
  },
  {
   "property": "C20",
   "status": "proved",
   "theorems": [
    "QMix.Props.C20_time_shift",
    "QMix.Props.C20_dc_phase_independent"
   ],
   "note": ""
  },
  {
   "property": "C21",
   "status": "proved",
   "theorems": [
    "QMix.Props.C21_no_drive",
    "QMix.Props.C21_initialize_vj"
   ],
   "note": ""
  },
  {
   "property": "C22",
   "status": "proved",
   "theorems": [
    "QMix.Props.C22_linear"
   ],
   "note": ""
  },
  {
   "property": "C23",
   "status": "proved",
   "theorems": [
    "QMix.Props.C23_list_is_scalars",
    "QMix.Props.C23_unmatched_zero"
   ],
   "note": "The list argument is a value in the model, so its preservation is by construction."
  },
  {
   "property": "C24",
   "status": "proved",
   "theorems": [
    "QMix.Props.C24_matrix_reuse",
    "QMix.Props.C24_smaller_matrix_wrong"
   ],
   "note": "Same or larger limits agree; smaller limits give a wrong current without error."
  },
  {
   "property": "C25",
   "status": "partial",
   "theorems": [
    "QMix.Props.C25_own_limit_partial",
    "QMix.Props.C25_extra_entries_partial",
    "QMix.Props.C25_false_for_three_harmonics"
   ],
   "note": "Proved for num_p <= 2 (coefficients) and for the current; false for num_p = 3 (C25_false_for_three_harmonics)."
  },
  {
   "property": "C26",
   "status": "proved",
   "theorems": [
    "QMix.Props.C26_dc",
    "QMix.Props.C26_ac",
    "QMix.Props.C26_ac_bound"
   ],
   "note": "Frequencies above 5e-5, below which qtcurrent cannot tell the tone from dc."
  },
  {
   "property": "C27",
   "status": "partial",
   "theorems": [
    "QMix.Props.C27_converged_partial",
    "QMix.Props.C27_last_signal",
    "QMix.Props.C27_false_with_nan"
   ],
   "note": "Proved when no signal has both a zero voltage and a zero residual; false otherwise (C27_false_with_nan): Python max lets a NaN in one signal hide the errors of the earlier ones. The last signal satisfies its equation without proviso. Real arithmetic; the exit reason is part of the modelled run."
  },
  {
   "property": "C28",
   "status": "partial",
   "theorems": [
    "QMix.Props.C28_flag_partial",
    "QMix.Props.C28_false_at_limit",
    "QMix.Props.C28_false_negative_limit",
    "QMix.Props.C28_negative_limit"
   ],
   "note": "False when the target is met in iteration max_it (C28_false_at_limit) and for negative max_it (C28_false_negative_limit); the remaining directions are proved."
  },
  {
   "property": "C29",
   "status": "proved",
   "theorems": [
    "QMix.Props.C29_iteration_count"
   ],
   "note": "A NaN in the last signal gives max_it + 1 updates, as the statement allows."
  },
  {
   "property": "C30",
   "status": "proved",
   "theorems": [
    "QMix.Props.C30_signal_numbering"
   ],
   "note": ""
  },
  {
   "property": "C31",
   "status": "partial",
   "theorems": [
    "QMix.Props.C31_zero_impedance_partial",
    "QMix.Props.C31_mode_ignored"
   ],
   "note": "The voltage and the untouched circuit are proved; the mode is ignored on this path (C31_mode_ignored)."
  },
  {
   "property": "C32",
   "status": "partial",
   "theorems": [
    "QMix.Props.C32_inputs_unchanged_partial",
    "QMix.Props.C32_false_circuit",
    "QMix.Props.C32_false_vj_initial"
   ],
   "note": "False for tiny Thevenin voltages (C32_false_circuit) and, with one tone or one harmonic, for vj_initial (C32_false_vj_initial); proved otherwise."
  },
  {
   "property": "C33",
   "status": "partial",
   "theorems": [
    "QMix.Props.C33_last_signal_partial",
    "QMix.Props.C33_false_other_signal",
    "QMix.Props.C33_mask"
   ],
   "note": "Proved for the last signal and for the mask of mode m; false for the other signals (C33_false_other_signal)."
  },
  {
   "property": "C34",
   "status": "partial",
   "theorems": [
    "QMix.Props.C34_accepted_partial",
    "QMix.Props.C34_converse_partial",
    "QMix.Props.C34_false_boundary"
   ],
   "note": "check_hb_error accepts implies harmonic_balance accepts; the converse unless a relative error is NaN or equal to the tolerance (C34_false_boundary)."
  },
  {
   "property": "C35",
   "status": "proved",
   "theorems": [
    "QMix.Props.C35_newton_affine",
    "QMix.Props.C35_newton_exact",
    "QMix.Props.C35_update_succeeds"
   ],
   "note": "For any current function that is real-affine at each bias point; the update succeeds if the circuit equations are injective."
  },
  {
   "property": "C36",
   "status": "partial",
   "theorems": [
    "QMix.RespFn.C36_reflection",
    "QMix.RespFn.C36_data",
    "QMix.RespFn.C36_smeared_partial",
    "QMix.RespFn.C36_kk_even",
    "QMix.RespFn.C36_false_smeared"
   ],
   "note": "Proved for all data without smearing. With smearing oddness is proved if three standard deviations are a whole number of voltage steps; otherwise it is false: C36_false_smeared gives data whose current, smeared by half a voltage step, is not odd."
  },
  {
   "property": "C37",
   "status": "proved",
   "theorems": [
    "QMix.RespFn.C37_consistent"
   ],
   "note": ""
  },
  {
   "property": "C38",
   "status": "proved",
   "theorems": [
    "QMix.RespFn.C38_sampling",
    "QMix.RespFn.C38_points_needed",
    "QMix.Props.C38_steps"
   ],
   "note": "Also: with fewer than 101 points no response function can be made."
  },
  {
   "property": "C39",
   "status": "partial",
   "theorems": [
    "QMix.RespFn.C39_false_limit",
    "QMix.RespFn.C39_limit_partial"
   ],
   "note": "The property is false (witness: limit 1, at least six points). Proved instead for increasing voltages: the limit is exceeded by at most the voltage range, the number of points near zero and the gaps, and 87."
  },
  {
   "property": "C40",
   "status": "proved",
   "theorems": [
    "QMix.RespFn.C40_resampling",
    "QMix.RespFn.C40_accepted"
   ],
   "note": "For increasing voltages and vlimit <= 50 (np.interp gives no meaning to other voltages, and the added point is at 50)."
  },
  {
   "property": "C41",
   "status": "partial",
   "theorems": [
    "QMix.Exp.C41_zemb_value",
    "QMix.Exp.C41_vshot_value",
    "QMix.Exp.C41_filter_value",
    "QMix.Exp.C41_never_modified",
    "QMix.Exp.C41_defaults_kept",
    "QMix.Exp.C41_own_options",
    "QMix.Exp.C41_own_options_pumped",
    "QMix.Exp.C41_iv",
    "QMix.Exp.C41_if",
    "QMix.Exp.C41_tn",
    "QMix.Exp.C41_zemb",
    "QMix.Exp.C41_dc",
    "QMix.Exp.C41_explicit_default",
    "QMix.Exp.C41_documented_partial",
    "QMix.Exp.C41_false_documented",
    "QMix.Exp.C41_resp",
    "QMix.Exp.C41_false_resp"
   ],
   "note": "User options are used and win, the shared defaults are never modified (any sequence of calls). The documented defaults of voffset_range and vrn (C41_false_documented) and of max_npts_dc / max_npts_kk for RespFnFromIVData and RespFnExponential (C41_false_resp) are not the ones used."
  },
  {
   "property": "C42",
   "status": "proved",
   "theorems": [
    "QMix.Props.C42_zero",
    "QMix.Props.C42_linear",
    "QMix.Props.C42_parity",
    "QMix.Props.C42_accepted"
   ],
   "note": "FFT and Hilbert transform by their defining sums over exact complex numbers."
  },
  {
   "property": "C43",
   "status": "partial",
   "theorems": [
    "QMix.Props.C43_perfect_odd",
    "QMix.Props.C43_perfect_kk_even",
    "QMix.Props.C43_polynomial_odd_partial",
    "QMix.Props.C43_false_half_order",
    "QMix.Props.C43_exponential_odd",
    "QMix.Props.C43_expanded_odd"
   ],
   "note": "Proved for perfect, perfect_kk, exponential and expanded with every parameter, and for polynomial with every integer order. False for half-integer orders (C43_false_half_order)."
  },
  {
   "property": "C44",
   "status": "partial",
   "theorems": [
    "QMix.Props.C44_perfect_partial",
    "QMix.Props.C44_false_integer_array",
    "QMix.Props.C44_false_numpy_int",
    "QMix.Props.C44_gap_sampled"
   ],
   "note": "Proved for float scalars and arrays. False for integer arrays (0.5 is truncated) and for NumPy integers (None is returned)."
  },
  {
   "property": "C45",
   "status": "partial",
   "theorems": [
    "QMix.Props.C45_shape_partial",
    "QMix.Props.C45_strictly_increasing_partial",
    "QMix.Props.C45_limit",
    "QMix.Props.C45_false_negative_order"
   ],
   "note": "Proved for every real order >= 0 at voltages >= 0, and for natural orders on the whole line, with the limit. False for negative orders."
  },
  {
   "property": "C46",
   "status": "proved",
   "theorems": [
    "QMix.Props.C46_length",
    "QMix.Props.C46_bounds",
    "QMix.Props.C46_constant",
    "QMix.Props.C46_linear",
    "QMix.Props.C46_monotone"
   ],
   "note": ""
  },
  {
   "property": "C47",
   "status": "partial",
   "theorems": [
    "QMix.Props.C47_reverse_partial",
    "QMix.Props.C47_false_half_width"
   ],
   "note": "Proved when ext_x * sigma is an integer (odd windows). False otherwise (C47_false_half_width)."
  },
  {
   "property": "C48",
   "status": "proved",
   "theorems": [
    "QMix.Props.C48_length",
    "QMix.Props.C48_line",
    "QMix.Props.C48_linear",
    "QMix.Props.C48_parabola"
   ],
   "note": ""
  },
  {
   "property": "C49",
   "status": "partial",
   "theorems": [
    "QMix.Props.C49_length_nozeros",
    "QMix.Props.C49_line_partial",
    "QMix.Props.C49_false_span_one"
   ],
   "note": "Exactness proved for every span >= 3 with the exact condition for acceptance; length and nozeros for all spans. False for the span 1, which is accepted for two points."
  },
  {
   "property": "C50",
   "status": "partial",
   "theorems": [
    "QMix.Clean.C50_clean",
    "QMix.Clean.C50_accepted",
    "QMix.Clean.C50_order",
    "QMix.Clean.C50_twice_partial",
    "QMix.Clean.C50_false_twice",
    "QMix.Clean.C50_few"
   ],
   "note": "Cleaning twice fails with ValueError when one point is left (C50_false_twice), and data with fewer than two points without NaN is refused (C50_few); everything else is proved for every sorting algorithm."
  },
  {
   "property": "C51",
   "status": "partial",
   "theorems": [
    "QMix.Clean.C51_matrix",
    "QMix.Clean.C51_rows",
    "QMix.Clean.C51_sort",
    "QMix.Clean.C51_doubles_partial",
    "QMix.Clean.C51_false_check",
    "QMix.Clean.C51_roundtrip"
   ],
   "note": "remove_doubles_matrix with check=True tests the first column whatever column was chosen (C51_false_check); everything else is proved."
  },
  {
   "property": "C52",
   "status": "partial",
   "theorems": [
    "QMix.IvData.C52_points",
    "QMix.IvData.C52_range",
    "QMix.IvData.C52_upward",
    "QMix.IvData.C52_downward",
    "QMix.IvData.C52_cycle",
    "QMix.IvData.C52_cycle_down",
    "QMix.IvData.C52_false_flat"
   ],
   "note": "False when the extreme voltage is measured more than once in a row (C52_false_flat): points are dropped or doubled. Everything else is proved."
  },
  {
   "property": "C53",
   "status": "proved",
   "theorems": [
    "QMix.IvData.C53_undone",
    "QMix.IvData.C53_distance"
   ],
   "note": ""
  },
  {
   "property": "C54",
   "status": "partial",
   "theorems": [
    "QMix.IvData.C54_points",
    "QMix.IvData.C54_corrected",
    "QMix.IvData.C54_none",
    "QMix.IvData.C54_false_nan",
    "QMix.IvData.C54_false_sign"
   ],
   "note": "False where the current is zero (0/0 drops the point, C54_false_nan) and where voltage and current have opposite signs (C54_false_sign); proved for all other points."
  },
  {
   "property": "C55",
   "status": "proved",
   "theorems": [
    "QMix.IvData.C55_normal",
    "QMix.IvData.C55_subgap",
    "QMix.IvData.C55_gap"
   ],
   "note": ""
  },
  {
   "property": "C56",
   "status": "partial",
   "theorems": [
    "QMix.IfResp.C56_bounded",
    "QMix.IfResp.C56_exact",
    "QMix.IfResp.C56_no_contrast",
    "QMix.IfResp.C56_false_large_max",
    "QMix.IfResp.C56_false_nan"
   ],
   "note": "False for NaN powers (C56_false_nan) and, for points without contrast, when the maximum is set above 2.1e8 K (C56_false_large_max). Everything else is proved for all finite spectra."
  },
  {
   "property": "C57",
   "status": "partial",
   "theorems": [
    "QMix.IfData.C57_recovers_partial",
    "QMix.IfData.C57_false_noisy",
    "QMix.IfData.C57_voltages",
    "QMix.IfData.C57_no_power",
    "QMix.IfData.C57_max_gain",
    "QMix.IfData.C57_min_tn",
    "QMix.IfData.C57_vbest",
    "QMix.IfData.C57_returns"
   ],
   "note": "Gain is always recovered; the noise temperature is min(T, 1e10 (Thot - Tcold) - Tcold), so it is T unless T is above about 2e12 K (C57_false_noisy). The best point is proved for all three rules. C57_voltages: refusal of different or missing voltages."
  },
  {
   "property": "C58",
   "status": "proved",
   "theorems": [
    "QMix.IfData.C58_physical",
    "QMix.IfData.C58_planck",
    "QMix.IfData.C58_temperature",
    "QMix.IfData.C58_frequency",
    "QMix.IfData.C58_degenerate"
   ],
   "note": ""
  },
  {
   "property": "C59",
   "status": "partial",
   "theorems": [
    "QMix.IfData.C59_slope",
    "QMix.IfData.C59_noise",
    "QMix.IfData.C59_intercept_partial",
    "QMix.IfData.C59_line",
    "QMix.IfData.C59_false_intercept",
    "QMix.IfData.C59_refused",
    "QMix.IfData.C59_gain",
    "QMix.IfData.C59_gain_auto_partial",
    "QMix.IfData.C59_false_gain"
   ],
   "note": "Slope, noise and line are proved; the reported noise is the intercept of the line at zero voltage only for vint <= 0 (C59_false_intercept), and the automatic choice of points depends on the gain through an absolute 1e-10 (C59_false_gain)."
  },
  {
   "property": "C60",
   "status": "proved",
   "theorems": [
    "QMix.Zemb.C60_least_squares",
    "QMix.Zemb.C60_zero_iff",
    "QMix.Zemb.C60_recovers",
    "QMix.Zemb.C60_nan"
   ],
   "note": "Complex numbers that are not finite are one value (none); with one of them the error is NaN (C60_nan)."
  },
  {
   "property": "C61",
   "status": "proved",
   "theorems": [
    "QMix.Zemb.C61_nonneg",
    "QMix.Zemb.C61_converges",
    "QMix.Zemb.C61_increasing",
    "QMix.Zemb.C61_reach",
    "QMix.Zemb.C61_undefined"
   ],
   "note": "The drive level may also be NaN or infinite (C61_undefined)."
  },
  {
   "property": "C62",
   "status": "partial",
   "theorems": [
    "QMix.Exp.C62_fit_range",
    "QMix.Exp.C62_cut_partial",
    "QMix.Exp.C62_no_high",
    "QMix.Exp.C62_false",
    "QMix.Exp.C62_false_interval",
    "QMix.Exp.C62_plot"
   ],
   "note": "fit_range always selects its interval. cut_low and cut_high only work together with fit_range=None (C62_cut_partial); without it they are ignored (C62_false)."
  },
  {
   "property": "C63",
   "status": "partial",
   "theorems": [
    "QMix.Zemb.C63_no_data",
    "QMix.Zemb.C63_result",
    "QMix.Zemb.C63_best_partial",
    "QMix.Zemb.C63_nan",
    "QMix.Zemb.C63_range",
    "QMix.Zemb.C63_forced",
    "QMix.Zemb.C63_consistent",
    "QMix.Zemb.C63_false"
   ],
   "note": "The best grid point is returned when the error of every grid point is a number. A NaN on the grid wins instead (C63_nan, C63_false), and an impedance given by the user replaces the one found while the fit is still judged by the grid (C63_forced)."
  },
  {
   "property": "C64",
   "status": "partial",
   "theorems": [
    "QMix.IvData.C64_offset",
    "QMix.IvData.C64_unipolar",
    "QMix.IvData.C64_pumped",
    "QMix.IvData.C64_pumped_user",
    "QMix.IvData.C64_dc",
    "QMix.IvData.C64_false_user"
   ],
   "note": "For dc data that crosses the offset range the user offsets are only the first guess of the minimisation (C64_false_user); proved in all other cases."
  },
  {
   "property": "C65",
   "status": "proved",
   "theorems": [
    "QMix.Props.C65_tien_gordon"
   ],
   "note": ""
  },
  {
   "property": "C66",
   "status": "proved",
   "theorems": [
    "QMix.Props.C66_restart"
   ],
   "note": ""
  },
  {
   "property": "C67",
   "status": "proved",
   "theorems": [
    "QMix.Props.C67_zero_entries"
   ],
   "note": ""
  },
  {
   "property": "C68",
   "status": "proved",
   "theorems": [
    "QMix.Props.C68_solved_point_stays",
    "QMix.Props.C68_damping_zero"
   ],
   "note": ""
  },
  {
   "property": "C69",
   "status": "proved",
   "theorems": [
    "QMix.Props.C69_points_independent"
   ],
   "note": ""
  },
  {
   "property": "C70",
   "status": "proved",
   "theorems": [
    "QMix.Props.C70_between",
    "QMix.Props.C70_original_doubles"
   ],
   "note": ""
  },
  {
   "property": "C71",
   "status": "proved",
   "theorems": [
    "QMix.Props.C71_principal_value"
   ],
   "note": ""
  },
  {
   "property": "C72",
   "status": "proved",
   "theorems": [
    "QMix.Props.C72_harmonic",
    "QMix.Props.C72_constant"
   ],
   "note": ""
  },
  {
   "property": "C73",
   "status": "proved",
   "theorems": [
    "QMix.RespFn.C73_exact"
   ],
   "note": "SciPy splines are a parameter of the model that is only assumed to pass through the given points."
  },
  {
   "property": "C74",
   "status": "partial",
   "theorems": [
    "QMix.RespFn.C74_false_only_even",
    "QMix.RespFn.C74_false_rejected"
   ],
   "note": "The property is false: all steps must agree to 1e-5, because kk_trans asserts it. The theorems are that negation and a concrete rejected data set."
  },
  {
   "property": "C75",
   "status": "partial",
   "theorems": [
    "QMix.RespFn.C75_false_overshoot"
   ],
   "note": "The property is false for every width k/600: the current is larger than the voltage just above the gap, where the smeared perfect curve equals it. The theorem is that negation."
  },
  {
   "property": "C76",
   "status": "partial",
   "theorems": [
    "QMix.RespFn.C76_upper_partial",
    "QMix.RespFn.C76_false_unbounded"
   ],
   "note": "Only the upper bound holds (the code takes the maximum of the signed error). The witness for the failure uses an interpolation that passes through its points and is far off elsewhere."
  },
  {
   "property": "C77",
   "status": "partial",
   "theorems": [
    "QMix.RespFn.C77_false_perfect",
    "QMix.RespFn.C77_partial"
   ],
   "note": "False for RespFnPerfect without smearing (TypeError). Proved for all objects made by RespFn.__init__."
  },
  {
   "property": "C78",
   "status": "proved",
   "theorems": [
    "QMix.RespFn.C78_polynomial",
    "QMix.RespFn.C78_exponential",
    "QMix.RespFn.C78_data",
    "QMix.RespFn.C78_perfect"
   ],
   "note": ""
  },
  {
   "property": "C79",
   "status": "partial",
   "theorems": [
    "QMix.IfResp.C79_orientation_partial",
    "QMix.IfResp.C79_false_three",
    "QMix.IfResp.C79_refused"
   ],
   "note": "False for exactly three points: a 3 by 3 array is always read by columns (C79_false_three)."
  },
  {
   "property": "C80",
   "status": "proved",
   "theorems": [
    "QMix.IvData.C80_straight"
   ],
   "note": "scipy.signal.savgol_filter is a parameter assumed only to keep the length, to be homogeneous and to keep straight lines."
  },
  {
   "property": "C81",
   "status": "proved",
   "theorems": [
    "QMix.IvData.C81_metadata"
   ],
   "note": ""
  },
  {
   "property": "C82",
   "status": "proved",
   "theorems": [
    "QMix.IvData.C82_dc",
    "QMix.IvData.C82_pumped"
   ],
   "note": ""
  },
  {
   "property": "C83",
   "status": "proved",
   "theorems": [
    "QMix.IvData.C83_load",
    "QMix.IvData.C83_refused",
    "QMix.IvData.C83_accepted",
    "QMix.IvData.C83_sweep"
   ],
   "note": "C83_sweep: whole sweeps, measured upwards or downwards."
  },
  {
   "property": "C84",
   "status": "proved",
   "theorems": [
    "QMix.IvData.C84_dc",
    "QMix.IvData.C84_pumped",
    "QMix.IvData.C84_inside",
    "QMix.IvData.C84_inside_pumped"
   ],
   "note": ""
  },
  {
   "property": "C85",
   "status": "proved",
   "theorems": [
    "QMix.IvData.C85_resistor",
    "QMix.IvData.C85_unfiltered",
    "QMix.IvData.C85_junction",
    "QMix.IvData.C85_broken_line"
   ],
   "note": "Unipolar data with a gap voltage given by the user, no series resistance."
  },
  {
   "property": "C86",
   "status": "proved",
   "theorems": [
    "QMix.IfData.C86_dc",
    "QMix.IfData.C86_pumped"
   ],
   "note": "Voltage ranges given by the user; see C59_false_gain for the automatic choice."
  },
  {
   "property": "C87",
   "status": "proved",
   "theorems": [
    "QMix.IfData.C87_uniform",
    "QMix.IfData.C87_returns"
   ],
   "note": "For noise temperatures below the cap caused by the minimum Y factor of 1 + 1e-10."
  },
  {
   "property": "C88",
   "status": "proved",
   "theorems": [
    "QMix.IfData.C88_grid",
    "QMix.IfData.C88_match",
    "QMix.IfData.C88_range",
    "QMix.IfData.C88_outside",
    "QMix.IfData.C88_line",
    "QMix.IfData.C88_accepted",
    "QMix.IfData.C88_refused",
    "QMix.IfData.C88_smooth",
    "QMix.IfData.C88_straight"
   ],
   "note": "Interpolation statements without series resistance; voltage multiplier and gap voltage positive."
  },
  {
   "property": "C89",
   "status": "proved",
   "theorems": [
    "QMix.IfData.C89_dc",
    "QMix.IfData.C89_average",
    "QMix.IfData.C89_calibrated",
    "QMix.IfData.C89_shot"
   ],
   "note": ""
  },
  {
   "property": "C90",
   "status": "proved",
   "theorems": [
    "QMix.Zemb.C90_one_low_point",
    "QMix.Zemb.C90_flat_point"
   ],
   "note": ""
  },
  {
   "property": "C91",
   "status": "proved",
   "theorems": [
    "QMix.Props.C91_drive_level"
   ],
   "note": ""
  },
  {
   "property": "C92",
   "status": "proved",
   "theorems": [
    "QMix.Exp.C92_dc",
    "QMix.Exp.C92_pumped",
    "QMix.Exp.C92_unread"
   ],
   "note": "The options read are listed in Props/Options.lean; documented options without effect are named in C92_unread."
  },
  {
   "property": "C93",
   "status": "proved",
   "theorems": [
    "QMix.Exp.C93_junction",
    "QMix.Exp.C93_leak",
    "QMix.Exp.C93_resistor"
   ],
   "note": "The resistor end to end without filter and with the gap voltage given."
  },
  {
   "property": "C94",
   "status": "proved",
   "theorems": [
    "QMix.Exp.C94_not_array",
    "QMix.Exp.C94_no_frequency",
    "QMix.Exp.C94_left_out",
    "QMix.Exp.C94_returns",
    "QMix.Exp.C94_returns_pumped",
    "QMix.Exp.C94_clash",
    "QMix.Exp.C94_switches"
   ],
   "note": "Return theorems without filter, series resistance and impedance recovery."
  },
  {
   "property": "C95",
   "status": "proved",
   "theorems": [
    "QMix.Exp.C95_point",
    "QMix.Exp.C95_largest",
    "QMix.Exp.C95_decibel",
    "QMix.Exp.C95_resistance",
    "QMix.Exp.C95_returns"
   ],
   "note": ""
  },
  {
   "property": "C96",
   "status": "proved",
   "theorems": [
    "QMix.Exp.C96_photon",
    "QMix.Exp.C96_straight",
    "QMix.Exp.C96_line"
   ],
   "note": "The straight line end to end without filter and series resistance, measured beyond the plotted range."
  },
  {
   "property": "C97",
   "status": "proved",
   "theorems": [
    "QMix.Exp.C97_measured",
    "QMix.Exp.C97_smeared"
   ],
   "note": "Exactness at the sampled voltages; between samples the spline is a black box."
  },
  {
   "property": "C98",
   "status": "proved",
   "theorems": [
    "QMix.Exp.C98_range",
    "QMix.Exp.C98_one_low_point",
    "QMix.Exp.C98_returns",
    "QMix.Exp.C98_not_measured"
   ],
   "note": "The existence theorem without filter, series resistance and IF data."
  },
  {
   "property": "C99",
   "status": "proved",
   "theorems": [
    "QMix.Props.C99_perfect_dc",
    "QMix.Props.C99_converges",
    "QMix.Props.C99_phase",
    "QMix.Props.C99_single_harmonic"
   ],
   "note": "The response function has at most polynomial growth (cubic splines continue as polynomials); C99_perfect_dc for the dc current of RespFnPerfect."
  },
  {
   "property": "C100",
   "status": "proved",
   "theorems": [
    "QMix.Props.C100_resistor",
    "QMix.Props.C100_no_mixing"
   ],
   "note": ""
  },
  {
   "property": "C101",
   "status": "proved",
   "theorems": [
    "QMix.Props.C101_power",
    "QMix.Props.C101_passive"
   ],
   "note": "No coincidence: every signal frequency, and dc, belongs to one set of orders only."
  },
  {
   "property": "C102",
   "status": "proved",
   "theorems": [
    "QMix.Props.C102_reversal"
   ],
   "note": ""
  },
  {
   "property": "C103",
   "status": "proved",
   "theorems": [
    "QMix.Exp.C103_dc",
    "QMix.Exp.C103_returns",
    "QMix.Exp.C103_calibration",
    "QMix.Exp.C103_receiver"
   ],
   "note": "Shot noise end to end (C89_shot) without smoothing and series resistance, with ranges given by the user; the noise temperature of a receiver for any calibration."
  },
  {
   "property": "C104",
   "status": "proved",
   "theorems": [
    "QMix.MathFn.C104_exists",
    "QMix.MathFn.C104_transform",
    "QMix.MathFn.C104_padding",
    "QMix.MathFn.C104_perfect"
   ],
   "note": "The FFT of SciPy by its definition; exact arithmetic; V must be one of the sampled voltages."
  },
  {
   "property": "C105",
   "status": "proved",
   "theorems": [
    "QMix.MathFn.C105_transform",
    "QMix.MathFn.C105_perfect",
    "QMix.MathFn.C105_agree",
    "QMix.MathFn.C105_zero",
    "QMix.MathFn.C105_linear",
    "QMix.MathFn.C105_parity"
   ],
   "note": "np.trapz by its definition; NumPy versions without np.trapz are not considered."
  },
  {
   "property": "C106",
   "status": "partial",
   "theorems": [
    "QMix.MathFn.C106_refused",
    "QMix.MathFn.C106_false_trapz",
    "QMix.MathFn.C106_trapz_partial"
   ],
   "note": "Proved for kk_trans; false of kk_trans_trapz, whose check lacks the absolute value: narrower gaps are accepted (C106_false_trapz); wider gaps are refused (C106_trapz_partial)."
  },
  {
   "property": "C107",
   "status": "proved",
   "theorems": [
    "QMix.Term.C107_title",
    "QMix.Term.C107_long",
    "QMix.Term.C107_colour"
   ],
   "note": ""
  },
  {
   "property": "C108",
   "status": "partial",
   "theorems": [
    "QMix.Term.C108_bar",
    "QMix.Term.C108_monotone",
    "QMix.Term.C108_zero",
    "QMix.Term.C108_sequence",
    "QMix.Term.C108_false_full"
   ],
   "note": "Everything but the last sentence, which is false: the bar can be full before the work is done (C108_false_full). Real arithmetic in the quotients; the text of the percentage (str of a float) is a parameter."
  },
  {
   "property": "C109",
   "status": "partial",
   "theorems": [
    "QMix.Term.C109_pvalf",
    "QMix.Term.C109_real",
    "QMix.Term.C109_printc_partial",
    "QMix.Term.C109_false_printc",
    "QMix.Term.C109_false_printc_witness",
    "QMix.Term.C109_line",
    "QMix.Term.C109_aligned"
   ],
   "note": "Proved for pvalf (C109_line, C109_aligned: the name, units and comment of the line and its columns); false of printc for negative imaginary parts, which get two minus signs (C109_false_printc); C109_printc_partial covers the rest."
  },
  {
   "property": "C110",
   "status": "partial",
   "theorems": [
    "QMix.Term.C110_colour",
    "QMix.Term.C110_always",
    "QMix.Term.C110_unknown",
    "QMix.Term.C110_false_header",
    "QMix.Term.C110_header_partial"
   ],
   "note": "Proved for cprint; false of header, whose rule is always pink (C110_false_header). Text without escape characters; the terminal is modelled with one style at a time."
  },
  {
   "property": "C111",
   "status": "partial",
   "theorems": [
    "QMix.Cct.C111_normalised",
    "QMix.Cct.C111_physical",
    "QMix.Cct.C111_total",
    "QMix.Cct.C111_false_phase",
    "QMix.Cct.C111_partial",
    "QMix.Cct.C111_false_witness"
   ],
   "note": "The phase of a Thevenin voltage is not printed (C111_false_phase, C111_false_witness); C111_partial covers real voltages. The numbers are those before rounding by the format strings."
  },
  {
   "property": "C112",
   "status": "partial",
   "theorems": [
    "QMix.Exp.C112_labels",
    "QMix.Exp.C112_curves",
    "QMix.Exp.C112_returns",
    "QMix.Exp.C112_leak",
    "QMix.Exp.C112_leak_marker_partial",
    "QMix.Exp.C112_false_leak",
    "QMix.Exp.C112_false_subgap"
   ],
   "note": "Curve, normal-state line and gap voltage are proved (C112_curves). The leakage marker is always at 2 mV (C112_false_leak; C112_leak_marker_partial for the default vleak) and the line labelled Rsg is a fit around vleak, not around vrsg (C112_false_subgap). A figure is the list of drawing commands; colours and line styles are left out. Axis labels, units and titles: C112_labels."
  },
  {
   "property": "C113",
   "status": "partial",
   "theorems": [
    "QMix.Exp.C113_offset_labels",
    "QMix.Exp.C113_if_noise_labels",
    "QMix.Exp.C113_iv_labels",
    "QMix.Exp.C113_if_labels",
    "QMix.Exp.C113_ivif_labels",
    "QMix.Exp.C113_noise_labels",
    "QMix.Exp.C113_yfac_labels",
    "QMix.Exp.C113_gain_noise_labels",
    "QMix.Exp.C113_gain_labels",
    "QMix.Exp.C113_iv",
    "QMix.Exp.C113_offset",
    "QMix.Exp.C113_if_noise",
    "QMix.Exp.C113_if",
    "QMix.Exp.C113_ivif",
    "QMix.Exp.C113_false_axes",
    "QMix.Exp.C113_noise",
    "QMix.Exp.C113_yfac",
    "QMix.Exp.C113_gain_noise",
    "QMix.Exp.C113_gain",
    "QMix.Exp.C113_no_if",
    "QMix.Exp.C113_lengths",
    "QMix.Exp.C113_returns"
   ],
   "note": "All curves and markers are proved. plot_ivif replaces the second given axes by new ones (C113_false_axes); the smoothed figures need 31 points (C113_returns); the Y-factor line is always that of 293 K and 77 K (C113_yfac). Axis labels, units and titles: the C113_..._labels theorems."
  },
  {
   "property": "C114",
   "status": "partial",
   "theorems": [
    "QMix.Exp.C114_labels",
    "QMix.Exp.C114_simulated",
    "QMix.Exp.C114_interval_partial",
    "QMix.Exp.C114_false_interval",
    "QMix.Exp.C114_returns"
   ],
   "note": "C114_simulated, C114_returns for all data. The marked interval is the fitted one except with fit_range=None and the old names cut_low, cut_high (C114_interval_partial, C114_false_interval). A source voltage that is NaN is not followed. Axis labels and title: C114_labels."
  },
  {
   "property": "C115",
   "status": "partial",
   "theorems": [
    "QMix.Exp.C115_labels",
    "QMix.Exp.C115_surface",
    "QMix.Exp.C115_no_impedance",
    "QMix.Exp.C115_minimum_partial",
    "QMix.Exp.C115_false_forced"
   ],
   "note": "C115_surface: every cell. The note is at the smallest error only if no impedance was given by the user and no error is NaN (C115_minimum_partial, C115_false_forced). Axis labels and title: C115_labels."
  },
  {
   "property": "C116",
   "status": "partial",
   "theorems": [
    "QMix.Files.C116_pumped",
    "QMix.Files.C116_no_if",
    "QMix.Files.C116_kept",
    "QMix.Files.C116_refused",
    "QMix.Files.C116_false_keys",
    "QMix.Files.C116_false_empty",
    "QMix.Files.C116_two_frequencies",
    "QMix.Files.C116_same_frequency",
    "QMix.Files.C116_dc",
    "QMix.Files.C116_dc_loaded",
    "QMix.Files.C116_initialize_partial",
    "QMix.Files.C116_false_initialize",
    "QMix.Files.C116_false_initialize_empty"
   ],
   "note": "C116_pumped, C116_dc, C116_kept, C116_two_frequencies: folders, files and the frame for any outcome. False: data without IF raise TypeError after the first figure (C116_no_if), the four documented keys are not enough (C116_false_keys), both names empty is refused (C116_false_empty), initialize_dir without a final slash makes siblings (C116_false_initialize; C116_initialize_partial with the slash), plot_gain_noise_temp, plot_offset and plot_rdyn are documented but not called. Disk model: no links, no permissions, no \"..\"."
  },
  {
   "property": "C117",
   "status": "partial",
   "theorems": [
    "QMix.Results.C117_labels",
    "QMix.Results.C117_results",
    "QMix.Results.C117_recovered",
    "QMix.Results.C117_info",
    "QMix.Results.C117_lacking",
    "QMix.Results.C117_written",
    "QMix.Results.C117_false_spline"
   ],
   "note": "C117_results, C117_recovered, C117_info: the texts read back; C117_written: all files and figures for any measurements; C117_lacking: refused before any file is written. False when SciPy refuses the cubic spline (fewer than four measurements or frequencies that do not increase): nine figures are then missing (C117_false_spline). The spline and the text forms of frequencies and of the IF noise are parameters; the two column entries with file names are not stated. The label of every figure names its quantity: C117_labels."
  },
  {
   "property": "C118",
   "status": "partial",
   "theorems": [
    "QMix.Results.C118_false",
    "QMix.Results.C118_false_folder",
    "QMix.Results.C118_empty_partial"
   ],
   "note": "False for every folder with spectra: if_response is given a file name and raises ValueError before anything is written (C118_false); TypeError without a folder for figures (C118_false_folder). C118_empty_partial: without spectra four figures without lines."
  },
  {
   "property": "C119",
   "status": "proved",
   "theorems": [
    "QMix.Props.C119_dc",
    "QMix.Props.C119_ac"
   ],
   "note": "C119_dc and C119_ac with explicit error bounds 3/4 alpha^4 and 5/4 alpha^3 times the sum of the response over the photon steps; real arithmetic; one tone, one harmonic."
  },
  {
   "property": "C120",
   "status": "proved",
   "theorems": [
    "QMix.Props.C120_if",
    "QMix.Props.C120_if_above",
    "QMix.Props.C120_gain"
   ],
   "note": "C120_if (signal below the local oscillator), C120_if_above (above) with error bound 5/4 beta^3, C120_gain (limit of the current over the strength of the signal). Two tones, one harmonic; the products with indices up to 1 must differ after rounding to four decimals."
  },
  {
   "property": "C121",
   "status": "proved",
   "theorems": [
    "QMix.Props.C121_small_impedance",
    "QMix.Props.C121_accuracy",
    "QMix.Props.C121_default"
   ],
   "note": "C121_small_impedance (unique solution, no zero voltage, global convergence), C121_default (start left to the procedure), C121_accuracy. The impedance bound exists for every circuit but is not computed. Exact real arithmetic."
  },
  {
   "property": "C122",
   "status": "proved",
   "theorems": [
    "QMix.Props.C122_local",
    "QMix.Props.C122_accuracy"
   ],
   "note": "C122_local and C122_accuracy; \"nearly linear\" is Spec.NearLinear: the equations differ from an invertible real linear map by a small Lipschitz part within rho + 0.001. Exact real arithmetic."
  },
  {
   "property": "C123",
   "status": "proved",
   "theorems": [
    "QMix.Props.C123_error",
    "QMix.Props.C123_default",
    "QMix.Props.C123_no_limit_suffices"
   ],
   "note": "C123_error for 1 to 4 tones with one harmonic each; C123_default for the default num_b; C123_no_limit_suffices shows that the condition on the drive level cannot be dropped. Several harmonics are covered only by the limit theorem C99."
  },
  {
   "property": "C124",
   "status": "partial",
   "theorems": [
    "QMix.Report.C124_report_partial",
    "QMix.Report.C124_false"
   ],
   "note": "C124_report_partial: voltage, impedance, available power (the maximum over all loads), drive level and impedance of the junction are as reported, in the units stated; the delivered power is right only for a real junction impedance and too large by |z|^2/Re(z)^2 otherwise. C124_false: a matched circuit with 1 nW available and absorbed reports 1 nW available and 2 nW delivered."
  },
  {
   "property": "C125",
   "status": "partial",
   "theorems": [
    "QMix.Report.C125_dc_text",
    "QMix.Report.C125_quiet_partial",
    "QMix.Report.C125_false",
    "QMix.Report.C125_dc_result",
    "QMix.Report.C125_pumped_result",
    "QMix.Report.C125_dc_partial",
    "QMix.Report.C125_dc_repr",
    "QMix.Report.C125_pumped_text",
    "QMix.Report.C125_shot_warning"
   ],
   "note": "C125_dc_text, C125_dc_repr, C125_dc_partial and C125_pumped_text give the text line by line; C125_dc_result and C125_pumped_result: verbose does not change the results. Silence is false: C125_false (verbose=False and IF data prints a line), C125_quiet_partial says exactly when PumpedData is silent; DCData with verbose=False and without IF data is silent iff 1 <= Rn <= 50. C125_shot_warning: the warning about the shot noise appears exactly if fewer than five samples are inside the ranges."
  },
  {
   "property": "C126",
   "status": "proved",
   "theorems": [
    "QMix.Props.C126_classical",
    "QMix.Props.C126_rectifier"
   ],
   "note": "C126_classical (any mixing product), C126_rectifier (dc of one tone spelled out). The stretched response function stands for low photon energies because frequencies below 5e-5 are all rounded to 0 by the code (C127)."
  },
  {
   "property": "C127",
   "status": "partial",
   "theorems": [
    "QMix.Props.C127_dc_partial",
    "QMix.Props.C127_false"
   ],
   "note": "C127_dc_partial: true for a resistor when all tone frequencies exceed 1e-4. C127_false: a signal of frequency 1e-5 and amplitude 1/4 turns the reported dc current 1/2 into 1, because both sidebands round to frequency 0 and are added."
  },
  {
   "property": "C128",
   "status": "partial",
   "theorems": [
    "QMix.HbPrint.C128_same_result",
    "QMix.HbPrint.C128_quiet_partial",
    "QMix.HbPrint.C128_report_partial",
    "QMix.HbPrint.C128_verdict",
    "QMix.HbPrint.C128_direct",
    "QMix.HbPrint.C128_iterations_partial",
    "QMix.HbPrint.C128_false_quiet",
    "QMix.HbPrint.C128_false_iterations"
   ],
   "note": "C128_same_result (printing changes nothing), C128_report_partial (all lines of the output for the sequence of voltages of the run), C128_verdict (the verdict printed is the reason of the stop), C128_iterations_partial (the number printed is the number of corrections when there is a verdict), C128_direct (no impedance), C128_quiet_partial (verbose=False prints nothing unless the target was not achieved). False of the code: C128_false_quiet (verbose=False prints two lines when the limit is reached), C128_false_iterations (a last signal with error 0/0: max_it + 1 corrections, max_it reported, no verdict). The clock and the text of floats in the progress bar are parameters."
  },
  {
   "property": "C129",
   "status": "proved",
   "theorems": [
    "QMix.HbPrint.C129_pass",
    "QMix.HbPrint.C129_fail",
    "QMix.HbPrint.C129_same_result",
    "QMix.HbPrint.C129_heading",
    "QMix.HbPrint.C129_pass_text",
    "QMix.HbPrint.C129_fail_text"
   ],
   "note": "C129_pass, C129_fail (lines and exception), C129_same_result (agreement with the model of C35): for any format of the error. C129_pass_text, C129_fail_text: with the format {:.2E} of the code, each line carries the largest relative error of its tone to three significant digits and the right verdict."
  },
  {
   "property": "C130",
   "status": "partial",
   "theorems": [
    "QMix.Props.C130_curves",
    "QMix.Props.C130_axis",
    "QMix.Props.C130_labels",
    "QMix.Props.C130_imported_partial",
    "QMix.Props.C130_false_limit",
    "QMix.Props.C130_false_smeared"
   ],
   "note": "C130_curves (all classes: the curves are the stored points, and idc and ikk at the same voltages), C130_axis, C130_labels, C130_imported_partial (RespFn without smearing: the imported curve is the data and its reflection). False of the code: C130_false_smeared (with v_smear the curve called imported is the smeared one), C130_false_limit (RespFnFromIVData: no sample at or above v_limit is on it unless it lies on the line of slope 1)."
  },
  {
   "property": "C131",
   "status": "partial",
   "theorems": [
    "QMix.Props.C131_same_result",
    "QMix.Props.C131_same_classes",
    "QMix.Props.C131_quiet",
    "QMix.Props.C131_report_partial",
    "QMix.Props.C131_false_max",
    "QMix.Props.C131_false_twice",
    "QMix.Props.C131_perfect",
    "QMix.Props.C131_names"
   ],
   "note": "C131_same_result, C131_same_classes, C131_quiet, C131_report_partial (every line; the greatest error printed is the greatest excess of the data over the spline), C131_perfect, C131_names. False of the code: C131_false_max (prints a greatest error below 0.01 though the interpolation is off by more than 1000), C131_false_twice (a smeared RespFnPerfect prints its heading and smearing twice)."
  },
  {
   "property": "C132",
   "status": "proved",
   "theorems": [
    "QMix.Props.C132_steps",
    "QMix.Props.C132_between",
    "QMix.Props.C132_height"
   ],
   "note": "C132_steps (limits and jump at every voltage), C132_between (continuity elsewhere), C132_height (a step that no other photon number shares)."
  },
  {
   "property": "C133",
   "status": "proved",
   "theorems": [
    "QMix.Props.C133_monotone"
   ],
   "note": "C133_monotone; DcAlone is the condition that only the dc current is at frequency 0. perfect_resp_mono: the ideal junction meets the condition."
  },
  {
   "property": "C134",
   "status": "proved",
   "theorems": [
    "QMix.Props.C134_power",
    "QMix.Props.C134_absorbs",
    "QMix.Props.C134_false_small"
   ],
   "note": "C134_power (exact formula with the truncation), C134_absorbs (no power is given while alpha^2 <= 4 num_b), C134_false_small (num_b = 1 and drive level 3: power is given to the tone)."
  },
  {
   "property": "C135",
   "status": "partial",
   "theorems": [
    "QMix.Props.C135_near_partial",
    "QMix.Props.C135_far",
    "QMix.Props.C135_false"
   ],
   "note": "C135_near_partial (requests that round to the same four decimals get the same current), C135_far (no current further than 1e-4 away). False of the code: C135_false (for every tolerance there is a request nearer than it to the tone that gets exactly zero: the two sides of a rounding tie)."
  },
  {
   "property": "C136",
   "status": "proved",
   "theorems": [
    "QMix.Props.C136_even_products",
    "QMix.Props.C136_single"
   ],
   "note": "C136_even_products (any number of tones), C136_single (one tone: dc and even harmonics)."
  },
  {
   "property": "C137",
   "status": "partial",
   "theorems": [
    "QMix.Props.C137_asymptote_partial",
    "QMix.Props.C137_false_fixed",
    "QMix.Props.C137_perfect_partial"
   ],
   "note": "C137_asymptote_partial (num_b may have to grow with the bias voltage), C137_perfect_partial (RespFnPerfect). False of the code: C137_false_fixed (for every num_b the error grows without limit with the bias voltage). Also C99_perfect_dc under C99."
  },
  {
   "property": "C138",
   "status": "partial",
   "theorems": [
    "QMix.Props.C138_dc_partial",
    "QMix.Props.C138_false"
   ],
   "note": "C138_dc_partial (when only the dc current is at frequency 0). False in general: C138_false (a signal whose frequency rounds to 0)."
  },
  {
   "property": "C139",
   "status": "proved",
   "theorems": [
    "QMix.QtPrint.C139_same_result",
    "QMix.QtPrint.C139_quiet",
    "QMix.QtPrint.C139_report",
    "QMix.QtPrint.C139_raised",
    "QMix.QtPrint.C139_scalar"
   ],
   "note": "C139_same_result, C139_quiet, C139_report, C139_raised, C139_scalar."
  },
  {
   "property": "C140",
   "status": "proved",
   "theorems": [
    "QMix.Props.C140_dc",
    "QMix.Props.C140_ac"
   ],
   "note": "C140_dc, C140_ac (both for num_b equal for all tones or at most two harmonics, as the statement says)."
  },
  {
   "property": "C141",
   "status": "proved",
   "theorems": [
    "QMix.Props.C141_exact",
    "QMix.Props.C141_converged"
   ],
   "note": "C141_exact, C141_converged."
  },
  {
   "property": "C142",
   "status": "proved",
   "theorems": [
    "QMix.Props.C142_voltages",
    "QMix.Props.C142_frequencies",
    "QMix.Props.C142_lipschitz"
   ],
   "note": "C142_voltages, C142_frequencies, C142_lipschitz. Without the condition on rounding ties: C135_false."
  },
  {
   "property": "C143",
   "status": "proved",
   "theorems": [
    "QMix.Props.C143_reversal",
    "QMix.Props.C143_parts",
    "QMix.Props.C143_in_phase"
   ],
   "note": "C143_reversal, C143_parts, C143_in_phase."
  },
  {
   "property": "C144",
   "status": "partial",
   "theorems": [
    "QMix.Props.C144_scale_partial",
    "QMix.Props.C144_false"
   ],
   "note": "C144_scale_partial (when the same mixing products match the requested frequencies after rounding). False in general: C144_false (in units 10^5 times larger all frequencies round to 0 and the dc current doubles)."
  },
  {
   "property": "C145",
   "status": "proved",
   "theorems": [
    "QMix.Props.C145_phases",
    "QMix.Props.C145_origin",
    "QMix.Props.C145_reversal",
    "QMix.Props.C145_impedance",
    "QMix.Props.C145_renumber",
    "QMix.Props.C145_false"
   ],
   "note": "C145_phases, C145_origin, C145_reversal, C145_impedance, C145_renumber. With coinciding frequencies the phases are not free: C145_false."
  },
  {
   "property": "C146",
   "status": "proved",
   "theorems": [
    "QMix.Props.C146_error",
    "QMix.Props.C146_bound",
    "QMix.Props.C146_one_harmonic",
    "QMix.Props.C146_matching"
   ],
   "note": "C146_error, C146_bound (explicit constant), C146_one_harmonic, C146_matching. Arrays jac[f, p] and the response matrix enter with their own errors (Computed). Double precision: Spec.binary64."
  },
  {
   "property": "C147",
   "status": "proved",
   "theorems": [
    "QMix.Props.C147_recovery",
    "QMix.Props.C147_simulated",
    "QMix.Props.C147_checked",
    "QMix.Props.C147_ambiguous"
   ],
   "note": "C147_recovery (data from Tucker theory), C147_simulated (data from qtcurrent), C147_checked (voltages that pass check_hb_error). The impedance itself is not determined in general: C147_ambiguous."
  },
  {
   "property": "C148",
   "status": "proved",
   "theorems": [
    "QMix.Props.C148_mean",
    "QMix.Props.C148_phase_matters"
   ],
   "note": "C148_mean (limit of growing num_b, the mean is of a continuous function), C148_phase_matters (concrete voltages, num_b = 1)."
  },
  {
   "property": "C149",
   "status": "proved",
   "theorems": [
    "QMix.Props.C149_smooth",
    "QMix.Props.C149_superposition"
   ],
   "note": "C149_smooth, C149_superposition (real-linear: the response to i V is not i times the response to V, because of the image frequency)."
  },
  {
   "property": "C150",
   "status": "proved",
   "theorems": [
    "QMix.Props.C150_jacobian",
    "QMix.Props.C150_regular"
   ],
   "note": "C150_jacobian, C150_regular (uniqueness and convergence). The hypotheses hold behind small impedances: small_regular."
  },
  {
   "property": "C151",
   "status": "proved",
   "theorems": [
    "QMix.Props.C151_solution",
    "QMix.Props.C151_current"
   ],
   "note": "C151_solution (existence, uniqueness, smoothness, linearised equations), C151_current."
  },
  {
   "property": "C152",
   "status": "proved",
   "theorems": [
    "QMix.Props.C152_signal",
    "QMix.Props.C152_passive"
   ],
   "note": "C152_signal, C152_passive."
  },
  {
   "property": "C153",
   "status": "proved",
   "theorems": [
    "QMix.Props.C153_balance",
    "QMix.Props.C153_reactive",
    "QMix.Props.C153_absorbs",
    "QMix.Props.C153_books"
   ],
   "note": "C153_balance, C153_books, C153_reactive, C153_absorbs."
  },
  {
   "property": "C154",
   "status": "proved",
   "theorems": [
    "QMix.Props.C154_target",
    "QMix.Props.C154_exhausted",
    "QMix.Props.C154_flag"
   ],
   "note": "C154_target, C154_exhausted, C154_flag: the exact version of C27, C28 and C33, which are false as first stated."
  },
  {
   "property": "C155",
   "status": "proved",
   "theorems": [
    "QMix.Props.C155_accepts",
    "QMix.Props.C155_average",
    "QMix.Props.C155_centred"
   ],
   "note": "Acceptance as an equivalence; the weights and the reflection are stated without the window arrays of the code."
  },
  {
   "property": "C156",
   "status": "proved",
   "theorems": [
    "QMix.Props.C156_accepts",
    "QMix.Props.C156_slope",
    "QMix.Props.C156_span",
    "QMix.Props.C156_late"
   ],
   "note": "Spans of at least 3 (span 1 is C49_false_span_one). C156_late: on a parabola slope_span_n returns the derivative half a step before the point."
  },
  {
   "property": "C157",
   "status": "proved",
   "theorems": [
    "QMix.Props.C157_gap"
   ],
   "note": "The slope is that of C156, the smoothing that of C155; argmax takes the first maximum."
  },
  {
   "property": "C158",
   "status": "partial",
   "theorems": [
    "QMix.IvData.C158_true_partial",
    "QMix.IvData.C158_odd_partial",
    "QMix.IvData.C158_false_offset"
   ],
   "note": "True: the true offset makes the error function of the search vanish, and with an exact minimiser the corrected curve is odd at all 101 voltages compared (C158_odd_partial). False: the offset itself is not determined; a resistor without offset can be shifted along itself (C158_false_offset)."
  },
  {
   "property": "C159",
   "status": "proved",
   "theorems": [
    "QMix.Props.C159_fixed",
    "QMix.Props.C159_original",
    "QMix.Props.C159_expanded",
    "QMix.Props.C159_fixed_sharp",
    "QMix.Props.C159_original_sharp",
    "QMix.Props.C159_expanded_sharp"
   ],
   "note": "Windows and steps are stated with hyperbolic functions, sharp ones with the sign function, apart from the logistic steps of the code. Overflow of exp is not modelled (it gives the same limit)."
  },
  {
   "property": "C160",
   "status": "proved",
   "theorems": [
    "QMix.Props.C160_smear",
    "QMix.Props.C160_parallel",
    "QMix.Props.C160_perfect"
   ],
   "note": "The centre of the window can be off by half a step (C155). C160_perfect describes what RespFnPerfect stores instead of the documented curve (C75)."
  },
  {
   "property": "C161",
   "status": "proved",
   "theorems": [
    "QMix.IvData.C161_pumped"
   ],
   "note": "Without filter. With a series resistance the voltage and current of every point must have the same sign (otherwise C54_false)."
  },
  {
   "property": "C162",
   "status": "proved",
   "theorems": [
    "QMix.IfData.C162_given",
    "QMix.IfData.C162_auto",
    "QMix.IfData.C162_dc"
   ],
   "note": "The Savitzky-Golay filter is a parameter. C156 says what slope_span_n computes."
  },
  {
   "property": "C163",
   "status": "proved",
   "theorems": [
    "QMix.Props.C163_matrix",
    "QMix.Props.C163_passive",
    "QMix.Props.C163_tucker"
   ],
   "note": "C163_matrix (constant of the third-power bound uniform in the signal), C163_tucker, C163_passive. Generalises C120 and C152. Negative orders of the signal follow by C15."
  },
  {
   "property": "C164",
   "status": "proved",
   "theorems": [
    "QMix.Props.C164_error",
    "QMix.Props.C164_rate",
    "QMix.Props.C164_default"
   ],
   "note": "C164_error (explicit), C164_rate (c^num_b times the error tends to 0 for every c), C164_default. Extends C123 to harmonics and gives C99 a rate; the constants are not sharp."
  },
  {
   "property": "C165",
   "status": "proved",
   "theorems": [
    "QMix.Props.C165_time_domain",
    "QMix.Props.C165_waveform",
    "QMix.Props.C165_causal",
    "QMix.Props.C165_constant"
   ],
   "note": "C165_time_domain (several tones, one phase angle per tone), C165_waveform (one tone, in time), C165_causal and C165_constant (the specified current depends on the past only, and is the dc I-V curve at constant voltage). Fixes the phasor convention e^{j omega t} and the sign of the Kramers-Kronig part (response_forget: a junction that forgets exponentially has the real part 1/(1+v^2)). Junctions with a jump in the dc curve have no integrable memory and are not covered."
  },
  {
   "property": "C166",
   "status": "proved",
   "theorems": [
    "QMix.Props.C166_between",
    "QMix.Props.C166_kept"
   ],
   "note": "C166_between (every num_b), C166_kept (limit). The pumped curve is one function J of the bias voltage: for any sweep qtcurrent returns J at its points."
  },
  {
   "property": "C167",
   "status": "proved",
   "theorems": [
    "QMix.Cct.C167_normalised",
    "QMix.Cct.C167_physical",
    "QMix.Cct.C167_total"
   ],
   "note": "C167_normalised, C167_physical, C167_total. The reader (terminal, lines, tabs, numerals) is the independent specification of C107 to C110 and C124. Zero counts as positive (no -0.0)."
  },
  {
   "property": "C168",
   "status": "proved",
   "theorems": [
    "QMix.Props.C168_stored",
    "QMix.Props.C168_read",
    "QMix.Props.C168_linear",
    "QMix.Props.C168_decibel",
    "QMix.Props.C168_linear_64",
    "QMix.Props.C168_decibel_64"
   ],
   "note": "C168_stored, C168_read, C168_linear, C168_decibel for any unit roundoff; C168_linear_64, C168_decibel_64 for double precision. The constants 1e-3 ... 1e-15 are rounded too."
  },
  {
   "property": "C169",
   "status": "proved",
   "theorems": [
    "QMix.Props.C169_target",
    "QMix.Props.C169_limit",
    "QMix.Props.C169_mask",
    "QMix.Props.C169_target_64"
   ],
   "note": "C169_target, C169_mask, C169_limit, C169_target_64. The error of the computed current is bounded by C146. A voltage of exactly zero is left out: C27_false_with_nan."
  },
  {
   "property": "C170",
   "status": "partial",
   "theorems": [
    "QMix.Props.C170_false_locked",
    "QMix.Props.C170_object_partial",
    "QMix.Props.C170_false_power"
   ],
   "note": "False: harmonic_balance raises for every locked circuit with an embedding impedance (C170_false_locked), and the available power of an undriven signal becomes that of 1e-10 Vgap (C170_false_power). Otherwise the object keeps everything but voltages below 1e-10 (C170_object_partial)."
  },
  {
   "property": "C171",
   "status": "partial",
   "theorems": [
    "QMix.Props.C171_read_back_partial",
    "QMix.Props.C171_false_power",
    "QMix.Props.C171_false_signal",
    "QMix.Props.C171_again"
   ],
   "note": "False: bias voltages, gap parameters and names are not saved, so that no power can be read or set afterwards (C171_false_power), and signals below 5e-5 Vgap are lost (C171_false_signal). Numbers are within 1e-4 (impedances 1e-2) of the original (C171_read_back_partial); a circuit that was read from a file can be saved and read any number of times (C171_again)."
  },
  {
   "property": "C172",
   "status": "proved",
   "theorems": [
    "QMix.Props.C172_same",
    "QMix.Props.C172_initialize",
    "QMix.Props.C172_overall",
    "QMix.Props.C172_spectrum"
   ],
   "note": "C172_same, C172_initialize (folder given with a final slash and no file in the way), C172_overall, C172_spectrum. As reading a spectrum always raises (C118_false), only the first one is named."
  },
  {
   "property": "C173",
   "status": "proved",
   "theorems": [
    "QMix.Props.C173_converges",
    "QMix.Props.C173_small",
    "QMix.Props.C173_rounded",
    "QMix.Props.C173_step"
   ],
   "note": "C173_converges (any inexact current), C173_rounded (the current of the rounded kernels of qtcurrent, C146), C173_small (small impedances), C173_step (one update, with explicit bounds). Assumed of numpy.linalg.inv: the entries of the inverses of matrices near the Jacobian are right to the threshold. The threshold is not computed; the arithmetic has no overflow or underflow."
  },
  {
   "property": "C174",
   "status": "proved",
   "theorems": [
    "QMix.Props.C174_recovers",
    "QMix.Props.C174_min_tn",
    "QMix.Props.C174_max_gain",
    "QMix.Props.C174_vbest",
    "QMix.Props.C174_double"
   ],
   "note": "C174_recovers, C174_min_tn, C174_max_gain, C174_vbest, C174_double. The loads must be far enough apart for the gain: 40 u (th + tc) at most th - tc. np.tanh is assumed to have the relative error u. No overflow or underflow."
  },
  {
   "property": "C175",
   "status": "proved",
   "theorems": [
    "QMix.Props.C175_dc",
    "QMix.Props.C175_ac",
    "QMix.Props.C175_bias",
    "QMix.Props.C175_unique",
    "QMix.Props.C175_converges"
   ],
   "note": "C175_dc, C175_ac, C175_bias, C175_unique, C175_converges. The frequencies must have no coincidences (one mixing product per frequency); unequal limits with three or more harmonics are excluded. C175_converges also needs 2 R |zt| < |vt| for every signal, so that no junction voltage vanishes."
  },
  {
   "property": "C176",
   "status": "partial",
   "theorems": [
    "QMix.Props.C176_doubles_partial",
    "QMix.Props.C176_false_large",
    "QMix.Props.C176_integers_partial",
    "QMix.Props.C176_false_integers"
   ],
   "note": "The claim is false of the code. C176_false_integers: with order 32 or more (default 50) the current of an integer array is 0 at every even voltage, since 64-bit integers wrap around. C176_false_large: with order 50 the result is infinite or not a number from 1300 gap voltages on. C176_doubles_partial: correct for floats up to 1000 gap voltages and orders from 0 to 50. C176_integers_partial: correct for integers as long as |v|^(2 order + 1) fits into 63 bits."
  },
  {
   "property": "C177",
   "status": "proved",
   "theorems": [
    "QMix.Props.C177_drive_level",
    "QMix.Props.C177_recovery"
   ],
   "note": "C177_drive_level: the drive level. C177_recovery: the circuit, with the bound E in terms of the errors of the currents (nu), of the circuit equation (eps) and the spacing of the grid (rho)."
  },
  {
   "property": "C178",
   "status": "proved",
   "theorems": [
    "QMix.AlphaFp.C178_current",
    "QMix.AlphaFp.C178_drive_level"
   ],
   "note": "C178_current: the computed pumped current. C178_drive_level: the drive level. Overflow and underflow are not modelled."
  },
  {
   "property": "C179",
   "status": "proved",
   "theorems": [
    "QMix.IfData.C179_tolerance",
    "QMix.IfData.C179_min_tn",
    "QMix.IfData.C179_max_gain"
   ],
   "note": "C179_tolerance: both quantities. C179_min_tn, C179_max_gain: the chosen point. Exact arithmetic; rounding is treated in C174."
  },
  {
   "property": "C180",
   "status": "proved",
   "theorems": [
    "QMix.IvData.C180_line",
    "QMix.IvData.C180_normal",
    "QMix.IvData.C180_subgap",
    "QMix.IvData.C180_shot_noise",
    "QMix.IvData.C180_shot_noise_ok"
   ],
   "note": "C180_line: every line of least squares. C180_normal, C180_subgap, C180_shot_noise, C180_shot_noise_ok: the three functions. The bounds are on the data before fitting; filtering is not part of this claim."
  },
  {
   "property": "C181",
   "status": "proved",
   "theorems": [
    "QMix.Props.C181_distance",
    "QMix.Props.C181_runs",
    "QMix.Props.C181_file"
   ],
   "note": "C181_distance: approximate solutions of two circuits. C181_runs: two calls that met their targets, at nonzero voltages. C181_file: the circuit read back from its file. Real arithmetic."
  },
  {
   "property": "C182",
   "status": "proved",
   "theorems": [
    "QMix.Props.C182_noise",
    "QMix.Props.C182_sharp"
   ],
   "note": "C182_noise: the bound. C182_sharp: the lower bound, on even grids."
  },
  {
   "property": "C183",
   "status": "proved",
   "theorems": [
    "QMix.MathFn.C183_rate",
    "QMix.MathFn.C183_trapz"
   ],
   "note": "C183_rate: kk_trans. C183_trapz: kk_trans_trapz. Complements C104, which allows jumps but gives no rate."
  },
  {
   "property": "C184",
   "status": "partial",
   "theorems": [
    "QMix.Props.C184_own_partial",
    "QMix.Props.C184_if_partial",
    "QMix.Props.C184_scalar_partial",
    "QMix.Props.C184_false"
   ],
   "note": "C184_own_partial: lists of NumPy floats, and the requests of the harmonic balance, are always found. C184_if_partial: the difference of two tones in a list is found. C184_scalar_partial: scalars and Python floats are found if the frequency is not in the middle between two numbers with four decimals. C184_false: with the tone at 0.12345 a scalar request for cct.freq[1] matches nothing and the current is zero, because float(freq_list) selects Python's round while the mixing frequencies use NumPy's (as of NumPy 1.19)."
  },
  {
   "property": "C185",
   "status": "partial",
   "theorems": [
    "QMix.Props.C185_compare",
    "QMix.Props.C185_average",
    "QMix.Props.C185_passive_partial",
    "QMix.Props.C185_false"
   ],
   "note": "C185_passive_partial: the sign, with one harmonic per tone (num_p = 1) and any number of tones. C185_average: comparison with the unpumped curve by its curvature, one harmonic, with 0 <= W <= 1. C185_compare: comparison of two junctions, any number of harmonics. C185_false: with two harmonics the ideal junction at 0.01 gap voltages carries a negative dc current, so it delivers dc power. Hypothesis DcAlone: no other mixing product is at frequency 0 after rounding."
  },
  {
   "property": "C186",
   "status": "partial",
   "theorems": [
    "QMix.Props.C186_cut_partial",
    "QMix.Props.C186_missing",
    "QMix.Props.C186_impedance",
    "QMix.Props.C186_false"
   ],
   "note": "False as stated (C186_false, C186_missing for every circuit and every number of signals, C186_impedance for every circuit: cut after the real part of the last impedance, the imaginary part is silently zero). C186_cut_partial: what holds for every cut that is read without error: the number of tones is right, the signals before the cut are those of the whole file, only the impedance of the last one can be wrong, and then it has no imaginary part (and only if the text does not end with a line break), all further signals are zero; the number of harmonics can only be wrong if no signal is read."
  },
  {
   "property": "C187",
   "status": "proved",
   "theorems": [
    "QMix.Spec.C187_steepest",
    "QMix.Spec.C187_gap"
   ],
   "note": "C187_steepest: where the gap is looked for. C187_gap: the error of the gap voltage, for a true curve whose transition and normal branch are straight. Real arithmetic; the bound is in terms of the curve that enters _find_gap_voltage."
  },
  {
   "property": "C188",
   "status": "proved",
   "theorems": [
    "QMix.IvData.C188_symmetric",
    "QMix.IvData.C188_offset"
   ],
   "note": "C188_symmetric, C188_offset. C158 is the case without noise. Real arithmetic; SciPy's minimiser is a parameter of which only NearlyExact is assumed; that the offset is not wrong by more than D is a hypothesis."
  },
  {
   "property": "C189",
   "status": "partial",
   "theorems": [
    "QMix.IfData.C189_accepted",
    "QMix.IfData.C189_line_partial",
    "QMix.IfData.C189_second_order",
    "QMix.IfData.C189_false_sign",
    "QMix.IfData.C189_false_pumped",
    "QMix.IfData.C189_false_outside",
    "QMix.IfData.C189_false_zero"
   ],
   "note": "False as stated. C189_line_partial: the power is on the broken line through the points at the voltages of `Placed`: exactly v - I rseries where the IF voltage is one of the dc voltages, less t(1-t) dI dR between two dc points (C189_second_order bounds it). C189_accepted: such data is loaded. C189_false_zero: a series resistance of zero moves the points. C189_false_pumped: also with the local oscillator the current is that of the dc curve, so IF data and pumped I-V curve are placed differently. C189_false_sign: dc points with current and voltage of opposite signs are taken to have no resistance. C189_false_outside: beyond the last dc point all IF points fall on one voltage. Without smoothing."
  },
  {
   "property": "C190",
   "status": "proved",
   "theorems": [
    "QMix.IvData.C190_dc",
    "QMix.IvData.C190_one_sided",
    "QMix.IvData.C190_pumped",
    "QMix.Exp.C190_dc_object",
    "QMix.Exp.C190_pumped_object"
   ],
   "note": "C190_dc (the same offset is found in both), C190_one_sided (offsets of the user), C190_pumped; C190_dc_object and C190_pumped_object for the objects DCData and PumpedData (without IF data). C189 shows that this fails for the IF data."
  },
  {
   "property": "C191",
   "status": "proved",
   "theorems": [
    "QMix.DataFp.C191_slope",
    "QMix.DataFp.C191_slope_span",
    "QMix.DataFp.C191_interp_exact",
    "QMix.DataFp.C191_interp",
    "QMix.DataFp.C191_line"
   ],
   "note": "C191_slope, C191_slope_span, C191_line, C191_interp_exact, C191_interp. The data are the stored numbers: errors of the data themselves are the subject of C180 and C187. Overflow and underflow are not modelled."
  },
  {
   "property": "C192",
   "status": "proved",
   "theorems": [
    "QMix.GaussFp.C192_smooth",
    "QMix.GaussFp.C192_whole",
    "QMix.GaussFp.C192_verge"
   ],
   "note": "C192_smooth, C192_whole (windows over a whole number of points), C192_verge (the distance from another number of points is needed: three points that are smoothed with exact numbers are refused). Sums are a parameter: every term goes through at most as many roundings as there are terms; `leftToRight` is an instance. Overflow and underflow are not modelled."
  },
  {
   "property": "C193",
   "status": "proved",
   "theorems": [
    "QMix.KkFp.C193_trapz",
    "QMix.KkFp.C193_ohmic"
   ],
   "note": "C193_trapz, C193_ohmic. The error is measured by the sizes of the areas (`areas`), not by the result, where they cancel. The Hilbert transform version (kk_trans) uses an FFT and is not treated. Overflow and underflow are not modelled."
  },
  {
   "property": "C194",
   "status": "proved",
   "theorems": [
    "QMix.Results.C194_ranges"
   ],
   "note": "C194_ranges. Ticks, grids and logarithmic scales are not modelled. Drive levels above 1.2 lie outside their figure."
  },
  {
   "property": "C195",
   "status": "proved",
   "theorems": [
    "QMix.Spec.C195_real",
    "QMix.Spec.C195_complex",
    "QMix.Term.C195_line"
   ],
   "note": "C195_real, C195_complex, C195_line (name, units and comment), without colour (C110 treats colours). expNumeral specifies how a number with an exponent is read. Infinite numbers and NaN are not modelled."
  },
  {
   "property": "C196",
   "status": "proved",
   "theorems": [
    "QMix.Props.C196_freq",
    "QMix.Props.C196_units",
    "QMix.Props.C196_printed",
    "QMix.Props.C196_alpha",
    "QMix.Props.C196_freq_64"
   ],
   "note": "C196_freq, C196_units, C196_printed, C196_alpha for any arithmetic; C196_freq_64 for double precision (eight unit roundoffs). Overflow and underflow are not modelled. set_alpha with a complex zj is only covered in exact arithmetic (C04)."
  },
  {
   "property": "C197",
   "status": "proved",
   "theorems": [
    "QMix.Props.C197_points",
    "QMix.Props.C197_increasing",
    "QMix.Props.C197_increasing_64",
    "QMix.Props.C197_equal"
   ],
   "note": "C197_points, C197_increasing, C197_increasing_64; C197_equal: without the condition on the step two voltages can be equal. np.linspace is modelled operation by operation; vb_min is a number of the arithmetic. Overflow and underflow are not modelled."
  },
  {
   "property": "C198",
   "status": "proved",
   "theorems": [
    "QMix.Props.C198_photon",
    "QMix.Props.C198_circuit",
    "QMix.Props.C198_junction",
    "QMix.Props.C198_window"
   ],
   "note": "C198_photon, C198_circuit (equality, not only closeness), C198_junction, C198_window. The gap voltage and the normal resistance are given; overflow and underflow are not modelled."
  },
  {
   "property": "C199",
   "status": "partial",
   "theorems": [
    "QMix.Props.C199_exponential",
    "QMix.Props.C199_expanded",
    "QMix.Props.C199_polynomial_partial",
    "QMix.Props.C199_polynomial_range_partial",
    "QMix.Props.C199_false_polynomial"
   ],
   "note": "True of exponential and expanded (C199_exponential, C199_expanded: the change is at most a constant over the largest number). False of polynomial: with the order 100 the current at 35 gap voltages, the end of the range of RespFnPolynomial, is NaN in binary64 (C199_false_polynomial). C199_polynomial_partial: nothing is lost if the powers do not overflow; C199_polynomial_range_partial: that holds up to the order 99 within 35 gap voltages."
  },
  {
   "property": "C200",
   "status": "partial",
   "theorems": [
    "QMix.Props.C200_handling_partial",
    "QMix.Props.C200_silenced",
    "QMix.Props.C200_failed",
    "QMix.Props.C200_exponential",
    "QMix.Props.C200_false",
    "QMix.Props.C200_false_result"
   ],
   "note": "False: with the defaults of NumPy, importing the package and one call of exponential change three of the four settings (C200_false), for the rest of the process (C200_silenced); with over=\"raise\", polynomial(35, 100) raises FloatingPointError before a call of exponential and returns NaN after it (C200_false_result). C200_handling_partial: underflow is handled as before, and the other errors as before or ignored. C200_exponential: exponential itself does not depend on the state."
  },
  {
   "property": "C201",
   "status": "proved",
   "theorems": [
    "QMix.Props.C201_polynomial",
    "QMix.Props.C201_sign",
    "QMix.Props.C201_polynomial_64"
   ],
   "note": "C201_polynomial: 2 p + 2 roundings if powers are right up to p roundings. C201_polynomial_64: within seven units of roundoff in binary64 with p = 2. C201_sign: positive, negative or zero as the voltage. For overflow see C199."
  },
  {
   "property": "C202",
   "status": "proved",
   "theorems": [
    "QMix.Props.C202_exponential",
    "QMix.Props.C202_exponential_64"
   ],
   "note": "C202_exponential: p + 13 roundings and exp of three roundings of the exponents, relative to |v| (2 rn / rsg + 2), if exponentials are right up to p roundings. C202_exponential_64: in binary64 at most 1e-11 times that if the exponents are at most 10000. For overflow see C199."
  }
 ]
}