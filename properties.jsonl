{"id": "C01", "title": "Available power set/get round trip", "statement": "After set_available_power(P, f, p, units=u) succeeds, available_power(f, p, units=u) returns exactly P, for every recognised unit u in any letter case, provided the Thevenin resistance Re(zt[f,p])*rn is positive, vgap is non-zero and P is non-negative when u is a linear unit.", "quantifier": "every circuit size, every tone/harmonic index, every stored array content, every power value, every unit spelling", "why_tests_cant": "the power value, impedance, gap voltage and resistance are continuous and the unit switch has eight branches in two separate functions; tests sample a few values of each", "anchors": ["qmix/circuit.py:EmbeddingCircuit.available_power", "qmix/circuit.py:EmbeddingCircuit.set_available_power"]}
{"id": "C02", "title": "Power units are mutually consistent", "statement": "Reading the same signal's available power in two different units gives values related by the exact SI/decibel conversion, so a power set in one unit and read in another is converted correctly.", "quantifier": "every circuit with gap voltage and normal resistance, every index, every ordered pair of units", "why_tests_cant": "64 ordered unit pairs over continuous values", "anchors": ["qmix/circuit.py:EmbeddingCircuit.available_power", "qmix/circuit.py:EmbeddingCircuit.set_available_power"]}
{"id": "C03", "title": "Setters touch only the addressed signal", "statement": "set_available_power, set_alpha, set_freq and set_name change at most the one array entry addressed by (f, p) under Python index rules; every other entry of freq, vt, zt, vb, every other comment and all scalar parameters are unchanged; a call that raises changes nothing.", "quantifier": "every circuit, every call of every setter, every index including negative and out-of-range ones", "why_tests_cant": "frame conditions range over all the entries that are not touched and over all arguments", "anchors": ["qmix/circuit.py:EmbeddingCircuit.set_available_power", "qmix/circuit.py:EmbeddingCircuit.set_alpha", "qmix/circuit.py:EmbeddingCircuit.set_freq", "qmix/circuit.py:EmbeddingCircuit.set_name"]}
{"id": "C04", "title": "set_alpha is the voltage-divider inverse", "statement": "After set_alpha(alpha, f, p, zj), dividing the Thevenin voltage across zj in series with zt[f,p] gives a junction voltage of exactly alpha*freq[f]. For the fundamental this is drive level alpha in the sense used by the tunnelling-current calculation; for harmonic p it is drive level alpha/p.", "quantifier": "every circuit, index, drive level, non-zero junction impedance with zj + zt != 0", "why_tests_cant": "continuous complex parameters", "anchors": ["qmix/circuit.py:EmbeddingCircuit.set_alpha", "qmix/qtcurrent.py:calculate_phase_factor_coeff"]}
{"id": "C05", "title": "Frequency units agree", "statement": "On a circuit whose gap was given by one parameter (vgap or fgap), set_freq gives the same normalised frequency whether the same physical frequency is supplied in Hz, MHz, GHz, THz, or as photon voltage in V or mV, and 'norm' stores the value itself; an unrecognised unit raises ValueError and changes nothing.", "quantifier": "every circuit, every frequency, every unit pair and letter case", "why_tests_cant": "seven branches over continuous values, relation between two physical routes", "anchors": ["qmix/circuit.py:EmbeddingCircuit.set_freq", "qmix/circuit.py:EmbeddingCircuit.__init__"]}
{"id": "C06", "title": "Normalised frequency needs no gap parameter", "statement": "set_freq(value, f, units='norm') succeeds on a circuit for which no gap frequency or voltage was given (the documented guard excludes 'norm').", "quantifier": "every circuit without gap parameters, every value", "why_tests_cant": "the guard compares a method object with a string; only inputs without a gap expose it and no test constructs one", "anchors": ["qmix/circuit.py:EmbeddingCircuit.set_freq"]}
{"id": "C07", "title": "Constructor validates and derives parameters coherently", "statement": "EmbeddingCircuit(...) succeeds exactly for num_f in 1..4, num_p >= 1, vb_npts >= 1 and vb_max >= vb_min; the result has zeroed arrays, a bias sweep of vb_npts evenly spaced points from vb_min to vb_max, and gap voltage and gap frequency related by h/e whenever one of them was given; the gap current equals vgap/rn whenever both are known.", "quantifier": "every combination of constructor arguments", "why_tests_cant": "option combinations times continuous values", "anchors": ["qmix/circuit.py:EmbeddingCircuit.__init__"]}
{"id": "C08", "title": "A locked circuit cannot change", "statement": "While a circuit is locked, no sequence of library calls (setters, direct array writes, harmonic balance) changes freq, vt, zt or vb: each such write raises and leaves the circuit as it was; lock and unlock change no values; after unlock writes behave exactly as before the lock.", "quantifier": "every history of calls of any length", "why_tests_cant": "ranges over all call histories", "anchors": ["qmix/circuit.py:EmbeddingCircuit.lock", "qmix/circuit.py:EmbeddingCircuit.unlock", "qmix/harmonic_balance.py:harmonic_balance"]}
{"id": "C09", "title": "Saved circuits read back to the stated precision", "statement": "read_circuit of a file written by save_info yields a circuit with the same number of tones and harmonics in which every freq and vt entry is the original rounded to 4 decimals and every zt entry the original rounded to 2 decimals (so the error is at most half a unit in the last place).", "quantifier": "every circuit: any 1-4 tones, any number of harmonics, any finite values of either sign and any magnitude", "why_tests_cant": "text layout, token positions, sign and digit-count cases over unbounded values and harmonic counts", "anchors": ["qmix/circuit.py:EmbeddingCircuit.save_info", "qmix/circuit.py:read_circuit"]}
{"id": "C10", "title": "Saving is idempotent after one pass", "statement": "Saving, reading and saving again produces the identical file, and reading that gives the identical circuit.", "quantifier": "every circuit", "why_tests_cant": "every value", "anchors": ["qmix/circuit.py:EmbeddingCircuit.save_info", "qmix/circuit.py:read_circuit"]}
{"id": "C11", "title": "No out-of-range array access in the current calculation", "statement": "For every tone count, harmonic count and per-tone summation limit, calculating the tunnelling current performs only in-range array accesses (the compiled kernels do no bounds checking, so a stray index would read foreign memory silently).", "quantifier": "every num_f in 1..4, num_p >= 1, every tuple or integer num_b >= 0, every output frequency", "why_tests_cant": "index ranges depend on num_p, num_b and the mixing order in all combinations", "anchors": ["qmix/qtcurrent.py:_convolve_coefficients", "qmix/qtcurrent.py:_current_coeff_1_tone", "qmix/qtcurrent.py:_current_coeff_2_tones", "qmix/qtcurrent.py:_current_coeff_3_tones", "qmix/qtcurrent.py:_current_coeff_4_tones", "qmix/qtcurrent.py:interpolate_respfn"]}
{"id": "C12", "title": "Interpolated response matrix has the right layout", "statement": "interpolate_respfn returns a matrix whose entry at (possibly negative) index (k, l, ...) is the response function at vb + k*freq[1] + l*freq[2] + ..., for one, two, three and four tones alike.", "quantifier": "every response function, every vb, freq, every num_b, all indices in range", "why_tests_cant": "two different implementations (index arrays and loops) over unbounded summation limits", "anchors": ["qmix/qtcurrent.py:interpolate_respfn", "qmix/qtcurrent.py:_interpolate_respfn_1_tone", "qmix/qtcurrent.py:_interpolate_respfn_2_tone", "qmix/qtcurrent.py:_interpolate_respfn_3_tone", "qmix/qtcurrent.py:_interpolate_respfn_4_tone"]}
{"id": "C13", "title": "Phase-factor coefficients are the harmonic convolution", "statement": "calculate_phase_factor_coeff returns, for each tone and every index k within the summation limit, the convolution over harmonics p = 1..num_p of the Jacobi-Anger coefficients J_n(alpha)*exp(-i n phi), i.e. the sum over all l with both l and k - p*l inside the summation limit: no term missed at the boundary and none added.", "quantifier": "every junction voltage, frequency, num_p, num_b", "why_tests_cant": "loop limits computed by division and truncation; boundary terms are tiny for tested drive levels so an off-by-one does not show up numerically", "anchors": ["qmix/qtcurrent.py:calculate_phase_factor_coeff", "qmix/qtcurrent.py:_convolve_coefficients"]}
{"id": "C14", "title": "The current is the MTSDA sum", "statement": "For 1, 2, 3 and 4 tones qtcurrent returns, at each requested frequency, the sum of the mixing products (a,b,..) with |a|,|b|,.. <= num_p whose frequency rounds to the requested one, each product being -i*(R(a..) - conj R(-a..)) (or Im R at dc) with R the truncated correlation of the phase-factor coefficients with the response function.", "quantifier": "every voltage, frequency, response function, num_p, num_b, tone count", "why_tests_cant": "four hand-unrolled kernels over unbounded loops", "anchors": ["qmix/qtcurrent.py:qtcurrent", "qmix/qtcurrent.py:_current_1_tone", "qmix/qtcurrent.py:_current_2_tones", "qmix/qtcurrent.py:_current_3_tones", "qmix/qtcurrent.py:_current_4_tones"]}
{"id": "C15", "title": "Negative frequencies carry the conjugate current", "statement": "The current at -f is the complex conjugate of the current at f (the time-domain current is real), for any number of tones.", "quantifier": "every input and every output frequency", "why_tests_cant": "continuous inputs, all mixing orders", "anchors": ["qmix/qtcurrent.py:qtcurrent"]}
{"id": "C16", "title": "The dc current is real", "statement": "The current at frequency 0 has zero imaginary part, so returning only its real part for a scalar request of frequency 0 loses nothing, even when some non-trivial mixing product also falls at dc.", "quantifier": "every input", "why_tests_cant": "degenerate frequency combinations", "anchors": ["qmix/qtcurrent.py:qtcurrent"]}
{"id": "C17", "title": "Undriven tones do not change the current", "statement": "Adding a tone with zero junction voltage (any frequency, any summation limit) leaves the current at every frequency unchanged: 2 tones reduce to 1, 3 to 2 and 4 to 3.", "quantifier": "every input, every undriven tone frequency and summation limit, every output frequency", "why_tests_cant": "relates separate hand-written kernels over all inputs", "anchors": ["qmix/qtcurrent.py:qtcurrent"]}
{"id": "C18", "title": "Undriven harmonics do not change the mixing products", "statement": "Declaring an extra harmonic with zero voltage leaves all phase-factor coefficients, and hence every mixing product, unchanged.", "quantifier": "every input, every num_p", "why_tests_cant": "unbounded number of harmonics", "anchors": ["qmix/qtcurrent.py:calculate_phase_factor_coeff"]}
{"id": "C19", "title": "Tone numbering is immaterial", "statement": "Permuting the tones (frequencies, voltages and summation limits together) leaves the current at every frequency unchanged.", "quantifier": "every input, every permutation of tones", "why_tests_cant": "all permutations over continuous inputs", "anchors": ["qmix/qtcurrent.py:qtcurrent"]}
{"id": "C20", "title": "Time-shift covariance", "statement": "Delaying all signals of tone f by phase theta_f (harmonic p by p*theta_f) multiplies the mixing product (a,b,..) by exp(i(a*theta_1 + b*theta_2 + ..)); the single-tone dc current does not depend on the phase of the pump.", "quantifier": "every input, every phase, every summation limit (exact at finite truncation)", "why_tests_cant": "continuous symmetry", "anchors": ["qmix/qtcurrent.py:qtcurrent", "qmix/qtcurrent.py:calculate_phase_factor_coeff"]}
{"id": "C21", "title": "With no drive the junction is its dc I-V curve", "statement": "With all junction voltages zero the dc current is the dc I-V curve at the bias voltage and every ac current is zero, independently of num_b.", "quantifier": "every response function, bias voltage, frequency set, num_b, num_p", "why_tests_cant": "all functions and limits", "anchors": ["qmix/qtcurrent.py:qtcurrent"]}
{"id": "C22", "title": "The current is linear in the response function", "statement": "The current for a sum or real multiple of response functions is the sum or multiple of the currents.", "quantifier": "all pairs of response functions, all real factors, all inputs", "why_tests_cant": "function-valued quantifier", "anchors": ["qmix/qtcurrent.py:qtcurrent"]}
{"id": "C23", "title": "Output frequency list semantics", "statement": "A list request returns one row per requested frequency in order, each equal to the scalar request; only mixing products within half a unit of the 4th decimal of the (rounded) request contribute; a frequency matched by no mixing product gives exactly zero current; the caller's list is not modified.", "quantifier": "every frequency list", "why_tests_cant": "all lists and all rounding boundaries", "anchors": ["qmix/qtcurrent.py:qtcurrent"]}
{"id": "C24", "title": "Pre-interpolated response matrices", "statement": "Supplying the matrix from interpolate_respfn for the same circuit and num_b gives the same result as letting qtcurrent compute it; a matrix interpolated with larger summation limits also gives the same result; a matrix interpolated with smaller limits is not detected and can give a different result.", "quantifier": "every input, every pair of summation limits", "why_tests_cant": "relation between wrap-around layouts of different sizes", "anchors": ["qmix/qtcurrent.py:qtcurrent", "qmix/qtcurrent.py:interpolate_respfn"]}
{"id": "C25", "title": "Summation limits of one tone do not affect another", "statement": "The phase-factor coefficients of a tone, and entries of a num_b tuple beyond num_f, depend only on that tone's own summation limit.", "quantifier": "every num_b tuple, num_p", "why_tests_cant": "only visible for num_p >= 3 with unequal limits; values differ by small truncation terms", "anchors": ["qmix/qtcurrent.py:calculate_phase_factor_coeff", "qmix/qtcurrent.py:_convolve_coefficients", "qmix/qtcurrent.py:_unpack_num_b"]}
{"id": "C26", "title": "Single-tone current agrees with Tucker theory used in impedance recovery", "statement": "For one tone and one harmonic the dc current of qtcurrent equals the photon-step sum used by the experimental analysis, and the ac current equals the analysis formula up to the two outermost Bessel terms.", "quantifier": "every drive, frequency, bias, response function, num_b", "why_tests_cant": "two independent implementations over all inputs", "anchors": ["qmix/qtcurrent.py:qtcurrent", "qmix/exp/exp_data.py:_find_pumped_iv_curve", "qmix/exp/exp_data.py:_find_ac_current"]}
{"id": "C27", "title": "A converged harmonic balance satisfies the circuit equations", "statement": "If harmonic_balance stops because its error target is met, then for every signal and every bias point |vt - zt*ij(vj) - vj| <= stop_rerror*|vj| for the voltage it returns, where ij is the tunnelling current at that voltage.", "quantifier": "every circuit, response function, starting point, damping, iteration limit", "why_tests_cant": "convergence histories", "anchors": ["qmix/harmonic_balance.py:harmonic_balance"]}
{"id": "C28", "title": "The convergence flag tells whether the target was met", "statement": "In mode 'x' the flag is true exactly when the error target was met.", "quantifier": "every run", "why_tests_cant": "fails only when the last permitted iteration converges", "anchors": ["qmix/harmonic_balance.py:harmonic_balance"]}
{"id": "C29", "title": "Harmonic balance terminates within max_it updates", "statement": "harmonic_balance evaluates the error at most max_it + 1 times, applies at most max_it updates when the errors are ordinary numbers, and the reported iteration number is the number of updates applied.", "quantifier": "every run, every max_it", "why_tests_cant": "all histories", "anchors": ["qmix/harmonic_balance.py:harmonic_balance"]}
{"id": "C30", "title": "Signal numbering is a bijection", "statement": "The flattened signal index used by harmonic balance corresponds one-to-one to (tone, harmonic): reshaping to 2-D and back is the identity and the index printed for signal k names the tone and harmonic whose data is at position k.", "quantifier": "every num_f, num_p and index", "why_tests_cant": "unbounded sizes", "anchors": ["qmix/harmonic_balance.py:_k_to_fp", "qmix/harmonic_balance.py:_qt_current_for_hb", "qmix/harmonic_balance.py:harmonic_balance"]}
{"id": "C31", "title": "Zero embedding impedance short-circuits harmonic balance", "statement": "If every zt is zero the junction voltage returned is the Thevenin voltage at every bias point and the circuit is unchanged; the shape of the result follows the requested mode.", "quantifier": "every circuit with zero impedance, every mode", "why_tests_cant": "mode is ignored on this path", "anchors": ["qmix/harmonic_balance.py:harmonic_balance"]}
{"id": "C32", "title": "Harmonic balance does not modify its inputs", "statement": "harmonic_balance leaves the circuit and a caller-supplied vj_initial unchanged.", "quantifier": "every circuit, every starting array, every number of tones and harmonics", "why_tests_cant": "depends on numpy view semantics for particular shapes and on tiny vt entries", "anchors": ["qmix/harmonic_balance.py:harmonic_balance"]}
{"id": "C33", "title": "NaN never counts as convergence", "statement": "If the relative error of any signal at any bias point is NaN, harmonic balance does not report that the target was met.", "quantifier": "every pattern of NaN over signals and points", "why_tests_cant": "depends on the position of the NaN and on Python max semantics", "anchors": ["qmix/harmonic_balance.py:harmonic_balance"]}
{"id": "C34", "title": "check_hb_error agrees with harmonic balance", "statement": "check_hb_error accepts a voltage exactly when harmonic_balance's own stopping test accepts it.", "quantifier": "every voltage, every tolerance", "why_tests_cant": "differs on the boundary only", "anchors": ["qmix/harmonic_balance.py:check_hb_error", "qmix/harmonic_balance.py:harmonic_balance"]}
{"id": "C35", "title": "Newton step is exact for affine currents", "statement": "If the tunnelling current is a real-affine function of the junction voltages and the Jacobian is invertible, one undamped update makes the error vanish at every signal; with damping d the error is multiplied by 1 - d.", "quantifier": "every affine current, every circuit, every number of signals, every damping", "why_tests_cant": "matrix layout over all sizes", "anchors": ["qmix/harmonic_balance.py:_inv_jacobian", "qmix/harmonic_balance.py:harmonic_balance"]}
{"id": "C36", "title": "Response function data is reflected to an odd curve", "statement": "The I-V data given for v >= 0 is extended to an odd function of voltage: 2n-1 points, strictly increasing voltage if the input was, current(-v) = -current(v); at v = 0 oddness holds exactly if the supplied current there is 0.", "quantifier": "every data set of every length", "why_tests_cant": "all data", "anchors": ["qmix/respfn.py:RespFn.__init__"]}
{"id": "C37", "title": "resp, resp_conj and resp_swap are consistent", "statement": "resp(v) = ikk(v) + i*idc(v), resp_conj(v) is its complex conjugate, and resp_swap(v) = i*resp_conj(v), for every response function.", "quantifier": "every voltage, every interpolant", "why_tests_cant": "function-valued", "anchors": ["qmix/respfn.py:RespFn.resp", "qmix/respfn.py:RespFn.resp_conj", "qmix/respfn.py:RespFn.resp_swap"]}
{"id": "C38", "title": "Curve sampling keeps a valid, ordered set of points", "statement": "The sampling used before interpolation returns a strictly increasing list of valid indices that contains the first and last three points, whenever it returns; it needs at least 201 points.", "quantifier": "every curve, every length, every max_npts", "why_tests_cant": "all curves", "anchors": ["qmix/respfn.py:_sample_curve"]}
{"id": "C39", "title": "Sampled curve respects its point limit", "statement": "The number of points kept for interpolation does not exceed the max_npts parameter.", "quantifier": "every curve and limit", "why_tests_cant": "documented limit not enforced", "anchors": ["qmix/respfn.py:_sample_curve"]}
{"id": "C40", "title": "Measured I-V data is extended with unit slope", "statement": "RespFnFromIVData resamples the measured data so that above the last kept voltage the current is exactly v plus the offset of the last point (slope one, continuous) and inside the data range it stays between neighbouring samples.", "quantifier": "every data set", "why_tests_cant": "all data", "anchors": ["qmix/respfn.py:RespFnFromIVData.__init__"]}
{"id": "C41", "title": "User options win over defaults", "statement": "Every option given by the user to a response-function or experimental-data constructor is the one used; an option not given takes the documented default; the shared default dictionary is never modified.", "quantifier": "every combination of options, every sequence of constructor calls", "why_tests_cant": "all option sets and call sequences", "anchors": ["qmix/respfn.py:_default_params", "qmix/exp/parameters.py:params", "qmix/exp/exp_data.py:DCData.__init__", "qmix/exp/exp_data.py:PumpedData.__init__"]}
{"id": "C42", "title": "Kramers-Kronig transform is linear and parity reversing", "statement": "kk_trans of current = voltage is zero, the transform is linear in the excess current, and an odd current gives an even transform, for every number of points and every padding factor.", "quantifier": "every length, every padding factor, every curve", "why_tests_cant": "discrete Fourier transform over all sizes", "anchors": ["qmix/mathfn/kktrans.py:kk_trans"]}
{"id": "C43", "title": "I-V models are odd", "statement": "perfect, polynomial, exponential (both variants) and expanded I-V models satisfy I(-v) = -I(v), and perfect_kk is even.", "quantifier": "every voltage and every parameter value", "why_tests_cant": "continuous parameters", "anchors": ["qmix/mathfn/ivcurve_models.py:perfect", "qmix/mathfn/ivcurve_models.py:perfect_kk", "qmix/mathfn/ivcurve_models.py:polynomial", "qmix/mathfn/ivcurve_models.py:exponential", "qmix/mathfn/ivcurve_models.py:expanded"]}
{"id": "C44", "title": "Array and scalar forms of the perfect model agree", "statement": "perfect and perfect_kk give the same value for a scalar and for an array element, are defined for every real voltage, and perfect is 0 below, 1/2 at and v above the gap.", "quantifier": "every real voltage, every array", "why_tests_cant": "integer arrays differ", "anchors": ["qmix/mathfn/ivcurve_models.py:perfect", "qmix/mathfn/ivcurve_models.py:perfect_kk"]}
{"id": "C45", "title": "Polynomial model shape", "statement": "The polynomial model of any order is strictly increasing, lies between 0 and v for v > 0, equals 1/2 at the gap and converges to the perfect model as the order grows.", "quantifier": "every voltage, every order", "why_tests_cant": "all orders and limits", "anchors": ["qmix/mathfn/ivcurve_models.py:polynomial"]}
{"id": "C46", "title": "Gaussian smoothing is a length-preserving average", "statement": "gauss_conv returns as many points as it is given; every output lies between the minimum and maximum of the input; constants are preserved; it is linear and order preserving.", "quantifier": "every data array, every sigma and ext_x accepted", "why_tests_cant": "all lengths and window sizes incl. even ones", "anchors": ["qmix/mathfn/filters.py:gauss_conv", "qmix/mathfn/filters.py:_gauss"]}
{"id": "C47", "title": "Gaussian smoothing does not shift data", "statement": "Smoothing commutes with reversing the data (so it preserves even and odd symmetry) for every accepted sigma.", "quantifier": "every data array and window", "why_tests_cant": "holds only for windows with an integer half width", "anchors": ["qmix/mathfn/filters.py:gauss_conv"]}
{"id": "C48", "title": "slope is exact on straight lines", "statement": "slope returns one value per point and equals m everywhere for data on a line of slope m; it is linear in y; on an evenly spaced parabola it is exact at interior points.", "quantifier": "every grid, every line", "why_tests_cant": "all grids and lengths", "anchors": ["qmix/mathfn/misc.py:slope"]}
{"id": "C49", "title": "slope_span_n is exact on straight lines", "statement": "slope_span_n returns one value per point and equals m everywhere for data on a line of slope m, for every odd span accepted; with nozeros no returned value is zero.", "quantifier": "every grid, every odd n, every line", "why_tests_cant": "index arithmetic for all n and lengths", "anchors": ["qmix/mathfn/misc.py:slope_span_n"]}
{"id": "C50", "title": "Cleaning produces a strictly sorted, NaN-free subset", "statement": "clean_xy returns points that are strictly increasing in x and contain no NaN; every returned (x, y) pair is an input pair; every NaN-free input x is represented; cleaning twice gives the same as cleaning once.", "quantifier": "every pair of arrays, any order, duplicates, NaN positions, any sorting algorithm", "why_tests_cant": "all permutations, tie patterns and NaN patterns", "anchors": ["qmix/exp/clean_data.py:clean_xy", "qmix/exp/clean_data.py:remove_nans_xy", "qmix/exp/clean_data.py:sort_xy", "qmix/exp/clean_data.py:remove_doubles_xy"]}
{"id": "C51", "title": "Matrix cleaning keeps rows intact", "statement": "clean_matrix on column 0 of a two-column matrix is clean_xy of its columns; rows are never split; remove_doubles_matrix works for any sort column.", "quantifier": "every matrix, every column", "why_tests_cant": "all matrices; the sortedness check uses the wrong column", "anchors": ["qmix/exp/clean_data.py:clean_matrix", "qmix/exp/clean_data.py:remove_doubles_matrix", "qmix/exp/clean_data.py:sort_matrix"]}
{"id": "C52", "title": "One-pass selection keeps measured points", "statement": "Selecting one pass of a swept I-V curve returns a non-empty list of measured (v, i) pairs from the input, and does not change data that was already a single upward or downward sweep except for order.", "quantifier": "every sweep", "why_tests_cant": "all sweep shapes", "anchors": ["qmix/exp/iv_data.py:_take_one_pass"]}
{"id": "C53", "title": "Rotation used for filtering is undone exactly", "statement": "Rotating I-V data by -theta and back by theta returns the original data; rotation preserves distances.", "quantifier": "all data, all angles", "why_tests_cant": "continuous", "anchors": ["qmix/exp/iv_data.py:_rotate"]}
{"id": "C54", "title": "Series-resistance correction subtracts i*R", "statement": "The corrected voltage at each point is v - i*R wherever v/i is non-negative, currents are unchanged and pairs stay aligned; no NaN is introduced for finite input.", "quantifier": "all data, all resistances", "why_tests_cant": "zero-current points", "anchors": ["qmix/exp/iv_data.py:_correct_series_resistance"]}
{"id": "C55", "title": "Linear branch parameters are recovered exactly", "statement": "On data whose normal branch lies on i = (v - v0)/R the normal-resistance fit returns R and v0 exactly; the gap voltage computed from the two fitted lines is where the transition line reaches half of the current at the crossing of the lines.", "quantifier": "all such data sets", "why_tests_cant": "all data", "anchors": ["qmix/exp/iv_data.py:_find_normal_resistance", "qmix/exp/iv_data.py:_find_gap_voltage"]}
{"id": "C56", "title": "Noise temperature versus frequency is bounded and exact", "statement": "if_response returns noise temperatures between 0 and the maximum for every input power; for noiseless Y-factor data of a receiver with temperature T in range it returns T; points where hot power does not exceed cold power give the maximum (for the default load temperatures).", "quantifier": "all power spectra", "why_tests_cant": "all inputs", "anchors": ["qmix/exp/if_response.py:if_response"]}
{"id": "C57", "title": "Noise temperature and gain recover the receiver", "statement": "_find_tn_gain applied to hot/cold powers G*(T_hot + T) and G*(T_cold + T) returns T and G at every bias point, and the reported best point attains the maximum gain (or the minimum noise temperature). Powers measured at different bias voltages, or with a missing bias voltage, are refused.", "quantifier": "all receivers, all bias arrays, each selection rule", "why_tests_cant": "all data", "anchors": ["qmix/exp/if_data.py:_find_tn_gain"]}
{"id": "C58", "title": "Callen-Welton temperature is physical", "statement": "The Callen-Welton effective temperature is larger than the physical temperature and than the zero-point temperature hf/2k, increases with physical temperature and frequency, so hot is hotter than cold.", "quantifier": "all positive temperatures and frequencies", "why_tests_cant": "continuous", "anchors": ["qmix/exp/if_data.py:_temp_cw"]}
{"id": "C59", "title": "Shot-noise calibration gives 5.8 K/mV", "statement": "After calibration the slope of the IF power against bias voltage over the fitted shot-noise line is 5.8 K per mV and the intercept is the reported IF noise; the calibrated data does not depend on the gain of the IF chain.", "quantifier": "all straight shot-noise lines, all gains", "why_tests_cant": "continuous", "anchors": ["qmix/exp/if_data.py:_find_if_noise"]}
{"id": "C60", "title": "Impedance error is a least-squares residual", "statement": "The error function is never negative; it equals the smallest mean squared mismatch over all source voltages; the source voltage reported attains it; it is zero for data generated by that embedding impedance.", "quantifier": "all measured voltages, impedances and candidate embedding impedances", "why_tests_cant": "all vectors", "anchors": ["qmix/exp/exp_data.py:_error_function", "qmix/exp/exp_data.py:_find_source_voltage"]}
{"id": "C61", "title": "Drive-level refinement converges", "statement": "The drive level found is never negative; if the pumped current is increasing in drive level and the starting estimate is within half of alpha_max of the solution, the result is within alpha_max/2^16 of it.", "quantifier": "all monotone current functions, all starting estimates", "why_tests_cant": "all functions", "anchors": ["qmix/exp/exp_data.py:_find_alpha"]}
{"id": "C62", "title": "Legacy fit limits are honoured", "statement": "Giving the deprecated cut_low and cut_high (without fit_range) selects the interval they describe; giving fit_range selects that interval.", "quantifier": "all option combinations", "why_tests_cant": "default table always supplies fit_range", "anchors": ["qmix/exp/exp_data.py:PumpedData._recover_zemb", "qmix/exp/parameters.py:params"]}
{"id": "C63", "title": "Grid search returns the best grid impedance", "statement": "Impedance recovery returns an impedance on the search grid whose error is no larger than at any other grid point, and lies within the requested search ranges.", "quantifier": "all data, all ranges", "why_tests_cant": "all grids", "anchors": ["qmix/exp/exp_data.py:PumpedData._recover_zemb"]}
{"id": "C64", "title": "Offsets are removed consistently", "statement": "The voltages and currents returned by the dc I-V loader plus the reported offset are the measured ones, and pumped data is shifted by the same offset unless the user gave both offsets explicitly.", "quantifier": "all data, all option combinations", "why_tests_cant": "option combinations", "anchors": ["qmix/exp/iv_data.py:_correct_offset", "qmix/exp/iv_data.py:iv_curve"]}
{"id": "C65", "title": "Single-tone dc current is the Tien-Gordon sum", "statement": "With one tone and one harmonic the dc current returned by qtcurrent is the sum over |k| <= num_b of J_k(alpha)^2 * Idc(vb + k*freq), alpha = |vj|/freq.", "quantifier": "every junction voltage, frequency, response function, num_b", "why_tests_cant": "continuous", "anchors": ["qmix/qtcurrent.py:qtcurrent"]}
{"id": "C66", "title": "A converged harmonic balance can be restarted", "statement": "If harmonic_balance stops because its target is met, calling it again with the returned voltage as vj_initial and the circuit as it was left stops at once, applies no update and returns the same voltage, for every damping, iteration limit, mode and impedance guess.", "quantifier": "every circuit, response function, starting point and both sets of options", "why_tests_cant": "histories; depends on the in-place changes of the first call", "anchors": ["qmix/harmonic_balance.py:harmonic_balance"]}
{"id": "C67", "title": "Harmonic balance returns zero for tone 0 and harmonic 0", "statement": "Whenever the iteration is entered, the returned voltage array is zero in row 0 and in column 0 at every bias point, whatever vj_initial contains there.", "quantifier": "every run, every starting array", "why_tests_cant": "all shapes and histories", "anchors": ["qmix/harmonic_balance.py:harmonic_balance"]}
{"id": "C68", "title": "Solved bias points stay solved", "statement": "A bias point at which vj_initial satisfies the circuit equations exactly keeps that voltage however many updates the other points need; with damp_coeff = 0 the returned voltage is vj_initial.", "quantifier": "every circuit, response function, number of updates, damping", "why_tests_cant": "all histories", "anchors": ["qmix/harmonic_balance.py:harmonic_balance", "qmix/harmonic_balance.py:_inv_jacobian"]}
{"id": "C69", "title": "Bias points do not influence each other", "statement": "Two runs on circuits that differ only in their bias voltages, started from voltages that agree at a pair of points of equal bias voltage, return equal voltages there if they apply the same number of updates.", "quantifier": "every circuit, pair of bias arrays of any lengths, response function, starting point", "why_tests_cant": "vectorised arithmetic over all lengths", "anchors": ["qmix/harmonic_balance.py:harmonic_balance", "qmix/harmonic_balance.py:_inv_jacobian"]}
{"id": "C70", "title": "Corrected exponential model lies between its asymptotes", "statement": "With positive gap voltage, resistances and sharpness the exponential model 'fixed' lies between the subgap line v*rn/rsg and the normal-state line v at every voltage; the variant 'original' does not (for rsg = rn it is 2v).", "quantifier": "every voltage, every positive parameter value", "why_tests_cant": "continuous parameters", "anchors": ["qmix/mathfn/ivcurve_models.py:exponential"]}
{"id": "C71", "title": "perfect_kk is the Kramers-Kronig transform of perfect", "statement": "At every voltage other than the gap, perfect_kk(v) is the Cauchy principal value (1/pi) PV-integral of (perfect(x) - x) / (x - v) over all x.", "quantifier": "every voltage except |v| = 1", "why_tests_cant": "an integral over the whole line with a limit", "anchors": ["qmix/mathfn/ivcurve_models.py:perfect_kk", "qmix/mathfn/ivcurve_models.py:perfect"]}
{"id": "C72", "title": "kk_trans turns harmonics by a quarter period", "statement": "Without padding (n = 1) kk_trans maps an excess current cos(2 pi m t / N + phi), 0 < m < N/2, to -sin(2 pi m t / N + phi) and a constant excess current to zero, which with linearity fixes its sign and scale on every curve of odd length.", "quantifier": "every length N, harmonic m and phase", "why_tests_cant": "all sizes of the discrete Fourier transform", "anchors": ["qmix/mathfn/kktrans.py:kk_trans"]}
{"id": "C73", "title": "Response functions reproduce their data near zero, near the gap and at the ends", "statement": "idc and ikk of a response function equal the stored current and its Kramers-Kronig transform exactly at every data point within 0.05 of zero, within 0.1 of either gap, and at the first and last three data points.", "quantifier": "every data set, option set and interpolation that passes through its points", "why_tests_cant": "all curves", "anchors": ["qmix/respfn.py:RespFn.__init__", "qmix/respfn.py:_setup_interpolation", "qmix/respfn.py:_sample_curve"]}
{"id": "C74", "title": "RespFn accepts pre-processed data", "statement": "RespFn accepts I-V data with more points around the curvy regions and fewer points in the linear regions, as its documentation asks.", "quantifier": "every such data set", "why_tests_cant": "documentation against code, all data sets", "anchors": ["qmix/respfn.py:RespFn", "qmix/mathfn/kktrans.py:kk_trans"]}
{"id": "C75", "title": "v_smear smears the perfect curve", "statement": "RespFnPerfect(v_smear=s) stores the perfect I-V curve convolved with a Gaussian of that standard deviation; in particular it lies on the line i = v once the window is above the gap.", "quantifier": "every smear width", "why_tests_cant": "all widths", "anchors": ["qmix/respfn.py:RespFnPerfect.__init__", "qmix/respfn.py:RespFn.__init__"]}
{"id": "C76", "title": "check_error bounds the interpolation error", "statement": "A response function built with check_error=True differs from its data by less than max_interp_error at every data point with |v| < 34, for the DC curve and for its Kramers-Kronig transform.", "quantifier": "every data set and limit", "why_tests_cant": "all curves", "anchors": ["qmix/respfn.py:_setup_interpolation"]}
{"id": "C77", "title": "Derivatives are available", "statement": "didc(v) and dikk(v) return the derivatives of idc and ikk for every response function.", "quantifier": "every response function and voltage", "why_tests_cant": "all classes and voltages", "anchors": ["qmix/respfn.py:RespFn.didc", "qmix/respfn.py:RespFn.dikk", "qmix/respfn.py:RespFnPerfect.__init__"]}
{"id": "C78", "title": "Response functions can always be built", "statement": "With check_error off, a spline order from 1 to 5, positive padding and a smear width between 1/600 and 5, every response-function class builds an object: for every polynomial order >= 0, every non-zero gap voltage and resistances, and all measured data of equal lengths with a sample strictly between 0 and vlimit.", "quantifier": "every parameter value and data set", "why_tests_cant": "all parameters and data", "anchors": ["qmix/respfn.py:RespFnPolynomial.__init__", "qmix/respfn.py:RespFnExponential.__init__", "qmix/respfn.py:RespFnFromIVData.__init__", "qmix/respfn.py:RespFnPerfect.__init__"]}
{"id": "C79", "title": "IF response data may be given either way round", "statement": "if_response accepts the three quantities in columns or in rows and gives the same result; anything that has three columns neither way round is refused.", "quantifier": "every measurement with any number of points", "why_tests_cant": "all shapes", "anchors": ["qmix/exp/if_response.py:if_response"]}
{"id": "C80", "title": "The I-V filter keeps straight lines", "statement": "If the measured I-V curve is a straight line, the rotated Savitzky-Golay filter returns points of the same line, evenly spaced from the lowest to the highest voltage, for every rotation angle from 0 to below 90 degrees, window and order >= 1.", "quantifier": "every line, set of voltages, angle, window, order, number of points", "why_tests_cant": "continuous, all lengths", "anchors": ["qmix/exp/iv_data.py:_filter_iv_data", "qmix/exp/iv_data.py:_rotate"]}
{"id": "C81", "title": "Metadata of the dc I-V curve is consistent", "statement": "dciv_curve returns npts normalised voltages evenly spaced from -vmax/vgap to vmax/vgap and as many currents; the metadata holds the same arrays, igap * rn = vgap, fgap = e vgap / h, the series resistance used, and a gap voltage given by the user.", "quantifier": "every data set and option set for which the function returns", "why_tests_cant": "all inputs", "anchors": ["qmix/exp/iv_data.py:dciv_curve"]}
{"id": "C82", "title": "Resampling invents no current", "statement": "Without filter and series resistance, every normalised current returned by dciv_curve and iv_curve lies between the lowest and the highest measured (scaled and offset-corrected) current, or is zero outside the measured voltages in the pumped case.", "quantifier": "every data set and option set", "why_tests_cant": "all inputs", "anchors": ["qmix/exp/iv_data.py:dciv_curve", "qmix/exp/iv_data.py:iv_curve"]}
{"id": "C83", "title": "I-V data is loaded in the given units and sorted", "statement": "The I-V loader returns measured points converted to V and A, without NaN, with strictly increasing voltages, reaching from the lowest to the highest measured voltage; data that is not a two-column array is refused with AssertionError and unknown units with KeyError.", "quantifier": "every array, unit string and sorting algorithm", "why_tests_cant": "all inputs", "anchors": ["qmix/exp/iv_data.py:_load_iv"]}
{"id": "C84", "title": "Currents inside and outside the measured voltages", "statement": "Without filter and series resistance, dciv_curve interpolates on a straight line between a measured point below and one above, continues with the current of the outermost measured point, and iv_curve returns zero outside the measured voltages.", "quantifier": "every data set and option set", "why_tests_cant": "all inputs", "anchors": ["qmix/exp/iv_data.py:dciv_curve", "qmix/exp/iv_data.py:iv_curve"]}
{"id": "C85", "title": "A measured resistor comes out as a resistor", "statement": "If every row of the dc data is a point of V = r I (in the user's units and multipliers) and the data does not straddle the offset range, dciv_curve reports rn = rsg = r, zero offset, zero intercept, igap = vgap / r and the normalised curve i = v over the measured range, with and without the filter.", "quantifier": "every resistance, set of voltages, units, multipliers, rotation angle, window", "why_tests_cant": "continuous; end to end through loading, filtering, fitting and resampling", "anchors": ["qmix/exp/iv_data.py:dciv_curve"]}
{"id": "C86", "title": "The analysis of IF data does not depend on the gain of the IF chain", "statement": "If every measured IF power is multiplied by the same positive factor, dcif_data and if_data return the same calibrated powers, noise temperatures, gains, best point, IF noise and shot noise line, with a correction factor divided by that factor; with voltage ranges chosen by the user.", "quantifier": "every data set, factor, option set and smoothing", "why_tests_cant": "all inputs and factors", "anchors": ["qmix/exp/if_data.py:dcif_data", "qmix/exp/if_data.py:if_data"]}
{"id": "C87", "title": "A uniform receiver noise temperature is recovered end to end", "statement": "If the hot and cold powers at every bias voltage v are G(v)(T_hot + T) and G(v)(T_cold + T), if_data reports the noise temperature T at every point with power (NaN without), whatever G, resampling, smoothing and calibration, and the gain is the calibrated cold power divided by T_cold + T.", "quantifier": "every gain profile, noise temperature, data set and option set", "why_tests_cant": "continuous; end to end through loading, smoothing and calibration", "anchors": ["qmix/exp/if_data.py:if_data", "qmix/exp/if_data.py:_find_tn_gain", "qmix/exp/if_data.py:_load_if"]}
{"id": "C88", "title": "IF data is loaded on the requested grid", "statement": "Loaded IF data has npts voltages evenly spaced from 0 to vmax whatever was measured, so hot and cold data always match; powers lie on the straight line between the neighbouring measured points, are zero outside the measured voltages, never leave the measured range (or zero), and smoothing is gauss_conv with the width sigma / step; anything that is not a two-column array is refused with AssertionError and unknown units with KeyError.", "quantifier": "every data set, option set and sorting algorithm", "why_tests_cant": "all inputs", "anchors": ["qmix/exp/if_data.py:_load_if"]}
{"id": "C89", "title": "Calibrated IF powers and metadata are consistent", "statement": "The powers returned by dcif_data and if_data are the loaded powers times the reported correction factor; the points used for the calibration rise by 5.8 K/mV in the dc data, or in the average of hot and cold data when no dc calibration is given; a dc calibration that is given is used and reported unchanged; vmax is the largest voltage.", "quantifier": "every data set and option set for which the functions return", "why_tests_cant": "all inputs", "anchors": ["qmix/exp/if_data.py:dcif_data", "qmix/exp/if_data.py:if_data"]}
{"id": "C90", "title": "One bad bias point spoils the impedance recovery", "statement": "If one bias point on the fitted part of the photon step has a measured current below the unpumped current (where pumping raises the current), or lies where pumping does not change the current, then whatever the other points are the recovered impedance is the corner of the search grid (smallest resistance, smallest reactance), the source voltage is NaN and the fit is marked bad.", "quantifier": "every data set, option set and response function with such a point", "why_tests_cant": "all data sets; follows from NaN taking over the minimum search", "anchors": ["qmix/exp/exp_data.py:PumpedData._recover_zemb", "qmix/exp/exp_data.py:_find_alpha", "qmix/exp/exp_data.py:_error_function"]}
{"id": "C91", "title": "The drive level of a simulation is recovered from its current", "statement": "If qtcurrent simulates the dc current of one tone with drive level alpha, the experimental analysis of that current with the same response function finds alpha to within alpha_max / 2^16, provided the current increases with the drive level up to alpha + alpha_max / 2 and the linear estimate is within alpha_max / 2.", "quantifier": "every response function, bias, frequency, summation limit and phase of the drive", "why_tests_cant": "two modules end to end; all functions", "anchors": ["qmix/qtcurrent.py:qtcurrent", "qmix/exp/exp_data.py:_find_alpha", "qmix/exp/exp_data.py:_find_pumped_iv_curve"]}
{"id": "C92", "title": "Options that are not read have no effect", "statement": "DCData and PumpedData give the same object for any two sets of options that agree on the options actually read (a list given explicitly, smaller than the documented one): documented options outside the list, and misspelled ones, are silently without effect.", "quantifier": "every data set and every pair of option sets", "why_tests_cant": "all option sets", "anchors": ["qmix/exp/exp_data.py:DCData.__init__", "qmix/exp/exp_data.py:PumpedData.__init__", "qmix/exp/parameters.py:params"]}
{"id": "C93", "title": "Junction properties follow from the measured curve", "statement": "DCData reports q = rsg / rn, rna = rn area, jc = vgap / rna, and the leakage current as the current of the measured curve at vleak, on the straight line between the neighbouring points; without filter and with the gap voltage given, a measured resistor r comes out end to end with rn = rsg = r, q = 1, zero offset and ileak = vleak / r.", "quantifier": "every data set, option set and junction area", "why_tests_cant": "continuous; end to end", "anchors": ["qmix/exp/exp_data.py:DCData.__init__"]}
{"id": "C94", "title": "Which experimental data is accepted, refused and left out", "statement": "The constructors refuse data that is neither file nor array and pumped data without frequency (or with a text as frequency) with ValueError, and keywords that name parameters of inner functions with TypeError; with well-typed options, DCData without IF data returns whenever the curve can be analysed, and PumpedData without filter, series resistance, impedance recovery and IF data for every two-column array of numbers with two different voltages; IF data is analysed exactly if both loads are given and analyze_if is set, the impedance exactly if analyze_iv is set.", "quantifier": "every data set and option set", "why_tests_cant": "all inputs", "anchors": ["qmix/exp/exp_data.py:DCData.__init__", "qmix/exp/exp_data.py:PumpedData.__init__"]}
{"id": "C95", "title": "The best bias point", "statement": "tn_best, gain_best and v_best of PumpedData are noise temperature, gain and voltage at the same point idx_best; with default options no other point has a larger gain; g_db is the gain in decibel; zj_if is rn divided by the slope of the normalised pumped curve behind the nearest bias point if the curve is straight there; none of this can fail once the IF data has been analysed.", "quantifier": "every data set and option set", "why_tests_cant": "all inputs", "anchors": ["qmix/exp/exp_data.py:PumpedData.__init__", "qmix/exp/if_data.py:if_data"]}
{"id": "C96", "title": "Photon voltage and dynamic resistance of pumped data", "statement": "vph is the frequency divided by the gap frequency; if the pumped curve is a straight line of resistance rho (in the user's units, measured beyond the plotted range, no filter and no series resistance), rdyn = rho / rn at every bias point, end to end through loading, resampling and differentiation.", "quantifier": "every frequency, resistance, offset, data set and option set", "why_tests_cant": "continuous; end to end", "anchors": ["qmix/exp/exp_data.py:PumpedData.__init__", "qmix/mathfn/misc.py:slope_span_n"]}
{"id": "C97", "title": "The response function of a measured junction follows the measured curve", "statement": "The response function of DCData passes through the measured normalised curve: at voltages k/200 near zero, near the gap and at the far end idc is on the straight line between the neighbouring measured points (continued with the normal resistance beyond 1.8 gap voltages) and odd in the voltage; the smeared response function is the same with the deviation from the normal state smoothed by a Gaussian of width v_smear, so it never leaves the range of that deviation, and equals the unsmeared one for v_smear=None.", "quantifier": "every data set, option set and interpolating spline", "why_tests_cant": "continuous; for all splines through the samples", "anchors": ["qmix/exp/exp_data.py:DCData.__init__", "qmix/respfn.py:RespFnFromIVData", "qmix/respfn.py:RespFn.__init__"]}
{"id": "C98", "title": "The embedding impedance reported for pumped data", "statement": "Without filter, series resistance and IF data, PumpedData reports an impedance exactly when a bias point is on the fitted part of the photon step and raises ValueError otherwise; the impedance lies within remb_range and xemb_range, or is the one given by the user; with default options a single bias point there with a current below the unpumped one, in particular any point there that was not measured at all, makes it report -j with a NaN source voltage and a bad fit.", "quantifier": "every data set, junction and option set", "why_tests_cant": "all data sets; NaN taking over the minimum search end to end", "anchors": ["qmix/exp/exp_data.py:PumpedData.__init__", "qmix/exp/exp_data.py:PumpedData._recover_zemb", "qmix/exp/iv_data.py:iv_curve"]}
{"id": "C99", "title": "The current converges as num_b grows", "statement": "For every response function of at most polynomial growth, the currents returned by qtcurrent converge as the summation limits num_b grow, in whatever way, and the limit is the multi-tone sum over all photon numbers formed with the Fourier coefficients of the junction's phase factor exp(i phi), d phi / dt being the applied ac voltage.", "quantifier": "every number of tones and harmonics, voltage, frequency, bias and response function of polynomial growth", "why_tests_cant": "limit of infinitely many truncations", "anchors": ["qmix/qtcurrent.py:qtcurrent", "qmix/qtcurrent.py:calculate_phase_factor_coeff", "qmix/qtcurrent.py:_convolve_coefficients"]}
{"id": "C100", "title": "A resistor obeys Ohm's law and does not mix", "statement": "With the response function i v of a unit resistor the currents converge to the applied voltages: the bias voltage at dc, the phasor vj[f, p] at the frequency of that signal (the sum of the phasors if several signals share the frequency, the conjugate at negative frequencies), and nothing at any other frequency.", "quantifier": "every number of tones and harmonics, voltages, frequencies and biases", "why_tests_cant": "limit; continuous", "anchors": ["qmix/qtcurrent.py:qtcurrent"]}
{"id": "C101", "title": "Energy is conserved", "statement": "If no other mixing product coincides with a signal, the dc power plus the power Re(V* I) / 2 of all signals converges to the average of voltage times unpumped dc current over the voltages reached by photon exchange; so a junction whose unpumped current never opposes the voltage does not generate power under any drive.", "quantifier": "every number of tones and harmonics, voltages, frequencies without coincidence, biases and response functions of polynomial growth", "why_tests_cant": "limit; continuous", "anchors": ["qmix/qtcurrent.py:qtcurrent"]}
{"id": "C102", "title": "Reversing all voltages reverses all currents", "statement": "For a symmetric junction (idc odd, ikk even) reversing the bias and every applied voltage reverses the current at every frequency, exactly and for every num_b.", "quantifier": "every number of tones and harmonics, voltages, frequencies, biases and summation limits", "why_tests_cant": "continuous", "anchors": ["qmix/qtcurrent.py:qtcurrent"]}
{"id": "C103", "title": "IF data are analysed with the loads and the calibration they were given", "statement": "DCData reports IF data exactly if it is given some; shot noise of slope s over the fitted voltages gives the correction factor 5.8/s whatever the powers are elsewhere; PumpedData calibrates the hot and the cold powers with the factor of DCData; and for a receiver of noise temperature T it reports T at every bias point with power and a gain of cold power over (T + cold load).", "quantifier": "every data file, option, junction, receiver and load temperature", "why_tests_cant": "continuous; whole data files", "anchors": ["qmix/exp/exp_data.py:DCData", "qmix/exp/exp_data.py:PumpedData", "qmix/exp/if_data.py:dcif_data", "qmix/exp/if_data.py:if_data"]}
{"id": "C104", "title": "kk_trans computes the Kramers-Kronig integral", "statement": "For every bounded curve with at most countably many jumps, sampled at N evenly spaced voltages from a to b, and every sampled voltage V inside at which the curve has no jump (locally Lipschitz), kk_trans returns at V the principal value (1/pi) P int_a^b (i(x)-x)/(x-V) dx, up to 5 max|i-v| / n^2 from the padding n >= 2 and an error that vanishes as N grows, uniformly in n. For the perfect junction this is perfect_kk(V).", "quantifier": "every curve, interval, voltage and padding n >= 2, in the limit of many points", "why_tests_cant": "limit; continuous; all curves", "anchors": ["qmix/mathfn/kktrans.py:kk_trans", "qmix/mathfn/ivcurve_models.py:perfect_kk"]}
{"id": "C105", "title": "kk_trans_trapz is the same transform as kk_trans", "statement": "Under the same conditions kk_trans_trapz converges to the same principal value, so it agrees with kk_trans (and, for the perfect junction, with perfect_kk); it is linear in the excess current i - v, zero for i = v, and an odd current gives an even transform.", "quantifier": "every curve, interval and voltage, in the limit of many points; linearity for all arrays", "why_tests_cant": "limit; continuous; all curves", "anchors": ["qmix/mathfn/kktrans.py:kk_trans_trapz", "qmix/mathfn/kktrans.py:kk_trans"]}
{"id": "C106", "title": "Unevenly spaced voltages are refused by the Kramers-Kronig transforms", "statement": "kk_trans and kk_trans_trapz raise AssertionError if any gap between neighbouring voltages differs from the first gap by 1e-5 or more.", "quantifier": "all voltages and currents", "why_tests_cant": "all arrays", "anchors": ["qmix/mathfn/kktrans.py:kk_trans", "qmix/mathfn/kktrans.py:kk_trans_trapz"]}
{"id": "C107", "title": "Titles have the requested width", "statement": "terminal.title prints a title that fits on one line of exactly total_len characters, with stars on both sides that differ by at most one, followed by an empty line; a title that does not fit is printed in full without stars; a colour does not change the text that is shown.", "quantifier": "every title, every total_len (also negative), every documented colour", "why_tests_cant": "unbounded strings and lengths", "anchors": ["qmix/misc/terminal.py:title", "qmix/misc/terminal.py:cprint"]}
{"id": "C108", "title": "The progress bar tells the truth", "statement": "For 0 <= iteration <= total the bar has exactly bar_length cells, of which bar_length*iteration/total (to half a cell) are filled, the percentage is correct to half a unit of the last decimal and between 0 and 100, neither ever goes back, and the line is ended exactly when iteration == total; only total = 0 raises. A full bar implies that the work is done.", "quantifier": "all iteration, total, bar_length, decimals, prefixes and suffixes", "why_tests_cant": "all integers; rounding", "anchors": ["qmix/misc/progbar.py:progress_bar", "qmix/harmonic_balance.py:_inv_jacobian"]}
{"id": "C109", "title": "Printed complex numbers read back as the number", "statement": "The text printed by pvalf for a real or complex number, and the text returned by printc for a complex number, read as a number, is the value to the printed number of decimals (3 and 2).", "quantifier": "every finite complex number, name, unit and comment", "why_tests_cant": "all floating-point numbers", "anchors": ["qmix/misc/terminal.py:pvalf", "qmix/misc/terminal.py:printc"]}
{"id": "C110", "title": "Coloured text is complete and does not leak", "statement": "cprint never raises for a string or None as colour, always shows the whole text, shows it in the documented style for a documented colour in any case, and leaves the terminal in its default style; color=None prints no control sequences (also in header).", "quantifier": "every text and every colour string", "why_tests_cant": "all strings", "anchors": ["qmix/misc/terminal.py:cprint", "qmix/misc/terminal.py:header"]}
{"id": "C111", "title": "print_info describes the circuit", "statement": "For every circuit that can be reached by library calls print_info never raises, and lists every tone and harmonic exactly once, in order, with its frequency (GHz when the gap is known), comment, Thevenin voltage, impedance and available power (W and dBm), so that two circuits that print the same have the same signals.", "quantifier": "every circuit reachable by any history of calls", "why_tests_cant": "all circuits and histories", "anchors": ["qmix/circuit.py:print_info", "qmix/circuit.py:available_power"]}
{"id": "C112", "title": "The dc I-V figure shows the measured curve", "statement": "DCData.plot_dciv draws the analysed dc curve in mV and uA, a line with the slope of the reported normal resistance, a vertical line at the reported gap voltage, and a marker at the reported leakage point; the line labelled Rsg has the reported subgap resistance as its slope.", "quantifier": "every data set, option set and axes", "why_tests_cant": "all data sets and options; figures are not inspected by tests", "anchors": ["qmix/exp/exp_data.py:DCData.plot_dciv"]}
{"id": "C113", "title": "The figures of pumped data show the analysed data", "statement": "The figures of pumped I-V curves, IF powers, noise temperature, gain and offset (plot_iv, plot_if, plot_ivif, plot_noise_temp, plot_yfac_noise_temp, plot_gain, plot_gain_noise_temp, plot_offset, plot_if_noise) draw on the given axes exactly the analysed points, in the units of the axis labels, with markers at the reported best values; the figures that need IF data raise TypeError without it; and each figure can be drawn whenever the analysis succeeded.", "quantifier": "every data set, option set, receiver and axes", "why_tests_cant": "all data sets and options; figures are not inspected by tests", "anchors": ["qmix/exp/exp_data.py:PumpedData", "qmix/exp/exp_data.py:DCData"]}
{"id": "C114", "title": "The figure of the simulated curve shows the recovered circuit", "statement": "PumpedData.plot_simulated draws the measured curves and the curve of a junction with the smeared response driven through the recovered impedance by the recovered voltage: its points are the Tucker currents at the junction voltages of the harmonic balance, which solve the circuit equation to 0.1 % once the target is met; the fit interval is marked on this curve where the impedance was fitted; the figure is drawn whenever a voltage was recovered and the harmonic balance returns.", "quantifier": "every data set, option set, recovered circuit and axes", "why_tests_cant": "all data sets and options; figures are not inspected by tests", "anchors": ["qmix/exp/exp_data.py:PumpedData.plot_simulated"]}
{"id": "C115", "title": "The figure of the error surface shows the error of every impedance", "statement": "PumpedData.plot_error_surface draws 101 x 201 cells; the cell at R + j X shows the decimal logarithm of the fit error of exactly this impedance (in ohm), and the note 'Minimum Error at' is at the cell with the smallest error.", "quantifier": "every data set, option set and axes", "why_tests_cant": "all data sets and options; figures are not inspected by tests", "anchors": ["qmix/exp/exp_data.py:PumpedData.plot_error_surface"]}
{"id": "C116", "title": "plot_all and initialize_dir write exactly the documented folders and files", "statement": "DCData.plot_all and PumpedData.plot_all create the folders chosen by fig_folder and file_struc, write one figure per documented plot into its folder under a name made from the LO frequency, and change no other file or folder however the call ends; measurements at different frequencies never overwrite each other; initialize_dir creates the folder and the default sub-folders inside it.", "quantifier": "every data set, folder, folder structure, working directory and state of the disk", "why_tests_cant": "all states of the file system and all folder names; the tests only call the functions in an empty directory", "anchors": ["qmix/exp/exp_data.py:PumpedData.plot_all", "qmix/exp/exp_data.py:DCData.plot_all", "qmix/exp/exp_data.py:initialize_dir"]}
{"id": "C117", "title": "plot_overall_results writes a faithful summary of all measurements", "statement": "plot_overall_results makes the default folders, writes the measured dc curve, a table results.txt with one line per measurement whose entries read back as the reported noise temperature, gain, drive level, embedding impedance (ohm) and voltage (mV) to the printed decimals, a table of recovered circuits and the dc values, and twelve figures whose lines are exactly the reported values over frequency (only good fits in the figures of recovered circuits); it changes no other file; a measurement without IF data or without a recovered circuit is refused before any file is written.", "quantifier": "every list of measurements, dc data, folder and state of the disk", "why_tests_cant": "all lists of measurements and all values; marked pragma: no cover", "anchors": ["qmix/exp/exp_data.py:plot_overall_results"]}
{"id": "C118", "title": "plot_if_spectrum plots the IF spectra of a folder", "statement": "plot_if_spectrum draws, for every matching file of the folder, the noise temperature over IF frequency, and writes the figures if a folder for figures is given.", "quantifier": "every folder with spectra", "why_tests_cant": "all folders; marked pragma: no cover", "anchors": ["qmix/exp/exp_data.py:plot_if_spectrum", "qmix/exp/if_response.py:if_response"]}
{"id": "C119", "title": "A weak drive gives the small-signal quantum currents", "statement": "For one tone whose voltage is at most one photon step, qtcurrent at dc is the unpumped current plus a quarter of the squared drive level times the second difference of the I-V curve over one photon step, up to the fourth power of the drive; qtcurrent at the frequency of the tone is the voltage times the small-signal admittance (first difference of the I-V curve, second difference of its Kramers-Kronig transform), up to the third power.", "quantifier": "every response function, bias voltage, frequency, phase and drive level up to 1, any num_b >= 1", "why_tests_cant": "all response functions and an error bound for all drive levels; tests compare a few points", "anchors": ["qmix/qtcurrent.py:qtcurrent"]}
{"id": "C120", "title": "Frequency conversion is linear in a weak signal", "statement": "With a local oscillator of any strength and a second tone that is weak, qtcurrent at the difference frequency is the (conjugate) phasor of the signal times the conversion coefficient of the pumped junction, turned by the phase of the local oscillator, up to the third power of the signal; so the simulated conversion gain tends to a limit as the signal is turned down.", "quantifier": "every response function, bias voltage, local oscillator level, weak signal, pair of frequencies with distinct first products", "why_tests_cant": "a limit and an error bound for all drive levels; tests compare a few points", "anchors": ["qmix/qtcurrent.py:qtcurrent"]}
{"id": "C121", "title": "harmonic_balance finds the only solution of a circuit with small impedance", "statement": "For every set of tones, bias points and response function there is an embedding impedance below which the circuit equations have exactly one solution at every bias point, whatever the sources are; harmonic_balance with enough iterations stops at its error target from every start, in particular from its own initial guess, approaching the solution by at least the factor 1 - damp_coeff/2 per update; and whenever it stops at the target with nonzero voltages they are within 2 stop_rerror of the solution.", "quantifier": "every circuit with small enough impedance, response function, source, start, damping and error target", "why_tests_cant": "a statement about all circuits and unboundedly many iterations; a test runs one circuit", "anchors": ["qmix/harmonic_balance.py:harmonic_balance"]}
{"id": "C122", "title": "harmonic_balance converges near a regular solution", "statement": "If the circuit equations have a solution without zero voltages near which they are nearly linear, harmonic_balance with enough iterations stops at its error target from every start in this neighbourhood, stays in it, and comes closer to the solution by at least the factor 1 - damp_coeff/2 with every update, although its Jacobian is built from finite differences of 1 mV (normalised 0.001); nonzero voltages at which it stops within the neighbourhood are as close as the condition of the equations allows (2 beta stop_rerror).", "quantifier": "every circuit of any impedance, response function, solution, neighbourhood, start, damping in (0, 1] and error target", "why_tests_cant": "a statement about all circuits and unboundedly many iterations", "anchors": ["qmix/harmonic_balance.py:harmonic_balance", "qmix/harmonic_balance.py:_inv_jacobian"]}
{"id": "C123", "title": "The error of a given num_b is bounded", "statement": "For circuits whose tones have one harmonic each and a response function of at most linear growth, every current returned by qtcurrent differs from the sum over all photon numbers by at most an explicit bound that falls like (drive/2)^(2 num_b + 1) / (num_b! (num_b + 1)!), as long as the drive level of every tone is at most num_b + 1; with the default num_b = 15 and one tone at a drive level up to 4 it is below 3e-15 (relative to the scale of the response). No num_b suffices for all drive levels.", "quantifier": "every number of tones, frequency set, bias point, phase, response function with linear growth, drive level up to num_b + 1 and num_b", "why_tests_cant": "a bound on an infinite tail for all drive levels and limits; tests compare a few values of num_b", "anchors": ["qmix/qtcurrent.py:qtcurrent", "qmix/qtcurrent.py:calculate_phase_factor_coeff"]}
{"id": "C124", "title": "The report of the impedance recovery is right", "statement": "The lines printed after the impedance recovery give the voltage (units of Vgap) and impedance (units of Rn) of the embedding circuit, the largest power that it can deliver to any load (nW), the drive level and impedance of the junction, and the power absorbed by the junction (nW), each to two decimals; so the delivered power is never printed as larger than the available power.", "quantifier": "every recovered circuit, junction and drive level", "why_tests_cant": "all circuits; the printed report is not inspected by tests", "anchors": ["qmix/exp/exp_data.py:PumpedData._recover_zemb"]}
{"id": "C125", "title": "The messages of DCData and PumpedData are right, and verbose=False is silent", "statement": "With verbose=True the printed lines (and str and repr of DCData) give the analysed quantities in the stated units to the printed decimals; with verbose=False nothing is printed; the option does not change any result.", "quantifier": "every data set, option set, comment", "why_tests_cant": "all data sets and options; the printed text is not inspected by tests", "anchors": ["qmix/exp/exp_data.py:DCData.__str__", "qmix/exp/exp_data.py:PumpedData", "qmix/exp/if_data.py:if_data", "qmix/exp/iv_data.py:dciv_curve"]}
{"id": "C126", "title": "A junction with a smooth I-V curve is a nonlinear resistor (classical limit)", "statement": "When the photon steps of the circuit are small against the features of the I-V curve (the response function stretched by a large factor and the voltages scaled with it), the current returned by qtcurrent at a mixing frequency approaches the Fourier coefficient of the current that the I-V curve gives for the instantaneous voltage; at dc the time average. The Kramers-Kronig part does not matter.", "quantifier": "every continuous response function of at most linear growth, any number of tones and harmonics, any voltages, every mixing product in the box that no other shares its frequency with", "why_tests_cant": "a limit over all response functions and voltages", "anchors": ["qmix/qtcurrent.py:qtcurrent", "qmix/qtcurrent.py:_current_coeff_1_tone"]}
{"id": "C127", "title": "The current returned for frequency 0 is the dc current", "statement": "qtcurrent(..., freq_list=0, ...) returns the dc current alone: for a unit resistor the bias voltage, whatever ac signals are applied.", "quantifier": "every circuit and every set of signals", "why_tests_cant": "all frequencies; tests use frequencies of order 0.3", "anchors": ["qmix/qtcurrent.py:qtcurrent"]}
{"id": "C128", "title": "What harmonic_balance prints is what happened", "statement": "With verbose=True the output of harmonic_balance lists, for every pass, the median and the greatest relative error of each signal at the voltages of that pass and how many per cent of the bias points are done, then the reason why the iteration stopped and the number of corrections made; with verbose=False nothing is printed. Printing changes neither the result nor the exceptions.", "quantifier": "every circuit, response function, starting point, limit, target and damping", "why_tests_cant": "the text depends on the whole run; tests call the function with verbose=False or do not read the output", "anchors": ["qmix/harmonic_balance.py:harmonic_balance", "qmix/misc/progbar.py:progress_bar"]}
{"id": "C129", "title": "check_hb_error reports every signal up to the first failure", "statement": "check_hb_error prints one line per signal with its greatest relative error, says Yes for those that pass, stops with AssertionError at the first signal that does not (or whose error is undefined) after a line that says No, and returns without exception if and only if all pass.", "quantifier": "every circuit, response function, junction voltage and target", "why_tests_cant": "all voltages; the printed text is not inspected by tests", "anchors": ["qmix/harmonic_balance.py:check_hb_error"]}
{"id": "C130", "title": "The figures of a response function show the imported data and its interpolation", "statement": "RespFn.plot, plot_interpolation and show_current succeed for every response function of the five classes. The curve called imported shows the data that the user passed and its reflection, the curves called interpolated the values of idc and ikk at the same voltages; everything is drawn on the given axis, or a new one, which is returned unless a file name is given, and then the figure is saved there.", "quantifier": "every class, data set, option set, axis and file name", "why_tests_cant": "all data sets; tests only check that plotting does not raise", "anchors": ["qmix/respfn.py:RespFn.plot_interpolation", "qmix/respfn.py:RespFn.plot", "qmix/respfn.py:RespFn.show_current"]}
{"id": "C131", "title": "What a response function prints is right", "statement": "With verbose=True making a response function prints the smearing, and for each of the two curves the number of points of its spline, the mean size of its error at the data and the greatest error with its voltage; with verbose=False nothing is printed; printing changes neither the result nor the exceptions; str tells the classes apart.", "quantifier": "every class, data set and option set", "why_tests_cant": "all data sets and options; the printed text is not inspected by tests", "anchors": ["qmix/respfn.py:RespFn.__init__", "qmix/respfn.py:RespFn._setup_interpolation", "qmix/respfn.py:RespFn.__str__"]}
{"id": "C132", "title": "An ideal junction shows photon steps of height J_n squared", "statement": "For RespFnPerfect without smearing and one tone of frequency w and drive level alpha, the dc current returned by qtcurrent as a function of the bias voltage has limits from both sides everywhere. It jumps up by the sum of J_k(alpha)^2 over all photon numbers k up to num_b for which the bias voltage plus k w is a gap voltage, its value there is the middle of the step, and it is continuous everywhere else.", "quantifier": "every frequency above 1/20000, drive level, num_b and bias voltage", "why_tests_cant": "limits and continuity at every voltage; tests compare a few samples", "anchors": ["qmix/qtcurrent.py:qtcurrent", "qmix/respfn.py:RespFnPerfect", "qmix/mathfn/ivcurve_models.py:perfect"]}
{"id": "C133", "title": "Pumping does not create negative dynamic resistance", "statement": "If the dc I-V curve of the response function does not fall anywhere and no mixing product other than dc falls on frequency 0, the dc current returned by qtcurrent at equal ac voltages does not fall with the bias voltage.", "quantifier": "every nondecreasing I-V curve, number of tones and harmonics, ac voltages, num_b and bias points", "why_tests_cant": "all I-V curves and drive voltages; tests compare a few samples", "anchors": ["qmix/qtcurrent.py:qtcurrent"]}
{"id": "C134", "title": "The junction takes power from its only tone if num_b is large enough", "statement": "For one tone and a dc I-V curve that does not fall, the power Re(V* I)/2 computed from the current returned by qtcurrent at the frequency of the tone is the sum over photon numbers k of k w J_k(alpha)^2 times the difference of the dc current k photons above and below the bias, up to an explicit change of the last term. It is never negative while alpha^2 <= 4 num_b; with a smaller num_b it can be negative.", "quantifier": "every nondecreasing I-V curve, frequency above 1/20000, bias voltage, phase, drive level and num_b", "why_tests_cant": "the sign for all I-V curves and drive levels; a test of a few samples cannot show it", "anchors": ["qmix/qtcurrent.py:qtcurrent"]}
{"id": "C135", "title": "Requested frequencies are matched up to a tolerance", "statement": "qtcurrent returns the current of a mixing product for every requested frequency that is near enough to it: some tolerance exists within which a rounding error of the request makes no difference. A request further than 1e-4 from every mixing product returns zero.", "quantifier": "every circuit, voltage, response function, num_b and requested frequency", "why_tests_cant": "frequencies arbitrarily near to a rounding tie; tests request the frequencies of the circuit themselves", "anchors": ["qmix/qtcurrent.py:qtcurrent", "qmix/qtcurrent.py:_current_1_tone"]}
{"id": "C136", "title": "An unbiased junction makes only odd mixing products", "statement": "At zero bias voltage, with a symmetric junction (odd dc curve, even Kramers-Kronig transform) and voltages at odd harmonics only, qtcurrent returns exactly zero at every frequency to which only mixing products of even order contribute; with one tone: no dc current and no even harmonics. For every num_b.", "quantifier": "every symmetric response function, number of tones and harmonics, voltages at odd harmonics, num_b", "why_tests_cant": "a symmetry that holds for all response functions and voltages at every truncation", "anchors": ["qmix/qtcurrent.py:qtcurrent"]}
{"id": "C137", "title": "Far above the gap the drive does not change the dc current", "statement": "If the unpumped I-V curve approaches a line v + d at large voltages, the dc current returned by qtcurrent approaches the same line at large bias voltages, whatever tones and harmonics are applied.", "quantifier": "every response function with such an asymptote, every drive, num_b", "why_tests_cant": "a limit at infinite bias; tests use bias voltages up to about twice the gap", "anchors": ["qmix/qtcurrent.py:qtcurrent", "qmix/respfn.py:RespFnPerfect"]}
{"id": "C138", "title": "The dc current does not depend on the Kramers-Kronig transform", "statement": "Two response functions with the same dc I-V curve give the same current at frequency 0, whatever their Kramers-Kronig transforms are.", "quantifier": "every pair of response functions, circuit, voltages and num_b", "why_tests_cant": "all response functions and signals; tests use one response function", "anchors": ["qmix/qtcurrent.py:qtcurrent"]}
{"id": "C139", "title": "What qtcurrent prints", "statement": "qtcurrent prints nothing with verbose=False, whether it returns or raises an exception. With verbose=True a call that returns prints the numbers of tones and harmonics, that it is done and the time taken; a call that raises an exception never prints that it is done. The returned current does not depend on verbose.", "quantifier": "every circuit of 1 to 4 tones, voltage, response function, frequency or list of frequencies, num_b, response matrix and duration", "why_tests_cant": "all inputs, including those that are refused; tests do not capture the output", "anchors": ["qmix/qtcurrent.py:qtcurrent", "qmix/qtcurrent.py:interpolate_respfn"]}
{"id": "C140", "title": "An error of the response function is not amplified", "statement": "If two dc I-V curves differ by at most e at every voltage, the calculated pumped dc currents differ by at most e. If two response functions differ by at most e in absolute value, the current calculated at a frequency that only one mixing product reaches differs by at most 2e. Both statements are for a num_b that is the same for every tone, or for at most two harmonics; neither bound depends on the voltages, the number of tones or the size of num_b.", "quantifier": "every circuit of 1 to 4 tones, voltage, bias, response functions and num_b (the same limit for every tone if there are three or more harmonics)", "why_tests_cant": "a worst case over all voltages, tones and summation limits", "anchors": ["qmix/qtcurrent.py:qtcurrent", "qmix/qtcurrent.py:calculate_phase_factor_coeff"]}
{"id": "C141", "title": "No signal delivers more than its available power", "statement": "At an exact solution of the circuit equations no signal delivers more power to the junction than available_power reports for it, in any unit, and it delivers exactly this power if and only if it is matched (vj = conj(zt) * ij). When harmonic_balance stops at its error target, no signal delivers more than the available power of a source whose voltage is larger by stop_rerror * |vj|.", "quantifier": "every circuit, response function, num_b, start value, damping, mode and every bias point; source impedance with positive real part", "why_tests_cant": "energy conservation of the solution for all circuits and all stopping points", "anchors": ["qmix/harmonic_balance.py:harmonic_balance", "qmix/circuit.py:EmbeddingCircuit.available_power"]}
{"id": "C142", "title": "Small changes of the inputs make small changes of the current", "statement": "If the applied voltages and bias voltages converge, the current returned by qtcurrent converges, even where a voltage tends to 0 while its phase keeps turning. The same holds when the frequencies of the tones and the requested frequency converge too, provided that neither the requested frequency nor a mixing product lies on a rounding tie of the fourth decimal. The response function only has to be continuous at the bias voltage plus whole photon energies. For a given circuit the currents of all applied voltages are bounded, and a change of the applied voltages is amplified at most by a fixed factor.", "quantifier": "every circuit of 1 to 4 tones, converging family of inputs, response function and num_b", "why_tests_cant": "convergence of arbitrary families of inputs, including those where the phase of a voltage has no limit", "anchors": ["qmix/qtcurrent.py:qtcurrent", "qmix/qtcurrent.py:calculate_phase_factor_coeff"]}
{"id": "C143", "title": "The dc I-V curve makes the in-phase currents, its Kramers-Kronig transform the quadrature currents", "statement": "Conjugating all applied voltages and changing the sign of the Kramers-Kronig part of the response function conjugates all currents. When all applied voltages are in phase (real), the real part of every current depends only on the dc I-V curve and the imaginary part only on the Kramers-Kronig part; without Kramers-Kronig part all currents are then real.", "quantifier": "every circuit of 1 to 4 tones, voltage, list of frequencies, num_b and response function", "why_tests_cant": "a symmetry over all voltages and response functions", "anchors": ["qmix/qtcurrent.py:qtcurrent", "qmix/respfn.py:RespFn"]}
{"id": "C144", "title": "The normalisation is immaterial", "statement": "Measuring all voltages and frequencies in a unit that is s times smaller and all currents in a unit that is c times smaller multiplies the currents calculated by qtcurrent by c.", "quantifier": "every circuit of 1 to 4 tones, voltage, response function, list of frequencies, num_b and s > 0", "why_tests_cant": "all scale factors; rounding to 4 decimals makes it fail for small frequencies", "anchors": ["qmix/qtcurrent.py:qtcurrent"]}
{"id": "C145", "title": "Equivalent harmonic balance problems have the same solutions", "statement": "check_hb_error gives the same verdict for equivalent problems. When no other mixing product falls on a driven frequency, the phases of the tones are free: advancing the sources and voltages of tone f, harmonic p by p*theta_f changes nothing. When products that match a driven frequency match it exactly, the origin of time is free. Conjugating sources, impedances and voltages and changing the sign of the Kramers-Kronig part changes nothing; nor does multiplying the response function by c and dividing the impedances by c, nor renumbering the tones.", "quantifier": "every circuit of 1 to 4 tones, voltage, response function, num_b, stop error, phase, time shift, scale factor and permutation of the tones", "why_tests_cant": "symmetries of a nonlinear system of equations, for all circuits", "anchors": ["qmix/harmonic_balance.py:check_hb_error", "qmix/qtcurrent.py:qtcurrent"]}
{"id": "C146", "title": "Rounding errors of the tunnelling current are bounded", "statement": "In floating-point arithmetic of relative accuracy u the summation of qtcurrent returns the same number of rows as with exact numbers, and every current differs from the exact current by at most ((1+u)^K - 1) times the sum of the magnitudes of all terms. K is a fixed number of roundings that depends only on the numbers of tones and harmonics and on num_b. For one harmonic the error is at most ((1+u)^K - 1) 2 3^F R, where R bounds the response function. The same mixing products are found as long as no exact mixing frequency is nearer to a tie of the rounding to 4 decimals than the error of the calculated frequency.", "quantifier": "every circuit of 1 to 4 tones, voltage, response function, list of frequencies, num_b and every arithmetic of relative accuracy u, in particular double precision without overflow and underflow", "why_tests_cant": "a worst case over all inputs and all roundings", "anchors": ["qmix/qtcurrent.py:qtcurrent", "qmix/qtcurrent.py:_convolve_coefficients", "qmix/qtcurrent.py:_current_coeff_1_tone", "qmix/qtcurrent.py:_current_coeff_4_tones"]}
{"id": "C147", "title": "A simulation is explained by the circuit recovered from it", "statement": "Pump the junction with one tone from a source through an embedding impedance on the search grid, solve the circuit to a tolerance, and give the simulated dc I-V curve to the impedance recovery of PumpedData. Then the recovery succeeds, the error of the impedance found is at most an explicit bound that goes to zero with the tolerance, the resolution alpha_max/2^16 of the drive level and the outermost Bessel functions, and the fit is reported as good when this bound is below 7e-7. The impedance and source voltage found explain the voltage of every point to within the same accuracy; they need not be the ones simulated.", "quantifier": "every response function bounded by B, circuit, source, list of bias points, search grid with resistances that are not negative; drive levels for which C61 holds and the junction absorbs power", "why_tests_cant": "the whole chain from simulation to analysis, for all circuits and response functions", "anchors": ["qmix/exp/exp_data.py:PumpedData._recover_zemb", "qmix/exp/exp_data.py:_find_alpha", "qmix/exp/exp_data.py:_error_function", "qmix/exp/exp_data.py:_find_source_voltage", "qmix/qtcurrent.py:qtcurrent"]}
{"id": "C148", "title": "A separate tone at a multiple of f loses the phase", "statement": "A voltage at (P+1) f can be given to qtcurrent as harmonic P+1 of the tone at f, or as the fundamental of a second tone. The dc currents differ. As num_b grows, the dc current with the second tone tends to the mean, over the phase of the harmonic, of the dc currents with the harmonic. The phase matters: there are voltages for which the current with one tone depends on the sign of the second harmonic, and the current with two tones does not.", "quantifier": "every number of harmonics P, frequency above 1/20000, set of voltages and bias points, response function of at most polynomial growth", "why_tests_cant": "an average over a continuum of phases and a limit of the truncation", "anchors": ["qmix/qtcurrent.py:qtcurrent", "qmix/qtcurrent.py:_convolve_coefficients", "qmix/qtcurrent.py:_current_coeff_2_tones"]}
{"id": "C149", "title": "The current is a smooth function of the voltages and weak signals superpose", "statement": "When the voltages given to qtcurrent depend smoothly on any number of parameters, the current at every frequency and bias point is an infinitely differentiable function of the parameters, even if the response function has kinks and jumps. At every operating point, however strongly pumped, the response to weak signals is linear: the rate of change of the current for a superposition of two sets of signals is the superposition of the rates.", "quantifier": "every circuit of 1 to 4 tones, response function (without any regularity), operating point, signals, list of frequencies and num_b", "why_tests_cant": "a statement about derivatives of all orders at all voltages", "anchors": ["qmix/qtcurrent.py:qtcurrent", "qmix/qtcurrent.py:_convolve_coefficients"]}
{"id": "C150", "title": "The numerical Jacobian is accurate, and harmonic_balance converges near regular solutions", "statement": "For a junction with given bias, frequencies and summation limits there is a constant K such that, behind every embedding circuit with impedances up to Z and at all voltages, the matrix that harmonic_balance inverts differs from the exact derivatives of the circuit equations by at most K Z / 1000 in each entry. Near a solution without zero voltages, at which the exact derivative can be inverted with gain beta, harmonic_balance with enough iterations stops at its error target from every start within rho, provided that beta K Z (rho + 0.001) <= 1; there is no other solution within rho.", "quantifier": "every circuit of 1 to 4 tones, response function, num_b, source, impedance, solution, start, damping in (0, 1] and error target", "why_tests_cant": "a bound on finite-difference errors that is uniform over all voltages, and unboundedly many iterations", "anchors": ["qmix/harmonic_balance.py:_inv_jacobian", "qmix/harmonic_balance.py:harmonic_balance"]}
{"id": "C151", "title": "Near a regular solution the junction voltages are smooth functions of the source", "statement": "Let a solution of the circuit equations be given at which their derivative is invertible, with all source voltages above 1e-10. For nearby source voltages there is exactly one nearby solution. It is a smooth function of the source voltages, its derivative is the solution of the linearised equations (small-signal analysis), and the current that qtcurrent gives for it is a smooth function of the source voltages at every frequency.", "quantifier": "every circuit of 1 to 4 tones, response function, num_b, source, impedance, regular solution, list of frequencies", "why_tests_cant": "existence and smoothness of a family of solutions of a nonlinear system", "anchors": ["qmix/harmonic_balance.py:harmonic_balance", "qmix/harmonic_balance.py:check_hb_error", "qmix/qtcurrent.py:qtcurrent"]}
{"id": "C152", "title": "A pumped junction loads a weak signal with the admittance of quantum mixer theory", "statement": "Give qtcurrent a local oscillator of any strength (tone 1) and a weak signal (tone 2), one harmonic each, with no other mixing product at the signal frequency. The current at the signal frequency is the signal voltage times an admittance that depends only on the junction and the local oscillator: the small-signal admittance of the unpumped junction at the biases vb + k*f1, averaged with the weights J_k(alpha)^2. The difference is at most 5/4 beta^3 times the sum of the magnitudes of the response function over all photon steps (beta: signal level, at most 1). If the dc I-V curve does not fall anywhere, the conductance is not negative: a local oscillator never makes the junction amplify the signal.", "quantifier": "every response function, bias, local oscillator level, signal level up to 1, frequencies without coincidence and summation limits (at least 1 for the signal)", "why_tests_cant": "a formula and an error bound over all junctions and drive levels", "anchors": ["qmix/qtcurrent.py:qtcurrent", "qmix/qtcurrent.py:_current_coeff_2_tones"]}
{"id": "C153", "title": "Every tone pays for its own photons", "statement": "When no other mixing product falls on a signal, the power Re(V* I)/2 summed over the harmonics of tone f tends, as num_b grows, to the mean energy of the photons of this tone absorbed by the tunnelling electrons. These energies and the dc power add up to the power that the junction takes. A junction without dc current moves no power from one tone to another: each tone gives as much as it takes. A junction whose dc curve does not fall anywhere never gives power to a tone that has only its fundamental, however strong the other tones are.", "quantifier": "every circuit of 1 to 4 tones without coincidences, voltage, response function of at most polynomial growth, bias, tone", "why_tests_cant": "a limit and a conservation law for all junctions and signals", "anchors": ["qmix/qtcurrent.py:qtcurrent"]}
{"id": "C154", "title": "Exactly when harmonic balance stops", "statement": "harmonic_balance reports that the error target is met exactly when the voltage it returns satisfies the circuit equations of all signals to within stop_rerror, or when there is a signal (not the last) with a relative error 0/0 somewhere and all signals after it satisfy their equations; errors of the signals before such a signal are ignored. If it stops at the iteration limit instead, the voltage is not of this kind. A 0/0 in the last signal at iteration max_it makes it apply one more update and return a voltage that was never tested. In mode 'x' the flag is true exactly when the voltage is of this kind and the iteration number is below max_it.", "quantifier": "every circuit, response function, start, damping, mode, num_b, stop_rerror and max_it (at least 0 for the last two sentences)", "why_tests_cant": "exact description of the verdict for every pattern of NaN, infinite and ordinary errors", "anchors": ["qmix/harmonic_balance.py:harmonic_balance"]}
{"id": "C155", "title": "Smoothing is a mirrored Gaussian average", "statement": "gauss_conv accepts exactly the windows with sigma * ext_x >= 1 whose width the data can hold. Every returned value is the average of the samples around the point, continued by reflection at both ends, weighted with exp(-(t/sigma)^2/2) and cut off at ext_x * sigma; the weights are centred at the point if ext_x * sigma is an integer and within half a sample of it otherwise.", "quantifier": "all data, all sigma and ext_x", "why_tests_cant": "a test compares a few numbers; which samples get which weight, at the ends too, holds for all data only by proof", "anchors": ["qmix/mathfn/filters.py:gauss_conv", "qmix/mathfn/filters.py:_gauss"]}
{"id": "C156", "title": "Which chords the numerical derivatives take", "statement": "slope returns at every inner point the slope of the chord through its two neighbours and at the ends that of the outermost chord, and is refused exactly if a chord is vertical or there are fewer than two points. slope_span_n(n = 2k+1) returns away from the ends the slope of the chord from k+1 points before to k points after the point, near the ends shorter one-sided chords, and needs 3k+2 points; on evenly spaced data it therefore is late by half a step.", "quantifier": "all data, all odd spans of at least 3", "why_tests_cant": "all data; the half step is invisible on straight lines", "anchors": ["qmix/mathfn/misc.py:slope", "qmix/mathfn/misc.py:slope_span_n"]}
{"id": "C157", "title": "The gap voltage is found at the steepest point", "statement": "The gap voltage is determined from the points within 10 uV of the point above 2 mV where the slope of the measured curve, smoothed over 0.2 mV, is largest (the first such point).", "quantifier": "all data for which a gap voltage is returned", "why_tests_cant": "all data sets", "anchors": ["qmix/exp/iv_data.py:_find_gap_voltage"]}
{"id": "C158", "title": "The offset of a dc I-V curve is found automatically", "statement": "If the measured dc curve is an odd curve shifted by an offset in voltage and current, and is measured finely enough beyond voffset_range on both sides, the automatic search returns this offset and the corrected curve is odd.", "quantifier": "all odd curves, all offsets smaller than half of voffset_range less a step", "why_tests_cant": "all curves", "anchors": ["qmix/exp/iv_data.py:_correct_offset"]}
{"id": "C159", "title": "The pieces of the exponential I-V models", "statement": "exponential(model='fixed') is w*v*rn/rsg + (1-w)*v with the window w = sinh(a)/(cosh(a)+cosh(a*v)), a = agap*vgap; 'original' has v*rn/rsg more. expanded adds ileak between zero and the gap, takes ioff away above the gap and inot above vnot. For sharp transitions 'fixed' tends to rsg below and rn above the gap, 'original' to rsg/2 below and to rn in parallel with rsg above, expanded to ileak + V/rsg, V/rn - ioff and V/rn - ioff - inot.", "quantifier": "all voltages and parameters", "why_tests_cant": "limits and all parameters", "anchors": ["qmix/mathfn/ivcurve_models.py:exponential", "qmix/mathfn/ivcurve_models.py:expanded"]}
{"id": "C160", "title": "What v_smear stores", "statement": "With v_smear = s a response function stores as current minus voltage the current minus voltage of the data, continued to negative voltages, averaged with Gaussian weights of standard deviation s cut off at 3 s; where the curve is parallel to the line i = v over the window (and a step more) the current is unchanged. RespFnPerfect adds to the perfect curve a smeared impulse of one sample at the gap before smearing.", "quantifier": "all data sets and widths", "why_tests_cant": "all data sets and widths", "anchors": ["qmix/respfn.py:RespFn.__init__", "qmix/respfn.py:RespFnPerfect.__init__"]}
{"id": "C161", "title": "A pumped sweep is resampled on the broken line through its points", "statement": "iv_curve of a sweep (up or down) returns npts voltages from -vmax to vmax and, between the measured points, the current on the broken line through the points, converted to V and A, multiplied, shifted by the offset (both user offsets if given, else the dc offset) and moved to the voltage across the junction by the series resistance, and zero outside of them, in units of vgap and igap.", "quantifier": "all sweeps, units, factors, offsets and series resistances that keep the voltages increasing", "why_tests_cant": "all sweeps and options", "anchors": ["qmix/exp/iv_data.py:iv_curve"]}
{"id": "C162", "title": "Which points the shot noise is fitted to", "statement": "The correction factor of dcif_data / if_data is the only one for which the best line through the points used rises by 5.8 K/mV. With vshot given these are exactly the points strictly inside one of the ranges; without, the points above 1.7 gap voltages that, together with their right neighbour, have less than a hundredth of the largest curvature and a slope between zero and twice the median slope (of the smoothed curve); if there are fewer than five, all points above two gap voltages.", "quantifier": "all data, option sets and filters for which the functions return", "why_tests_cant": "quantifies over all data; the choice of points is silent", "anchors": ["qmix/exp/if_data.py:_find_if_noise", "qmix/exp/if_data.py:dcif_data"]}
{"id": "C163", "title": "The conversion matrix of quantum mixer theory", "statement": "Give qtcurrent pump tones of any number, strength and harmonic content and a weak signal at the fundamental of the last tone. At a frequency a*f1 + b*f2 + ... + f_signal that no other mixing product reaches, the current is the signal voltage times a coefficient that depends only on the junction and the pumps (subharmonic and image conversion included), up to the third power of the signal. With one pump at its fundamental the coefficients are those of Tucker: products of Bessel functions with differences of the response function, turned by the phase of the pump. The admittance seen by the signal itself has no negative conductance if the dc I-V curve does not fall anywhere, whatever the pumps.", "quantifier": "every circuit of 1 to 4 tones, any number of harmonics, pump voltages, response function, bias, num_b (at least 1 for the signal), order of mixing and signal up to one photon voltage", "why_tests_cant": "quantifies over all pumps and orders, and over a limit of weak signals", "anchors": ["qmix/qtcurrent.py:qtcurrent", "qmix/qtcurrent.py:_current_coeff_2_tones", "qmix/qtcurrent.py:calculate_phase_factor_coeff"]}
{"id": "C164", "title": "The error of a given num_b with several harmonics", "statement": "For any number of tones and harmonics and a response function of at most linear growth, every current returned by qtcurrent differs from the sum over all photon numbers by at most an explicit bound, although with several harmonics the coefficients themselves are approximate (each harmonic is cut at num_b and the arrays in which harmonics are convolved are clipped). The bound falls faster than any geometric sequence in num_b. With the default num_b = 15, one tone and two harmonics at drive levels up to 1 and 0.2, it is 4e-6 (relative to the scale of the response).", "quantifier": "every circuit of 1 to 4 tones, any number of harmonics, voltages, bias, response function of linear growth, any num_b whose coefficient error is at most 1 for some base rho >= 2 (which holds for all large num_b)", "why_tests_cant": "a comparison with an infinite sum, for all voltages and all summation limits", "anchors": ["qmix/qtcurrent.py:qtcurrent", "qmix/qtcurrent.py:calculate_phase_factor_coeff", "qmix/qtcurrent.py:_convolve_coefficients"]}
{"id": "C165", "title": "The currents are those of a causal junction in the time domain", "statement": "Consider a junction that carries at every instant the current g V(t) + Im of the integral over tau > 0 of chi(tau) exp(i phase), where phase is the integral of its voltage over the last tau. With its response function (the answer to a constant voltage) the current returned by qtcurrent at the frequency of a mixing product tends, as num_b grows, to the phasor (with respect to e^{j omega t}) of that product of the current. For one tone: the mean current over a period, and twice the Fourier coefficient of the current as a function of time.", "quantifier": "every integrable memory chi, conductance g, circuit of 1 to 4 tones, any number of harmonics, complex voltages, bias voltages; a mixing product whose frequency no other product shares (for one tone above 1e-4 of the gap: every harmonic up to num_p)", "why_tests_cant": "a statement about integrals over time and the limit of infinite sums, for all junctions", "anchors": ["qmix/qtcurrent.py:qtcurrent", "qmix/respfn.py:RespFn.resp"]}
{"id": "C166", "title": "The drive keeps the area between dc I-V curves", "statement": "Two junctions with the same gap voltage are driven by the same ac voltages at every bias voltage. The integral over all bias voltages of the difference of their pumped dc currents is W times the integral of the difference of their dc I-V curves, where W does not depend on the junctions: it is the dc current that qtcurrent returns for a response function that is i everywhere. W tends to 1 as num_b grows. (With a resistor as the second junction: photon-assisted tunnelling moves current along the bias axis but the area of the curve above the normal-state line stays.)", "quantifier": "every pair of response functions whose imaginary parts differ by an integrable function, every circuit of 1 to 4 tones with any number of harmonics in which only the dc product is at frequency 0, all complex voltages, every num_b (finite: exact with W; large: to any accuracy)", "why_tests_cant": "an integral over all bias voltages, for all junctions and drives", "anchors": ["qmix/qtcurrent.py:qtcurrent"]}
{"id": "C167", "title": "The text of print_info can be read off", "statement": "What a terminal shows after print_info is the head line with the number of tones and harmonics and the name, then for every tone and harmonic in order a line with their numbers, the frequency and the comment, and lines with the Thevenin voltage (real part), the impedance and, in physical units, the voltage in units of the photon voltage and the available power in W and dBm, then an empty line. Every printed numeral is within half a unit of the last printed digit of the quantity (4 decimals for voltages and normalised frequencies, 2 for impedances, 1 for GHz, 3 for dBm, 3 significant digits for W); quotients by zero and logarithms of 0 are shown as inf, -inf or nan. Printing never raises.", "quantifier": "every circuit reachable by any history of calls, with one-line name and comments", "why_tests_cant": "all circuits and all real values; the formatting of every number", "anchors": ["qmix/circuit.py:print_info", "qmix/circuit.py:__str__", "qmix/misc/terminal.py:cprint"]}
{"id": "C168", "title": "A power survives setting and reading in double precision", "statement": "In floating-point arithmetic the voltage that set_available_power stores provides the requested power up to 10 roundings. available_power returns the power of the stored complex voltage up to 10 roundings. Reading the power back in any linear unit (W to fW) after setting it in any linear unit is off by at most 21 unit roundoffs (21 * 2^-53) relative; setting and reading in dBm or dBW is off by at most 2^-53 * (4 |P| + 100) dB.", "quantifier": "every circuit, tone, harmonic, power, unit and letter case with positive source resistance; every arithmetic whose operations, 10**x, log10 and abs have relative error at most u (general u: 20 roundings; binary64: the numbers above); no overflow or underflow", "why_tests_cant": "all doubles; a test compares a few numbers with a tolerance that has no derivation", "anchors": ["qmix/circuit.py:set_available_power", "qmix/circuit.py:available_power"]}
{"id": "C169", "title": "The error test of harmonic balance can be trusted in double precision", "statement": "If harmonic_balance stops in floating-point arithmetic because its error target is met, every circuit equation vt - zt*i - vj = 0 is met, with the exact current i, to stop_rerror * |vj| up to a factor (1-u)^-6, plus u/(1-u)^2 * (|vt| + 2|vj|), plus |zt| times the error of the computed current. The same holds for every point that mode=\"m\" marks as finished. Conversely, if it gives up at max_it, some equation is not met with this margin. In double precision the factor is 1 + 2^-48 and u/(1-u)^2 is at most 2^-50.", "quantifier": "every circuit, target, starting point, iteration limit, current function with a known error bound and update rule; all bias points and signals with non-zero computed voltage; every arithmetic with relative error at most u", "why_tests_cant": "all doubles; the rounding in the test itself cannot be seen by comparing outputs", "anchors": ["qmix/harmonic_balance.py:harmonic_balance"]}
{"id": "C170", "title": "Simulating leaves the circuit object as it was", "statement": "A circuit object can be locked and simulated, and after harmonic_balance it answers every question (voltages, available powers) as before.", "quantifier": "every circuit object with arrays of the right shape, locked or not; all arguments of harmonic_balance", "why_tests_cant": "needs every circuit and argument; a test sees one circuit whose signals are all driven", "anchors": ["qmix/harmonic_balance.py:harmonic_balance", "qmix/circuit.py:lock", "qmix/circuit.py:available_power"]}
{"id": "C171", "title": "A circuit read back from a file can replace the original", "statement": "read_circuit of a file written by save_info returns a circuit that can be used in place of the original: same tones, harmonics, frequencies, voltages, impedances, bias voltages, gap parameters and names, so that simulations and powers agree.", "quantifier": "every circuit object and every floating-point format with nearest rounding", "why_tests_cant": "needs every attribute and every value; the unit test compares one circuit with default bias voltages and values of few decimals", "anchors": ["qmix/circuit.py:save_info", "qmix/circuit.py:read_circuit", "qmix/circuit.py:EmbeddingCircuit"]}
{"id": "C172", "title": "The messages of the functions that write files are right", "statement": "initialize_dir prints one line per folder that it creates, in the order of the documented hierarchy and no other, and a final blank line. plot_overall_results prints its headline and says \"Done\" exactly if it returns. plot_if_spectrum prints its headline and names a spectrum before it reads it. The printing has no influence on the files written or the exceptions raised.", "quantifier": "every disk content, folder, working directory, list of spectra, measurement data and option", "why_tests_cant": "depends on all states of the disk and on all exceptions; the functions are excluded from the test coverage", "anchors": ["qmix/exp/exp_data.py:initialize_dir", "qmix/exp/exp_data.py:plot_overall_results", "qmix/exp/exp_data.py:plot_if_spectrum"]}
{"id": "C173", "title": "Harmonic balance converges in floating-point arithmetic", "statement": "Let the circuit equations have a solution near which they are close to a linear map, as in C122. Then harmonic balance, with rounded sums, products, quotients and moduli, a rounded step of the numerical Jacobian, inexact currents and an inexact matrix inversion, still meets the error target from every start in the region, if the errors of the operations are below a threshold that depends only on the circuit and the options. The junction voltages returned are within a given tolerance, plus a geometrically decreasing part of the initial distance, of the solution. For small embedding impedances this holds for every start.", "quantifier": "every circuit, response function, number of Bessel functions, stop value, damping in (0, 1], arithmetic, tolerance and start in the region", "why_tests_cant": "concerns all rounding patterns of all operations and the limit of an iteration; a test shows one machine and one start", "anchors": ["qmix/harmonic_balance.py:harmonic_balance", "qmix/harmonic_balance.py:_inv_jacobian", "qmix/harmonic_balance.py:_qt_current_for_hb"]}
{"id": "C174", "title": "Noise temperature and gain in floating-point arithmetic", "statement": "Let the powers of a receiver be stored to a relative error u, at most 1e-12, and let the arithmetic of the Y-factor analysis have the relative error u. Then the analysis returns, and every noise temperature T (or the largest one that the method can tell, if T is larger) is right to 120 u (th (tc + T) + tc (th + T)) (th + T) / (th - tc)^2, and every gain to a similar bound, where th and tc are the temperatures of the loads. The bias point reported has the lowest noise temperature, the largest gain, or the voltage closest to the given one, up to these errors. In double precision, with loads at least 100 K apart and noise temperatures below 1000 K, the noise temperature is right to 1e-8 K and the gain to 1e-11 of itself.", "quantifier": "every receiver, number of bias points, frequency, pair of loads, unit roundoff up to 1e-12, pattern of roundings and rule for the best point", "why_tests_cant": "the difference of the Y-factor from one cancels, so the error depends on all the values; a test compares a few numbers with a tolerance", "anchors": ["qmix/exp/if_data.py:_find_tn_gain", "qmix/exp/if_data.py:_temp_cw"]}
{"id": "C175", "title": "Explicit bounds on how the current reacts to voltages, bias and circuit", "statement": "With equal summation limits (an integer num_b) or at most two harmonics: if the dc I-V curve is at most R in the voltage range that is used, the dc current returned by qtcurrent is at most R, and a change of the applied voltages changes it by at most 2 R times the sum over the signals of |change of voltage| / photon voltage of the signal. A current at a frequency with one mixing product is at most 2 R and changes by at most 4 R times this sum, where R bounds the response function. The pumped I-V curve is nowhere steeper than the steepest part of the dc I-V curve. The circuit equations have at most one solution if 4 R times the sum of |zt| / photon voltage is below 1; with small enough impedances, given by an explicit inequality, there is exactly one solution and harmonic_balance converges to it from every start.", "quantifier": "every circuit of 1 to 4 tones, applied voltages, response function, bias point and num_b, also small ones", "why_tests_cant": "a bound for all pairs of voltages and any truncation; a test compares a few currents", "anchors": ["qmix/qtcurrent.py:qtcurrent", "qmix/qtcurrent.py:_convolution_coefficient", "qmix/harmonic_balance.py:harmonic_balance"]}
{"id": "C176", "title": "The polynomial model for all kinds of numbers", "statement": "The polynomial I-V model gives the same current whether the voltages are given as integers or as floats, and a finite current for every voltage.", "quantifier": "every voltage, integer or float, and every order", "why_tests_cant": "the powers leave the range of the numbers only for some combinations of voltage, order and type; a test uses a float array near the gap", "anchors": ["qmix/mathfn/ivcurve_models.py:polynomial"]}
{"id": "C177", "title": "The recovery tolerates noise and impedances between grid points", "statement": "If the measured currents have errors of at most nu, the drive level found is wrong by at most nu divided by the slope of the current with the drive level, plus the resolution alpha_max / 2^16. The embedding circuit found from such data explains it up to an explicit bound, wherever in the search range the true impedance lies.", "quantifier": "every I-V curve, frequency, list of measured points, error of each point, impedance in the search range", "why_tests_cant": "measured data always have errors, of any sign at any point, and no impedance is exactly on the grid; a test uses one noise realisation", "anchors": ["qmix/exp/exp_data.py:_find_alpha", "qmix/exp/exp_data.py:PumpedData._recover_zemb", "qmix/exp/exp_data.py:_error_function"]}
{"id": "C178", "title": "The drive level is accurate in floating-point arithmetic", "statement": "The drive level that _find_alpha computes in floating-point arithmetic, with a rounding after every operation, approximate Bessel functions and an approximate I-V curve, differs from the true one by at most alpha_max / 2^16, plus the errors of the measured and of the computed current divided by the slope of the current with the drive level, plus 15 roundings. The division of the first estimate cannot fail there.", "quantifier": "every rounding function with relative error u <= 1/1000, every Lipschitz I-V curve, approximation of it and of the Bessel functions, bias voltage, frequency, number of Bessel functions, measured current", "why_tests_cant": "a sign error caused by rounding sends the bisection to the wrong side; whether any input leads to one cannot be seen from samples", "anchors": ["qmix/exp/exp_data.py:_find_alpha", "qmix/exp/exp_data.py:_find_pumped_iv_curve"]}
{"id": "C179", "title": "Noise temperature and gain tolerate errors of the measured powers", "statement": "If every measured hot and cold IF power is within a relative error eps of the power of a receiver with given noise temperature and gain, the noise temperature and gain that _find_tn_gain returns are within an explicit bound of the true ones, at every bias point. The chosen bias point is then optimal up to these bounds: no other point has a noise temperature lower by more than the two errors (\"min tn\"), or a gain higher by more than the two errors (\"max gain\").", "quantifier": "all load temperatures Tc < Th, all relative errors eps < 1, all receivers and all measured powers within eps whose hot power stays above the cold one; for the gain no condition on the noise", "why_tests_cant": "the Y-factor divides by a difference that may be small; how strongly an error is amplified cannot be bounded with samples", "anchors": ["qmix/exp/if_data.py:_find_tn_gain"]}
{"id": "C180", "title": "Resistances and the shot-noise calibration tolerate noise", "statement": "If the points in the fitted region lie within nu of a straight line and have standard deviation at least w in voltage, the slope of the least-squares line is within nu / w of the true slope. So the normal resistance and the subgap resistance are found, with a relative error of at most kappa / (1 - kappa), kappa = r nu / w, the offset voltage within rn nu (1 + |v0 - mean| / w). The calibration of the IF power succeeds if the slope exceeds its error, and then recovers slope and line within the same bounds.", "quantifier": "all data, all lines, all errors, all fitting regions, every routine that minimises the squared error", "why_tests_cant": "the bound holds for every direction of the errors, among them the worst one, which no sample of random noise shows", "anchors": ["qmix/exp/iv_data.py:_find_normal_resistance", "qmix/exp/iv_data.py:_find_subgap_resistance", "qmix/exp/if_data.py:_find_if_noise"]}
{"id": "C181", "title": "How far apart two converged simulations can be", "statement": "Two calls of harmonic_balance that met their stop_rerror, for circuits with the same junction and frequencies, at a bias voltage they share: if the feedback 4 R sum |zt|/(p f) through the impedances is below one, the junction voltages differ by no more than an explicit multiple of the targets, the difference of the sources and the difference of the impedances, whatever the initial guess, damping coefficient and number of iterations. In particular repeating a simulation with other settings changes the result by a multiple of the target only, and a circuit that was saved and read back gives the same result up to the target and the decimals of the file, if its frequencies survived.", "quantifier": "all circuits whose spectral lines do not coincide, all response functions bounded on the used range, all starts, dampings, limits and targets", "why_tests_cant": "relates every pair of runs of an iteration; tests compare a few runs and cannot bound the others", "anchors": ["qmix/harmonic_balance.py:harmonic_balance", "qmix/circuit.py:save_info", "qmix/circuit.py:read_circuit"]}
{"id": "C182", "title": "Noise in the Kramers-Kronig transform", "statement": "If two dc I-V curves differ by at most nu at every point, their transforms by kk_trans differ by at most nu (5 / n^2 + 2/pi (2 + log N)) at every point, where N is the number of points and n the padding. The logarithm is needed: on every even grid and for every curve there are errors of size nu that change the first point of the transform by nu (log N / pi - 5 / n^2) or more.", "quantifier": "all voltages that kk_trans accepts, all currents, all n >= 2", "why_tests_cant": "the largest amplification is reached for one alternating pattern of errors that no random sample contains", "anchors": ["qmix/mathfn/kktrans.py:kk_trans"]}
{"id": "C183", "title": "How fast kk_trans and kk_trans_trapz converge", "statement": "For a curve with bounded slope whose slope changes at a bounded rate, sampled at N evenly spaced voltages from a to b, the value of kk_trans at a sampled voltage V between them is the principal value of the Kramers-Kronig integral up to 5 B / n^2 from the padding and an error proportional to the spacing of the voltages, with an explicit constant that depends on the bounds and on the distance of V from the ends only. For kk_trans_trapz the same without the error of the padding.", "quantifier": "all smooth curves, all intervals, all N >= 2, all sampled voltages, all n >= 2", "why_tests_cant": "bounds the error for every curve and every grid; tests compare single curves with single references", "anchors": ["qmix/mathfn/kktrans.py:kk_trans", "qmix/mathfn/kktrans.py:kk_trans_trapz"]}
{"id": "C184", "title": "A tone is found at its own frequency in double precision", "statement": "In double precision, qtcurrent finds the term of harmonic p of a tone when it is asked for the frequency of this harmonic: the rounded request equals the rounded mixing frequency for this harmonic of this tone, with any number of other tones, whether the frequency is passed as a scalar or in a list, as a Python float or as a NumPy float. The same for the difference of two frequencies. In particular the requests of the harmonic balance are always found.", "quantifier": "all frequencies up to 1e9 gap frequencies, all harmonics, all other tones", "why_tests_cant": "the outcome depends on the last bit of products by 10000 and differs between two implementations of round; no sample of frequencies shows that none is missed", "anchors": ["qmix/qtcurrent.py:qtcurrent", "qmix/qtcurrent.py:_current_1_tone", "qmix/harmonic_balance.py:_qt_current_for_hb"]}
{"id": "C185", "title": "The driven junction does not deliver dc power", "statement": "At every point of a sweep, a junction with an odd I-V curve that does not fall carries a dc current of the sign of the bias voltage, however it is driven; without bias it carries none. More generally, the dc current of a driven junction compares with its unpumped current as the curvature of the I-V curve says: at least W times the unpumped current where the curve lies below its chords centred at the bias voltage, at most where it lies above, W in [0, 1] being the same for all junctions. A junction with a larger unpumped current everywhere carries a larger dc current.", "quantifier": "all bias voltages, numbers of tones, drives, limits num_b and I-V curves (odd and monotone for the sign)", "why_tests_cant": "the sign of a sum of products of Bessel functions over all drives cannot be settled by sampling; with a second harmonic it does change", "anchors": ["qmix/qtcurrent.py:qtcurrent", "qmix/qtcurrent.py:_current_1_tone", "qmix/qtcurrent.py:calculate_phase_factor_coeff"]}
{"id": "C186", "title": "A circuit file that was cut off is refused", "statement": "read_circuit refuses a circuit file that is only the beginning of a file written by save_info.", "quantifier": "all circuits and all places where the file can be cut", "why_tests_cant": "the file can be cut at any character; tests read whole files", "anchors": ["qmix/circuit.py:read_circuit", "qmix/circuit.py:EmbeddingCircuit.save_info"]}
{"id": "C187", "title": "Noise moves the gap voltage only by a bounded amount", "statement": "If every current of a dc I-V curve is wrong by at most nu, the gap voltage is determined at a point of the curve where the true (smoothed) slope is at most 4 nu / h below its largest value (h: smallest voltage step). If the transition is steeper than the rest of the curve by more than that, and the transition and the normal branch are straight, then the gap voltage is wrong by at most (nu (1 + E/wn) + 3/2 nu (1 + D/wt)) / (a - nu/wt), where a is the slope of the transition, wn and wt are the spreads of the voltages used for the two lines, and E and D their distances from the corner and the gap.", "quantifier": "all curves, all true curves, all errors up to nu, all voltage grids with steps of at least h", "why_tests_cant": "tests use one measured curve whose true gap voltage is not known; the noise of a measurement is different every time", "anchors": ["qmix/exp/iv_data.py:_find_gap_voltage", "qmix/mathfn/filters.py:gauss_conv", "qmix/mathfn/misc.py:slope"]}
{"id": "C188", "title": "The search for the offset tolerates noise and an imperfect minimiser", "statement": "If an odd I-V curve is measured with an offset and every current is wrong by at most nu, and the minimiser is exact up to eps, then the curve is symmetric around the remaining offset (d, c) up to 404 nu + eps at the voltages that are compared. If the curve is not straight (slope at least s1 near one compared voltage, between 0 and s2 < s1 near another one, within D), an offset that is not wrong by more than D is wrong by at most (404 nu + eps)/(2 (s1 - s2)).", "quantifier": "all odd curves, offsets, errors up to nu, minimisers exact up to eps, ranges of the search", "why_tests_cant": "tests use one measured curve; the noise and the point where the minimiser stops differ every time", "anchors": ["qmix/exp/iv_data.py:_correct_offset"]}
{"id": "C189", "title": "IF data is moved to the voltage across the junction by the series resistance", "statement": "With a series resistance, the analysis of IF data places each measured point at the voltage across the junction, v - I rseries with the current I flowing when it was measured, and reports the power on the broken line through the points so placed. A series resistance of zero changes nothing.", "quantifier": "all dc curves, IF measurements, series resistances, units and multipliers", "why_tests_cant": "a test has one dc curve and usually no series resistance; the voltage between two dc points and the pumped case are not looked at", "anchors": ["qmix/exp/if_data.py:_load_if", "qmix/exp/iv_data.py:_correct_series_resistance"]}
{"id": "C190", "title": "The I-V analysis does not depend on a series resistance that is taken into account", "statement": "The same junction is measured twice, directly and through a series resistance. If the series resistance is given for the second measurement (and the same offset applies), dciv_curve returns the same curve, gap voltage, normal and subgap resistance, intercept and offset, or raises the same exception; only the uncorrected voltages and the series resistance are recorded differently. iv_curve returns the same pumped curve.", "quantifier": "all junctions, sweeps up or down, series resistances, offsets, units and multipliers, without filter, currents not zero and voltages of the same sign", "why_tests_cant": "tests have one data set with one series resistance and cannot compare it with the junction itself", "anchors": ["qmix/exp/iv_data.py:dciv_curve", "qmix/exp/iv_data.py:iv_curve", "qmix/exp/iv_data.py:_correct_series_resistance"]}
{"id": "C191", "title": "Resampling and numerical derivatives are accurate in floating-point arithmetic", "statement": "With a rounding after every operation, slope and slope_span_n raise the same exceptions as with exact numbers and otherwise return values that are all right to a relative error of 4 units of rounding (so every slope has the right sign, and is zero exactly if the chord is level). np.interp, which resamples all measured data, returns the stored values at and outside the measured points, and between two neighbours a value that differs from the straight line by at most 7 units of rounding of their difference plus one unit of the larger of them.", "quantifier": "all data of all lengths, every span, every arithmetic with a relative error of at most 1/30", "why_tests_cant": "tests compare a few arrays with a tolerance and cannot see that cancellation never spoils a slope", "anchors": ["qmix/mathfn/misc.py:slope", "qmix/mathfn/misc.py:slope_span_n", "qmix/exp/iv_data.py:dciv_curve", "qmix/exp/iv_data.py:iv_curve"]}
{"id": "C192", "title": "Gaussian smoothing is accurate in floating-point arithmetic", "statement": "With a rounding after every operation (including the positions made by np.arange, np.exp within one unit in the last place, and sums in any order), gauss_conv returns the mirrored Gaussian average of the data up to an error of at most (120 ext_x^2 + 20) (2 sigma ext_x + 2) units of rounding of the largest value; in double precision with the default width the error is below 1e-11 of the largest value. The window must not be on the verge of having one point more or less; windows that reach over a whole number of points never are.", "quantifier": "all data of all lengths, every width and reach with sigma * ext_x >= 1, every arithmetic and every order of the sums", "why_tests_cant": "tests smooth a few arrays and compare with a tolerance; they do not see how errors grow with the width of the window, nor the widths at which the number of points is decided by rounding", "anchors": ["qmix/mathfn/filters.py:gauss_conv", "qmix/mathfn/filters.py:_gauss"]}
{"id": "C193", "title": "The trapezoidal Kramers-Kronig transform is accurate in floating-point arithmetic", "statement": "With a rounding after every operation (differences, quotients, np.trapz with sums in any order, the division by pi), kk_trans_trapz accepts voltages that are evenly spaced up to a margin for rounding errors, and returns the trapezoidal sums of exact arithmetic up to an error of at most (36 + 4 N) units of rounding of the areas that are added up; for 401 points in double precision this is below 1e-13. The transform of the normal state, I = V, is exactly zero.", "quantifier": "all voltages and currents of all lengths N, every arithmetic and every order of the sums", "why_tests_cant": "tests compare the transform of one model curve with a loose tolerance; they cannot see whether the singular integrand amplifies rounding errors on other grids or curves", "anchors": ["qmix/mathfn/kktrans.py:kk_trans_trapz"]}
{"id": "C194", "title": "The summary figures show the ranges asked for", "statement": "In the figures written by plot_overall_results the frequency axis goes from f_range[0] to f_range[1] if f_range is given and is left to Matplotlib otherwise; the noise temperature axes go from zero to tn_max if it is given (the logarithmic one excepted); the figure of the I-V curves goes from zero to vmax_plot and imax_plot whatever f_range is; the other vertical axes start at zero, except those of impedances, and the axis of the drive level ends at 1.2.", "quantifier": "all lists of measurements, all ranges given or not given, all twelve figures that are drawn", "why_tests_cant": "tests only check that the files are written; a figure with the wrong range is still written", "anchors": ["qmix/exp/exp_data.py:plot_overall_results"]}
{"id": "C195", "title": "Numbers printed with exponents are right to two digits", "statement": "The text that pvale prints between the name and the units, read as a number, is the value up to 5 percent of the printed number, for real numbers and for the real and imaginary parts of complex numbers, of any size and sign; the imaginary part always carries its sign.", "quantifier": "all finite real and complex numbers, names, units and comments", "why_tests_cant": "tests do not cover the printing functions; rounding up to the next power of ten and the sign of the imaginary part only show for particular numbers", "anchors": ["qmix/misc/terminal.py:pvale"]}
{"id": "C196", "title": "Frequencies and drive levels survive in double precision", "statement": "Whatever the unit of set_freq, and whether the gap frequency, the gap voltage or both were given to the constructor, the stored number is the frequency divided by the gap frequency up to seven roundings, so that the same frequency given in two units is stored as the same number up to such errors; a frequency set in GHz is printed in GHz up to six roundings; and for a source of non-negative resistance and a positive real junction impedance the voltage stored by set_alpha puts the drive level asked for across the junction up to five roundings.", "quantifier": "all frequencies, units, gap parameters, impedances, drive levels, and every arithmetic with a relative error of at most u per operation (double precision: 2^-53)", "why_tests_cant": "tests compare a few rounded values; they do not bound the error for all magnitudes, units and ways to give the gap", "anchors": ["qmix/circuit.py:EmbeddingCircuit.set_freq", "qmix/circuit.py:EmbeddingCircuit.set_alpha", "qmix/circuit.py:EmbeddingCircuit.__init__", "qmix/circuit.py:EmbeddingCircuit.print_info"]}
{"id": "C197", "title": "The bias sweep is what was asked for in double precision", "statement": "The array of bias voltages of a new circuit has vb_npts entries; the first is vb_min and the last vb_max exactly; every other one differs from the equally spaced voltage by at most one rounding of the largest voltage and five of the interval. If the step is larger than these errors (in double precision: up to 10^12 points and ends that are at most 100 times the interval), the voltages are distinct and in increasing order.", "quantifier": "all ends, numbers of points and every arithmetic with a relative error of at most u per operation (double precision: 2^-53)", "why_tests_cant": "tests check one sweep; whether the ends are exact and the points distinct depends on the rounding of every point", "anchors": ["qmix/circuit.py:EmbeddingCircuit.__init__"]}
{"id": "C198", "title": "Simulation and measurement agree on the photon voltage in double precision", "statement": "The attribute vph of a pumped measurement and the photon voltage used by its impedance recovery are both the photon energy over the gap energy up to seven roundings, and each is within three roundings of one common number; a circuit made with the gap voltage of the measurement stores, for the same frequency in GHz, exactly the number that the impedance recovery uses. The critical current density is the gap voltage over resistance times area up to four roundings and the gap current one rounding off. For a photon voltage below the gap and a fit range within [0, 1] the ends of the window of the impedance recovery are right to within five units of roundoff.", "quantifier": "all frequencies, gap voltages, resistances, areas, fit ranges and every arithmetic with a relative error of at most u per operation (double precision: 2^-53)", "why_tests_cant": "the code computes the photon voltage in two ways; tests compare rounded values and cannot bound the difference for all inputs", "anchors": ["qmix/exp/exp_data.py:PumpedData", "qmix/exp/exp_data.py:DCData", "qmix/exp/iv_data.py:dciv_curve", "qmix/circuit.py:EmbeddingCircuit.set_freq"]}
{"id": "C199", "title": "Overflow does no harm in the I-V curve models", "statement": "The models polynomial, exponential and expanded of mathfn.ivcurve_models return a finite current wherever the formula has one, also where a power or an exponential overflows, and the overflow does not change the current noticeably.", "quantifier": "all voltages, parameters and sizes of the largest number", "why_tests_cant": "tests use the default parameters and a few voltages; overflow depends on every parameter and happens far from the gap", "anchors": ["qmix/mathfn/ivcurve_models.py:polynomial", "qmix/mathfn/ivcurve_models.py:exponential", "qmix/mathfn/ivcurve_models.py:expanded", "qmix/respfn.py:RespFnPolynomial"]}
{"id": "C200", "title": "The package leaves the error handling of NumPy as it was", "statement": "Importing qmix and evaluating the I-V curve models of mathfn.ivcurve_models leaves the treatment of floating-point errors by NumPy (np.geterr()), which the whole process shares, as it was, so what other code does about errors does not depend on earlier calls.", "quantifier": "all initial states and sequences of calls", "why_tests_cant": "a side effect on shared state depends on the sequence of calls; each test looks at the result of one call", "anchors": ["qmix/mathfn/ivcurve_models.py:exponential", "qmix/mathfn/ivcurve_models.py:expanded", "qmix/mathfn/ivcurve_models.py:polynomial", "qmix/exp/if_data.py"]}
{"id": "C201", "title": "Rounding errors of the polynomial I-V curve", "statement": "In floating-point arithmetic mathfn.ivcurve_models.polynomial returns the current of the formula up to a few roundings, with the sign of the voltage, at every voltage and whatever the order (as long as nothing overflows).", "quantifier": "all voltages, natural orders and roundings", "why_tests_cant": "the worst voltage and order are unknown, and tests compare with the same formula in the same arithmetic", "anchors": ["qmix/mathfn/ivcurve_models.py:polynomial"]}
{"id": "C202", "title": "Rounding errors of the exponential I-V curve", "statement": "In floating-point arithmetic mathfn.ivcurve_models.exponential returns the current of the formula up to a few roundings and the roundings of the exponents, relative to the size of its terms, at every voltage, for all parameters and all names of the model (as long as nothing overflows or underflows).", "quantifier": "all voltages, parameters, model names and roundings", "why_tests_cant": "the terms cancel below the gap and the exponents amplify rounding errors; the worst voltage and parameters are unknown, and tests compare with the same formula in the same arithmetic", "anchors": ["qmix/mathfn/ivcurve_models.py:exponential"]}
