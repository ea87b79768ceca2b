# QMix in Lean 4: design of the formal model

Everything lives in the Lake project `lean/` (Lean 4.33.0, Mathlib imported module by module).
`properties.jsonl` lists the properties, `MANIFEST.json` maps them to theorems, `seeded/LOG.jsonl`
records the mutation tests.

## Layout

| module | contents |
| --- | --- |
| `Verif/Py/*` | Python/NumPy primitives: exceptions as values, `range`, index wrap-around, slices, `round`, Bessel functions, a float type with NaN and infinities |
| `Verif/Model/X.lean` | the model: one Lean definition per Python function, each citing file and lines |
| `Verif/Spec/X.lean` | small independent specifications (mathematical formulas, predicates), not using model helpers |
| `Verif/Lemmas/X.lean` | helper lemmas |
| `Verif/Props/X.lean` | the property theorems (`Cnn_...`), with an `example` that meets the hypotheses |

Theorem names: `Cnn_name` proves (part of) property Cnn; `Cnn_name_partial` proves a weaker statement and says what is
missing; `Cnn_false...` proves that the property as stated is false of the code, with a concrete witness.

## Modelling conventions

* A Python function that can raise is a Lean function into `Except PyErr α`. The exceptions are `AssertionError`,
  `ValueError`, `IndexError`, `TypeError`, `AttributeError`, `KeyError`, `NameError` (also `UnboundLocalError`),
  `ZeroDivisionError`, `LinAlgError`, writing to a read-only array, and `nonFinite` (below).
* NumPy arrays along an axis whose negative indices matter are lists; `a[k]` is `pyGet`, which wraps
  `-len <= k < 0` and otherwise returns `IndexError`. So "no stray access" is part of every
  "returns `ok`" theorem (the real kernels are compiled by numba *without* bounds checks).
* The trailing bias-point axis of the current calculation is modelled by the commutative star ring
  `ι → ℂ` (`ι` any finite or infinite index type): NumPy broadcasting over that axis is pointwise arithmetic.
* Loops are folds over `pyRange`, in program order.
* Numbers. Ordinary arithmetic is over `ℝ` and `ℂ`. Where NaN or infinity changes control flow (data cleaning,
  harmonic-balance stopping test, noise temperatures, series-resistance correction, impedance recovery) numbers are the type
  `Flt` = extended real or NaN, with IEEE comparison and arithmetic but without rounding and without the sign of zero. In the
  impedance recovery a complex number is `Option ℂ`, `none` meaning "not finite". Where the code would go on with infinities
  that no property speaks about, the model stops with the error `nonFinite` (for example slopes over repeated voltages).
* In the text files of circuits, numbers are sign and magnitude in an arbitrary floating-point format with
  round-to-nearest (`FloatFormat`); the file is a list of characters.
* Dictionaries of options are functions from strings to values; the dictionaries in memory have addresses, so that aliasing
  of the shared defaults can be stated (C41).

## Black boxes

These are universally quantified parameters with exactly the listed assumptions. Every assumption has an instance in Lean
(`ideal` for the routines of the analysis, `spiky` for splines, ...), so no theorem is vacuous because of them.

| parameter | assumption |
| --- | --- |
| response function `resp(v)` in `qtcurrent` and `harmonic_balance` | none (any function ℝ → ℂ); at most polynomial growth in the limit theorems C99 and C101 |
| `scipy.interpolate.UnivariateSpline` (`RespFn.Splines`) | passes through the given points; fails unless there are more points than the order and the order is 1 to 5 |
| `np.argsort` (`Sorter`) | returns a permutation that sorts; ties in any order; NaN last |
| `scipy.signal.savgol_filter` | keeps the length, is homogeneous, keeps straight lines (for order >= 1 and a window that fits) |
| `np.polyfit(x, y, 1)` | a minimiser of the squared residual |
| `scipy.optimize.minimize` | none |
| `np.linalg.inv` | returns a left and right inverse or raises `LinAlgError`; in C173 it is inexact: the entries of the inverses of matrices near the Jacobian are right to a threshold (`Spec.InvertsNear`) |
| `np.interp` | piecewise linear with constant continuation, for increasing `xp` (for other `xp` the model uses the same formula, NumPy promises nothing) |
| `scipy.stats.linregress` | covariance formula; `ValueError` for no points or constant `x` |
| FFT, `scipy.signal.hilbert` | their defining sums |
| Bessel functions | *defined* by Bessel's integral, so facts about them are proved |

## Trusted base

* Lean 4.33.0 kernel; axioms used by the theorems: `propext`, `Classical.choice`, `Quot.sound` only
  (checked by `#print axioms`, and by `vcheck`). No own axioms, no `sorry`, no `native_decide`.
* The correspondence between the Python text and the Lean definitions (checked by reading; comments
  cite lines).
* Floating-point rounding is **not** modelled (except in circuit files, in the summation of `qtcurrent`: C146, in the powers of a
  circuit: C168, in `harmonic_balance`: C169 the error test, C173 the whole loop, in the noise temperatures: C174, in the drive level: C178, in the
  comparison of frequencies: C184, in `np.interp` and the numerical derivatives: C191, in Gaussian smoothing: C192, in `kk_trans_trapz`: C193, in `set_freq` and `set_alpha`: C196, in the bias sweep: C197, in the photon voltages of a measurement: C198, overflow in the I-V models: C199, in the polynomial and exponential I-V models: C201, C202, and in the step `VSTEP` of the I-V models: `C38_steps`, `C44_gap_sampled`): sums, products, Bessel
  values, square roots, logs are exact. Overflow is modelled in C199 only, underflow is not. Theorems therefore speak about the real-number
  semantics of the code, plus NaN/inf control flow where stated. Decimal constants are exact.
* NumPy/SciPy/numba semantics as stated in the comments of `Verif/Py` (index wrap-around, slicing,
  reshape-returns-view rule, `argmin` first occurrence and NaN first, Python `max`).

## What is modelled

| file | modelled | not modelled |
| --- | --- | --- |
| `circuit.py` | constructor, `initialize_vj`, powers, `set_alpha`, `set_freq`, `set_name`, `lock`, `unlock`, `vph`, `save_info`, `read_circuit`, `print_info`, `__str__` (lines in `Model/PrintInfo.lean`, characters in `Model/PrintInfoText.lean`) | |
| `qtcurrent.py` | everything: `qtcurrent` (scalar and list), `interpolate_respfn` and its four helpers, `calculate_phase_factor_coeff`, `_convolve_coefficients`, `_current_1..4_tone(s)`, `_current_coeff_1..4_tone(s)`, `_unpack_num_b`; the text that `verbose=True` prints (`Model/QtPrint.lean`) | the clock (a parameter) |
| `harmonic_balance.py` | everything: the iteration with all modes, the Jacobian, `check_hb_error`, reshapes and aliasing, everything printed (`Model/HbPrint.lean`) | the readings of the clock, NumPy's warnings |
| `respfn.py` | all five classes, smearing, sampling, interpolation, error check, `idc`, `ikk`, `didc`, `dikk`, `resp*`; figures, printed text and `__str__` (`Model/RespPrint.lean`) | colours and line styles, text printed before an exception |
| `mathfn/*` | `perfect`, `perfect_kk`, `polynomial`, `exponential`, `expanded`, `gauss_conv`, `slope`, `slope_span_n`, `kk_trans`, `kk_trans_trapz` | plots |
| `exp/clean_data.py` | everything | |
| `exp/iv_data.py` | everything (at this commit the data arrive as arrays; nothing is read from files); warnings in `Model/Report.lean` | debug plots |
| `exp/if_data.py` | everything; messages in `Model/Report.lean` | debug plots |
| `exp/if_response.py` | everything | nothing |
| `exp/parameters.py` | the table of defaults | |
| `exp/exp_data.py` | `DCData.__init__`, `PumpedData.__init__`, `_recover_zemb`, `_error_function`, `_find_source_voltage`, `_find_ac_current`, `_find_pumped_iv_curve`, `_find_alpha`, the figures of both classes as lists of drawing commands (`Model/Figures.lean`), `plot_all` of both classes and `initialize_dir` (`Model/Files.lean`), `plot_if_spectrum` and `plot_overall_results` (`Model/Results.lean`), everything printed by the constructors, `__str__`, `__repr__` (`Model/Report.lean`), progress messages (`Model/FilesPrint.lean`) | colours and line styles, `print_info` (prints `__str__`) |
| `misc/terminal.py` | `cprint`, `title`, `header`, `pvalf`, `printc`, `pvale` | `print_intro` |
| `misc/progbar.py` | `progress_bar` | the text of the percentage is a parameter |

## Simplifications worth knowing

* Option values of the wrong type are refused when they are read, not at the first operation that cannot handle them.
* Bessel functions at a non-finite argument are not followed: a drive level that is not finite gives a non-finite current.
* `_correct_offset` and friends modify their array arguments in place in Python; in the model the new arrays are returned and the
  callers (which do not use the old ones) continue with them. `harmonic_balance` is different: its aliasing is modelled (C32).
* In `circuit.py` a failed call returns no new state; every exception precedes the first assignment.

## Plan per property

| id | model | how proved |
| --- | --- | --- |
| C01-C05, C07 | `Circuit` over ℝ; units as strings, lower-cased | algebra with `sqrt`, `logb 10`, `10^x`; case split on units |
| C06 | `setFreq` with the guard exactly as written | false of the code: negation with witness |
| C08 | operations as an inductive `Op`, histories as lists | induction over histories |
| C09, C10 | character-level `save`/`read` | induction over digits and lines; nearest rounding |
| C11-C14, C65 | monadic kernels with `pyGet`; `Spec.Mtsda` recursive over a list of tones | refinement: model = `ok` spec |
| C15-C23 | spec-level theorems transported through C14 | algebra of finite sums over ℤ intervals |
| C24, C25 | same kernels with mismatched limits | proof for larger limits, witnesses for the negative parts |
| C26, C91 | `_find_pumped_iv_curve`, `_find_ac_current` against `qtcurrent` | sum manipulation |
| C27-C35, C66-C69 | `harmonicBalance` over an abstract current function and matrix inverse; `Flt` errors | loop invariants |
| C36-C40, C73-C78 | `RespFn` | list induction, spline parameter |
| C41, C62, C92 | dictionaries, memory of dictionaries | case split; congruence in the keys that are read |
| C42, C72 | DFT-based Hilbert transform by its defining sums | kernel oddness, reindexing, orthogonality |
| C104-C106 | the same, and the trapezoidal sum; the principal value integral is `Spec/KramersKronig.lean` | closed form of the weights (cotangent) and its distance from `2 / (pi j)`; folding the sum at the output voltage; dominated convergence of step functions |
| C107-C110 | the characters written to the terminal; a small terminal and readers of decimal and complex numerals are `Spec/Terminal.lean` | the output is fed to the specified terminal or reader |
| C112-C115 | figures as lists of drawing commands; a point on a broken line is `Spec/Figures.lean` | the commands are computed from the facts about the data classes (C80-C86, C103); the texts on the axes and in the titles are proved apart (`Props/FigureTexts.lean`) |
| C116 | a disk is a set of directories and a map from places to contents (`Spec/Files.lean`); an operation returns a result and a disk, also when it raises (`Model/Files.lean`) | each folder and each figure is followed through the call; `Within` is the frame: what may change at most |
| C117 | the texts as lists of characters, the figures as drawing commands, the disk as for C116; SciPy's spline is a parameter that may raise (`Model/Results.lean`) | a reader that cuts lines and fields (`Spec/Table.lean`) recovers every number to the printed decimals; files are followed one by one |
| C118 | as C117; the loop ends at the call of `if_response` with a name | the call raises for every name |
| C119 | as C26 | small-argument bounds of the Bessel functions (`Lemmas/Bessel3.lean`), then term by term |
| C120 | as C14, two tones | the sum over the two coefficients is split at the first order of the signal; the rest is bounded by the cube |
| C121 | as C27 (`Model/HarmonicBalance.lean`, unchanged) | the current is a bounded Lipschitz function of the voltages (`Lemmas/Lipschitz.lean`); contraction principle for the solution; then C122 with the linear map -1 |
| C122 | as C27 | the finite-difference Jacobian of the model is close to the linear map, so each damped update contracts by 1 - d/2 (`Lemmas/Newton.lean`), so the loop meets its target (`Lemmas/Newton2.lean`); solutions and neighbourhoods in `Spec/Convergence.lean` |
| C123 | as C14 | the sharp bound `|J_n(x)| ≤ (x/2)^n / n!` from `(x^n J_n)' = x^n J_(n-1)` (`Lemmas/Bessel4.lean`); the tail is dominated by a geometric series and the error is carried through the nested sums by Cauchy-Schwarz and the recurrence of the coefficients (`Lemmas/Truncation*.lean`) |
| C124 | the printed characters with colour codes (`Model/Report.lean`), numbers formatted as by Python; what a reader sees is cut into lines and tabbed entries (`Spec/Report.lean`); power into a load and the maximum over all loads are defined from the circuit (`Spec.IsAvailable`) | each line is computed; the available power is the maximum by completing a square; the printed delivered power is compared with the power absorbed |
| C125 | as C124; the constructors are those of C93-C96 | printing succeeds whenever the constructor does, and the text is computed part by part; options that differ in `verbose` alone give the same results |
| C126 | `qtcurrent` as in C14 and C99; the nonlinear resistor is specified as an iterated mean over the phase angles of the tones (`Spec/Classical.lean`) | the photon sums of a scaled tone are weighted sums whose characteristic functions converge (Parseval and dominated convergence) with bounded second moments (recurrence of the coefficients); continuous functions of linear growth are approximated by trigonometric polynomials (Stone-Weierstrass); induction over the tones keeps convergence even on bounded sets |
| C127 | as C100 | the limit of C100 at frequency 0; below 5e-5 every frequency rounds to 0 |
| C128 | `Model/HbPrint.lean`: `harmonic_balance` with its output, every `print` and the progress bar; clock and float text are parameters | `C128_same_result`, `C128_report_partial`, `C128_verdict`, `C128_iterations_partial`, `C128_quiet_partial`, `C128_direct`; false: `C128_false_quiet`, `C128_false_iterations` |
| C129 | `check_hb_error` with its output; the format of the error is a parameter in `C129_pass`, `C129_fail` and the code's `{:.2E}` in `C129_pass_text`, `C129_fail_text` | `C129_pass`, `C129_fail`, `C129_same_result`, `C129_pass_text`, `C129_fail_text` |
| C130 | `Model/RespPrint.lean`: `plot_interpolation`, `plot`, `show_current` as lists of drawing commands, the axis, the file | `Spec` is a point on a curve with a given label (`Drawn`); lengths of the stored curves follow from the constructors; false: `C130_false_smeared`, `C130_false_limit` |
| C131 | `Model/RespPrint.lean`: the constructors with their output; numbers formatted as by Python, also `{:.4E}` (`fmtSci`) | text is cut into lines and read back (`Spec/RespPrint.lean`); false: `C131_false_max`, `C131_false_twice` |
| C132 | `qtcurrent` with the object made by `RespFnPerfect` | by the Tien-Gordon sum (C65); one-sided limits of `perfect` at every voltage, shifted by photon steps |
| C133 | `qtcurrent`, any response function whose dc part is monotone | with a single mixing product at dc the current is a combination of shifted I-V curves with weights `|C_k|^2 ...` |
| C134 | `qtcurrent`, one tone and one harmonic | C26 with the recurrence of the Bessel functions turns the sum into differences over photon steps; `J_n >= 0` up to `2 sqrt(n + 1)` (`besselJ_ge`), `J_0(3) < 0` for the witness |
| C135 | `qtcurrent` with `round(x, 4)` on reals | within half a unit of the same four-decimal number both round to it; false: a tone on a tie (`C135_false`) |
| C136 | `qtcurrent` | a delay by half a period (C20) is a reversal of all odd harmonics (C102), so an even product equals its negative |
| C137 | `qtcurrent`, any number of tones and harmonics | photon average of the unpumped curve (as in C101); dominated convergence; false for a fixed `num_b` since the squares of finitely many Bessel functions add up to less than 1 (`C137_false_fixed`) |
| C138 | `qtcurrent`, any two response functions | only real weights multiply the response at dc; false: a slow tone evaluated exactly (`C138_false`). With this C99 and C137 apply to the dc current of `RespFnPerfect`, whose Kramers-Kronig transform is unbounded near the gap |
| C139 | `Model/QtPrint`: `qtcurrent` and `interpolate_respfn` with their output; the duration is a parameter | case analysis over the steps; the lines of the text are read back |
| C140 | `qtcurrent`, any two response functions | finite sections of a unitary convolution are contractions (`Lemmas/Section`), then Cauchy-Schwarz on the pair of coefficient lists; for unequal `num_b` with three or more harmonics a numerical search found no violation, nothing is claimed |
| C141 | `harmonic_balance` and `available_power` together | completing the square: `Re(conj(a - z i) i) <= |a|^2 / (4 Re z)`, with `C27_converged_partial` for the remaining error |
| C142 | `qtcurrent` for families of inputs along any filter | the Jacobi-Anger coefficients are Fourier coefficients of a function that is 1-Lipschitz in `v / (p w)` (`Lemmas/Continuous`), all else are finite sums; `round4` is locally constant off its ties |
| C143 | `qtcurrent`, response function `ikk + i idc` | conjugation passes through the harmonic convolution and the correlations (`Lemmas/Reversal`); then linearity in the response function |
| C144 | `qtcurrent` with scaled inputs | Bessel arguments and the shifts of the bias voltage scale out (`Lemmas/Scale`); false because matching uses 4 decimals of the normalised frequency (`C144_false`) |
| C145 | `check_hb_error` of two circuits | the residuals of the equivalent problem have the same magnitudes: time-shift covariance of the current (C20), conjugation (C143), linearity, permutation of the tones (C19) |
| C146 | `Model/QtRound.lean`: the kernels of `qtcurrent` over any arithmetic; rounded arithmetic with relative error `u`; `Spec.binary64` | the kernels preserve every relation that the operations preserve (`Lemmas/Parametric.lean`); values, magnitudes and counts of roundings are tracked alongside (`Lemmas/RoundOps.lean`), the exact kernels are an instance and were evaluated for C14 |
| C147 | `recoverZemb`, `findAlpha`, `errorFunction`, `qtcurrentList` as before | the ac current of Tucker theory is Lipschitz in the drive level with constant `4 B` (`Lemmas/TuckerLip.lean`: derivatives of Bessel functions, sum of their squares); C26 links `qtcurrent`, C61 the drive level, C60 and C63 the search; `C147_ambiguous` is a case in which another impedance is returned |
| C148 | `qtcurrentList` as before | `Props/SeparateTone.lean`, `Lemmas/PhaseMean.lean`: dc current with the tones f and (P+1)f = mean over the phase of harmonic P+1 of the dc current with one tone (Parseval in the phase, for each photon number; C99 for the limit). `C148_phase_matters` shows that for given phases the two differ. |
| C149 | `qtcurrentList` as before | `Props/SmoothCurrent.lean`, `Lemmas/Deriv*.lean`: the Jacobi-Anger coefficient is a Fourier coefficient of exp(i x linear function of the phasor), its derivative is a combination of the neighbouring coefficients, hence smooth; sums, products and conjugates of smooth functions are smooth (`Closed`). |
| C150 | `invJacobian`, `harmonicBalance` | `Props/Regular.lean`, `Lemmas/Deriv3.lean`: functions with a bounded derivative and a uniform quadratic remainder are closed under sums, products and conjugation, so the circuit equations have a uniform quadratic remainder; this gives the accuracy of the difference quotients and the hypothesis `NearLinear` of C122. |
| C151 | circuit equations `Spec.residuals`, `qtcurrentList` | `Props/SourceDependence.lean`, `Lemmas/LocalInverse.lean`: inverse function theorem for the map from junction voltages to the source voltages they need. The sources are taken above 1e-10, where `harmonic_balance` does not replace them. |
| C152 | `qtcurrentList`, two tones, one harmonic | `Props/SignalAdmittance.lean`: a local oscillator that takes part with order 0 averages the single-tone result over the bias (`mixing_averaged`); the single-tone result is the weak-drive expansion of C119. |
| C153 | `qtcurrentList`; `Spec.photonWork` (photon bookkeeping, in terms of the Fourier coefficients of the phase factor) | `Props/PhotonBalance.lean`, `Lemmas/Energy2.lean`: the recurrence `k w C_k = Σ (v̄_p C_{k-p} + v_p C_{k+p})/2` turns the power of a tone into the photon number, tone by tone; the limit is that of C99. |
| C154 | `harmonicBalance` (loop, `max` with NaN) | `Props/StopTest.lean`: the running maximum of `max(np.max(rel), m)` depends only on the signals after the last NaN. |
| C155 | `gauss_conv` (Model/MathFn) over the reals; Spec/Filters: reflection, bell weights | `C155_accepts`, `C155_average`, `C155_centred` (Props/Filters): the sliced, reversed and concatenated arrays are reindexed to a sum over the neighbours |
| C156 | `slope`, `slope_span_n` (Model/MathFn); Spec/Filters: chords | `C156_accepts`, `C156_slope`, `C156_span`, `C156_late`. Disagreement with the docstring (`-N/2 to N/2 span`): the span is not centred, the chord starts `k+1` points before and ends `k` points after the point |
| C157 | `_find_gap_voltage` (Model/IvData) | `C157_gap`: C55_gap with the point named: the first maximum of the smoothed slope; a measured curve with a gap voltage is the example |
| C158 | `_correct_offset` (Model/IvData); `scipy.optimize.minimize` is a parameter, `Exact` says that it finds a minimum if there is one | Partial, because false for straight lines (`C158_false_offset`). `C158_true_partial`: the error at the true offset is 0, by oddness of linear interpolation and because the points outside of the range do not matter in its middle half. `C158_odd_partial`: whatever exact minimum is found makes the corrected curve odd at the 101 voltages compared |
| C159 | `exponential`, `expanded` (Model/MathFn) | Exactly: algebra of exponentials turns the logistic steps into `window` and `steps` of Spec/Curves; the limits follow from those of one logistic step |
| C160 | `RespFn.__init__`, `RespFnPerfect.__init__` (Model/RespFn) | From C155: the lists that enter `gauss_conv` are the odd continuation (`Unfolded`) minus the voltage. `C160_parallel`: the average of a constant. `C160_perfect`: the two smearings of `RespFnPerfect`, with the impulse |
| C161 | `iv_curve` (Model/IvData) | From C83_sweep, C54_corrected and the interpolation lemmas: the routine is run on a sweep, result in terms of `Spec.OnLine` |
| C162 | `_find_if_noise`, `dcif_data` (Model/IfNoise) | The masks are evaluated sample by sample and compared with the index sets of Spec/ShotPoints; uniqueness of the factor from strict convexity of the sum of squares |
| C163 | `qtcurrent`, any pumps and a weak last tone | the correlation of the signal is the innermost sum, replaced by its linear part (weak_corr) with a cubic error; the sums of the pumps are linear in it |
| C164 | `qtcurrent` with several harmonics, finite num_b | weighted l1 norms rho^|k| and 1+|k|w of the coefficients, submultiplicative under the dilated convolution; a cut at num_b costs (1+(n+1)w)/rho^(n+1) of the heavy norm; products over tones by induction |
| C165 | `qtcurrent` as in C14; the junction in the time domain is `Spec/Memory.lean` | C99 gives the sum over all photon numbers; Parseval (`pair_char`) per tone, exchange of sums and integrals (Fubini), C100 for the conductance (`Lemmas/Memory*.lean`) |
| C166 | `qtcurrent` as in C14; the pumped curve is the function of the bias voltage that every sweep samples | the dc current is a weighted sum of translates (`corr_zero_area`), integrals are invariant under translation; C99 for the limit of the weight |
| C167 | `print_info` with the format strings applied (`Model/PrintInfoText.lean`); the lines about a signal are `Spec/PrintInfo.lean` | the output is fed to the specified terminal and cut at line ends and tabs; the numerals are read by the lemmas of C107 and C129 |
| C168 | both functions with a rounding after every operation (`Model/CircuitFp.lean`) | relative errors are tracked as factors between (1-u)^n and (1-u)^-n (`Lemmas/RelErr.lean`); the decibel scale turns the factor into a shift |
| C169 | the loop of C27 with the error vector and the relative errors rounded (`Model/HbFp.lean`); current and update are parameters | triangle inequalities for the three roundings of the residual, factors for the two moduli and the quotient; then the loop invariants of C27 |
| C170 | the object model of the class joined to the model of harmonic balance (`Model/Session.lean`) | case distinction on the embedding impedances and the lock; the in-place changes of both models are shown to agree. The claim is false in two ways, each proved for all circuits it concerns |
| C171 | `read_circuit` with the whole object it returns (`Model/Session.lean`) on top of the character-level model of the file | C09 and C10 for the arrays, the constructor for the rest. What is lost is proved lost for every circuit |
| C172 | the operations on the disk of C116-C118 with the text printed so far (`Model/FilesPrint.lean`) | forgetting the text gives the earlier models back; a folder is not created by creating an earlier one, so the list is that of the missing folders |
| C173 | the loop of C169 with the update rounded too (`Model/HbFp2.lean`); `np.linalg.inv` is a parameter, its accuracy is `Spec.InvertsNear` | perturbation of the Newton step (`Lemmas/NewtonFp*.lean`): the rounded difference quotients stay near the linear map, a matrix near it has an inverse of bounded norm, the correction is right to an error that tends to 0 with the unit roundoff; the bounds are continuous at 0, so a threshold exists |
| C174 | `Model/IfFp.lean`: `_find_tn_gain` and `_temp_cw` with a rounding after every operation | relative errors are carried through `tanh` (which does not amplify them, by concavity of `tanh`) and `max`; the differences are bounded absolutely and the quotients by a lemma on rounded quotients (`Lemmas/IfFp.lean`) |
| C175 | `Spec/Mtsda.lean`; the range used is the sum of limit times frequency | the difference of two phase factors is at most the difference of the phases, so by Bessel's inequality convolution with it has at most this norm on sequences, truncated or not (`Lemmas/Sensitivity.lean`); telescoping over harmonics and tones with the Cauchy-Schwarz inequality; contraction for the circuit equations |
| C176 | `Model/PolyRange.lean`: `polynomial` with wrapping 64-bit integers, and with the range of double precision | divisibility by powers of two; bounds on powers. False as stated: see the witnesses |
| C177 | `Model/ZembRec.lean` as for C61, C63, C147 | the bisection with a region in which the comparison cannot be trusted; nearest grid point; `recovery_core`, shared with C147 |
| C178 | `Model/AlphaFp.lean` (the loop and the sum with a rounding after every operation) | error of a rounded sum; the invariant of C177 with a drift of one rounding per pass and the accumulated error of the step |
| C179 | `Model/IfData.lean` | bounds tnError and gainError stated with the receiver only; the optimal point with C57 |
| C180 | `Model/IvData.lean`, `Model/IfData.lean` | the residual of the fit is the smallest, hence the distance between fit and true line at the points is at most the noise (a projection); the sum over centred voltages turns this into a bound on the slope |
| C181 | `Model/HarmonicBalance.lean`, `Model/Session.lean` | the residual bound of C27 and the bound of C175 on the reaction of the current; the feedback turns the residuals into a distance |
| C182 | `Model/MathFn.lean` (kk_trans with the FFT as a sum) | the kernel of the discrete transform from C104, sums of reciprocals of odd numbers compared with logarithms |
| C183 | `Model/MathFn.lean` | midpoint sums of a function that is Lipschitz between two jumps; the symmetrised integrand is Lipschitz by the mean value theorem |
| C184 | `Model/QtFreqRound.lean`: Python's `round` (nearest decimal to the exact value) and NumPy's (`rint(x * 10000) / 10000` in floats), the conversion of scalars by `float`, the sums of frequencies with every operation rounded | a float with four decimals is its own rounding, `fl (fl x) = fl x`, evaluation of both functions at the double nearest to 0.12345; false for scalars (`C184_false`) |
| C185 | `qtcurrent` at frequency 0 through C14 and `qt_dc` | the weights of absorbing and emitting k photons are equal with one harmonic (`besselJ_neg`), so the mirrored curve has the same dc current; positivity of the weights; Bessel inequality for W; evaluation of the convolution with num_b = 1 for the counterexample (`C185_false`) |
| C186 | `read`, `save` of `Model/CircuitIO.lean`; the text is any prefix of the saved text | the lines of a prefix are whole lines and a part of the next (`prefix_lines`, `lines_cut`); loop invariant `part`; a signal without its third line is refused (`readStep_short`), one with a damaged third line differs in the impedance only (`readStep_damaged`) |
| C187 | `gapVoltage` of `Model/IvData.lean`, `slope` and `gaussConv` of `Model/MathFn.lean`; spec `NearSteepest` (smoothed slope at most mu below the largest) | chords move by at most 2 nu / h (`slopeAt_close`), averages with positive weights not by more (`smoothAt_close`), the two fits by C180, the crossing of the lines by `gap_close` |
| C188 | `correctOffset`, `mismatch` of `Model/IvData.lean`; the minimiser is a routine with `NearlyExact` | interpolation does not amplify errors (`interpAt_noise`), so the mismatch moves by at most 202 nu (`mismatch_noise`); it vanishes at the true offset (C158); the deviations at two voltages bound the offset |
| C189 | `loadIf`, `ifSeries` of `Model/IfNoise.lean`; `Placed` in `Props/IfSeries.lean` is the specification of the voltages | the interpolated static resistance times the interpolated current is a quadratic between two dc points (`move_between`); then as C88 |
| C190 | `dcivCurve`, `ivCurve`, `seriesResistance` of `Model/IvData.lean`; `Through` in `Props/IvSeries.lean` specifies the measurement | both runs are followed to the end of the series resistance correction (C54, C83), where the data agree; the rest is compared step by step, including exceptions; `Props/SeriesObject.lean` carries this through the constructors of `DCData` and `PumpedData` |
| C191 | `Model/DataFp.lean`: the same functions with `Fp.rnd` after every operation | the rounded and the exact run are followed side by side with a relation that counts roundings (`PyRel`, `Rel`) |
| C192 | `Model/GaussFp.lean`: `gauss_conv`, `_gauss`, `np.arange` and `np.convolve` with `Fp.rnd` after every operation | absolute errors of positions and exponents, then factors near one on a logarithmic scale (`Near`) for the weights and the sums |
| C193 | `Model/KkFp.lean`: `kk_trans_trapz` and `np.trapz` with `Fp.rnd` after every operation; `areas` in `Props/KkFp.lean` is the scale of the error | every half of a trapezoid gets a factor near one (`Near` of C192), including those of the sum and of pi |
| C194 | `figures` of `Model/Results.lean`; `xRange` and `yRange` in `Props/FigureLimits.lean` give the range in force in the finished figure, `heights` lists the vertical ranges | each of the twelve figures is followed to its list of commands; the last command that sets a range counts |
| C195 | `pvale` of `Model/Terminal.lean` with the format `{:7.1e}` of `Model/Pvale.lean`; `expNumeral` in `Props/Pvale.lean` reads the text back | the mantissa is at least one in size after rounding (`mantissa`), so half a unit of its last digit is at most 5 percent |
| C196 | the constructor, `set_freq`, `set_alpha` and the printed frequency with a rounding after every operation (`Model/FreqFp.lean`) | `Rel u n` counts roundings; one is added to a non-negative number without a loss (`Rel.add_one`) |
| C197 | `np.linspace` as the constructor calls it, with a rounding after every operation (`Model/SweepFp.lean`); `Sweep` in `Props/SweepFp.lean` is the specification | `Rel u 3` for index times step, then one rounded sum; the difference of neighbours exceeds twice the error |
| C198 | the formulas with a rounding after every operation (`Model/ExpFp.lean`), the circuit of C196 | `Rel u n` counts roundings; the circuit and the recovery round the same products in the same order |
| C199 | the three functions with powers and exponentials that overflow to infinity and IEEE arithmetic on infinities (`Model/Overflow.lean`) | one term with an overflow is 0 instead of less than 1 over the largest number; errors add up (`NumNear`) |
| C200 | the state of NumPy passed from call to call, with an exception as the end of a call if the state says so (`Model/ErrState.lean`) | each call leaves a setting or makes it `ignore`; induction over the calls |
| C201 | the quotient with a rounding after each operation and a power function that is right up to `p` roundings (`Model/PolyFp.lean`) | relative errors of products and quotients, and of one plus a non-negative number |
| C202 | the function with a rounding after every operation and an exponential that is right up to `p` roundings (`Model/ExponFp.lean`) | a step changes by a factor of at most exp d if its argument changes by d; errors relative to the sum of the sizes of the terms (`Appr`) |
| C111 | `print_info` as a list of lines with unrounded numbers | shapes are invariant under every call; each block is computed; blocks of equal length can be told apart |
| C43-C45, C70, C71 | real functions | monotonicity, limits, a principal-value integral |
| C46-C49 | list models of convolution and slicing | list lemmas, weighted-average bounds |
| C50, C51 | lists of `Flt` pairs and matrices; argsort = any sorting permutation | list lemmas (`Perm`, `Pairwise`) |
| C52-C55, C64, C80-C85 | `IvData` with the black boxes above | uniqueness of least-squares lines, interpolation lemmas |
| C56-C59, C79, C86-C89 | `IfResponse`, `IfData`, `IfNoise` | algebra, scaling invariance of every step |
| C60, C61, C63, C90 | `ZembRec` | completing the square, bisection invariant, first minimum with NaN |
| C93-C98, C103 | `ExpData` | composition of the above, end to end |
| C99-C101 | `Spec.Phase`: the untruncated sums, Fourier coefficients by their integral | bound on Bessel functions, dominated convergence, Jacobi-Anger expansion, integration by parts |
| C102 | spec-level theorem transported through C14 | reindexing of finite sums |

Status and theorem names are in `MANIFEST.json`.

## Disagreements between the code and the stated property

Each is proved (theorem in brackets) unless marked.

Circuit and files
* C06: `circuit.py:442` compares the bound method `units.lower` with `'norm'`, so the guard is always
  taken and `'norm'` raises `AssertionError` without a gap frequency (`C06_false`).
* C07: `circuit.py:234` tests the *argument* `vgap`, so with `fgap` and `rn` given `igap` stays `None`
  (`C07_gap_current_false`); `vgap` with `rn = 0` raises `ZeroDivisionError`.
* C09: entries with index 0 are not saved; they read back as zero.
* C199: `polynomial` with an order of 100 or more overflows to infinity over infinity near 35 gap voltages, so `RespFnPolynomial(p_order=100)` starts from a curve
  with NaN in it.
* C200: `exponential` and `expanded` call `np.seterr(over='ignore')`, and `qmix/exp/if_data.py:31` ignores `divide` and `invalid` on import; nothing sets them back
  (`harmonic_balance`, `circuit` and `exp_data` use `np.errstate`, which does). Code that relies on `over='raise'` stops getting exceptions after one I-V curve (`C200_false_result`).

Current
* C17, C25: `_convolve_coefficients` truncates at `max(num_b)` for every tone, so from three harmonics on
  another tone's (or an unused) larger limit changes the coefficients.
* C24: a response matrix for smaller limits is accepted, indices wrap around and the current is wrong.
* C26: frequencies up to 5e-5 cannot be told from dc by `qtcurrent`.

Harmonic balance
* C27, C33: a NaN (0/0) relative error in one signal makes Python's `max` forget the errors of earlier signals; only the last
  signal is safe.
* C106: `kk_trans_trapz` checks the spacing without an absolute value, so voltages that get closer together are accepted.
* C108: the bar is rounded, so it is full before the last iteration when `bar_length * (total - iteration) / total <= 1/2` (199 of 200 with 20 cells).
* C109: `printc` prints the sign of the imaginary part and then the signed imaginary part: `1 - 0.5j` becomes `+1.00 - j-0.50`.
* C110: `header` prints its rule in the default colour of `cprint` (pink) whatever colour it is given, also `None`.
* C111: `print_info` prints only the real part of a Thevenin voltage.
* C28: mode `'x'` reports `False` when the last permitted iteration converges; with a negative `max_it` it reports `True`
  without iterating; mode `'m'` with negative `max_it` raises `UnboundLocalError`.
* C29: a NaN at the last signal gives `max_it + 1` updates.
* C31: the early return for zero impedance ignores `mode`.
* C32: `cct.vt` is floored in place at 1e-10; `vj_initial` is overwritten when `num_f == 1` or `num_p == 1`.
* C34: `<` in one function and `<=` in the other.

Response functions
* C36: smearing with an asymmetric window breaks oddness (`C36_false_smeared`). C39: `max_npts` is not a limit. C74: data whose steps differ by
  1e-5 or more is refused. C75: `RespFnPerfect` smears twice and overshoots. C76: the check uses the signed error. C77: no derivatives for
  `RespFnPerfect` without smearing.
* C41: documented and real defaults differ (`voffset_range`, `vrn`, `max_npts_dc`, `max_npts_kk`).

Math
* C43: half-integer orders give NaN for negative voltages. C44: integer arrays store `0` instead of `0.5` at the gap; NumPy integers
  return `None`. C45: negative orders. C47: even or asymmetric windows shift the data. C49: the span 1 is accepted for two points and gives
  nonsense. C70, C159: the `'original'` model tends to half the subgap resistance below the gap and to `rn`
  and `rsg` in parallel above it (as its documentation admits).
* C176: `polynomial` of an integer array gives 0 at every even voltage with the default order, because 64-bit integers wrap around
  (`C176_false_integers`); with floats the result is infinite or NaN from 1300 gap voltages on (`C176_false_large`).

Experimental data
* C50: one remaining point raises `ValueError`. C51: `remove_doubles_matrix` checks column 0 whatever `col` is.
* C52: a repeated extreme voltage drops or doubles points. C54: zero current gives NaN and the point is lost; opposite signs of
  voltage and current lose the voltage. C64: for bipolar dc data offsets given by the user are only the first guess of the
  minimisation.
* C56, C57: NaN powers stay NaN; the noise temperature is capped by the minimum Y factor. C59: the reported noise is the intercept at
  `vint`, not at zero, if `vint > 0`; the automatic choice of points has an absolute threshold 1e-10 and so depends on the gain.
  C79: a 3 by 3 array is always read by columns.
* IF data uses `dc.offset` even when the user gives offsets; `ifdata_sigma > 0.5` is taken as a number of steps (C88).
* The pumped curve is zero outside the measured voltages, the dc curve is continued (C84).
* C62: the deprecated limits are ignored because the default table always contains `fit_range`; with `fit_range=None` a missing
  `cut_high` is a `TypeError`; `plot_simulated` shades another interval than the one fitted.
* C63, C90: one NaN on the grid of impedances takes over the minimum search; one bias point with a current on the wrong side of the
  unpumped curve is enough. An impedance given by the user is still judged by the best grid point.
* C92: documented options that are never read: `voffset_sigma`, `ifdata_vmax`, `vgap_guess`, `igap_guess`, `vgap_threshold`,
  `rn_vmin`, `rn_vmax`, `analyze`.
* C94: option names that are also names of inner parameters (`ivdata`, `dc`, ...) raise `TypeError`.
* C98: a pumped curve that was not measured over all of the fitted part of the photon step is taken as zero there; one such point is
  enough to make the reported impedance -j (`C98_not_measured`).
* C112: `plot_dciv` always puts the leakage marker at 2 mV, whatever `vleak` is (`C112_false_leak`), and fits the line labelled
  `Rsg` within 0.2 mV of `vleak`, while `rsg` is fitted within 0.1 mV of `vrsg` (`C112_false_subgap`); without a point there it raises `TypeError`.
* C113: `plot_ivif` given a pair of axes replaces the second one (`C113_false_axes`); `plot_yfac_noise_temp` draws the Y factor
  of 293 K and 77 K whatever `t_hot` and `t_cold` are; points with zero current or zero hot power are left out; the smoothed
  figures need 31 points, otherwise `AssertionError` (`C113_returns`).
* C114: with `fit_range=None`, `cut_low` and `cut_high` the recovery fits up to `1 - cut_high` and the figure marks `cut_high`
  (`C114_false_interval`); the simulation uses the smeared response function, the recovery the unsmeared one.
* C115: the note "Minimum Error at" is put at an impedance given by the user as well, even outside of the figure
  (`C115_false_forced`).
* C117: `plot_overall_results` fits a cubic spline without checking that SciPy can: with fewer than four measurements, or
  frequencies in any but increasing order, it raises after three of twelve figures (`C117_false_spline`). The frequency range is
  set on the axes of the I-V curves, where it is replaced. Numbers in `recovered-emb.txt` are scaled with the normal resistance of
  the dc data given, those in the figures with that of each measurement.
* C118: `plot_if_spectrum` gives a file name to `if_response`, which accepts arrays only: it cannot plot a spectrum
  (`C118_false`). Without `fig_folder`, which is optional, it raises `TypeError` at the end (`C118_false_folder`).
* C116: `PumpedData.plot_all` never calls `plot_gain_noise_temp`, which it documents, and needs the undocumented fifth key
  `Impedance recovery (sim)` (`C116_false_keys`); without IF data it raises `TypeError` after the first figure (`C116_no_if`); a
  second measurement at the same frequency overwrites the first (`C116_same_frequency`); `fig_folder=''` with `file_struc=''` is
  refused (`C116_false_empty`). `DCData.plot_all` never calls `plot_offset` and `plot_rdyn`. `initialize_dir` glues the names, so
  `figs` makes `figsdciv/` beside `figs` (`C116_false_initialize`).
* C95: the output resistance is fitted to the best point and the next nine points only (one-sided).
* C124: the delivered power is computed as `v^2 / (2 Re z)` instead of `v^2 Re(1/z) / 2`, so it is too large by
  `|z|^2 / Re(z)^2`; a matched circuit reports twice the power that is available (`C124_false`).
* C125: with `verbose=False` the recovery report, the line `-> Analyze IF data:` and the warnings about the shot noise and the
  normal resistance are printed all the same (`C125_false`, `C125_quiet_partial`, `C125_dc_partial`).
* C127: frequencies are compared after rounding to 4 decimals, so a signal below 5e-5 (about 35 MHz at a gap frequency of 700 GHz)
  cannot be told from dc: its current and that of its image are added to the reported dc current (`C127_false`).
* C128: `harmonic_balance(..., verbose=False)` prints two lines when the target is not achieved: that `print` is not guarded
  (`C128_false_quiet`).
* C128: when the error of the last signal is `0/0` in the last pass neither `break` is taken; one more correction is made than
  reported, and no verdict is printed, even if the starting point solves the equations exactly (`C128_false_iterations`).
* C130: `plot_interpolation` calls a curve "imported" that was smeared (`C130_false_smeared`) or, for `RespFnFromIVData`, resampled
  and replaced by a line of slope 1 from `v_limit` on (`C130_false_limit`). With a file name the figure of an axis that the caller
  supplied is closed (`C130_axis`).
* C131: the "max. error" printed for a spline is the maximum of the signed difference `data - spline`: an interpolation that is far
  too high is reported as perfect (`C131_false_max`). A smeared `RespFnPerfect` prints heading and smearing twice
  (`C131_false_twice`).
* C134: with a `num_b` that is small for the drive level the simulated junction gives power to its tone (`C134_false_small`: `num_b = 1`
  at drive level 3); the documentation asks for "enough" summation terms without a rule. `4 num_b >= alpha^2` suffices for the sign.
* C135: frequencies are compared after rounding both to four decimals, so a request can miss a tone that is arbitrarily near
  (`C135_false`). (In the program one of the two may be a Python float and the other a NumPy float, which round ties differently: C184.)
* C137: the truncated sum is multiplied by the bias voltage, so with a fixed `num_b` the pumped curve leaves the normal-state line
  at very large bias voltages (`C137_false_fixed`).
* C138: a tone whose frequency rounds to 0 brings the Kramers-Kronig transform into the "dc" current (`C138_false`).
* C144: the currents depend on the units that voltages and frequencies are normalised with, because frequencies are matched by
  their first four decimals (`C144_false`).
* C170: `harmonic_balance` assigns to `cct.vt` before it starts (to replace voltages below `1e-10`), so it raises `ValueError` for
  every locked circuit with an embedding impedance, although nothing has to be changed (`C170_false_locked`). Undriven signals are
  left with a source of `1e-10` Vgap, and their available power is no longer 0 W (`C170_false_power`).
* C171: `save_info` does not write the bias voltages, the gap parameters or the names, so that a circuit read back is simulated on
  201 points from 0 to 2 and no power can be read or set (`C171_false_power`); voltages below 5e-5 Vgap, as used for the weak signal
  of a mixer, are written as 0 (`C171_false_signal`).
* C184: a request for `cct.freq[1]` as a scalar is converted by `float` and rounded by Python's `round`, the mixing frequency by NumPy's
  (as of NumPy 1.19), and the two differ close to the middle between two numbers with four decimals: with a tone at 0.12345
  `qtcurrent(vj, cct, resp, cct.freq[1])` is zero while `qtcurrent(vj, cct, resp, [cct.freq[1]])` is not (`C184_false`). The requests of
  `harmonic_balance` are NumPy floats in a list and are always found (`C184_own_partial`).
* C185: with two harmonics an ideal junction can carry a negative dc current at a positive bias voltage (`C185_false`): the second
  harmonic makes absorption and emission of a photon unequally likely. This is a property of the theory that is simulated, not a slip
  of the program; with one harmonic it does not happen (`C185_passive_partial`).
* C186: `read_circuit` does not notice that a file was cut off: missing signals are read as zero voltage and impedance
  (`C186_missing`), and a cut inside the last impedance gives a wrong impedance without an error (`C186_impedance`, `C186_false`).
