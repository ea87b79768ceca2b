import Verif.Lemmas.Limit2
import Verif.Props.QtCurrent

/-!
# Properties C99-C102: what the truncated sums approximate

`num_b` truncates the Bessel sums of the tunnelling current. These theorems say what the returned
currents tend to when `num_b` grows, and which physical laws the result then obeys.
-/

namespace QMix.Props

open Complex Finset Filter Topology QMix.Qt

variable {ι : Type}

/-- Every summation limit that the circuit uses is at least `N`. -/
def AtLeast (cct : Cct ι) (nb : NumB) (N : ℕ) : Prop := ∀ f, f < cct.numF → N ≤ (nb.toTup cct.numF).getD f 0

/-- The filter of growing summation limits. -/
def growing (cct : Cct ι) : Filter {nb : NumB // Valid cct nb} :=
  comap (fun t => fun f : Fin cct.numF => (t.1.toTup cct.numF).getD f 0) atTop

theorem growing_extract {cct : Cct ι} {p : {nb : NumB // Valid cct nb} → Prop} (h : ∀ᶠ t in growing cct, p t) :
    ∃ N, ∀ nb (hv : Valid cct nb), AtLeast cct nb N → p ⟨nb, hv⟩ := by
  rw [growing, eventually_comap, eventually_atTop] at h
  obtain ⟨a, ha⟩ := h
  refine ⟨∑ f, a f, fun nb hv hN => ha _ (fun f => ?_) ⟨nb, hv⟩ rfl⟩
  exact (Finset.single_le_sum (fun _ _ => Nat.zero_le _) (Finset.mem_univ f)).trans (hN f f.2)

theorem tendsto_growing (cct : Cct ι) (i : ℕ) (hi : i < cct.numF) :
    Tendsto (fun t : {nb : NumB // Valid cct nb} => (t.1.toTup cct.numF).getD i 0) (growing cct) atTop := by
  have h1 : Tendsto (fun x : Fin cct.numF → ℕ => x ⟨i, hi⟩) atTop atTop :=
    tendsto_atTop_atTop.2 fun b => ⟨fun _ => b, fun a ha => ha ⟨i, hi⟩⟩
  exact h1.comp tendsto_comap

/-- The currents of the specification along growing summation limits. -/
theorem tendsto_growing_qt (vj : ℕ → ℕ → Arr ι) (cct : Cct ι) {resp : ℝ → ℂ} {m : ℕ} (hr : Growth m resp) (hF : 1 ≤ cct.numF)
    (f : ℝ) (i : ι) :
    Tendsto (fun t : {nb : NumB // Valid cct nb} => Spec.qt resp (fun f p => vj f p i) cct.freq cct.numF cct.numP
        (t.1.toTup cct.numF) (cct.vb i) f) (growing cct)
      (𝓝 (Spec.qtFull resp (fun f p => vj f p i) cct.freq cct.numF cct.numP (cct.vb i) f)) :=
  tendsto_qt hr _ _ _ _ hF _ _ (fun t => t.2.limits) (tendsto_growing cct)

/-! ## C99 -/

/-- C99. For a response function of at most polynomial growth (of any degree), `qtcurrent` converges as the summation
limits grow: at every requested frequency and every bias point it comes as close as desired to the
sum over all photon numbers, formed with the Fourier coefficients of the junction's phase factor.
The limit does not depend on how the summation limits grow. -/
theorem C99_converges [Finite ι] (vj : ℕ → ℕ → Arr ι) (cct : Cct ι) {resp : ℝ → ℂ} {m : ℕ} (hr : Growth m resp)
    (hF : 1 ≤ cct.numF) (fl : List ℝ) {ε : ℝ} (hε : 0 < ε) :
    ∃ N, ∀ nb, Valid cct nb → AtLeast cct nb N → ∃ cur : ℝ → Arr ι,
      qtcurrentList vj cct resp fl nb none = .ok (fl.map cur) ∧
      ∀ f ∈ fl, ∀ i, ‖cur f i
        - Spec.qtFull resp (fun f p => vj f p i) cct.freq cct.numF cct.numP (cct.vb i) f‖ < ε := by
  have h : ∀ᶠ t in growing cct, ∀ f ∈ fl.toFinset, ∀ i, ‖Spec.qt resp (fun f p => vj f p i) cct.freq cct.numF cct.numP
      (t.1.toTup cct.numF) (cct.vb i) f - Spec.qtFull resp (fun f p => vj f p i) cct.freq cct.numF cct.numP (cct.vb i) f‖ < ε := by
    rw [eventually_all_finset]
    intro f _
    rw [eventually_all]
    intro i
    have := (tendsto_growing_qt vj cct hr hF f i).eventually (Metric.ball_mem_nhds _ hε)
    filter_upwards [this] with t ht
    rwa [dist_eq_norm] at ht
  obtain ⟨N, hN⟩ := growing_extract h
  refine ⟨N, fun nb hv hl => ⟨_, C14_mtsda vj cct resp fl nb hv, fun f hf i => ?_⟩⟩
  exact hN nb hv hl f (List.mem_toFinset.2 hf) i

/-- C99, the limit: the coefficients are those of the phase factor `exp(i φ)`, where `dφ/dt` times
the frequency is the applied voltage, and the phase factor is the sum of its Fourier series. -/
theorem C99_phase (v : ℕ → ℂ) {w : ℝ} (hw : w ≠ 0) (P : ℕ) (t : ℝ) :
    HasDerivAt (Spec.junctionPhase v w P) (Spec.acVoltage v P t / w) t ∧
    HasSum (fun k : ℤ => Spec.phaseCoeff v w P k * exp (I * k * t)) (exp (I * Spec.junctionPhase v w P t)) :=
  ⟨hasDerivAt_junctionPhase v hw P t, (phaseCoeff_series v w P).2 t⟩

/-- C99, one harmonic: the exact coefficients are `J_k(|v| / w) exp(-i k arg v)`. -/
theorem C99_single_harmonic (v : ℕ → ℂ) (w : ℝ) (k : ℤ) :
    Spec.phaseCoeff v w 1 k = (besselJ k (‖v 1‖ / w) : ℂ) * exp (-I * k * arg (v 1)) := by
  rw [phaseCoeff_succ, tsum_eq_single k]
  · rw [show k - ((0 + 1 : ℕ) : ℤ) * k = 0 by push_cast; ring, phaseCoeff_zero]
    simp [jaFull]
  · intro l hl
    rw [phaseCoeff_zero, if_neg (by push_cast; omega), zero_mul]

/-- The response function of a resistor grows linearly. -/
theorem growth_resistor : Growth 1 fun v => I * v :=
  ⟨1, zero_le_one, fun v => by
    rw [norm_mul, norm_I, norm_real, Real.norm_eq_abs]
    linarith⟩

example (vj : ℕ → ℕ → Arr (Fin 2)) : ∃ N, ∀ nb, Valid demo nb → AtLeast demo nb N → ∃ cur : ℝ → Arr (Fin 2),
    qtcurrentList vj demo (fun v => I * v) [0, 0.02] nb none = .ok [cur 0, cur 0.02] ∧
    ∀ f ∈ [0, 0.02], ∀ i, ‖cur f i
      - Spec.qtFull (fun v => I * v) (fun f p => vj f p i) demo.freq 2 2 (demo.vb i) f‖ < 1 / 100 :=
  C99_converges vj demo growth_resistor (by simp [demo]) [0, 0.02] (by norm_num)

/-- The hypotheses on `num_b` can be met for every `N`. -/
example (N : ℕ) : Valid demo (.tup [N, N]) ∧ AtLeast demo (.tup [N, N]) N := by
  refine ⟨⟨by simp [demo], by simp [demo], by simp [demo], demo_valid.freq_pos, by simp [demo, NumB.toTup]⟩, fun f hf => ?_⟩
  have : f = 0 ∨ f = 1 := by
    simp only [demo] at hf
    omega
  rcases this with rfl | rfl <;> simp [NumB.toTup]

/-! ## C100 -/

/-- C100. Ohm's law: with the response function `i v` of a unit resistor the currents tend to the
applied voltages. At dc it is the bias voltage; at a frequency that equals (to 4 decimals) harmonic
`p` of tone `f` it is the phasor `vj[f, p]` (conjugated for the negative frequency); several signals
at one frequency add, and no other mixing product appears. -/
theorem C100_resistor [Finite ι] (vj : ℕ → ℕ → Arr ι) (cct : Cct ι) (hF : 1 ≤ cct.numF)
    (hf : ∀ f, 1 ≤ f → f ≤ cct.numF → cct.freq f ≠ 0) (fl : List ℝ) {ε : ℝ} (hε : 0 < ε) :
    ∃ N, ∀ nb, Valid cct nb → AtLeast cct nb N → ∃ cur : ℝ → Arr ι,
      qtcurrentList vj cct (fun v => I * v) fl nb none = .ok (fl.map cur) ∧
      ∀ x ∈ fl, ∀ i, ‖cur x i - ((if round4 0 = round4 x then (cct.vb i : ℂ) else 0)
        + ∑ f ∈ Icc 1 cct.numF, ∑ p ∈ Icc 1 cct.numP,
          ((if round4 (p * cct.freq f) = round4 x then vj f p i else 0)
            + (if round4 (-(p * cct.freq f)) = round4 x then (starRingEnd ℂ) (vj f p i) else 0)))‖ < ε := by
  obtain ⟨N, hN⟩ := C99_converges vj cct growth_resistor hF fl hε
  refine ⟨N, fun nb hv hl => ?_⟩
  obtain ⟨cur, h1, h2⟩ := hN nb hv hl
  refine ⟨cur, h1, fun x hx i => ?_⟩
  have := h2 x hx i
  rwa [qtFull_resistor _ _ _ _ hf] at this

/-- C100, a frequency that is no harmonic of any tone: a resistor produces nothing there. -/
theorem C100_no_mixing [Finite ι] (vj : ℕ → ℕ → Arr ι) (cct : Cct ι) (hF : 1 ≤ cct.numF)
    (hf : ∀ f, 1 ≤ f → f ≤ cct.numF → cct.freq f ≠ 0) (x : ℝ) (h0 : round4 0 ≠ round4 x)
    (hx : ∀ f p, 1 ≤ f → f ≤ cct.numF → 1 ≤ p → p ≤ cct.numP →
      round4 (p * cct.freq f) ≠ round4 x ∧ round4 (-(p * cct.freq f)) ≠ round4 x) {ε : ℝ} (hε : 0 < ε) :
    ∃ N, ∀ nb, Valid cct nb → AtLeast cct nb N → ∃ cur : Arr ι,
      qtcurrentList vj cct (fun v => I * v) [x] nb none = .ok [cur] ∧ ∀ i, ‖cur i‖ < ε := by
  obtain ⟨N, hN⟩ := C100_resistor vj cct hF hf [x] hε
  refine ⟨N, fun nb hv hl => ?_⟩
  obtain ⟨cur, h1, h2⟩ := hN nb hv hl
  refine ⟨cur x, h1, fun i => ?_⟩
  have := h2 x (by simp) i
  rw [if_neg h0, zero_add, Finset.sum_eq_zero, sub_zero] at this
  · exact this
  · intro f hf'
    refine Finset.sum_eq_zero fun p hp => ?_
    rw [Finset.mem_Icc] at hf' hp
    obtain ⟨h3, h4⟩ := hx f p hf'.1 hf'.2 hp.1 hp.2
    rw [if_neg h3, if_neg h4, add_zero]

/-- Frequencies that round to the same value are close. -/
theorem round4_close {x y : ℝ} (h : round4 x = round4 y) : |x - y| ≤ 1 / 10 ^ 4 := by
  have h1 := abs_le.1 (abs_round4_sub_le x)
  have h2 := abs_le.1 (abs_round4_sub_le y)
  rw [h] at h1
  rw [abs_le]
  constructor <;> linarith [h1.1, h1.2, h2.1, h2.2]

/-- The IF of the demo circuit (0.02) is no harmonic of its tones. -/
example (vj : ℕ → ℕ → Arr (Fin 2)) : ∃ N, ∀ nb, Valid demo nb → AtLeast demo nb N → ∃ cur : Arr (Fin 2),
    qtcurrentList vj demo (fun v => I * v) [0.02] nb none = .ok [cur] ∧ ∀ i, ‖cur i‖ < 1 / 1000 := by
  refine C100_no_mixing vj demo (by simp [demo]) (fun f h1 h2 => (demo_valid.freq_pos f h1 h2).ne') 0.02 ?_ ?_ (by norm_num)
  · intro h
    have := round4_close h
    norm_num [abs_le] at this
  · intro f p h1 h2 h3 h4
    have hp : (1 : ℝ) ≤ p := by exact_mod_cast h3
    have hw : (0.3 : ℝ) ≤ demo.freq f := by
      simp only [demo]
      split_ifs <;> norm_num
    constructor
    · intro h
      have := abs_le.1 (round4_close h)
      nlinarith [this.1, this.2]
    · intro h
      have := abs_le.1 (round4_close h)
      nlinarith [this.1, this.2]

/-! ## C101 -/

/-- No coincidences: the only mixing product at the frequency of harmonic `p` of tone `f` is that
signal itself, and the only one at dc is the dc current. -/
def NoCoincidence (cct : Cct ι) : Prop :=
  (∀ f p, 1 ≤ f → f ≤ cct.numF → 1 ≤ p → p ≤ cct.numP → ∀ as : List ℤ, as.length = cct.numF →
    (∀ a ∈ as, |a| ≤ (cct.numP : ℤ)) → round4 (Spec.photonShift cct.freq 1 as) = round4 (p * cct.freq f) →
    as = (List.replicate cct.numF 0).set (f - 1) (p : ℤ)) ∧
  ∀ as : List ℤ, as.length = cct.numF → (∀ a ∈ as, |a| ≤ (cct.numP : ℤ)) →
    round4 (Spec.photonShift cct.freq 1 as) = round4 0 → as = List.replicate cct.numF 0

/-- The power of the full currents. -/
theorem qtFull_power (vj : ℕ → ℕ → Arr ι) (cct : Cct ι) {resp : ℝ → ℂ} {m : ℕ} (hr : Growth m resp)
    (hf : ∀ f, 1 ≤ f → f ≤ cct.numF → cct.freq f ≠ 0) (hn : NoCoincidence cct) (i : ι) :
    cct.vb i * (Spec.qtFull resp (fun f p => vj f p i) cct.freq cct.numF cct.numP (cct.vb i) 0).re
      + ∑ f ∈ Icc 1 cct.numF, ∑ p ∈ Icc 1 cct.numP, ((starRingEnd ℂ) (vj f p i) *
        Spec.qtFull resp (fun f p => vj f p i) cct.freq cct.numF cct.numP (cct.vb i) (p * cct.freq f)).re / 2
    = Spec.photonAverage (fun v => v * (resp v).im)
        (Spec.tonesFull (fun f p => vj f p i) cct.freq cct.numP 1 cct.numF) (cct.vb i) := by
  set v : ℕ → ℕ → ℂ := fun f p => vj f p i with hv
  have hE := tonesFull_exact v cct.freq cct.numP 1 cct.numF fun g h1 h2 => hf g h1 (by omega)
  have hL := length_tonesFull v cct.freq cct.numP 1 cct.numF
  rw [← energy hr hE]
  have hdc : (Spec.qtFull resp v cct.freq cct.numF cct.numP (cct.vb i) 0).re
      = Spec.photonAverage (fun v => (resp v).im) (Spec.tonesFull v cct.freq cct.numP 1 cct.numF) (cct.vb i) := by
    rw [qtFull_single resp v cct.freq cct.numF cct.numP (cct.vb i) 0 (List.replicate cct.numF 0) (by simp)
      (fun b hb => by rw [List.eq_of_mem_replicate hb]; simp) (by rw [photonShift_zero]) hn.2]
    unfold Spec.mixFull
    rw [if_pos]
    · rw [ofReal_re, ← im_corrFull_zero hr (tonesFull_small v cct.freq cct.numP 1 cct.numF), hL]
    · rw [zip_zero_iff (by simp [hL])]
      exact fun a ha => List.eq_of_mem_replicate ha
  rw [hdc]
  congr 1
  unfold acPower
  rw [hL, ← sum_range_Icc]
  refine Finset.sum_congr rfl fun j hj => Finset.sum_congr rfl fun p hp => ?_
  rw [Finset.mem_range] at hj
  rw [Finset.mem_Icc] at hp
  have hs := qtFull_single resp v cct.freq cct.numF cct.numP (cct.vb i) (p * cct.freq (1 + j))
    ((List.replicate cct.numF 0).set j (p : ℤ)) (by simp)
    (unit_box (by rw [Int.abs_eq_natAbs]; simpa using hp.2))
    (by rw [photonShift_unit cct.freq 1 cct.numF j hj]; simp)
    (fun as h1 h2 h3 => by
      have := hn.1 (1 + j) p (by omega) (by omega) hp.1 hp.2 as h1 h2 h3
      rwa [show 1 + j - 1 = j by omega] at this)
  rw [hs, getD_map_range' v cct.numF j hj]

/-- C101. Conservation of energy: when no other mixing product coincides with a signal, the dc power
plus the power `Re(V* I) / 2` of every signal tends to the average of voltage times unpumped dc
current over the voltages `vb + k freq[1] + l freq[2] + ...` reached by photon exchange. -/
theorem C101_power (vj : ℕ → ℕ → Arr ι) (cct : Cct ι) {resp : ℝ → ℂ} {m : ℕ} (hr : Growth m resp) (hF : 1 ≤ cct.numF)
    (hf : ∀ f, 1 ≤ f → f ≤ cct.numF → cct.freq f ≠ 0) (hn : NoCoincidence cct) (i : ι) {ε : ℝ} (hε : 0 < ε) :
    ∃ N, ∀ nb, Valid cct nb → AtLeast cct nb N → ∃ cur : ℝ → Arr ι,
      (∀ fl, qtcurrentList vj cct resp fl nb none = .ok (fl.map cur)) ∧
      |cct.vb i * (cur 0 i).re
        + ∑ f ∈ Icc 1 cct.numF, ∑ p ∈ Icc 1 cct.numP, ((starRingEnd ℂ) (vj f p i) * cur (p * cct.freq f) i).re / 2
        - Spec.photonAverage (fun v => v * (resp v).im)
            (Spec.tonesFull (fun f p => vj f p i) cct.freq cct.numP 1 cct.numF) (cct.vb i)| < ε := by
  have ht := fun f => tendsto_growing_qt vj cct hr hF f i
  have h := (((continuous_re.tendsto _).comp (ht 0)).const_mul (cct.vb i)).add
    (tendsto_finsetSum (Icc 1 cct.numF) fun f _ => tendsto_finsetSum (Icc 1 cct.numP) fun p _ =>
      (((continuous_re.tendsto _).comp ((ht (p * cct.freq f)).const_mul ((starRingEnd ℂ) (vj f p i)))).div_const 2))
  rw [qtFull_power vj cct hr hf hn i] at h
  obtain ⟨N, hN⟩ := growing_extract (h.eventually (Metric.ball_mem_nhds _ hε))
  refine ⟨N, fun nb hv hl => ⟨_, fun fl => C14_mtsda vj cct resp fl nb hv, ?_⟩⟩
  have := hN nb hv hl
  rw [Real.dist_eq] at this
  exact this

/-- C101, passivity: if the unpumped junction only absorbs (`v I_dc(v) ≥ 0`), the total power of dc
and ac signals is not negative in the limit, whatever the drive. -/
theorem C101_passive (vj : ℕ → ℕ → Arr ι) (cct : Cct ι) {resp : ℝ → ℂ} {m : ℕ} (hr : Growth m resp) (hF : 1 ≤ cct.numF)
    (hf : ∀ f, 1 ≤ f → f ≤ cct.numF → cct.freq f ≠ 0) (hn : NoCoincidence cct) (hp : ∀ v, 0 ≤ v * (resp v).im) (i : ι)
    {ε : ℝ} (hε : 0 < ε) :
    ∃ N, ∀ nb, Valid cct nb → AtLeast cct nb N → ∃ cur : ℝ → Arr ι,
      (∀ fl, qtcurrentList vj cct resp fl nb none = .ok (fl.map cur)) ∧
      -ε < cct.vb i * (cur 0 i).re
        + ∑ f ∈ Icc 1 cct.numF, ∑ p ∈ Icc 1 cct.numP, ((starRingEnd ℂ) (vj f p i) * cur (p * cct.freq f) i).re / 2 := by
  obtain ⟨N, hN⟩ := C101_power vj cct hr hF hf hn i hε
  refine ⟨N, fun nb hv hl => ?_⟩
  obtain ⟨cur, h1, h2⟩ := hN nb hv hl
  refine ⟨cur, h1, ?_⟩
  have h3 := avg_nonneg hp (Spec.tonesFull (fun f p => vj f p i) cct.freq cct.numP 1 cct.numF) (cct.vb i)
  have := (abs_lt.1 h2).1
  linarith

/-- The demo circuit has no coincidences. -/
theorem demo_noCoincidence : NoCoincidence demo := by
  have key : ∀ as : List ℤ, as.length = 2 → (∀ a ∈ as, |a| ≤ (2 : ℤ)) → ∀ c d : ℤ, |c| ≤ 2 → |d| ≤ 2 → (c = 0 ∨ d = 0) →
      |Spec.photonShift demo.freq 1 as - (c * 0.3 + d * 0.32)| ≤ 1 / 10 ^ 4 → as = [c, d] := by
    intro as h1 h2 c d hc hd hcd h3
    obtain ⟨a, b, rfl⟩ := List.length_eq_two.1 h1
    have ha := abs_le.1 (h2 a (by simp))
    have hb := abs_le.1 (h2 b (by simp))
    have hc' := abs_le.1 hc
    have hd' := abs_le.1 hd
    have e : Spec.photonShift demo.freq 1 [a, b] = a * 0.3 + b * 0.32 := by
      simp [Spec.photonShift, demo]
    rw [e] at h3
    have h4 := abs_le.1 h3
    have h5 : ((30 * (a - c) + 32 * (b - d) : ℤ) : ℝ) < 1 := by
      push_cast
      linarith [h4.2]
    have h6 : (-1 : ℝ) < ((30 * (a - c) + 32 * (b - d) : ℤ) : ℝ) := by
      push_cast
      linarith [h4.1]
    have h7 : 30 * (a - c) + 32 * (b - d) < 1 := by exact_mod_cast h5
    have h8 : -1 < 30 * (a - c) + 32 * (b - d) := by exact_mod_cast h6
    have : a = c ∧ b = d := by
      rcases hcd with h | h <;> omega
    rw [this.1, this.2]
  constructor
  · intro f p h1 h2 h3 h4 as h5 h6 h7
    have hb := round4_close h7
    simp only [demo] at h2 h4 h5 h6 ⊢
    have hf : f = 1 ∨ f = 2 := by omega
    rcases hf with rfl | rfl
    · have := key as h5 h6 p 0 (by rw [Int.abs_eq_natAbs]; simpa using h4) (by simp) (.inr rfl) (by
        simpa [demo] using hb)
      simpa using this
    · have := key as h5 h6 0 p (by simp) (by rw [Int.abs_eq_natAbs]; simpa using h4) (.inl rfl) (by
        simpa [demo] using hb)
      simpa using this
  · intro as h1 h2 h3
    have hb := round4_close h3
    have := key as h1 h2 0 0 (by simp) (by simp) (.inl rfl) (by simpa using hb)
    simpa [demo] using this

example (vj : ℕ → ℕ → Arr (Fin 2)) (i : Fin 2) : ∃ N, ∀ nb, Valid demo nb → AtLeast demo nb N → ∃ cur : ℝ → Arr (Fin 2),
    (∀ fl, qtcurrentList vj demo (fun v => I * v) fl nb none = .ok (fl.map cur)) ∧
    -(1 / 100) < demo.vb i * (cur 0 i).re
      + ∑ f ∈ Icc 1 2, ∑ p ∈ Icc 1 2, ((starRingEnd ℂ) (vj f p i) * cur (p * demo.freq f) i).re / 2 :=
  C101_passive vj demo growth_resistor (by simp [demo]) (fun f h1 h2 => (demo_valid.freq_pos f h1 h2).ne')
    demo_noCoincidence (fun v => by simpa using mul_self_nonneg v) i (by norm_num)

/-! ## C102 -/

/-- C102. Reversing the bias and every applied voltage reverses every current, when the unpumped
junction is symmetric (`I_dc` odd, `I_kk` even). This holds for every `num_b`. -/
theorem C102_reversal (vj : ℕ → ℕ → Arr ι) (cct : Cct ι) (resp : ℝ → ℂ) (hr : ∀ v, resp (-v) = (starRingEnd ℂ) (resp v))
    (fl : List ℝ) (nb : NumB) (h : Valid cct nb) (rows : List (Arr ι))
    (hrows : qtcurrentList vj cct resp fl nb none = .ok rows) :
    qtcurrentList (fun f p i => -vj f p i) { cct with vb := fun i => -cct.vb i } resp fl nb none
      = .ok (rows.map fun r i => -r i) := by
  rw [C14_mtsda vj cct resp fl nb h] at hrows
  cases hrows
  rw [C14_mtsda (fun f p i => -vj f p i) { cct with vb := fun i => -cct.vb i } resp fl nb
    ⟨h.tones_pos, h.tones_le, h.harmonics, h.freq_pos, h.limits⟩, List.map_map]
  congr 1
  refine List.map_congr_left fun f _ => funext fun i => ?_
  simp only [Function.comp_apply]
  unfold Spec.qt
  rw [tonesFrom_neg (fun f p => vj f p i), current_rev hr]

example (vj : ℕ → ℕ → Arr (Fin 2)) (rows : List (Arr (Fin 2)))
    (h : qtcurrentList vj demo (fun v => I * v) [0, 0.02] (.tup [3, 2]) none = .ok rows) :
    qtcurrentList (fun f p i => -vj f p i) { demo with vb := fun i => -demo.vb i } (fun v => I * v) [0, 0.02] (.tup [3, 2]) none
      = .ok (rows.map fun r i => -r i) :=
  C102_reversal vj demo _ (fun v => by simp) _ _ demo_valid rows h

end QMix.Props
