import Verif.Lemmas.Classical3
import Verif.Props.Limit

/-!
# Properties C126 and C127: the classical limit, and very low frequencies

C126: a junction whose I-V curve changes slowly on the scale of a photon step is a nonlinear resistor.
C127: the current reported for frequency 0 is the dc current, unless a signal is so slow that it
cannot be told from dc.
-/

namespace QMix.Props

open Complex Finset Filter Topology QMix.Qt

variable {ι : Type}

/-! ## C126 -/

/-- The same circuit with every bias voltage multiplied by `lam`. -/
def scaledBias (cct : Cct ι) (lam : ℝ) : Cct ι := { cct with vb := fun i => lam * cct.vb i }

theorem growth_stretch {h : ℝ → ℂ} (hg : Growth 1 h) {lam : ℝ} (h1 : 1 ≤ lam) : Growth 1 fun v => h (v / lam) := by
  obtain ⟨K, hK, hb⟩ := hg
  refine ⟨K, hK, fun v => (hb _).trans (mul_le_mul_of_nonneg_left ?_ hK)⟩
  rw [pow_one, pow_one, abs_div, abs_of_pos (by linarith : 0 < lam)]
  have := div_le_self (abs_nonneg v) h1
  linarith

/-- C126. The classical limit. Stretch the response function by `lam` (so that the photon steps of the
circuit become small against its features) and multiply all voltages by `lam`. For large `lam` and
large `num_b` the current at the frequency of the mixing product `as` is that of a nonlinear resistor
with the I-V curve `Im h`: the Fourier coefficient of orders `as` of the current that the curve gives
for the instantaneous voltage. The Kramers-Kronig part of the response function plays no role. -/
theorem C126_classical [Finite ι] (vj : ℕ → ℕ → Arr ι) (cct : Cct ι) {h : ℝ → ℂ} (hh : Continuous h) (hg : Growth 1 h)
    (hF : 1 ≤ cct.numF) (hf : ∀ f, 1 ≤ f → f ≤ cct.numF → cct.freq f ≠ 0) (x : ℝ) (as : List ℤ) (has : as.length = cct.numF)
    (hbox : ∀ a ∈ as, |a| ≤ (cct.numP : ℤ)) (hx : round4 (Spec.photonShift cct.freq 1 as) = round4 x)
    (honly : ∀ bs : List ℤ, bs.length = cct.numF → (∀ b ∈ bs, |b| ≤ (cct.numP : ℤ)) →
      round4 (Spec.photonShift cct.freq 1 bs) = round4 x → bs = as) {ε : ℝ} (hε : 0 < ε) :
    ∃ Λ : ℝ, ∀ lam, Λ ≤ lam → ∃ N, ∀ nb, Valid cct nb → AtLeast cct nb N → ∃ cur : Arr ι,
      qtcurrentList (fun f p i => lam * vj f p i) (scaledBias cct lam) (fun v => h (v / lam)) [x] nb none = .ok [cur] ∧
      ∀ i, ‖cur i - Spec.resistorCurrent (fun v => (h v).im)
        ((Spec.drives (fun f p => vj f p i) cct.numP 1 cct.numF).zip as) (cct.vb i)‖ < ε := by
  have h1 : ∀ t : ℝ, 1 ≤ max 1 t := fun t => le_max_left _ _
  have hlim : Tendsto (fun t : ℝ => max 1 t) atTop atTop := tendsto_atTop_mono (fun t => le_max_right _ _) tendsto_id
  have hev : ∀ᶠ t : ℝ in atTop, ∀ i, ‖Spec.mixFull (fun x => h (x / (max 1 t)))
      ((Spec.tonesFull (fun f p => ((max 1 t : ℝ) : ℂ) * vj f p i) cct.freq cct.numP 1 cct.numF).zip as) (max 1 t * cct.vb i)
      - Spec.resistorCurrent (fun v => (h v).im) ((Spec.drives (fun f p => vj f p i) cct.numP 1 cct.numF).zip as) (cct.vb i)‖ < ε / 2 := by
    rw [eventually_all]
    intro i
    have := (tendsto_mixFull_classical h1 hlim hh hg (fun f p => vj f p i) cct.freq cct.numP cct.numF 1
      (fun g e1 e2 => hf g e1 (by omega)) as has (cct.vb i)).eventually (Metric.ball_mem_nhds _ (half_pos hε))
    filter_upwards [this] with t ht
    rwa [dist_eq_norm] at ht
  obtain ⟨Λ, hΛ⟩ := eventually_atTop.1 hev
  refine ⟨max 1 Λ, fun lam hlam => ?_⟩
  have hl1 : 1 ≤ lam := (le_max_left _ _).trans hlam
  have hl2 : Λ ≤ lam := (le_max_right _ _).trans hlam
  have e : max 1 lam = lam := max_eq_right hl1
  have hc := hΛ lam hl2
  rw [e] at hc
  obtain ⟨N, hN⟩ := C99_converges (fun f p i => lam * vj f p i) (scaledBias cct lam) (growth_stretch hg hl1) hF [x] (half_pos hε)
  refine ⟨N, fun nb hv hl => ?_⟩
  obtain ⟨cur, q1, q2⟩ := hN nb ⟨hv.tones_pos, hv.tones_le, hv.harmonics, hv.freq_pos, hv.limits⟩ hl
  refine ⟨cur x, q1, fun i => ?_⟩
  have q3 := q2 x (by simp) i
  have q5 := qtFull_single (fun v => h (v / lam)) (fun f p => (lam : ℂ) * vj f p i) cct.freq cct.numF cct.numP (lam * cct.vb i) x as
    has hbox hx honly
  change ‖cur x i - Spec.qtFull (fun v => h (v / lam)) (fun f p => (lam : ℂ) * vj f p i) cct.freq cct.numF cct.numP (lam * cct.vb i) x‖ < _ at q3
  rw [q5] at q3
  have q4 := norm_sub_le_norm_sub_add_norm_sub (cur x i) (Spec.mixFull (fun x => h (x / lam))
    ((Spec.tonesFull (fun f p => (lam : ℂ) * vj f p i) cct.freq cct.numP 1 cct.numF).zip as) (lam * cct.vb i))
    (Spec.resistorCurrent (fun v => (h v).im) ((Spec.drives (fun f p => vj f p i) cct.numP 1 cct.numF).zip as) (cct.vb i))
  exact q4.trans_lt ((add_lt_add q3 (hc i)).trans_eq (by ring))

/-- C126, the dc current of one tone: the mean over a period of the current that the I-V curve gives
for the instantaneous voltage. -/
theorem C126_rectifier [Finite ι] (vj : ℕ → ℕ → Arr ι) (cct : Cct ι) {h : ℝ → ℂ} (hh : Continuous h) (hg : Growth 1 h)
    (hF : cct.numF = 1) (hf : 1 / 10 ^ 4 < cct.freq 1) {ε : ℝ} (hε : 0 < ε) :
    ∃ Λ : ℝ, ∀ lam, Λ ≤ lam → ∃ N, ∀ nb, Valid cct nb → AtLeast cct nb N → ∃ cur : Arr ι,
      qtcurrentList (fun f p i => lam * vj f p i) (scaledBias cct lam) (fun v => h (v / lam)) [0] nb none = .ok [cur] ∧
      ∀ i, ‖cur i - ((1 / (2 * Real.pi) * ∫ t in (-Real.pi)..Real.pi,
        (h (cct.vb i + ∑ p ∈ Icc 1 cct.numP, ‖vj 1 p i‖ * Real.cos (p * t - arg (vj 1 p i)))).im : ℝ) : ℂ)‖ < ε := by
  have honly : ∀ bs : List ℤ, bs.length = cct.numF → (∀ b ∈ bs, |b| ≤ (cct.numP : ℤ)) →
      round4 (Spec.photonShift cct.freq 1 bs) = round4 0 → bs = [0] := by
    intro bs hlen _ hr
    rw [hF] at hlen
    obtain ⟨b, rfl⟩ := List.length_eq_one_iff.1 hlen
    have hc := round4_close hr
    by_contra hne
    have hb : b ≠ 0 := fun h => hne (by rw [h])
    have h1 : (1 : ℝ) ≤ |(b : ℝ)| := by
      rw [← Int.cast_abs]
      exact_mod_cast Int.one_le_abs hb
    simp only [Spec.photonShift, add_zero, sub_zero, abs_mul] at hc
    have : |cct.freq 1| = cct.freq 1 := abs_of_pos (by linarith [show (0 : ℝ) < 1 / 10 ^ 4 by norm_num])
    rw [this] at hc
    nlinarith
  obtain ⟨Λ, hΛ⟩ := C126_classical vj cct hh hg (by omega)
    (fun f h1 h2 => by
      have : f = 1 := by omega
      rw [this]
      exact (lt_trans (by norm_num) hf).ne') 0 [0] (by simp [hF]) (by simp) (by simp [Spec.photonShift]) honly hε
  refine ⟨Λ, fun lam hlam => ?_⟩
  obtain ⟨N, hN⟩ := hΛ lam hlam
  refine ⟨N, fun nb hv hl => ?_⟩
  obtain ⟨cur, h1, h2⟩ := hN nb hv hl
  refine ⟨cur, h1, fun i => ?_⟩
  have := h2 i
  rw [hF] at this
  simp only [Spec.resistorCurrent, Spec.drives, List.zip_cons_cons, List.zip_nil_left, List.mem_singleton, forall_eq, if_true, one_mul,
    Spec.phaseAverage, Int.cast_zero, mul_zero, zero_mul, Complex.exp_zero, intervalIntegral.integral_ofReal] at this
  push_cast
  push_cast at this
  exact this

/-- The specification in the case of a resistor: a linear element carries the applied phasor. -/
theorem resistorCurrent_linear (v : ℕ → ℂ) (vb : ℝ) :
    Spec.resistorCurrent (fun x => x) [(Spec.acVoltage v 1, 1)] vb = v 1 := by
  have e : ∀ t : ℝ, exp (I * ((1 : ℤ) : ℂ) * t) * ((vb + Spec.acVoltage v 1 t : ℝ) : ℂ)
      = vb * exp (I * ((1 : ℤ) : ℂ) * t) + (v 1 / 2 + (starRingEnd ℂ) (v 1) / 2 * exp (I * ((2 : ℤ) : ℂ) * t)) := by
    intro t
    push_cast
    rw [acVoltage_exp]
    simp only [Finset.Icc_self, Finset.sum_singleton]
    have q : exp (I * ((1 : ℤ) : ℂ) * t) * exp (-(I * ((1 : ℤ) : ℂ) * t)) = 1 := by rw [← exp_add]; simp
    have q2 : exp (I * ((2 : ℤ) : ℂ) * t) = exp (I * ((1 : ℤ) : ℂ) * t) * exp (I * ((1 : ℤ) : ℂ) * t) := by
      rw [← exp_add]
      congr 1
      push_cast
      ring
    push_cast at q q2 ⊢
    rw [q2]
    linear_combination (v 1 / 2) * q
  have hp : (Real.pi : ℂ) ≠ 0 := by exact_mod_cast Real.pi_ne_zero
  simp only [Spec.resistorCurrent, Spec.phaseAverage, List.mem_singleton, forall_eq, one_ne_zero, if_false, e]
  rw [intervalIntegral.integral_add (Continuous.intervalIntegrable (by fun_prop) _ _) (Continuous.intervalIntegrable (by fun_prop) _ _),
    intervalIntegral.integral_add (Continuous.intervalIntegrable (by fun_prop) _ _) (Continuous.intervalIntegrable (by fun_prop) _ _),
    intervalIntegral.integral_const_mul, intervalIntegral.integral_const_mul, integral_exp_int one_ne_zero,
    integral_exp_int two_ne_zero, intervalIntegral.integral_const]
  simp only [mul_zero, zero_add, add_zero, real_smul]
  push_cast
  field_simp
  ring

/-- A smooth nonlinear I-V curve with at most linear growth. -/
theorem growth_arctan : Continuous (fun v : ℝ => I * ((v + Real.arctan v : ℝ) : ℂ)) ∧ Growth 1 fun v : ℝ => I * ((v + Real.arctan v : ℝ) : ℂ) := by
  refine ⟨by
    have := Real.continuous_arctan
    fun_prop, 2, by norm_num, fun v => ?_⟩
  rw [norm_mul, norm_I, norm_real, Real.norm_eq_abs, one_mul, pow_one]
  have h1 := abs_add_le v (Real.arctan v)
  have h2 : |Real.arctan v| ≤ 2 := by
    have := Real.pi_le_four
    exact abs_le.2 ⟨by linarith [Real.neg_pi_div_two_lt_arctan v], by linarith [Real.arctan_lt_pi_div_two v]⟩
  linarith [abs_nonneg v]

/-- C126 applies at the IF of the demo circuit (the orders `(-1, 1)`, frequency 0.02). -/
example (vj : ℕ → ℕ → Arr (Fin 2)) : ∃ Λ : ℝ, ∀ lam, Λ ≤ lam → ∃ N, ∀ nb, Valid demo nb → AtLeast demo nb N → ∃ cur : Arr (Fin 2),
    qtcurrentList (fun f p i => lam * vj f p i) (scaledBias demo lam)
      (fun v => I * ((v / lam + Real.arctan (v / lam) : ℝ) : ℂ)) [0.02] nb none = .ok [cur] ∧
    ∀ i, ‖cur i - 2 * Spec.phaseAverage (fun v => ((v + Real.arctan v : ℝ) : ℂ))
      [(Spec.acVoltage (fun p => vj 1 p i) 2, -1), (Spec.acVoltage (fun p => vj 2 p i) 2, 1)] (demo.vb i)‖ < 1 / 100 := by
  have := C126_classical vj demo growth_arctan.1 growth_arctan.2 (by simp [demo]) (fun f h1 h2 => (demo_valid.freq_pos f h1 h2).ne')
    0.02 [-1, 1] (by simp [demo]) (by simp [demo]) (by norm_num [Spec.photonShift, demo])
    (fun bs hlen hb hr => by
      obtain ⟨b, c, rfl⟩ := List.length_eq_two.1 hlen
      simp only [demo, List.mem_cons, List.not_mem_nil, or_false, forall_eq_or_imp, forall_eq, Nat.cast_ofNat, abs_le] at hb
      have hc := abs_le.1 (round4_close hr)
      norm_num [Spec.photonShift, demo] at hc
      obtain ⟨⟨b1, b2⟩, c1, c2⟩ := hb
      have hi : 15 * b + 16 * c = 1 := by
        have u1 : ((15 * b + 16 * c : ℤ) : ℝ) < ((2 : ℤ) : ℝ) := by push_cast; linarith [hc.1, hc.2]
        have u2 : ((0 : ℤ) : ℝ) < ((15 * b + 16 * c : ℤ) : ℝ) := by push_cast; linarith [hc.1, hc.2]
        have u1' := Int.cast_lt.1 u1
        have u2' := Int.cast_lt.1 u2
        omega
      have : b = -1 ∧ c = 1 := by omega
      rw [this.1, this.2]) (by norm_num : (0 : ℝ) < 1 / 100)
  obtain ⟨Λ, hΛ⟩ := this
  refine ⟨Λ, fun lam hlam => ?_⟩
  obtain ⟨N, hN⟩ := hΛ lam hlam
  refine ⟨N, fun nb hv hl => ?_⟩
  obtain ⟨cur, h1, h2⟩ := hN nb hv hl
  refine ⟨cur, h1, fun i => ?_⟩
  have := h2 i
  simpa [Spec.resistorCurrent, Spec.drives, demo] using this

/-! ## C127 -/

/-- C127, the part that holds: when no combination of the signals is as slow as 1e-4, the current
reported for frequency 0 of a unit resistor tends to the bias voltage, whatever the signals are. -/
theorem C127_dc_partial [Finite ι] (vj : ℕ → ℕ → Arr ι) (cct : Cct ι) (hF : 1 ≤ cct.numF)
    (hf : ∀ f, 1 ≤ f → f ≤ cct.numF → 1 / 10 ^ 4 < cct.freq f) {ε : ℝ} (hε : 0 < ε) :
    ∃ N, ∀ nb, Valid cct nb → AtLeast cct nb N → ∃ cur : Arr ι,
      qtcurrentList vj cct (fun v => I * v) [0] nb none = .ok [cur] ∧ ∀ i, ‖cur i - cct.vb i‖ < ε := by
  obtain ⟨N, hN⟩ := C100_resistor vj cct hF (fun f h1 h2 => (lt_trans (by norm_num) (hf f h1 h2)).ne') [0] hε
  refine ⟨N, fun nb hv hl => ?_⟩
  obtain ⟨cur, h1, h2⟩ := hN nb hv hl
  refine ⟨cur 0, h1, fun i => ?_⟩
  have := h2 0 (by simp) i
  rw [if_pos rfl, Finset.sum_eq_zero, add_zero] at this
  · exact this
  · intro f hf'
    refine Finset.sum_eq_zero fun p hp => ?_
    rw [Finset.mem_Icc] at hf' hp
    have hp1 : (1 : ℝ) ≤ p := by exact_mod_cast hp.1
    have := hf f hf'.1 hf'.2
    have h0 : (0 : ℝ) < 1 / 10 ^ 4 := by norm_num
    rw [if_neg, if_neg, add_zero]
    · intro h
      have := (abs_le.1 (round4_close h)).1
      nlinarith
    · intro h
      have := (abs_le.1 (round4_close h)).2
      nlinarith

/-- A circuit with one slow signal. -/
noncomputable def slow : Cct (Fin 1) := { numF := 1, numP := 1, freq := fun _ => 1 / 10 ^ 5, vb := fun _ => 1 / 2 }

theorem slow_valid (N : ℕ) : Valid slow (.tup [N]) :=
  ⟨by simp [slow], by simp [slow], by simp [slow], fun _ _ _ => by simp only [slow]; norm_num, by simp [slow, NumB.toTup]⟩

/-- Every frequency below 5e-5 rounds to 0. -/
theorem round4_small {x : ℝ} (h : |x| < 1 / 20000) : round4 x = 0 := by
  have h1 := abs_le.1 (abs_roundHalfEven_sub_le (x * 10 ^ 4))
  have h3 : roundHalfEven (x * 10 ^ 4) = 0 := by
    have h2 : -(1 / 2) < x * 10 ^ 4 ∧ x * 10 ^ 4 < 1 / 2 := by
      have := abs_lt.1 h
      constructor <;> linarith [this.1, this.2]
    generalize x * 10 ^ 4 = y at h1 h2 ⊢
    have u1 : (roundHalfEven y : ℝ) < ((1 : ℤ) : ℝ) := by push_cast; linarith [h1.2, h2.2]
    have u2 : ((-1 : ℤ) : ℝ) < (roundHalfEven y : ℝ) := by push_cast; linarith [h1.1, h2.1]
    have u1' := Int.cast_lt.1 u1
    have u2' := Int.cast_lt.1 u2
    omega
  rw [round4, h3]
  simp

theorem round4_slow : round4 ((1 : ℕ) * (1 / 10 ^ 5 : ℝ)) = 0 ∧ round4 (-((1 : ℕ) * (1 / 10 ^ 5 : ℝ))) = 0 ∧ round4 0 = 0 :=
  ⟨round4_small (by norm_num [abs_lt]), round4_small (by norm_num [abs_lt]), round4_small (by norm_num)⟩

/-- C127 is false: with one signal of normalised frequency 1e-5 (about 7 MHz for a gap frequency of
700 GHz) and amplitude 1/4 on a unit resistor biased at 1/2, the current reported for frequency 0 tends to 1
instead of 1/2: the signal and its image round to frequency 0 and are added. -/
theorem C127_false : ∃ N, ∀ M, N ≤ M → ∃ cur : Arr (Fin 1),
    qtcurrentList (fun _ _ _ => 1 / 4) slow (fun v => I * v) [0] (.tup [M]) none = .ok [cur] ∧
    slow.vb 0 = 1 / 2 ∧ ‖cur 0 - 1‖ < 1 / 100 := by
  obtain ⟨N, hN⟩ := C100_resistor (fun _ _ _ => 1 / 4) slow (by simp [slow]) (fun f _ _ => by simp [slow]) [0]
    (by norm_num : (0 : ℝ) < 1 / 100)
  refine ⟨N, fun M hM => ?_⟩
  obtain ⟨cur, h1, h2⟩ := hN (.tup [M]) (slow_valid M) (fun f hf => by
    have : f = 0 := by simpa [slow] using hf
    simpa [this, NumB.toTup] using hM)
  refine ⟨cur 0, h1, rfl, ?_⟩
  have := h2 0 (by simp) 0
  obtain ⟨r1, r2, r3⟩ := round4_slow
  simp only [slow, Finset.Icc_self, Finset.sum_singleton, r1, r2, r3, if_true] at this
  rw [show ((1 / 2 : ℝ) : ℂ) + (1 / 4 + (starRingEnd ℂ) (1 / 4)) = 1 by
    rw [show (1 / 4 : ℂ) = ((1 / 4 : ℝ) : ℂ) by push_cast; rfl, conj_ofReal]
    push_cast
    norm_num] at this
  exact this

end QMix.Props
