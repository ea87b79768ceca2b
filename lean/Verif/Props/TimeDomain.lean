import Verif.Lemmas.Memory2
import Verif.Props.Limit
import Mathlib.MeasureTheory.Integral.IntegralEqImproper
import Mathlib.Analysis.SpecialFunctions.ImproperIntegrals

/-!
# Property C165: the currents are those of a causal junction in the time domain

The junction of `Spec/Memory.lean` carries at every instant a current that depends on its present and
past voltages. `qtcurrent` returns the phasors of this current.
-/

namespace QMix.Props

open Complex Finset Filter Topology MeasureTheory QMix.Qt

variable {ι : Type}

theorem growth_memory {χ : ℝ → ℂ} (hχ : IntegrableOn χ (Set.Ioi 0)) (g : ℝ) : Growth 1 (Spec.memoryResponse g χ) := by
  obtain ⟨K, hK, hb⟩ := growth_past hχ
  refine ⟨K + |g|, by positivity, fun x => (norm_add_le _ _).trans ?_⟩
  have h1 := hb x
  have h2 : ‖I * ((g * x : ℝ) : ℂ)‖ = |g| * |x| := by
    rw [norm_mul, norm_I, norm_real, Real.norm_eq_abs, abs_mul, one_mul]
  rw [h2]
  nlinarith [abs_nonneg g, abs_nonneg x]

/-- C165. For a junction with the conductance `g` and the memory `χ`, and with its response function,
the current that `qtcurrent` returns at the frequency of the mixing product `as` tends, as `num_b`
grows, to the phasor of orders `as` of the current in the time domain. -/
theorem C165_time_domain [Finite ι] (vj : ℕ → ℕ → Arr ι) (cct : Cct ι) {χ : ℝ → ℂ} (hχ : IntegrableOn χ (Set.Ioi 0)) (g : ℝ)
    (hF : 1 ≤ cct.numF) (hf : ∀ f, 1 ≤ f → f ≤ cct.numF → cct.freq f ≠ 0) (x : ℝ) (as : List ℤ) (has : as.length = cct.numF)
    (hbox : ∀ a ∈ as, |a| ≤ (cct.numP : ℤ)) (hx : round4 (Spec.photonShift cct.freq 1 as) = round4 x)
    (honly : ∀ bs : List ℤ, bs.length = cct.numF → (∀ b ∈ bs, |b| ≤ (cct.numP : ℤ)) →
      round4 (Spec.photonShift cct.freq 1 bs) = round4 x → bs = as) {ε : ℝ} (hε : 0 < ε) :
    ∃ N, ∀ nb, Valid cct nb → AtLeast cct nb N → ∃ cur : Arr ι,
      qtcurrentList vj cct (Spec.memoryResponse g χ) [x] nb none = .ok [cur] ∧
      ∀ i, ‖cur i - Spec.memoryCurrent g χ (fun f p => vj f p i) cct.freq cct.numP as (cct.vb i)‖ < ε := by
  obtain ⟨N, hN⟩ := C99_converges vj cct (growth_memory hχ g) hF [x] hε
  refine ⟨N, fun nb hv hl => ?_⟩
  obtain ⟨cur, h1, h2⟩ := hN nb hv hl
  refine ⟨cur x, h1, fun i => ?_⟩
  have h3 := h2 x (by simp) i
  rw [qtFull_single _ _ _ _ _ _ x as has hbox hx honly, ← has,
    mixFull_memory hχ g _ _ _ as (fun f q1 q2 => hf f q1 (by omega)) hbox] at h3
  exact h3

/-- One tone above 10⁻⁴ of the gap: its harmonics are told apart by the four decimals. -/
theorem single_orders {cct : Cct ι} (hF : cct.numF = 1) (hf : 1 / 10 ^ 4 < cct.freq 1) (m : ℤ) {bs : List ℤ}
    (hlen : bs.length = cct.numF) (hr : round4 (Spec.photonShift cct.freq 1 bs) = round4 (m * cct.freq 1)) : bs = [m] := by
  rw [hF] at hlen
  obtain ⟨b, rfl⟩ := List.length_eq_one_iff.1 hlen
  have hc := round4_close hr
  by_contra hne
  have hb : b - m ≠ 0 := fun h => hne (by rw [sub_eq_zero.1 h])
  have h1 : (1 : ℝ) ≤ |((b - m : ℤ) : ℝ)| := by
    rw [← Int.cast_abs]
    exact_mod_cast Int.one_le_abs hb
  simp only [Spec.photonShift, add_zero] at hc
  rw [← sub_mul, ← Int.cast_sub, abs_mul, abs_of_pos (lt_trans (by norm_num) hf)] at hc
  nlinarith

/-- The voltage of a junction as a function of time, for one tone of frequency `w`. -/
noncomputable def voltageAt (vb : ℝ) (v : ℕ → ℂ) (w : ℝ) (P : ℕ) (t : ℝ) : ℝ := vb + ∑ p ∈ Icc 1 P, (v p * exp (I * (p * (w * t)))).re

theorem memoryCurrent_single (g : ℝ) (χ : ℝ → ℂ) (v : ℕ → ℕ → ℂ) (freq : ℕ → ℝ) (hw : freq 1 ≠ 0) (P : ℕ) (m : ℤ) (vb : ℝ) :
    Spec.memoryCurrent g χ v freq P [m] vb = (if m = 0 then 1 else 2) * ((freq 1 / (2 * Real.pi) : ℝ) *
      ∫ t in (-Real.pi / freq 1)..(Real.pi / freq 1), exp (-(I * m * (freq 1 * t))) *
        (Spec.instantCurrent g χ (voltageAt vb (v 1) (freq 1) P) t : ℂ)) := by
  simp only [Spec.memoryCurrent, List.mem_singleton, forall_eq, Spec.orders, Spec.memoryMean]
  congr 1
  have hwc : (freq 1 : ℂ) ≠ 0 := by exact_mod_cast hw
  set F : ℝ → ℂ := fun t => exp (-(I * m * t)) * ((g * (vb + Spec.signalVoltage (v 1) P t)
    + (∫ τ in Set.Ioi 0, χ τ * exp (I * ((vb * τ + Spec.phaseGain (v 1) (freq 1) P t τ : ℝ) : ℂ))).im : ℝ) : ℂ) with hFdef
  have h := intervalIntegral.integral_comp_mul_left (a := -Real.pi / freq 1) (b := Real.pi / freq 1) F hw
  rw [mul_div_cancel₀ _ hw, mul_div_cancel₀ _ hw] at h
  have e : ∀ t : ℝ, F (freq 1 * t) = exp (-(I * m * (freq 1 * t))) *
      (Spec.instantCurrent g χ (voltageAt vb (v 1) (freq 1) P) t : ℂ) := by
    intro t
    have hv : ∀ s : ℝ, voltageAt vb (v 1) (freq 1) P s = vb + Spec.signalVoltage (v 1) P (freq 1 * s) := by
      intro s
      simp only [voltageAt, Spec.signalVoltage]
      push_cast
      rfl
    have hp : ∀ τ : ℝ, ∫ s in (t - τ)..t, voltageAt vb (v 1) (freq 1) P s
        = vb * τ + Spec.phaseGain (v 1) (freq 1) P (freq 1 * t) τ := by
      intro τ
      have hc := continuous_signalVoltage (v 1) P
      simp only [hv]
      rw [intervalIntegral.integral_add (Continuous.intervalIntegrable (by fun_prop) _ _)
        (Continuous.intervalIntegrable (by fun_prop) _ _), intervalIntegral.integral_const, smul_eq_mul]
      have hs := intervalIntegral.integral_comp_add_left (a := -τ) (b := 0) (fun s => Spec.signalVoltage (v 1) P (freq 1 * s)) t
      rw [show t + -τ = t - τ by ring, add_zero] at hs
      rw [← hs, Spec.phaseGain]
      simp only [mul_add]
      ring
    simp only [hFdef, Spec.instantCurrent, hp]
    rw [hv]
    push_cast
    rfl
  simp only [e] at h
  rw [h, real_smul]
  push_cast
  field_simp

/-- C165, one tone: the current at harmonic `m` tends to the phasor of the current as a function of
time: twice its Fourier coefficient over one period, and the mean current for `m = 0`. -/
theorem C165_waveform [Finite ι] (vj : ℕ → ℕ → Arr ι) (cct : Cct ι) {χ : ℝ → ℂ} (hχ : IntegrableOn χ (Set.Ioi 0)) (g : ℝ)
    (hF : cct.numF = 1) (hf : 1 / 10 ^ 4 < cct.freq 1) (m : ℤ) (hm : |m| ≤ (cct.numP : ℤ)) {ε : ℝ} (hε : 0 < ε) :
    ∃ N, ∀ nb, Valid cct nb → AtLeast cct nb N → ∃ cur : Arr ι,
      qtcurrentList vj cct (Spec.memoryResponse g χ) [m * cct.freq 1] nb none = .ok [cur] ∧
      ∀ i, ‖cur i - (if m = 0 then 1 else 2) * ((cct.freq 1 / (2 * Real.pi) : ℝ) *
        ∫ t in (-Real.pi / cct.freq 1)..(Real.pi / cct.freq 1), exp (-(I * m * (cct.freq 1 * t))) *
          (Spec.instantCurrent g χ (voltageAt (cct.vb i) (fun p => vj 1 p i) (cct.freq 1) cct.numP) t : ℂ))‖ < ε := by
  have hf0 : cct.freq 1 ≠ 0 := (lt_trans (by norm_num) hf).ne'
  obtain ⟨N, hN⟩ := C165_time_domain vj cct hχ g (by omega)
    (fun f h1 h2 => by
      have : f = 1 := by omega
      rwa [this]) (m * cct.freq 1) [m] (by simp [hF]) (by simpa using hm) (by simp [Spec.photonShift])
    (fun bs h1 _ h3 => single_orders hF hf m h1 h3) hε
  refine ⟨N, fun nb hv hl => ?_⟩
  obtain ⟨cur, h1, h2⟩ := hN nb hv hl
  refine ⟨cur, h1, fun i => ?_⟩
  have h3 := h2 i
  rwa [memoryCurrent_single g χ _ _ hf0] at h3

/-- C165. The current of the specification is causal: it does not depend on voltages to come. -/
theorem C165_causal (g : ℝ) (χ : ℝ → ℂ) {V W : ℝ → ℝ} {t : ℝ} (h : ∀ s, s ≤ t → V s = W s) :
    Spec.instantCurrent g χ V t = Spec.instantCurrent g χ W t := by
  unfold Spec.instantCurrent
  rw [h t le_rfl]
  congr 2
  refine setIntegral_congr_fun measurableSet_Ioi fun τ hτ => ?_
  have : ∫ s in (t - τ)..t, V s = ∫ s in (t - τ)..t, W s := by
    refine intervalIntegral.integral_congr fun s hs => h s ?_
    rw [Set.uIcc_of_le (by linarith [Set.mem_Ioi.1 hτ])] at hs
    exact hs.2
  simp only [this]

/-- C165. At constant voltage the current of the specification is the imaginary part of the response
function, the dc I-V curve. -/
theorem C165_constant (g : ℝ) (χ : ℝ → ℂ) (v t : ℝ) :
    Spec.instantCurrent g χ (fun _ => v) t = (Spec.memoryResponse g χ v).im := by
  simp only [Spec.instantCurrent, Spec.memoryResponse, intervalIntegral.integral_const, smul_eq_mul, add_im, I_mul_im, ofReal_re]
  congr 3
  funext τ
  congr 3
  push_cast
  ring

/-! ## A junction that forgets exponentially -/

theorem integrable_forget : IntegrableOn (fun τ : ℝ => ((Real.exp (-τ) : ℝ) : ℂ)) (Set.Ioi 0) := by
  have := integrableOn_exp_mul_Ioi (a := -1) (by norm_num) 0
  refine (this.ofReal (𝕜 := ℂ)).congr (Filter.Eventually.of_forall fun τ => ?_)
  simp

/-- Its response function: the dc current is `g v + v / (1 + v²)` and the other part `1 / (1 + v²)`. -/
theorem response_forget (g v : ℝ) :
    Spec.memoryResponse g (fun τ : ℝ => ((Real.exp (-τ) : ℝ) : ℂ)) v = ((1 / (1 + v ^ 2) : ℝ) : ℂ) + I * ((g * v + v / (1 + v ^ 2) : ℝ) : ℂ) := by
  unfold Spec.memoryResponse
  have e : ∀ τ : ℝ, ((Real.exp (-τ) : ℝ) : ℂ) * exp (I * ((v * τ : ℝ) : ℂ)) = exp ((-1 + I * v) * τ) := by
    intro τ
    rw [ofReal_exp, ← exp_add]
    congr 1
    push_cast
    ring
  simp only [e]
  rw [integral_exp_mul_complex_Ioi (by simp) 0]
  have h1 : (1 + (v : ℂ) ^ 2) ≠ 0 := by
    have : (1 + v ^ 2 : ℝ) ≠ 0 := by positivity
    exact_mod_cast this
  have h2 : (-1 + I * (v : ℂ)) ≠ 0 := by
    intro h
    have := congrArg Complex.re h
    simp at this
  have h3 : -1 / (-1 + I * (v : ℂ)) = (1 + I * v) / (1 + (v : ℂ) ^ 2) := by
    rw [div_eq_div_iff h2 h1]
    linear_combination (-(v : ℂ) ^ 2) * I_sq
  simp only [ofReal_zero, mul_zero, exp_zero]
  rw [h3]
  push_cast
  ring

/-- The circuit with one tone at 0.3 of the gap and two harmonics. -/
noncomputable def onePumped : Cct (Fin 2) := { numF := 1, numP := 2, freq := fun _ => 3 / 10, vb := ![1 / 2, 9 / 10] }

example (vj : ℕ → ℕ → Arr (Fin 2)) : ∃ N, ∀ nb, Valid onePumped nb → AtLeast onePumped nb N → ∃ cur : Arr (Fin 2),
    qtcurrentList vj onePumped (fun v => ((1 / (1 + v ^ 2) : ℝ) : ℂ) + I * ((1 * v + v / (1 + v ^ 2) : ℝ) : ℂ))
      [((1 : ℤ) : ℝ) * (3 / 10)] nb none = .ok [cur] ∧
    ∀ i, ‖cur i - 2 * ((3 / 10 / (2 * Real.pi) : ℝ) *
      ∫ t in (-Real.pi / (3 / 10))..(Real.pi / (3 / 10)), exp (-(I * (1 : ℤ) * (((3 / 10 : ℝ) : ℂ) * t))) *
        (Spec.instantCurrent 1 (fun τ : ℝ => ((Real.exp (-τ) : ℝ) : ℂ)) (voltageAt (onePumped.vb i) (fun p => vj 1 p i) (3 / 10) 2) t : ℂ))‖
      < 1 / 1000 := by
  have h := C165_waveform vj onePumped integrable_forget 1 rfl (by norm_num [onePumped]) 1 (by simp [onePumped]) (ε := 1 / 1000) (by norm_num)
  simp only [← response_forget]
  exact h

end QMix.Props
