import Verif.Spec.Memory
import Verif.Lemmas.Classical2
import Mathlib.MeasureTheory.Integral.Prod
import Mathlib.MeasureTheory.Integral.DominatedConvergence

/-!
# The time domain: the sums over photon numbers are Fourier coefficients of a causal current
-/

namespace QMix

open Complex Finset MeasureTheory Spec

theorem signalVoltage_eq (v : ℕ → ℂ) (P : ℕ) (t : ℝ) : signalVoltage v P t = acVoltage v P (-t) := by
  unfold signalVoltage acVoltage
  refine Finset.sum_congr rfl fun p _ => ?_
  conv_lhs => rw [← norm_mul_exp_arg_mul_I (v p)]
  rw [mul_assoc, ← exp_add, re_ofReal_mul, show (arg (v p) : ℂ) * I + I * (p * t) = ((arg (v p) + p * t : ℝ) : ℂ) * I by
    push_cast; ring, exp_ofReal_mul_I_re, ← Real.cos_neg]
  congr 2
  ring

theorem continuous_signalVoltage (v : ℕ → ℂ) (P : ℕ) : Continuous (signalVoltage v P) := by
  unfold signalVoltage
  refine continuous_finset_sum _ fun p _ => continuous_re.comp ?_
  fun_prop

theorem phaseGain_eq (v : ℕ → ℂ) {w : ℝ} (hw : w ≠ 0) (P : ℕ) (t τ : ℝ) :
    phaseGain v w P t τ = junctionPhase v w P (-t + w * τ) - junctionPhase v w P (-t) := by
  unfold phaseGain
  have hd : ∀ s ∈ Set.uIcc (-τ) 0, HasDerivAt (fun s => -junctionPhase v w P (-(t + w * s))) (signalVoltage v P (t + w * s)) s := by
    intro s _
    have h1 := hasDerivAt_junctionPhase v hw P (-(t + w * s))
    have h2 : HasDerivAt (fun s : ℝ => -(t + w * s)) (-w) s := by
      have h := (((hasDerivAt_id' s).const_mul w).const_add t).fun_neg
      rwa [mul_one] at h
    have h3 := (h1.comp s h2).fun_neg
    rw [signalVoltage_eq]
    refine h3.congr_deriv ?_
    field_simp
  rw [intervalIntegral.integral_eq_sub_of_hasDerivAt hd]
  · rw [show -(t + w * 0) = -t by ring, show -(t + w * -τ) = -t + w * τ by ring]
    ring
  · refine Continuous.intervalIntegrable ?_ _ _
    exact (continuous_signalVoltage v P).comp (by fun_prop)

/-- The part of the correlation that belongs to one tone. -/
noncomputable def pairChar (P : ℕ) (x : (ℕ → ℂ) × ℝ × ℤ) (τ : ℝ) : ℂ :=
  ∑' k : ℤ, phaseCoeff x.1 x.2.1 P k * (starRingEnd ℂ) (phaseCoeff x.1 x.2.1 P (k + x.2.2)) * exp (I * k * (x.2.1 * τ : ℝ))

theorem pairChar_eq (P : ℕ) (x : (ℕ → ℂ) × ℝ × ℤ) (hw : x.2.1 ≠ 0) (τ : ℝ) :
    pairChar P x τ = (1 / (2 * Real.pi) : ℝ) * ∫ t in (-Real.pi)..Real.pi,
      exp (-(I * x.2.2 * t)) * exp (I * phaseGain x.1 x.2.1 P t τ) := by
  unfold pairChar
  rw [pair_char]
  congr 1
  have := intervalIntegral.integral_comp_neg (a := -Real.pi) (b := Real.pi)
    (fun t : ℝ => exp (I * x.2.2 * t) * exp (I * (junctionPhase x.1 x.2.1 P (t + x.2.1 * τ) - junctionPhase x.1 x.2.1 P t : ℝ)))
  rw [neg_neg] at this
  rw [← this]
  refine intervalIntegral.integral_congr fun t _ => ?_
  rw [phaseGain_eq _ hw]
  congr 2
  push_cast
  ring

theorem norm_pairChar_le (P : ℕ) (x : (ℕ → ℂ) × ℝ × ℤ) (τ : ℝ) : ‖pairChar P x τ‖ ≤ 1 := by
  unfold pairChar
  rw [pair_char, norm_mul]
  have h := intervalIntegral.norm_integral_le_of_norm_le_const (a := -Real.pi) (b := Real.pi) (C := 1)
    (f := fun t : ℝ => exp (I * x.2.2 * t) * exp (I * (junctionPhase x.1 x.2.1 P (t + x.2.1 * τ) - junctionPhase x.1 x.2.1 P t : ℝ)))
    (fun t _ => by
      rw [norm_mul, norm_exp_I_mul, mul_comm I, norm_exp_ofReal_mul_I, mul_one])
  have hp := Real.pi_pos
  rw [norm_real, Real.norm_eq_abs, abs_of_pos (by positivity)]
  rw [show Real.pi - -Real.pi = 2 * Real.pi by ring, abs_of_pos (by positivity), one_mul] at h
  calc 1 / (2 * Real.pi) * _ ≤ 1 / (2 * Real.pi) * (2 * Real.pi) := mul_le_mul_of_nonneg_left h (by positivity)
    _ = 1 := by field_simp

theorem summable_pair (P : ℕ) (x : (ℕ → ℂ) × ℝ × ℤ) :
    Summable fun k : ℤ => ‖phaseCoeff x.1 x.2.1 P k * (starRingEnd ℂ) (phaseCoeff x.1 x.2.1 P (k + x.2.2))‖ := by
  have hs := small_phaseCoeff x.1 x.2.1 P
  obtain ⟨B, -, hB⟩ := hs.bounded 0
  refine Summable.of_nonneg_of_le (fun _ => norm_nonneg _) (fun k => ?_) (hs.sum.mul_right B)
  rw [norm_mul, RCLike.norm_conj]
  have := hB (k + x.2.2)
  rw [pow_zero, one_mul] at this
  exact mul_le_mul_of_nonneg_left this (norm_nonneg _)

theorem continuous_pairChar (P : ℕ) (x : (ℕ → ℂ) × ℝ × ℤ) : Continuous (pairChar P x) := by
  unfold pairChar
  refine continuous_tsum (fun k => by fun_prop) (summable_pair P x) fun k τ => ?_
  rw [norm_mul, norm_exp_I_mul, mul_one]

/-- The product over the tones. -/
noncomputable def pairWeight (P : ℕ) (l : List ((ℕ → ℂ) × ℝ × ℤ)) (τ : ℝ) : ℂ := (l.map fun x => pairChar P x τ).prod

theorem pairWeight_cons (P : ℕ) (x : (ℕ → ℂ) × ℝ × ℤ) (l : List ((ℕ → ℂ) × ℝ × ℤ)) (τ : ℝ) :
    pairWeight P (x :: l) τ = pairChar P x τ * pairWeight P l τ := by simp [pairWeight]

theorem continuous_pairWeight (P : ℕ) (l : List ((ℕ → ℂ) × ℝ × ℤ)) : Continuous (pairWeight P l) := by
  induction l with
  | nil =>
    have : pairWeight P [] = fun _ => 1 := by funext τ; simp [pairWeight]
    rw [this]
    exact continuous_const
  | cons x l ih =>
    have : pairWeight P (x :: l) = fun τ => pairChar P x τ * pairWeight P l τ := by
      funext τ
      exact pairWeight_cons P x l τ
    rw [this]
    exact (continuous_pairChar P x).mul ih

theorem norm_pairWeight_le (P : ℕ) (l : List ((ℕ → ℂ) × ℝ × ℤ)) (τ : ℝ) : ‖pairWeight P l τ‖ ≤ 1 := by
  induction l with
  | nil => simp [pairWeight]
  | cons x l ih =>
    rw [pairWeight_cons, norm_mul]
    exact mul_le_one₀ (norm_pairChar_le P x τ) (norm_nonneg _) ih

theorem norm_exp_I_real (x : ℝ) : ‖exp (I * x)‖ = 1 := by rw [mul_comm, norm_exp_ofReal_mul_I]

/-- An integrable kernel stays integrable when it is multiplied by continuous bounded factors. -/
theorem integrable_kernel {χ : ℝ → ℂ} (hχ : IntegrableOn χ (Set.Ioi 0)) {g : ℝ → ℂ} (hg : Continuous g) {B : ℝ} (hB : ∀ τ, ‖g τ‖ ≤ B) :
    IntegrableOn (fun τ => χ τ * g τ) (Set.Ioi 0) :=
  hχ.mul_bdd (c := B) hg.aestronglyMeasurable (Filter.Eventually.of_forall hB)

/-! ## The sums over photon numbers -/

/-- The tones of the specification without truncation, with their orders. -/
noncomputable def withOrders (P : ℕ) (l : List ((ℕ → ℂ) × ℝ × ℤ)) : List (Tone × ℤ) :=
  l.map fun x => (⟨phaseCoeff x.1 x.2.1 P, 0, x.2.1⟩, x.2.2)

theorem corrFull_memory {χ : ℝ → ℂ} (hχ : IntegrableOn χ (Set.Ioi 0)) (P : ℕ) (l : List ((ℕ → ℂ) × ℝ × ℤ)) (v : ℝ) :
    corrFull (fun v => ∫ τ in Set.Ioi 0, χ τ * exp (I * (v * τ : ℝ))) (withOrders P l) v
      = ∫ τ in Set.Ioi 0, χ τ * (exp (I * (v * τ : ℝ)) * pairWeight P l τ) := by
  induction l generalizing v with
  | nil => simp [withOrders, corrFull, pairWeight]
  | cons x l ih =>
    simp only [withOrders, List.map_cons, corrFull] at ih ⊢
    simp only [ih]
    set c : ℤ → ℂ := fun k => phaseCoeff x.1 x.2.1 P k * (starRingEnd ℂ) (phaseCoeff x.1 x.2.1 P (k + x.2.2)) with hc
    have hterm : ∀ k : ℤ, c k * ∫ τ in Set.Ioi 0, χ τ * (exp (I * ((v + k * x.2.1) * τ : ℝ)) * pairWeight P l τ)
        = ∫ τ in Set.Ioi 0, c k * (χ τ * (exp (I * ((v + k * x.2.1) * τ : ℝ)) * pairWeight P l τ)) := fun k =>
      (integral_const_mul _ _).symm
    change ∑' k : ℤ, c k * ∫ τ in Set.Ioi 0, χ τ * (exp (I * ((v + k * x.2.1) * τ : ℝ)) * pairWeight P l τ) = _
    simp only [hterm]
    have hint : ∀ k : ℤ, IntegrableOn (fun τ => χ τ * (exp (I * ((v + k * x.2.1) * τ : ℝ)) * pairWeight P l τ)) (Set.Ioi 0) := fun k =>
      integrable_kernel hχ ((by fun_prop : Continuous fun τ : ℝ => exp (I * ((v + k * x.2.1) * τ : ℝ))).mul (continuous_pairWeight P l))
        (B := 1) fun τ => by
          rw [norm_mul, norm_exp_I_real, one_mul]
          exact norm_pairWeight_le P l τ
    rw [integral_tsum_of_summable_integral_norm (fun k => (hint k).const_mul (c k))]
    · refine integral_congr_ae (Filter.Eventually.of_forall fun τ => ?_)
      simp only [pairWeight_cons]
      rw [show χ τ * (exp (I * (v * τ : ℝ)) * (pairChar P x τ * pairWeight P l τ))
        = pairChar P x τ * (χ τ * exp (I * (v * τ : ℝ)) * pairWeight P l τ) by ring, pairChar, ← tsum_mul_right]
      refine tsum_congr fun k => ?_
      have e : exp (I * ((v + k * x.2.1) * τ : ℝ)) = exp (I * (v * τ : ℝ)) * exp (I * k * (x.2.1 * τ : ℝ)) := by
        rw [← exp_add]
        congr 1
        push_cast
        ring
      rw [e, hc]
      ring
    · refine Summable.of_nonneg_of_le (fun k => integral_nonneg fun τ => norm_nonneg _) (fun k => ?_)
        ((summable_pair P x).mul_right (∫ τ in Set.Ioi 0, ‖χ τ‖))
      simp only [norm_mul, norm_exp_I_real, one_mul]
      rw [integral_const_mul]
      refine mul_le_mul_of_nonneg_left ?_ (norm_nonneg _)|>.trans_eq (by rw [hc, norm_mul])
      refine integral_mono_of_nonneg (Filter.Eventually.of_forall fun τ => by positivity) hχ.norm
        (Filter.Eventually.of_forall fun τ => mul_le_of_le_one_right (norm_nonneg _) (norm_pairWeight_le P l τ))

/-! ## The mean over the phase angles -/

/-- The mean of the complex sum over the past. -/
noncomputable def complexMean (χ : ℝ → ℂ) (P : ℕ) : List ((ℕ → ℂ) × ℝ × ℤ) → (ℝ → ℝ) → ℂ
  | [], δ => ∫ τ in Set.Ioi 0, χ τ * exp (I * δ τ)
  | x :: l, δ => (1 / (2 * Real.pi) : ℝ) * ∫ t in (-Real.pi)..Real.pi,
      exp (-(I * x.2.2 * t)) * complexMean χ P l fun τ => δ τ + phaseGain x.1 x.2.1 P t τ

/-- The mean of its imaginary part. -/
noncomputable def pastMean (χ : ℝ → ℂ) (P : ℕ) : List ((ℕ → ℂ) × ℝ × ℤ) → (ℝ → ℝ) → ℂ
  | [], δ => ((∫ τ in Set.Ioi 0, χ τ * exp (I * δ τ)).im : ℂ)
  | x :: l, δ => (1 / (2 * Real.pi) : ℝ) * ∫ t in (-Real.pi)..Real.pi,
      exp (-(I * x.2.2 * t)) * pastMean χ P l fun τ => δ τ + phaseGain x.1 x.2.1 P t τ

theorem continuous_phaseGain (v : ℕ → ℂ) {w : ℝ} (hw : w ≠ 0) (P : ℕ) :
    Continuous fun q : ℝ × ℝ => phaseGain v w P q.1 q.2 := by
  simp only [phaseGain_eq v hw]
  have := continuous_junctionPhase v w P
  fun_prop

theorem continuous_phaseGain_right (v : ℕ → ℂ) {w : ℝ} (hw : w ≠ 0) (P : ℕ) {δ : ℝ → ℝ} (hδ : Continuous δ) (t : ℝ) :
    Continuous fun τ : ℝ => δ τ + phaseGain v w P t τ := by
  simp only [phaseGain_eq v hw]
  have := continuous_junctionPhase v w P
  fun_prop

theorem integrable_past {χ : ℝ → ℂ} (hχ : IntegrableOn χ (Set.Ioi 0)) (P : ℕ) (x : (ℕ → ℂ) × ℝ × ℤ) (hw : x.2.1 ≠ 0)
    {g : ℝ → ℂ} (hg : Continuous g) (hB : ∀ τ, ‖g τ‖ ≤ 1) :
    Integrable (fun q : ℝ × ℝ => χ q.2 * g q.2 * (exp (-(I * x.2.2 * q.1)) * exp (I * phaseGain x.1 x.2.1 P q.1 q.2)))
      ((volume.restrict (Set.uIoc (-Real.pi) Real.pi)).prod (volume.restrict (Set.Ioi 0))) := by
  have h1 : Integrable (fun _ : ℝ => (1 : ℂ)) (volume.restrict (Set.uIoc (-Real.pi) Real.pi)) :=
    integrableOn_const (by simp [Set.uIoc])
  have h2 : Integrable (fun τ => χ τ * g τ) (volume.restrict (Set.Ioi 0)) := integrable_kernel hχ hg hB
  have h3 := h1.mul_prod h2
  have hc : Continuous fun q : ℝ × ℝ => exp (-(I * x.2.2 * q.1)) * exp (I * phaseGain x.1 x.2.1 P q.1 q.2) := by
    have := continuous_phaseGain x.1 hw P
    fun_prop
  have h4 := h3.mul_bdd (c := 1) hc.aestronglyMeasurable (Filter.Eventually.of_forall fun q => by
    rw [norm_mul, norm_exp_I_real, show -(I * (x.2.2 : ℂ) * q.1) = I * ((-(x.2.2 * q.1) : ℝ) : ℂ) by push_cast; ring,
      norm_exp_I_real, one_mul])
  refine h4.congr (Filter.Eventually.of_forall fun q => ?_)
  simp only [one_mul]

theorem complexMean_eq {χ : ℝ → ℂ} (hχ : IntegrableOn χ (Set.Ioi 0)) (P : ℕ) (l : List ((ℕ → ℂ) × ℝ × ℤ))
    (hl : ∀ x ∈ l, x.2.1 ≠ 0) {δ : ℝ → ℝ} (hδ : Continuous δ) :
    complexMean χ P l δ = ∫ τ in Set.Ioi 0, χ τ * (exp (I * δ τ) * pairWeight P l τ) := by
  induction l generalizing δ with
  | nil => simp [complexMean, pairWeight]
  | cons x l ih =>
    have hw : x.2.1 ≠ 0 := hl x (by simp)
    have hc := continuous_phaseGain_right x.1 hw P hδ
    simp only [complexMean]
    have e : ∀ t : ℝ, exp (-(I * x.2.2 * t)) * complexMean χ P l (fun τ => δ τ + phaseGain x.1 x.2.1 P t τ)
        = ∫ τ in Set.Ioi 0, χ τ * (exp (I * δ τ) * pairWeight P l τ) *
            (exp (-(I * x.2.2 * t)) * exp (I * phaseGain x.1 x.2.1 P t τ)) := by
      intro t
      rw [ih (fun y hy => hl y (by simp [hy])) (hc t), ← integral_const_mul]
      refine integral_congr_ae (Filter.Eventually.of_forall fun τ => ?_)
      simp only []
      rw [show I * ((δ τ + phaseGain x.1 x.2.1 P t τ : ℝ) : ℂ) = I * δ τ + I * phaseGain x.1 x.2.1 P t τ by push_cast; ring, exp_add]
      ring
    simp only [e]
    have hp : -Real.pi ≤ Real.pi := by linarith [Real.pi_pos]
    have hI := integrable_past hχ P x hw (g := fun τ => exp (I * δ τ) * pairWeight P l τ)
      ((by fun_prop : Continuous fun τ : ℝ => exp (I * δ τ)).mul (continuous_pairWeight P l))
      (fun τ => by rw [norm_mul, norm_exp_I_real, one_mul]; exact norm_pairWeight_le P l τ)
    rw [intervalIntegral.integral_of_le hp]
    rw [Set.uIoc_of_le hp] at hI
    rw [integral_integral_swap hI, ← integral_const_mul]
    refine integral_congr_ae (Filter.Eventually.of_forall fun τ => ?_)
    simp only [pairWeight_cons]
    rw [integral_const_mul, ← intervalIntegral.integral_of_le hp, pairChar_eq P x hw]
    ring

theorem intervalIntegrable_complexMean {χ : ℝ → ℂ} (hχ : IntegrableOn χ (Set.Ioi 0)) (P : ℕ) (x : (ℕ → ℂ) × ℝ × ℤ)
    (hw : x.2.1 ≠ 0) (l : List ((ℕ → ℂ) × ℝ × ℤ)) (hl : ∀ x ∈ l, x.2.1 ≠ 0) {δ : ℝ → ℝ} (hδ : Continuous δ) (a : ℤ) :
    IntervalIntegrable (fun t : ℝ => exp (-(I * a * t)) * complexMean χ P l fun τ => δ τ + phaseGain x.1 x.2.1 P t τ)
      volume (-Real.pi) Real.pi := by
  have hc := continuous_phaseGain_right x.1 hw P hδ
  have hI := integrable_past hχ P (x.1, x.2.1, a) hw (g := fun τ => exp (I * δ τ) * pairWeight P l τ)
    ((by fun_prop : Continuous fun τ : ℝ => exp (I * δ τ)).mul (continuous_pairWeight P l))
    (fun τ => by rw [norm_mul, norm_exp_I_real, one_mul]; exact norm_pairWeight_le P l τ)
  rw [intervalIntegrable_iff]
  refine (hI.integral_prod_left).congr (Filter.Eventually.of_forall fun t => ?_)
  simp only []
  rw [complexMean_eq hχ P l hl (hc t), ← integral_const_mul]
  refine integral_congr_ae (Filter.Eventually.of_forall fun τ => ?_)
  simp only []
  rw [show I * ((δ τ + phaseGain x.1 x.2.1 P t τ : ℝ) : ℂ) = I * δ τ + I * phaseGain x.1 x.2.1 P t τ by push_cast; ring, exp_add]
  ring

/-- The mean of the imaginary part. -/
theorem pastMean_eq {χ : ℝ → ℂ} (hχ : IntegrableOn χ (Set.Ioi 0)) (P : ℕ) (l : List ((ℕ → ℂ) × ℝ × ℤ))
    (hl : ∀ x ∈ l, x.2.1 ≠ 0) {δ : ℝ → ℝ} (hδ : Continuous δ) :
    2 * I * pastMean χ P l δ
      = complexMean χ P l δ - (starRingEnd ℂ) (complexMean χ P (l.map fun x => (x.1, x.2.1, -x.2.2)) δ) := by
  induction l generalizing δ with
  | nil =>
    simp only [pastMean, complexMean, List.map_nil]
    rw [sub_conj]
    push_cast
    ring
  | cons x l ih =>
    have hw : x.2.1 ≠ 0 := hl x (by simp)
    have hl' : ∀ y ∈ l, y.2.1 ≠ 0 := fun y hy => hl y (by simp [hy])
    have hl'' : ∀ y ∈ l.map (fun x => (x.1, x.2.1, -x.2.2)), y.2.1 ≠ 0 := by
      intro y hy
      obtain ⟨z, hz, rfl⟩ := List.mem_map.1 hy
      exact hl' z hz
    have hc := continuous_phaseGain_right x.1 hw P hδ
    simp only [pastMean, complexMean, List.map_cons, map_mul, conj_ofReal]
    have e : ∀ t : ℝ, 2 * I * (exp (-(I * x.2.2 * t)) * pastMean χ P l fun τ => δ τ + phaseGain x.1 x.2.1 P t τ)
        = exp (-(I * x.2.2 * t)) * complexMean χ P l (fun τ => δ τ + phaseGain x.1 x.2.1 P t τ)
          - (starRingEnd ℂ) (exp (-(I * ((-x.2.2 : ℤ) : ℂ) * t)) *
            complexMean χ P (l.map fun x => (x.1, x.2.1, -x.2.2)) fun τ => δ τ + phaseGain x.1 x.2.1 P t τ) := by
      intro t
      rw [map_mul, ← exp_conj, show (starRingEnd ℂ) (-(I * ((-x.2.2 : ℤ) : ℂ) * t)) = -(I * x.2.2 * t) by
        simp [map_neg, map_mul]]
      rw [← mul_sub, ← ih hl' (hc t)]
      ring
    have hp : -Real.pi ≤ Real.pi := by linarith [Real.pi_pos]
    have e2 : (starRingEnd ℂ) (∫ t in (-Real.pi)..Real.pi, exp (-(I * ((-x.2.2 : ℤ) : ℂ) * t)) *
        complexMean χ P (l.map fun x => (x.1, x.2.1, -x.2.2)) fun τ => δ τ + phaseGain x.1 x.2.1 P t τ)
        = ∫ t in (-Real.pi)..Real.pi, (starRingEnd ℂ) (exp (-(I * ((-x.2.2 : ℤ) : ℂ) * t)) *
        complexMean χ P (l.map fun x => (x.1, x.2.1, -x.2.2)) fun τ => δ τ + phaseGain x.1 x.2.1 P t τ) := by
      rw [intervalIntegral.integral_of_le hp, intervalIntegral.integral_of_le hp, integral_conj]
    rw [e2, ← mul_sub, ← intervalIntegral.integral_sub (intervalIntegrable_complexMean hχ P x hw l hl' hδ x.2.2)
      (by
        have := intervalIntegrable_complexMean hχ P x hw _ hl'' hδ (-x.2.2)
        rw [intervalIntegrable_iff] at this ⊢
        exact (LinearIsometryEquiv.integrable_comp_iff (conjLIE)).2 this)]
    rw [← intervalIntegral.integral_congr (g := fun t => _) (fun t _ => e t), intervalIntegral.integral_const_mul]
    ring

end QMix
