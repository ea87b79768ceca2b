import Verif.Lemmas.Classical
import Mathlib.Topology.UniformSpace.LocallyUniformConvergence
import Mathlib.MeasureTheory.Integral.DominatedConvergence

/-! The photon sums of a strongly driven tone approach time averages. -/

namespace QMix

open Complex Filter Topology Finset Spec MeasureTheory

/-! ## The second moment -/

theorem second_summable {L : Tone} (h : Small fun k => ‖L.C k‖) : Summable fun k : ℤ => ‖L.C k‖ ^ 2 * ((k : ℝ) * L.w) ^ 2 := by
  refine Summable.of_nonneg_of_le (fun k => by positivity) (fun k => ?_) ((sq_summable h 2).mul_left (L.w ^ 2))
  have h1 : (k : ℝ) ^ 2 ≤ (1 + |(k : ℝ)|) ^ 2 := by
    rw [← sq_abs (k : ℝ)]
    nlinarith [abs_nonneg (k : ℝ)]
  calc ‖L.C k‖ ^ 2 * ((k : ℝ) * L.w) ^ 2 = L.w ^ 2 * ((k : ℝ) ^ 2 * ‖L.C k‖ ^ 2) := by ring
    _ ≤ _ := mul_le_mul_of_nonneg_left (mul_le_mul_of_nonneg_right h1 (by positivity)) (by positivity)

theorem Exact.second_le {P : ℕ} {u : ℕ → ℂ} {L : Tone} (h : Exact P u L) :
    ∑' k : ℤ, ‖L.C k‖ ^ 2 * ((k : ℝ) * L.w) ^ 2 ≤ (∑ p ∈ Icc 1 P, ‖u p‖) ^ 2 := by
  have hs : ∀ b : ℤ, HasSum (fun k : ℤ => ‖L.C (k + b)‖ ^ 2) 1 := fun b => (Equiv.addRight b).hasSum_iff.2 h.norm_sq
  have hb : HasSum (fun k : ℤ => (∑ p ∈ Icc 1 P, ‖u p‖) *
      ∑ p ∈ Icc 1 P, ‖u p‖ * ((‖L.C (k + -p)‖ ^ 2 + ‖L.C (k + p)‖ ^ 2) / 2))
      ((∑ p ∈ Icc 1 P, ‖u p‖) * ∑ p ∈ Icc 1 P, ‖u p‖ * ((1 + 1) / 2)) :=
    (hasSum_sum fun p _ => (((hs _).add (hs _)).div_const 2).mul_left _).mul_left _
  refine (hasSum_le (fun k => ?_) (second_summable h.small).hasSum hb).trans_eq (by norm_num; ring)
  have r := congrArg norm (h.recur k)
  rw [norm_mul, norm_mul, ← ofReal_intCast, norm_real, norm_real, ← norm_mul, Real.norm_eq_abs] at r
  have r2 : |(k : ℝ) * L.w| * ‖L.C k‖ ≤ ∑ p ∈ Icc 1 P, ‖u p‖ * ((‖L.C (k + -p)‖ + ‖L.C (k + p)‖) / 2) := by
    rw [r]
    refine (norm_sum_le _ _).trans (Finset.sum_le_sum fun p _ => ?_)
    rw [norm_div, show ‖(2 : ℂ)‖ = 2 by simp]
    have := norm_add_le ((starRingEnd ℂ) (u p) * L.C (k - p)) (u p * L.C (k + p))
    rw [norm_mul, norm_mul, RCLike.norm_conj] at this
    rw [← sub_eq_add_neg]
    linarith
  have r3 : (∑ p ∈ Icc 1 P, ‖u p‖ * ((‖L.C (k + -p)‖ + ‖L.C (k + p)‖) / 2)) ^ 2 ≤
      (∑ p ∈ Icc 1 P, ‖u p‖) * ∑ p ∈ Icc 1 P, ‖u p‖ * ((‖L.C (k + -p)‖ + ‖L.C (k + p)‖) / 2) ^ 2 :=
    Finset.sum_sq_le_sum_mul_sum_of_sq_eq_mul _ (fun p _ => norm_nonneg _) (fun p _ => by positivity) fun p _ => by ring
  have r4 : (∑ p ∈ Icc 1 P, ‖u p‖) * ∑ p ∈ Icc 1 P, ‖u p‖ * ((‖L.C (k + -p)‖ + ‖L.C (k + p)‖) / 2) ^ 2 ≤
      (∑ p ∈ Icc 1 P, ‖u p‖) * ∑ p ∈ Icc 1 P, ‖u p‖ * ((‖L.C (k + -p)‖ ^ 2 + ‖L.C (k + p)‖ ^ 2) / 2) := by
    refine mul_le_mul_of_nonneg_left (Finset.sum_le_sum fun p _ => mul_le_mul_of_nonneg_left ?_ (norm_nonneg _))
      (Finset.sum_nonneg fun p _ => norm_nonneg _)
    nlinarith [sq_nonneg (‖L.C (k + -p)‖ - ‖L.C (k + p)‖)]
  calc ‖L.C k‖ ^ 2 * ((k : ℝ) * L.w) ^ 2 = (|(k : ℝ) * L.w| * ‖L.C k‖) ^ 2 := by rw [mul_pow |(k : ℝ) * L.w|, sq_abs]; ring
    _ ≤ _ := pow_le_pow_left₀ (by positivity) r2 2
    _ ≤ _ := r3.trans r4

/-- The second moment of a pair of coefficients, for voltages of size `lam` and photon energies
divided by `lam`. -/
theorem Exact.second_pair {P : ℕ} {u : ℕ → ℂ} {L : Tone} (h : Exact P u L) (a : ℤ) {lam S : ℝ} (h1 : 1 ≤ lam)
    (hS : ∑ p ∈ Icc 1 P, ‖u p‖ ≤ lam * S) :
    Summable (fun k : ℤ => ‖L.C k * (starRingEnd ℂ) (L.C (k + a))‖ * (k * L.w / lam) ^ 2) ∧
      ∑' k : ℤ, ‖L.C k * (starRingEnd ℂ) (L.C (k + a))‖ * (k * L.w / lam) ^ 2 ≤ (3 * S ^ 2 + 2 * (a * L.w) ^ 2) / 2 := by
  have hl : 0 < lam := by linarith
  have m1' : HasSum (fun k : ℤ => ‖L.C (k + a)‖ ^ 2) 1 := (Equiv.addRight a).hasSum_iff.2 h.norm_sq
  obtain ⟨g, hg0⟩ : ∃ g : ℤ → ℝ, ∀ k, g k = ‖L.C k‖ ^ 2 * ((k : ℝ) * L.w / lam) ^ 2 := ⟨_, fun _ => rfl⟩
  have hg : ∀ k, g k = ‖L.C k‖ ^ 2 * ((k : ℝ) * L.w) ^ 2 / lam ^ 2 := by
    intro k
    rw [hg0, div_pow]
    ring
  have s2 : Summable g := ((second_summable h.small).div_const (lam ^ 2)).congr fun k => (hg k).symm
  have m2 : ∑' k, g k ≤ S ^ 2 := by
    rw [tsum_congr hg, tsum_div_const, div_le_iff₀ (by positivity)]
    have h2 := h.second_le
    have h3 : (∑ p ∈ Icc 1 P, ‖u p‖) ^ 2 ≤ (lam * S) ^ 2 :=
      pow_le_pow_left₀ (Finset.sum_nonneg fun p _ => norm_nonneg _) hS 2
    linarith [mul_pow lam S 2]
  have s3 : Summable fun k : ℤ => g (k + a) := (Equiv.addRight a).summable_iff.2 s2
  have m3 : ∑' k : ℤ, g (k + a) ≤ S ^ 2 := ((Equiv.addRight a).tsum_eq g).trans_le m2
  have hb := (s2.hasSum.add ((s3.hasSum.mul_left 2).add (m1'.mul_right (2 * (a * L.w) ^ 2)))).div_const 2
  have hle : ∀ k : ℤ, ‖L.C k * (starRingEnd ℂ) (L.C (k + a))‖ * (k * L.w / lam) ^ 2 ≤
      (g k + (2 * g (k + a) + ‖L.C (k + a)‖ ^ 2 * (2 * (a * L.w) ^ 2))) / 2 := by
    intro k
    rw [hg0, hg0, norm_mul, RCLike.norm_conj]
    have e1 : ‖L.C k‖ * ‖L.C (k + a)‖ ≤ (‖L.C k‖ ^ 2 + ‖L.C (k + a)‖ ^ 2) / 2 := by
      nlinarith [sq_nonneg (‖L.C k‖ - ‖L.C (k + a)‖)]
    have e2 : ((k : ℝ) * L.w / lam) ^ 2 ≤ 2 * (((k + a : ℤ) : ℝ) * L.w / lam) ^ 2 + 2 * (a * L.w) ^ 2 := by
      have q : (k : ℝ) * L.w / lam = ((k + a : ℤ) : ℝ) * L.w / lam - a * L.w / lam := by
        push_cast
        ring
      have q2 : (a * L.w / lam) ^ 2 ≤ (a * L.w) ^ 2 := by
        rw [div_pow]
        exact div_le_self (by positivity) (one_le_pow₀ h1)
      rw [q]
      nlinarith [sq_nonneg (((k + a : ℤ) : ℝ) * L.w / lam + a * L.w / lam)]
    have e3 := mul_le_mul_of_nonneg_right e1 (sq_nonneg ((k : ℝ) * L.w / lam))
    have e4 := mul_le_mul_of_nonneg_left e2 (sq_nonneg ‖L.C (k + a)‖)
    linarith
  have hsum : Summable fun k : ℤ => ‖L.C k * (starRingEnd ℂ) (L.C (k + a))‖ * (k * L.w / lam) ^ 2 :=
    Summable.of_nonneg_of_le (fun k => by positivity) hle hb.summable
  refine ⟨hsum, (hasSum_le hle hsum.hasSum hb).trans ?_⟩
  linarith

/-! ## Scaled tones -/

theorem junctionPhase_scale (v : ℕ → ℂ) (w : ℝ) (P : ℕ) {lam : ℝ} (hl : 0 < lam) (t : ℝ) :
    junctionPhase (fun p => lam * v p) w P t = lam * junctionPhase v w P t := by
  unfold junctionPhase
  rw [Finset.mul_sum]
  refine Finset.sum_congr rfl fun p _ => ?_
  rw [arg_real_mul _ hl, norm_mul, norm_real, Real.norm_eq_abs, abs_of_pos hl]
  ring

/-- The sums over pairs of coefficients, with a phase that grows with the photon number. -/
theorem pair_char (v : ℕ → ℂ) (w : ℝ) (P : ℕ) (a : ℤ) (δ : ℝ) :
    ∑' k : ℤ, phaseCoeff v w P k * (starRingEnd ℂ) (phaseCoeff v w P (k + a)) * exp (I * k * δ)
      = (1 / (2 * Real.pi) : ℝ) * ∫ t in (-Real.pi)..Real.pi, exp (I * a * t) *
          exp (I * (junctionPhase v w P (t + δ) - junctionPhase v w P t : ℝ)) := by
  obtain ⟨hs, hF⟩ := phaseCoeff_series v w P
  have hs' : Small fun k : ℤ => ‖phaseCoeff v w P k * exp (I * k * δ)‖ := by
    have : (fun k : ℤ => ‖phaseCoeff v w P k * exp (I * k * δ)‖) = fun k => ‖phaseCoeff v w P k‖ := by
      funext k
      rw [norm_mul, norm_exp_I_mul, mul_one]
    rwa [this]
  have hF' : ∀ t : ℝ, HasSum (fun k : ℤ => phaseCoeff v w P k * exp (I * k * δ) * exp (I * k * t)) (phaseFactor v w P (t + δ)) := by
    intro t
    have := hF (t + δ)
    refine (Eq.mp (congrArg (fun f => HasSum f _) ?_) this)
    funext k
    rw [mul_assoc (phaseCoeff v w P k), ← exp_add]
    congr 2
    push_cast
    ring
  have hG : ∀ t : ℝ, HasSum (fun l : ℤ => (starRingEnd ℂ) (phaseCoeff v w P (-l)) * exp (I * l * ((1 : ℤ) * t : ℝ)))
      ((starRingEnd ℂ) (phaseFactor v w P t)) := by
    intro t
    have h1 := (hasSum_conj'.2 (hF t))
    have h2 := ((Equiv.neg ℤ).hasSum_iff).2 h1
    have e : (fun l : ℤ => (starRingEnd ℂ) (phaseCoeff v w P (-l)) * exp (I * l * ((1 : ℤ) * t : ℝ))) =
        ((fun k : ℤ => (starRingEnd ℂ) (phaseCoeff v w P k * exp (I * k * t))) ∘ (Equiv.neg ℤ)) := by
      funext l
      simp only [Function.comp_apply, Equiv.neg_apply, map_mul, ← exp_conj, conj_I, conj_ofReal]
      congr 2
      push_cast
      simp
    rw [e]
    exact h2
  have h3 := fun t : ℝ => hasSum_conv hs' (norm_conj_small hs) 1 (hF' t) (hG t)
  have h4 := fcoef_of_hasSum (conv_small hs' (norm_conj_small hs) 1).sum h3 (-a)
  rw [← (((Equiv.neg ℤ).trans (Equiv.addRight (-a))).tsum_eq
    fun k : ℤ => phaseCoeff v w P k * (starRingEnd ℂ) (phaseCoeff v w P (k + a)) * exp (I * k * δ))]
  have h5 : ∑' l : ℤ, phaseCoeff v w P (-a - 1 * l) * exp (I * ((-a - 1 * l : ℤ) : ℂ) * δ) * (starRingEnd ℂ) (phaseCoeff v w P (-l))
      = fcoef (fun t => phaseFactor v w P (t + δ) * (starRingEnd ℂ) (phaseFactor v w P t)) (-a) := h4.symm
  have h6 : ∀ l : ℤ, phaseCoeff v w P (((Equiv.neg ℤ).trans (Equiv.addRight (-a))) l) *
      (starRingEnd ℂ) (phaseCoeff v w P (((Equiv.neg ℤ).trans (Equiv.addRight (-a))) l + a)) *
        exp (I * (((Equiv.neg ℤ).trans (Equiv.addRight (-a))) l : ℤ) * δ)
      = phaseCoeff v w P (-a - 1 * l) * exp (I * ((-a - 1 * l : ℤ) : ℂ) * δ) * (starRingEnd ℂ) (phaseCoeff v w P (-l)) := by
    intro l
    simp only [Equiv.trans_apply, Equiv.neg_apply, Equiv.coe_addRight]
    rw [show -l + -a = -a - 1 * l by ring, show -a - 1 * l + a = -l by ring]
    ring
  rw [tsum_congr h6, h5]
  unfold fcoef
  congr 2
  funext t
  congr 1
  · congr 1
    push_cast
    ring
  · show phaseFactor v w P (t + δ) * (starRingEnd ℂ) (phaseFactor v w P t) = _
    unfold phaseFactor
    rw [← exp_conj, ← exp_add]
    congr 1
    simp only [map_mul, conj_I, conj_ofReal]
    push_cast
    ring

theorem abs_acVoltage_le (v : ℕ → ℂ) (P : ℕ) (t : ℝ) : |acVoltage v P t| ≤ ∑ p ∈ Icc 1 P, ‖v p‖ := by
  unfold acVoltage
  refine (Finset.abs_sum_le_sum_abs _ _).trans (Finset.sum_le_sum fun p _ => ?_)
  rw [abs_mul, abs_of_nonneg (norm_nonneg _)]
  exact mul_le_of_le_one_right (norm_nonneg _) (Real.abs_cos_le_one _)

theorem continuous_junctionPhase (v : ℕ → ℂ) (w : ℝ) (P : ℕ) : Continuous (junctionPhase v w P) := by
  unfold junctionPhase
  fun_prop

variable {T : Type*} {𝓕 : Filter T}

/-- The photon distribution of a tone whose voltages are multiplied by `lam t`, with the photon
energies divided by it. -/
theorem approach_tone [𝓕.IsCountablyGenerated] {lam : T → ℝ} (h1 : ∀ t, 1 ≤ lam t) (hlim : Tendsto lam 𝓕 atTop) (v : ℕ → ℂ) {w : ℝ}
    (hw : w ≠ 0) (P : ℕ) (a : ℤ) :
    Approach 𝓕 (fun t k => phaseCoeff (fun p => lam t * v p) w P k * (starRingEnd ℂ) (phaseCoeff (fun p => lam t * v p) w P (k + a)))
      (fun t k => k * w / lam t) (acVoltage v P) a
      ((3 * (∑ p ∈ Icc 1 P, ‖v p‖) ^ 2 + 2 * (a * w) ^ 2) / 2) := by
  have h0 : ∀ t, 0 < lam t := fun t => by linarith [h1 t]
  have hE : ∀ t, Exact P (fun p => lam t * v p) ⟨phaseCoeff (fun p => lam t * v p) w P, 0, w⟩ := fun t =>
    exact_phaseCoeff _ hw P 0
  refine ⟨continuous_acVoltage v P, fun t => ?_, fun t => ?_, fun s => ?_⟩
  · have e : (fun k : ℤ => ‖phaseCoeff (fun p => lam t * v p) w P k * (starRingEnd ℂ) (phaseCoeff (fun p => lam t * v p) w P (k + a))‖)
        = fun k => ‖phaseCoeff (fun p => lam t * v p) w P k‖ * ‖phaseCoeff (fun p => lam t * v p) w P (k + a)‖ := by
      funext k
      rw [norm_mul, RCLike.norm_conj]
    rw [e]
    exact ⟨pair_summable0 (hE t).small a, (hE t).pair_le a⟩
  · refine (hE t).second_pair a (h1 t) (le_of_eq ?_)
    rw [Finset.mul_sum]
    refine Finset.sum_congr rfl fun p _ => ?_
    rw [norm_mul, norm_real, Real.norm_eq_abs, abs_of_pos (h0 t)]
  · have e : ∀ t, ∑' k : ℤ, phaseCoeff (fun p => lam t * v p) w P k * (starRingEnd ℂ) (phaseCoeff (fun p => lam t * v p) w P (k + a))
        * exp (I * s * (k * w / lam t : ℝ)) = (1 / (2 * Real.pi) : ℝ) * ∫ x in (-Real.pi)..Real.pi, exp (I * a * x) *
          exp (I * (lam t * (junctionPhase v w P (x + s * w * (lam t)⁻¹) - junctionPhase v w P x) : ℝ)) := by
      intro t
      have hp := pair_char (fun p => lam t * v p) w P a (s * w / lam t)
      have q : ∀ k : ℤ, exp (I * s * (k * w / lam t : ℝ)) = exp (I * k * (s * w / lam t : ℝ)) := by
        intro k
        congr 1
        push_cast
        ring
      simp only [q]
      rw [hp]
      simp only [junctionPhase_scale v w P (h0 t), mul_sub, div_eq_mul_inv]
    simp only [e]
    unfold periodMean
    refine Tendsto.const_mul _ ?_
    refine intervalIntegral.tendsto_integral_filter_of_dominated_convergence (fun _ => 1) ?_ ?_ ?_ ?_
    · refine Eventually.of_forall fun t => Continuous.aestronglyMeasurable ?_
      have := continuous_junctionPhase v w P
      fun_prop
    · refine Eventually.of_forall fun t => Eventually.of_forall fun x _ => ?_
      rw [norm_mul, norm_exp_I_mul, one_mul, mul_comm I, norm_exp_ofReal_mul_I]
    · exact intervalIntegrable_const
    · refine Eventually.of_forall fun x _ => Tendsto.const_mul _ ?_
      beta_reduce
      rw [show I * (s : ℂ) * (acVoltage v P x : ℂ) = I * ((s * acVoltage v P x : ℝ) : ℂ) by push_cast; ring]
      refine (continuous_exp.tendsto _).comp (Tendsto.const_mul _ ?_)
      refine (continuous_ofReal.tendsto _).comp ?_
      have hd : HasDerivAt (fun r : ℝ => junctionPhase v w P (x + s * w * r)) (s * acVoltage v P x) 0 := by
        have d1 : HasDerivAt (fun r : ℝ => x + s * w * r) (s * w) 0 := by
          simpa using ((hasDerivAt_id (0 : ℝ)).const_mul (s * w)).const_add x
        have d2 := hasDerivAt_junctionPhase v hw P (x + s * w * 0)
        have d3 := d2.comp (0 : ℝ) d1
        have q : acVoltage v P (x + s * w * 0) / w * (s * w) = s * acVoltage v P x := by
          rw [mul_zero, add_zero]
          field_simp
        rw [q] at d3
        exact d3
      have hsl := hd.tendsto_slope_zero_right.comp (tendsto_inv_atTop_nhdsGT_zero.comp hlim)
      have q : ((fun r : ℝ => r⁻¹ • ((fun r : ℝ => junctionPhase v w P (x + s * w * r)) (0 + r)
          - (fun r : ℝ => junctionPhase v w P (x + s * w * r)) 0)) ∘ (fun r : ℝ => r⁻¹) ∘ lam)
          = fun t => lam t * (junctionPhase v w P (x + s * w * (lam t)⁻¹) - junctionPhase v w P x) := by
        funext t
        simp
      rw [show ((fun y : ℝ => y⁻¹) ∘ lam) = ((fun r : ℝ => r⁻¹) ∘ lam) from rfl, q] at hsl
      exact hsl

end QMix
