import Verif.Lemmas.Limit
import Mathlib.MeasureTheory.Integral.IntervalIntegral.IntegrationByParts

/-! Identities of the exact coefficients of a tone. -/

namespace QMix

open Complex Filter Topology Finset Spec MeasureTheory

theorem norm_phaseFactor (v : ℕ → ℂ) (w : ℝ) (P : ℕ) (t : ℝ) : ‖phaseFactor v w P t‖ = 1 := by
  unfold phaseFactor
  rw [mul_comm]
  exact norm_exp_ofReal_mul_I _

/-- The phase is the integral of the ac voltage. -/
theorem hasDerivAt_junctionPhase (v : ℕ → ℂ) {w : ℝ} (hw : w ≠ 0) (P : ℕ) (t : ℝ) :
    HasDerivAt (junctionPhase v w P) (acVoltage v P t / w) t := by
  unfold acVoltage
  rw [Finset.sum_div]
  unfold junctionPhase
  refine HasDerivAt.fun_sum fun p hp => ?_
  have hp0 : (p : ℝ) ≠ 0 := by
    have := (Finset.mem_Icc.1 hp).1
    exact_mod_cast (by omega : p ≠ 0)
  have h1 : HasDerivAt (fun t : ℝ => (p : ℝ) * t - arg (v p)) (p : ℝ) t := by
    simpa using ((hasDerivAt_id t).const_mul (p : ℝ)).sub_const (arg (v p))
  have h2 := (h1.sin).const_mul (‖v p‖ / (p * w))
  refine h2.congr_deriv ?_
  field_simp

theorem hasDerivAt_phaseFactor (v : ℕ → ℂ) {w : ℝ} (hw : w ≠ 0) (P : ℕ) (t : ℝ) :
    HasDerivAt (phaseFactor v w P) (I * (acVoltage v P t / w : ℝ) * phaseFactor v w P t) t := by
  unfold phaseFactor
  have h := ((hasDerivAt_junctionPhase v hw P t).ofReal_comp.const_mul I).cexp
  convert h using 1
  ring

theorem continuous_acVoltage (v : ℕ → ℂ) (P : ℕ) : Continuous (acVoltage v P) := by
  unfold acVoltage
  fun_prop

theorem continuous_phaseFactor (v : ℕ → ℂ) (w : ℝ) (P : ℕ) : Continuous (phaseFactor v w P) := by
  unfold phaseFactor junctionPhase
  fun_prop

theorem phaseFactor_periodic (v : ℕ → ℂ) (w : ℝ) (P : ℕ) : phaseFactor v w P (-Real.pi) = phaseFactor v w P Real.pi := by
  unfold phaseFactor junctionPhase
  congr 3
  refine Finset.sum_congr rfl fun p _ => ?_
  congr 1
  rw [show (p : ℝ) * Real.pi - arg (v p) = (p * -Real.pi - arg (v p)) + p * (2 * Real.pi) by ring,
    Real.sin_add_nat_mul_two_pi]

theorem acVoltage_exp (v : ℕ → ℂ) (P : ℕ) (t : ℝ) :
    (acVoltage v P t : ℂ) = ∑ p ∈ Icc 1 P, ((starRingEnd ℂ) (v p) * exp (I * (p : ℤ) * t) + v p * exp (-(I * (p : ℤ) * t))) / 2 := by
  unfold acVoltage
  push_cast
  refine Finset.sum_congr rfl fun p _ => ?_
  rw [show Complex.cos ((p : ℂ) * t - (arg (v p) : ℂ))
      = (exp ((p * t - arg (v p)) * I) + exp (-(p * t - arg (v p)) * I)) / 2 from rfl]
  have e1 : (v p : ℂ) = ‖v p‖ * exp (arg (v p) * I) := (norm_mul_exp_arg_mul_I (v p)).symm
  have e2 : (starRingEnd ℂ) (v p) = ‖v p‖ * exp (-(arg (v p) * I)) := by
    conv_lhs => rw [e1]
    rw [map_mul, ← exp_conj, conj_ofReal, map_mul, conj_ofReal, conj_I, mul_neg]
  have a1 : exp ((p * t - arg (v p)) * I) = exp (-(arg (v p) * I)) * exp (I * (p : ℤ) * t) := by
    rw [← exp_add]
    congr 1
    push_cast
    ring
  have a2 : exp (-(p * t - arg (v p)) * I) = exp (arg (v p) * I) * exp (-(I * (p : ℤ) * t)) := by
    rw [← exp_add]
    congr 1
    push_cast
    ring
  rw [e2, a1, a2]
  linear_combination (-exp (-(I * (p : ℤ) * t)) / 2) * e1

theorem intervalIntegrable_fourier {F : ℝ → ℂ} (hF : Continuous F) (k : ℤ) (a b : ℝ) :
    IntervalIntegrable (fun t : ℝ => exp (-(I * k * t)) * F t) volume a b := by
  refine Continuous.intervalIntegrable ?_ _ _
  fun_prop

/-- Multiplication with a harmonic shifts the coefficients. -/
theorem fcoef_shift (F : ℝ → ℂ) (k p : ℤ) : fcoef (fun t => exp (I * p * t) * F t) k = fcoef F (k - p) := by
  unfold fcoef
  congr 1
  refine intervalIntegral.integral_congr fun t _ => ?_
  show exp (-(I * k * t)) * (exp (I * p * t) * F t) = _
  rw [← mul_assoc, ← exp_add]
  congr 2
  push_cast
  ring

/-- The recurrence of the exact coefficients. -/
theorem phaseCoeff_recurrence (v : ℕ → ℂ) {w : ℝ} (hw : w ≠ 0) (P : ℕ) (k : ℤ) :
    (k : ℂ) * w * phaseCoeff v w P k
      = ∑ p ∈ Icc 1 P, ((starRingEnd ℂ) (v p) * phaseCoeff v w P (k - p) + v p * phaseCoeff v w P (k + p)) / 2 := by
  have hcF := continuous_phaseFactor v w P
  have hcV := continuous_acVoltage v P
  -- integration by parts
  have h1 : fcoef (fun t => I * (acVoltage v P t / w : ℝ) * phaseFactor v w P t) k = I * k * phaseCoeff v w P k := by
    unfold phaseCoeff fcoef
    have hd : ∀ t ∈ Set.uIcc (-Real.pi) Real.pi, HasDerivAt (fun t : ℝ => exp (-(I * k * t))) (-(I * k) * exp (-(I * k * t))) t := by
      intro t _
      have : HasDerivAt (fun t : ℝ => -(I * k * (t : ℂ))) (-(I * k)) t := by
        simpa using (hasDerivAt_id t).ofReal_comp.const_mul (-(I * (k : ℂ)))
      convert this.cexp using 1
      ring
    have hp := intervalIntegral.integral_mul_deriv_eq_deriv_mul hd
      (fun t _ => hasDerivAt_phaseFactor v hw P t)
      (Continuous.intervalIntegrable (by fun_prop) _ _) (Continuous.intervalIntegrable (by fun_prop) _ _)
    rw [hp]
    have hb : exp (-(I * k * (Real.pi : ℝ))) = exp (-(I * k * ((-Real.pi : ℝ) : ℂ))) := by
      rw [show -(I * (k : ℂ) * ((-Real.pi : ℝ) : ℂ)) = -(I * k * (Real.pi : ℝ)) + k * (2 * Real.pi * I) by
        push_cast; ring, exp_add, exp_int_mul_two_pi_mul_I, mul_one]
    rw [hb, ← phaseFactor_periodic, sub_self, zero_sub]
    have : ∀ t : ℝ, -(I * k) * exp (-(I * k * t)) * phaseFactor v w P t
        = -(I * k) * (exp (-(I * k * t)) * phaseFactor v w P t) := fun t => by ring
    simp only [this]
    rw [intervalIntegral.integral_const_mul]
    ring
  have h2 : (w : ℂ) * fcoef (fun t => I * (acVoltage v P t / w : ℝ) * phaseFactor v w P t) k
      = I * ∑ p ∈ Icc 1 P, ((starRingEnd ℂ) (v p) * phaseCoeff v w P (k - p) + v p * phaseCoeff v w P (k + p)) / 2 := by
    have e : ∀ t : ℝ, (w : ℂ) * (exp (-(I * k * t)) * (I * (acVoltage v P t / w : ℝ) * phaseFactor v w P t))
        = ∑ p ∈ Icc 1 P, (I * (starRingEnd ℂ) (v p) / 2 * (exp (-(I * (k - p : ℤ) * t)) * phaseFactor v w P t)
          + I * v p / 2 * (exp (-(I * (k + p : ℤ) * t)) * phaseFactor v w P t)) := by
      intro t
      have hw' : (w : ℂ) ≠ 0 := by exact_mod_cast hw
      rw [show (w : ℂ) * (exp (-(I * k * t)) * (I * (acVoltage v P t / w : ℝ) * phaseFactor v w P t))
        = (acVoltage v P t : ℂ) * (I * exp (-(I * k * t)) * phaseFactor v w P t) by push_cast; field_simp,
        acVoltage_exp, Finset.sum_mul]
      refine Finset.sum_congr rfl fun p _ => ?_
      have a1 : exp (-(I * (k - p : ℤ) * t)) = exp (I * (p : ℤ) * t) * exp (-(I * k * t)) := by
        rw [← exp_add]
        congr 1
        push_cast
        ring
      have a2 : exp (-(I * (k + p : ℤ) * t)) = exp (-(I * (p : ℤ) * t)) * exp (-(I * k * t)) := by
        rw [← exp_add]
        congr 1
        push_cast
        ring
      rw [a1, a2]
      ring
    unfold phaseCoeff fcoef
    rw [mul_left_comm, ← intervalIntegral.integral_const_mul]
    simp only [e]
    rw [intervalIntegral.integral_finsetSum fun p _ =>
      ((intervalIntegrable_fourier hcF _ _ _).const_mul _).add ((intervalIntegrable_fourier hcF _ _ _).const_mul _)]
    rw [Finset.mul_sum, Finset.mul_sum]
    refine Finset.sum_congr rfl fun p _ => ?_
    rw [intervalIntegral.integral_add ((intervalIntegrable_fourier hcF _ _ _).const_mul _)
      ((intervalIntegrable_fourier hcF _ _ _).const_mul _), intervalIntegral.integral_const_mul,
      intervalIntegral.integral_const_mul]
    ring
  rw [h1] at h2
  have h3 : I * ((k : ℂ) * w * phaseCoeff v w P k) = I * ∑ p ∈ Icc 1 P,
      ((starRingEnd ℂ) (v p) * phaseCoeff v w P (k - p) + v p * phaseCoeff v w P (k + p)) / 2 := by
    rw [← h2]
    ring
  exact mul_left_cancel₀ I_ne_zero h3

theorem norm_conj_small {C : ℤ → ℂ} (h : Small fun k => ‖C k‖) : Small fun k => ‖(starRingEnd ℂ) (C (-k))‖ := by
  simp only [RCLike.norm_conj]
  refine ⟨fun k => norm_nonneg _, fun m => ?_⟩
  have := ((Equiv.neg ℤ).summable_iff).2 (h.summable m)
  refine this.congr fun k => ?_
  simp

/-- The exact coefficients are orthonormal under shifts. -/
theorem phaseCoeff_orth (v : ℕ → ℂ) (w : ℝ) (P : ℕ) (a : ℤ) :
    HasSum (fun k : ℤ => phaseCoeff v w P k * (starRingEnd ℂ) (phaseCoeff v w P (k + a))) (if a = 0 then 1 else 0) := by
  obtain ⟨hs, hF⟩ := phaseCoeff_series v w P
  have hG : ∀ t : ℝ, HasSum (fun l : ℤ => (starRingEnd ℂ) (phaseCoeff v w P (-l)) * exp (I * l * ((1 : ℤ) * t : ℝ)))
      ((starRingEnd ℂ) (phaseFactor v w P t)) := by
    intro t
    have h1 := (hasSum_conj'.2 (hF t))
    have h2 := ((Equiv.neg ℤ).hasSum_iff).2 h1
    have e : (fun l : ℤ => (starRingEnd ℂ) (phaseCoeff v w P (-l)) * exp (I * l * ((1 : ℤ) * t : ℝ))) =
        ((fun k : ℤ => (starRingEnd ℂ) (phaseCoeff v w P k * exp (I * k * t))) ∘ (Equiv.neg ℤ)) := by
      funext l
      simp only [Function.comp_apply, Equiv.neg_apply, map_mul, ← exp_conj, conj_I, conj_ofReal]
      congr 2
      push_cast
      simp
    rw [e]
    exact h2
  have h3 := fun t : ℝ => hasSum_conv hs (norm_conj_small hs) 1 (hF t) (hG t)
  have h4 : ∀ k : ℤ, ∑' l, phaseCoeff v w P (k - 1 * l) * (starRingEnd ℂ) (phaseCoeff v w P (-l)) = if k = 0 then 1 else 0 := by
    intro k
    have c1 := fcoef_of_hasSum (conv_small hs (norm_conj_small hs) 1).sum h3 k
    rw [← c1]
    have : (fun t => phaseFactor v w P t * (starRingEnd ℂ) (phaseFactor v w P t)) = phaseFactor v w 0 := by
      funext t
      rw [mul_conj, normSq_eq_norm_sq, norm_phaseFactor, phaseFactor_zero]
      norm_num
    rw [this]
    exact phaseCoeff_zero v w k
  -- conjugate and reindex
  have h5 := h4 (-a)
  have hsum : Summable fun k : ℤ => phaseCoeff v w P k * (starRingEnd ℂ) (phaseCoeff v w P (k + a)) := by
    refine Summable.of_norm ?_
    obtain ⟨B, hB0, hB⟩ := hs.bounded 0
    refine Summable.of_nonneg_of_le (fun _ => norm_nonneg _) (fun k => ?_) (hs.sum.mul_right B)
    rw [norm_mul, RCLike.norm_conj]
    refine mul_le_mul_of_nonneg_left ?_ (norm_nonneg _)
    simpa using hB (k + a)
  have h6 : ∑' k : ℤ, phaseCoeff v w P k * (starRingEnd ℂ) (phaseCoeff v w P (k + a)) = if a = 0 then 1 else 0 := by
    rw [← (((Equiv.neg ℤ).trans (Equiv.addRight (-a))).tsum_eq
      fun k : ℤ => phaseCoeff v w P k * (starRingEnd ℂ) (phaseCoeff v w P (k + a)))]
    have : (if -a = 0 then (1 : ℂ) else 0) = if a = 0 then 1 else 0 := by simp
    rw [← this, ← h5]
    refine tsum_congr fun l => ?_
    simp only [Equiv.trans_apply, Equiv.neg_apply, Equiv.coe_addRight]
    rw [show -l + -a = -a - 1 * l by ring, show -a - 1 * l + a = -l by ring]
  rw [← h6]
  exact hsum.hasSum

end QMix
