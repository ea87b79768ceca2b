import Verif.Lemmas.Bessel2
import Verif.Spec.Phase

/-! Fourier coefficients of periodic functions on the real line. -/

namespace QMix

open Complex intervalIntegral MeasureTheory

theorem norm_exp_I_mul (k : ℤ) (t : ℝ) : ‖exp (I * k * t)‖ = 1 := by
  rw [show I * (k : ℂ) * (t : ℂ) = ((k * t : ℝ) : ℂ) * I by push_cast; ring]
  exact norm_exp_ofReal_mul_I _

theorem integral_exp_int {k : ℤ} (hk : k ≠ 0) : ∫ t in (-Real.pi)..Real.pi, exp (I * k * t) = 0 := by
  have hk' : (I * (k : ℂ)) ≠ 0 := mul_ne_zero I_ne_zero (by exact_mod_cast hk)
  rw [integral_exp_mul_complex hk']
  have h1 : exp (I * k * (Real.pi : ℝ)) = exp (I * k * ((-Real.pi : ℝ) : ℂ)) := by
    rw [show I * (k : ℂ) * ((Real.pi : ℝ) : ℂ) = I * k * ((-Real.pi : ℝ) : ℂ) + k * (2 * Real.pi * I) by
      push_cast; ring, exp_add, exp_int_mul_two_pi_mul_I, mul_one]
  rw [h1, sub_self, zero_div]

/-- The coefficients of an absolutely convergent trigonometric series. -/
theorem fcoef_of_hasSum {F : ℝ → ℂ} {c : ℤ → ℂ} (hc : Summable fun k => ‖c k‖)
    (h : ∀ t : ℝ, HasSum (fun k : ℤ => c k * exp (I * k * t)) (F t)) (a : ℤ) : fcoef F a = c a := by
  unfold fcoef
  let f : ℤ → C(ℝ, ℂ) := fun k => ⟨fun t => exp (-(I * a * t)) * (c k * exp (I * k * t)), by fun_prop⟩
  have hb : ∀ k t, ‖f k t‖ = ‖c k‖ := by
    intro k t
    show ‖exp (-(I * a * t)) * (c k * exp (I * k * t))‖ = _
    rw [norm_mul, norm_mul, norm_exp_I_mul, mul_one, show -(I * (a : ℂ) * t) = I * ((-a : ℤ) : ℂ) * t by push_cast; ring,
      norm_exp_I_mul, one_mul]
  have hs : Summable fun i : ℤ => ‖(f i).restrict
      (⟨Set.uIcc (-Real.pi) Real.pi, isCompact_uIcc⟩ : TopologicalSpace.Compacts ℝ)‖ := by
    refine Summable.of_nonneg_of_le (fun _ => norm_nonneg _) (fun k => ?_) hc
    rw [ContinuousMap.norm_le _ (norm_nonneg _)]
    intro x
    exact (hb k x).le
  have h1 := hasSum_intervalIntegral_of_summable_norm hs
  have h2 : ∀ t : ℝ, ∑' k, f k t = exp (-(I * a * t)) * F t := fun t => ((h t).mul_left _).tsum_eq
  simp only [h2] at h1
  have h3 : ∀ k : ℤ, ∫ t in (-Real.pi)..Real.pi, f k t = if k = a then 2 * Real.pi * c a else 0 := by
    intro k
    have e : ∀ t : ℝ, f k t = c k * exp (I * (k - a : ℤ) * t) := by
      intro t
      show exp (-(I * a * t)) * (c k * exp (I * k * t)) = _
      rw [mul_left_comm, ← exp_add]
      congr 2
      push_cast
      ring
    simp only [e]
    rw [intervalIntegral.integral_const_mul]
    split_ifs with hk
    · subst hk
      simp
      ring
    · rw [integral_exp_int (sub_ne_zero.2 hk), mul_zero]
  simp only [h3] at h1
  have h4 := h1.unique (hasSum_ite_eq a (2 * Real.pi * c a))
  rw [h4]
  have hp : (Real.pi : ℂ) ≠ 0 := by exact_mod_cast Real.pi_ne_zero
  push_cast
  field_simp

/-- A continuous periodic function with summable coefficients is the sum of its series. -/
theorem hasSum_fcoef {F : ℝ → ℂ} (hF : Continuous F) (hp : ∀ t, F (t + 2 * Real.pi) = F t)
    (hs : Summable (fcoef F)) (t : ℝ) : HasSum (fun k => fcoef F k * exp (I * k * t)) (F t) := by
  have : Fact (0 < 2 * Real.pi) := ⟨Real.two_pi_pos⟩
  have hper : Function.Periodic F (2 * Real.pi) := hp
  let g : C(AddCircle (2 * Real.pi), ℂ) := ⟨hper.lift, continuous_coinduced_dom.mpr hF⟩
  have hg : ∀ t : ℝ, g t = F t := fun t => rfl
  have hf : ∀ (k : ℤ) (t : ℝ), (fourier k (t : AddCircle (2 * Real.pi)) : ℂ) = exp (I * k * t) := by
    intro k t
    rw [fourier_coe_apply]
    congr 1
    have hp : (Real.pi : ℂ) ≠ 0 := by exact_mod_cast Real.pi_ne_zero
    push_cast
    field_simp
  have hc : ∀ k, fourierCoeff g k = fcoef F k := by
    intro k
    rw [fourierCoeff_eq_intervalIntegral g k (-Real.pi)]
    unfold fcoef
    rw [show -Real.pi + 2 * Real.pi = Real.pi by ring, real_smul]
    congr 1
    apply intervalIntegral.integral_congr
    intro t _
    dsimp only
    rw [hf, hg, smul_eq_mul]
    congr 2
    push_cast
    ring
  have hc' : fourierCoeff g = fcoef F := funext hc
  have := has_pointwise_sum_fourier_series_of_summable (f := g) (by rw [hc']; exact hs) (t : AddCircle (2 * Real.pi))
  simp only [hc, hf, hg, smul_eq_mul] at this
  exact this

/-- The Bessel function is a Fourier coefficient. -/
theorem fcoef_bessel (n : ℤ) (x : ℝ) : fcoef (fun t => exp (I * x * Real.sin t)) n = besselJ n x := by
  unfold fcoef besselJ
  have e : ∀ t : ℝ, exp (-(I * n * t)) * exp (I * x * Real.sin t) =
      (Real.cos (n * t - x * Real.sin t) : ℂ) - I * Real.sin (n * t - x * Real.sin t) := by
    intro t
    rw [← exp_add, show -(I * n * t) + I * x * Real.sin t = ((-(n * t - x * Real.sin t) : ℝ) : ℂ) * I by push_cast; ring,
      exp_mul_I, ← ofReal_cos, ← ofReal_sin, Real.cos_neg, Real.sin_neg]
    push_cast
    ring
  simp only [e]
  have hc : Continuous fun t : ℝ => Real.cos (n * t - x * Real.sin t) := by fun_prop
  have hs : Continuous fun t : ℝ => Real.sin (n * t - x * Real.sin t) := by fun_prop
  rw [intervalIntegral.integral_sub (Continuous.intervalIntegrable (by fun_prop) _ _)
    (Continuous.intervalIntegrable (by fun_prop) _ _), intervalIntegral.integral_const_mul, integral_ofReal,
    integral_ofReal]
  have hodd : ∫ t in (-Real.pi)..Real.pi, Real.sin (n * t - x * Real.sin t) = 0 := by
    have := intervalIntegral.integral_comp_neg (fun t : ℝ => Real.sin (n * t - x * Real.sin t)) (a := -Real.pi) (b := Real.pi)
    rw [neg_neg] at this
    have e2 : ∀ t : ℝ, Real.sin (n * -t - x * Real.sin (-t)) = -Real.sin (n * t - x * Real.sin t) := by
      intro t
      rw [Real.sin_neg t, ← Real.sin_neg (n * t - x * Real.sin t)]
      congr 1
      ring
    simp only [e2, intervalIntegral.integral_neg] at this
    linarith
  have heven : ∫ t in (-Real.pi)..Real.pi, Real.cos (n * t - x * Real.sin t) =
      2 * ∫ t in (0 : ℝ)..Real.pi, Real.cos (n * t - x * Real.sin t) := by
    rw [← intervalIntegral.integral_add_adjacent_intervals (b := 0) (hc.intervalIntegrable _ _) (hc.intervalIntegrable _ _)]
    have := intervalIntegral.integral_comp_neg (fun t : ℝ => Real.cos (n * t - x * Real.sin t)) (a := 0) (b := Real.pi)
    have e2 : ∀ t : ℝ, Real.cos (n * -t - x * Real.sin (-t)) = Real.cos (n * t - x * Real.sin t) := by
      intro t
      rw [Real.sin_neg, ← Real.cos_neg]
      congr 1
      ring
    simp only [e2, neg_zero] at this
    rw [← this]
    ring
  rw [hodd, heven]
  push_cast
  have hp : (Real.pi : ℂ) ≠ 0 := by exact_mod_cast Real.pi_ne_zero
  field_simp
  ring

/-- The expansion of Jacobi and Anger. -/
theorem jacobi_anger (x t : ℝ) : HasSum (fun n : ℤ => (besselJ n x : ℂ) * exp (I * n * t)) (exp (I * x * Real.sin t)) := by
  have h := hasSum_fcoef (F := fun t => exp (I * x * Real.sin t)) (by fun_prop)
    (fun t => by rw [Real.sin_add_two_pi]) (by
      have e : fcoef (fun t => exp (I * x * Real.sin t)) = fun n => (besselJ n x : ℂ) := funext fun n => fcoef_bessel n x
      rw [e]
      refine Summable.of_norm (Summable.of_nonneg_of_le (fun _ => norm_nonneg _) (fun n => ?_) (summable_besselJ x 0))
      rw [norm_real, Real.norm_eq_abs, pow_zero, one_mul]) t
  simpa only [fcoef_bessel] using h

end QMix
