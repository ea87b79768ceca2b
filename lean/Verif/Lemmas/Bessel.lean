import Verif.Py.Bessel
import Mathlib.Analysis.SpecialFunctions.Integrals.Basic

/-! Facts about the Bessel function that the properties need, all proved from the integral. -/

namespace QMix

open Real intervalIntegral

theorem cos_int_mul_pi_sub (n : ℤ) (y : ℝ) : cos (n * π - y) = (-1) ^ n * cos y := by
  rw [cos_sub, sin_int_mul_pi, zero_mul, add_zero]
  congr 1
  exact Real.cos_int_mul_pi n

/-- `J_{-n}(x) = (-1)^n J_n(x)`. -/
theorem besselJ_neg (n : ℤ) (x : ℝ) : besselJ (-n) x = (-1) ^ n * besselJ n x := by
  unfold besselJ
  have h := intervalIntegral.integral_comp_sub_left
    (fun τ => cos (((-n : ℤ) : ℝ) * τ - x * sin τ)) π (a := 0) (b := π)
  simp only [sub_self, sub_zero] at h
  rw [← h]
  have : ∀ τ : ℝ, cos (((-n : ℤ) : ℝ) * (π - τ) - x * sin (π - τ))
      = (-1) ^ n * cos (n * τ - x * sin τ) := by
    intro τ
    rw [sin_pi_sub, ← cos_int_mul_pi_sub, ← cos_neg]
    congr 1
    push_cast
    ring
  simp only [this]
  rw [intervalIntegral.integral_const_mul]
  ring

/-- `J_0(0) = 1`. -/
theorem besselJ_zero_zero : besselJ 0 0 = 1 := by
  unfold besselJ
  simp [pi_ne_zero]

/-- `J_n(0) = 0` for `n ≠ 0`. -/
theorem besselJ_zero_right {n : ℤ} (hn : n ≠ 0) : besselJ n 0 = 0 := by
  unfold besselJ
  have hn' : (n : ℝ) ≠ 0 := by exact_mod_cast hn
  have : ∫ τ in (0 : ℝ)..π, cos (n * τ - 0 * sin τ) = 0 := by
    simp only [zero_mul, sub_zero]
    rw [intervalIntegral.integral_comp_mul_left (fun τ => cos τ) hn', integral_cos]
    simp [sin_int_mul_pi]
  rw [this, mul_zero]

/-- `|J_n(x)| ≤ 1`. -/
theorem abs_besselJ_le_one (n : ℤ) (x : ℝ) : |besselJ n x| ≤ 1 := by
  unfold besselJ
  have h : ‖∫ τ in (0 : ℝ)..π, cos (n * τ - x * sin τ)‖ ≤ 1 * |π - 0| := by
    apply intervalIntegral.norm_integral_le_of_norm_le_const
    intro τ _
    exact abs_cos_le_one _
  rw [abs_mul, abs_of_pos (by positivity : (0 : ℝ) < 1 / π)]
  rw [Real.norm_eq_abs, sub_zero, one_mul, abs_of_pos pi_pos] at h
  calc 1 / π * _ ≤ 1 / π * π := mul_le_mul_of_nonneg_left h (by positivity)
    _ = 1 := by field_simp

/-- `J_1(x) > 0` for `0 < x < π`. -/
theorem besselJ_one_pos {x : ℝ} (h0 : 0 < x) (h1 : x < π) : 0 < besselJ 1 x := by
  unfold besselJ
  apply mul_pos (by positivity)
  set f : ℝ → ℝ := fun τ => cos (((1 : ℤ) : ℝ) * τ - x * sin τ) with hf
  have hc : Continuous f := by fun_prop
  -- symmetrise: ∫ f = ∫ sin τ sin(x sin τ)
  have h := intervalIntegral.integral_comp_sub_left f π (a := 0) (b := π)
  simp only [sub_self, sub_zero] at h
  have key : (∫ τ in (0 : ℝ)..π, f τ) = ∫ τ in (0 : ℝ)..π, sin τ * sin (x * sin τ) := by
    have e : (∫ τ in (0 : ℝ)..π, f τ) + (∫ τ in (0 : ℝ)..π, f (π - τ))
        = 2 * ∫ τ in (0 : ℝ)..π, sin τ * sin (x * sin τ) := by
      have hc2 : Continuous fun τ => f (π - τ) := hc.comp (continuous_const.sub continuous_id)
      rw [← intervalIntegral.integral_add (hc.intervalIntegrable _ _) (hc2.intervalIntegrable _ _),
        ← intervalIntegral.integral_const_mul]
      apply intervalIntegral.integral_congr
      intro τ _
      simp only [hf, sin_pi_sub]
      rw [show ((1 : ℤ) : ℝ) * (π - τ) - x * sin τ = π - (τ + x * sin τ) by push_cast; ring,
        cos_pi_sub, cos_add, show ((1 : ℤ) : ℝ) * τ - x * sin τ = τ - x * sin τ by push_cast; ring,
        cos_sub]
      ring
    rw [h] at e
    linarith
  rw [key]
  apply intervalIntegral.intervalIntegral_pos_of_pos_on
  · exact (Continuous.intervalIntegrable (by fun_prop) _ _)
  · intro τ hτ
    have hs : 0 < sin τ := sin_pos_of_pos_of_lt_pi hτ.1 hτ.2
    have hs1 : sin τ ≤ 1 := sin_le_one τ
    apply mul_pos hs
    have hxs : 0 < x * sin τ := mul_pos h0 hs
    exact sin_pos_of_pos_of_lt_pi hxs (by nlinarith)
  · exact pi_pos

end QMix
