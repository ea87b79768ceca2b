import Verif.Lemmas.Bessel2
import Mathlib.Analysis.SpecialFunctions.Trigonometric.Bounds

/-! The Bessel functions for small arguments. -/

namespace QMix

open Real intervalIntegral

theorem one_sub_cos_le (y : ℝ) : 1 - cos y ≤ y ^ 2 / 2 := by
  linarith [one_sub_sq_div_two_le_cos (x := y)]

theorem integral_sin_sq_pi : ∫ τ in (0 : ℝ)..π, sin τ ^ 2 = π / 2 := by
  rw [integral_sin_sq]
  simp

theorem besselJ_zero_eq (x : ℝ) : besselJ 0 x = 1 / π * ∫ τ in (0 : ℝ)..π, cos (x * sin τ) := by
  unfold besselJ
  congr 1
  apply intervalIntegral.integral_congr
  intro τ _
  simp

/-- `1 - x² / 4 ≤ J_0(x) ≤ 1`. -/
theorem besselJ_zero_bounds (x : ℝ) : 1 - x ^ 2 / 4 ≤ besselJ 0 x ∧ besselJ 0 x ≤ 1 := by
  have hp := pi_pos
  refine ⟨?_, (le_abs_self _).trans (abs_besselJ_le_one 0 x)⟩
  have h : ∫ τ in (0 : ℝ)..π, (1 - x ^ 2 / 2 * sin τ ^ 2) ≤ ∫ τ in (0 : ℝ)..π, cos (x * sin τ) := by
    apply intervalIntegral.integral_mono_on hp.le (Continuous.intervalIntegrable (by fun_prop) _ _)
      (Continuous.intervalIntegrable (by fun_prop) _ _)
    intro τ _
    have := one_sub_cos_le (x * sin τ)
    nlinarith
  rw [intervalIntegral.integral_sub (Continuous.intervalIntegrable (by fun_prop) _ _)
    (Continuous.intervalIntegrable (by fun_prop) _ _), intervalIntegral.integral_const_mul, integral_sin_sq_pi] at h
  simp only [intervalIntegral.integral_const, sub_zero, smul_eq_mul, mul_one] at h
  rw [besselJ_zero_eq]
  calc 1 - x ^ 2 / 4 = 1 / π * (π - x ^ 2 / 2 * (π / 2)) := by field_simp; ring
    _ ≤ _ := mul_le_mul_of_nonneg_left h (by positivity)

theorem abs_besselJ_zero_sub (x : ℝ) : |besselJ 0 x - 1| ≤ x ^ 2 / 4 := by
  obtain ⟨h1, h2⟩ := besselJ_zero_bounds x
  rw [abs_le]
  constructor <;> linarith [sq_nonneg x]

theorem abs_besselJ_one_le (x : ℝ) : |besselJ 1 x| ≤ |x| := by
  have := abs_besselJ_le 1 x
  simpa using this

theorem abs_besselJ_two_le (x : ℝ) : |besselJ 2 x| ≤ x ^ 2 / 2 := by
  have := abs_besselJ_le 2 x
  simpa [Nat.factorial] using this

theorem abs_besselJ_neg (n : ℤ) (x : ℝ) : |besselJ (-n) x| = |besselJ n x| := by
  rw [besselJ_neg, abs_mul, abs_zpow, abs_neg, abs_one, one_zpow, one_mul]

/-- `J_1(x) = x / 2` up to `3 |x|³ / 8`. -/
theorem abs_besselJ_one_sub (x : ℝ) : |besselJ 1 x - x / 2| ≤ 3 / 8 * |x| ^ 3 := by
  have h := besselJ_recurrence 1 x
  norm_num at h
  have e : besselJ 1 x - x / 2 = x / 2 * ((besselJ 0 x - 1) + besselJ 2 x) := by linarith
  rw [e, abs_mul, abs_div, abs_two]
  have h1 := abs_add_le (besselJ 0 x - 1) (besselJ 2 x)
  have h2 := abs_besselJ_zero_sub x
  have h3 := abs_besselJ_two_le x
  have hx := abs_nonneg x
  have hs : |x| ^ 3 = |x| * x ^ 2 := by rw [← sq_abs x]; ring
  rw [hs]
  nlinarith

/-- `J_n(x) ≤ x²` for `|n| ≥ 2` and small `x`. -/
theorem abs_besselJ_le_sq {n : ℤ} (hn : 2 ≤ |n|) {x : ℝ} (hx : |x| ≤ 1) : |besselJ n x| ≤ x ^ 2 / 2 := by
  refine (abs_besselJ_le n x).trans ?_
  have hn' : 2 ≤ n.natAbs := by
    rw [Int.abs_eq_natAbs] at hn
    exact_mod_cast hn
  have h1 : |x| ^ n.natAbs ≤ |x| ^ 2 := pow_le_pow_of_le_one (abs_nonneg x) hx hn'
  have h2 : (2 : ℝ) ≤ n.natAbs.factorial := by
    have := Nat.factorial_le hn'
    exact_mod_cast this
  rw [sq_abs] at h1
  exact div_le_div₀ (by positivity) h1 (by norm_num) h2

/-- `J_0(x) = 1 - x² / 4` up to `x⁴ / 16`. -/
theorem abs_besselJ_zero_sub' {x : ℝ} (hx : |x| ≤ 1) : |besselJ 0 x - (1 - x ^ 2 / 4)| ≤ x ^ 4 / 16 := by
  have hp := pi_pos
  have e : besselJ 0 x - (1 - x ^ 2 / 4) =
      1 / π * ∫ τ in (0 : ℝ)..π, (cos (x * sin τ) - (1 - x ^ 2 / 2 * sin τ ^ 2)) := by
    rw [intervalIntegral.integral_sub (Continuous.intervalIntegrable (by fun_prop) _ _)
      (Continuous.intervalIntegrable (by fun_prop) _ _),
      intervalIntegral.integral_sub (Continuous.intervalIntegrable (by fun_prop) _ _)
      (Continuous.intervalIntegrable (by fun_prop) _ _), intervalIntegral.integral_const_mul, integral_sin_sq_pi,
      besselJ_zero_eq]
    simp only [intervalIntegral.integral_const, sub_zero, smul_eq_mul, mul_one]
    field_simp
    ring
  have b := intervalIntegral.norm_integral_le_of_norm_le_const (a := (0 : ℝ)) (b := π) (C := x ^ 4 / 16)
    (f := fun τ => cos (x * sin τ) - (1 - x ^ 2 / 2 * sin τ ^ 2)) (by
      intro τ _
      have hs := abs_sin_le_one τ
      have hy : |x * sin τ| ≤ 1 := by
        rw [abs_mul]
        exact mul_le_one₀ hx (abs_nonneg _) hs
      have h := cos_bound hy
      rw [Real.norm_eq_abs]
      have h4 : |x * sin τ| ^ 4 ≤ x ^ 4 := by
        rw [abs_mul, mul_pow, (by decide : Even 4).pow_abs x]
        exact mul_le_of_le_one_right (by positivity) (pow_le_one₀ (abs_nonneg _) hs)
      have : 0 ≤ x ^ 4 := by positivity
      have e : cos (x * sin τ) - (1 - x ^ 2 / 2 * sin τ ^ 2) = cos (x * sin τ) - (1 - (x * sin τ) ^ 2 / 2) := by
        ring
      rw [e]
      nlinarith)
  rw [e, abs_mul, abs_of_pos (by positivity : 0 < 1 / π)]
  rw [Real.norm_eq_abs, sub_zero, abs_of_pos hp] at b
  calc _ ≤ 1 / π * (x ^ 4 / 16 * π) := mul_le_mul_of_nonneg_left b (by positivity)
    _ = _ := by field_simp

/-- `J_0(x)² = 1 - x² / 2` up to `x⁴ / 4`. -/
theorem abs_besselJ_zero_sq {x : ℝ} (hx : |x| ≤ 1) : |besselJ 0 x ^ 2 - (1 - x ^ 2 / 2)| ≤ x ^ 4 / 4 := by
  have h := abs_besselJ_zero_sub' hx
  set d := besselJ 0 x - (1 - x ^ 2 / 4) with hd
  have hx2 : x ^ 2 ≤ 1 := by rw [← sq_abs]; exact pow_le_one₀ (abs_nonneg x) hx
  have hx4 : x ^ 4 ≤ 1 := by nlinarith [sq_nonneg x]
  have hx0 : 0 ≤ x ^ 4 := by positivity
  have e : besselJ 0 x ^ 2 - (1 - x ^ 2 / 2) = x ^ 4 / 16 + 2 * d * (1 - x ^ 2 / 4) + d ^ 2 := by
    rw [hd]; ring
  rw [e]
  rw [abs_le] at h ⊢
  obtain ⟨h1, h2⟩ := h
  have hq : 0 ≤ 1 - x ^ 2 / 4 ∧ 1 - x ^ 2 / 4 ≤ 1 := ⟨by linarith, by linarith [sq_nonneg x]⟩
  have a1 : d * (1 - x ^ 2 / 4) ≤ x ^ 4 / 16 := by nlinarith
  have a2 : -(x ^ 4 / 16) ≤ d * (1 - x ^ 2 / 4) := by nlinarith
  have a3 : d ^ 2 ≤ x ^ 4 / 16 := by nlinarith
  constructor <;> nlinarith [sq_nonneg d]

/-- `J_1(x)² = x² / 4` up to `3 x⁴ / 4`. -/
theorem abs_besselJ_one_sq {x : ℝ} (hx : |x| ≤ 1) : |besselJ 1 x ^ 2 - x ^ 2 / 4| ≤ 3 / 4 * x ^ 4 := by
  have h := abs_besselJ_one_sub x
  have h2 := abs_besselJ_one_le x
  have e : besselJ 1 x ^ 2 - x ^ 2 / 4 = (besselJ 1 x - x / 2) * (besselJ 1 x + x / 2) := by ring
  rw [e, abs_mul]
  have h3 : |besselJ 1 x + x / 2| ≤ 3 / 2 * |x| := by
    refine (abs_add_le _ _).trans ?_
    rw [abs_div, abs_two]
    linarith
  have e4 : x ^ 4 = |x| ^ 3 * |x| := by rw [← pow_succ, (by decide : Even (3 + 1)).pow_abs]
  have hx3 : 0 ≤ |x| ^ 3 := by positivity
  rw [e4]
  calc _ ≤ 3 / 8 * |x| ^ 3 * (3 / 2 * |x|) := mul_le_mul h h3 (abs_nonneg _) (by positivity)
    _ ≤ _ := by nlinarith [mul_nonneg hx3 (abs_nonneg x)]

end QMix
