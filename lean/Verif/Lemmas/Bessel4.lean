import Verif.Lemmas.Bessel3
import Mathlib.Analysis.Calculus.ParametricIntervalIntegral
import Mathlib.Analysis.Calculus.MeanValue

/-! The derivative of the Bessel functions and the bound `|J_n(x)| ≤ |x / 2|^n / n!`. -/

namespace QMix

open Real intervalIntegral MeasureTheory

/-- `J_n'(x) = (J_{n-1}(x) - J_{n+1}(x)) / 2`. -/
theorem hasDerivAt_besselJ (n : ℤ) (x : ℝ) :
    HasDerivAt (besselJ n) ((besselJ (n - 1) x - besselJ (n + 1) x) / 2) x := by
  have h := (hasDerivAt_integral_of_dominated_loc_of_deriv_le (μ := volume) (a := 0) (b := π) (x₀ := x)
    (F := fun x τ => cos (n * τ - x * sin τ)) (F' := fun x τ => sin (n * τ - x * sin τ) * sin τ) (bound := fun _ => 1)
    (s := Set.univ) Filter.univ_mem
    (Filter.Eventually.of_forall fun y => Continuous.aestronglyMeasurable (by fun_prop))
    (Continuous.intervalIntegrable (by fun_prop) _ _) (Continuous.aestronglyMeasurable (by fun_prop))
    (Filter.Eventually.of_forall fun τ _ y _ => ?_) (by simp) (Filter.Eventually.of_forall fun τ _ y _ => ?_)).2
  · have h2 := h.const_mul (1 / π)
    have e : (1 / π) * ∫ τ in (0 : ℝ)..π, sin (n * τ - x * sin τ) * sin τ
        = (besselJ (n - 1) x - besselJ (n + 1) x) / 2 := by
      unfold besselJ
      have hcont : ∀ m : ℤ, Continuous fun τ : ℝ => cos (m * τ - x * sin τ) := fun m => by fun_prop
      rw [← mul_sub, ← intervalIntegral.integral_sub ((hcont _).intervalIntegrable _ _) ((hcont _).intervalIntegrable _ _),
        mul_div_assoc, ← intervalIntegral.integral_div]
      congr 1
      apply intervalIntegral.integral_congr
      intro τ _
      dsimp only
      rw [show ((n - 1 : ℤ) : ℝ) * τ - x * sin τ = (n * τ - x * sin τ) - τ by push_cast; ring,
        show ((n + 1 : ℤ) : ℝ) * τ - x * sin τ = (n * τ - x * sin τ) + τ by push_cast; ring, cos_sub, cos_add]
      ring
    rw [e] at h2
    exact h2
  · rw [norm_mul, Real.norm_eq_abs, Real.norm_eq_abs]
    exact mul_le_one₀ (abs_sin_le_one _) (abs_nonneg _) (abs_sin_le_one _)
  · have h1 : HasDerivAt (fun y : ℝ => n * τ - y * sin τ) (0 - 1 * sin τ) y :=
      (hasDerivAt_const y _).sub ((hasDerivAt_id y).mul_const _)
    have h2 := (hasDerivAt_cos (n * τ - y * sin τ)).comp y h1
    exact h2.congr_deriv (by ring)

/-- `(x^n J_n)' = x^n J_{n-1}`. -/
theorem hasDerivAt_pow_besselJ (n : ℕ) (x : ℝ) :
    HasDerivAt (fun x => x ^ (n + 1) * besselJ (n + 1 : ℕ) x) (x ^ (n + 1) * besselJ n x) x := by
  have h := (hasDerivAt_pow (n + 1) x).mul (hasDerivAt_besselJ (n + 1 : ℕ) x)
  have r := besselJ_recurrence (n + 1 : ℕ) x
  refine h.congr_deriv ?_
  rw [show ((n + 1 : ℕ) : ℤ) - 1 = n by push_cast; ring] at r ⊢
  have e : ((n + 1 : ℕ) : ℝ) * x ^ (n + 1 - 1) * besselJ (n + 1 : ℕ) x
      = x ^ n * (2 * ((n + 1 : ℕ) : ℤ) * besselJ (n + 1 : ℕ) x) / 2 := by
    rw [Nat.add_sub_cancel]; push_cast; ring
  rw [e, ← r]
  ring

theorem abs_besselJ_le_half_nat (n : ℕ) : ∀ x : ℝ, 0 ≤ x → |besselJ n x| ≤ (x / 2) ^ n / n.factorial := by
  induction n with
  | zero => intro x _; simpa using abs_besselJ_le_one 0 x
  | succ n ih =>
    intro x hx
    rcases hx.eq_or_lt with rfl | hx
    · rw [besselJ_zero_right (by omega)]
      simp
    have hf : (0 : ℝ) < (n + 1).factorial := by exact_mod_cast Nat.factorial_pos _
    have hn : (0 : ℝ) < n.factorial := by exact_mod_cast Nat.factorial_pos _
    have key := image_norm_le_of_norm_deriv_right_le_deriv_boundary (a := 0) (b := x)
      (f := fun x => x ^ (n + 1) * besselJ (n + 1 : ℕ) x) (f' := fun x => x ^ (n + 1) * besselJ n x)
      (B := fun x => x ^ (2 * n + 2) / (2 ^ (n + 1) * (n + 1).factorial))
      (B' := fun x => (2 * n + 2 : ℕ) * x ^ (2 * n + 1) / (2 ^ (n + 1) * (n + 1).factorial))
      (fun y _ => (hasDerivAt_pow_besselJ n y).continuousAt.continuousWithinAt)
      (fun y _ => (hasDerivAt_pow_besselJ n y).hasDerivWithinAt) (by simp)
      (fun y => (hasDerivAt_pow (2 * n + 2) y).div_const _)
      (fun y hy => ?_) (Set.right_mem_Icc.2 hx.le)
    · simp only [norm_mul, norm_pow, Real.norm_eq_abs, abs_of_pos hx] at key
      have hp : (0 : ℝ) < x ^ (n + 1) := by positivity
      refine le_of_mul_le_mul_left (key.trans_eq ?_) hp
      rw [div_pow]
      field_simp
      ring
    · rw [norm_mul, Real.norm_eq_abs, Real.norm_eq_abs, abs_of_nonneg (pow_nonneg hy.1 _)]
      refine (mul_le_mul_of_nonneg_left (ih y hy.1) (pow_nonneg hy.1 _)).trans_eq ?_
      rw [Nat.factorial_succ, div_pow]
      push_cast
      field_simp
      ring

/-- `|J_n(x)| ≤ |x / 2|^|n| / |n|!`. -/
theorem abs_besselJ_le_half (n : ℤ) {x : ℝ} (hx : 0 ≤ x) : |besselJ n x| ≤ (x / 2) ^ n.natAbs / n.natAbs.factorial := by
  rcases Int.natAbs_eq n with h | h
  · have := abs_besselJ_le_half_nat n.natAbs x hx
    rwa [← h] at this
  · have := abs_besselJ_le_half_nat n.natAbs x hx
    rwa [← abs_besselJ_neg, ← h] at this

end QMix
