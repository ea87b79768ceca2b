import Verif.Lemmas.Bessel
import Mathlib.Analysis.Fourier.AddCircle
import Mathlib.Analysis.SpecialFunctions.Integrals.Basic
import Mathlib.Analysis.SpecificLimits.Normed
import Mathlib.Analysis.Normed.Algebra.Exponential
import Mathlib.Analysis.SpecialFunctions.Exponential

/-! More facts about the Bessel function: the recurrence, how fast it falls with the order, and the expansion
of Jacobi and Anger. -/

namespace QMix

open Real intervalIntegral

/-- The recurrence `x (J_{n-1}(x) + J_{n+1}(x)) = 2 n J_n(x)`. -/
theorem besselJ_recurrence (n : ℤ) (x : ℝ) :
    x * (besselJ (n - 1) x + besselJ (n + 1) x) = 2 * n * besselJ n x := by
  unfold besselJ
  have hcont : ∀ m : ℤ, Continuous fun τ : ℝ => cos (m * τ - x * sin τ) := fun m => by fun_prop
  have hd : ∀ τ ∈ Set.uIcc 0 π, HasDerivAt (fun τ : ℝ => sin (n * τ - x * sin τ))
      (cos (n * τ - x * sin τ) * (n * 1 - x * cos τ)) τ := by
    intro τ _
    exact ((hasDerivAt_sin _).comp τ (((hasDerivAt_id τ).const_mul (n : ℝ)).sub ((hasDerivAt_sin τ).const_mul x)))
  have h0 := intervalIntegral.integral_eq_sub_of_hasDerivAt hd
    (Continuous.intervalIntegrable (by fun_prop) _ _)
  simp only [sin_pi, mul_zero, sub_zero, sin_zero, sin_int_mul_pi] at h0
  have e1 : ∫ τ in (0 : ℝ)..π, cos (n * τ - x * sin τ) * (n * 1 - x * cos τ) =
      n * (∫ τ in (0 : ℝ)..π, cos (n * τ - x * sin τ))
        - x * ∫ τ in (0 : ℝ)..π, cos τ * cos (n * τ - x * sin τ) := by
    rw [← intervalIntegral.integral_const_mul, ← intervalIntegral.integral_const_mul,
      ← intervalIntegral.integral_sub (Continuous.intervalIntegrable (by fun_prop) _ _)
        (Continuous.intervalIntegrable (by fun_prop) _ _)]
    apply intervalIntegral.integral_congr
    intro τ _
    ring
  have e2 : (∫ τ in (0 : ℝ)..π, cos ((n - 1 : ℤ) * τ - x * sin τ))
      + (∫ τ in (0 : ℝ)..π, cos ((n + 1 : ℤ) * τ - x * sin τ)) =
      2 * ∫ τ in (0 : ℝ)..π, cos τ * cos (n * τ - x * sin τ) := by
    rw [← intervalIntegral.integral_const_mul,
      ← intervalIntegral.integral_add ((hcont _).intervalIntegrable _ _) ((hcont _).intervalIntegrable _ _)]
    apply intervalIntegral.integral_congr
    intro τ _
    dsimp only
    rw [show ((n - 1 : ℤ) : ℝ) * τ - x * sin τ = (n * τ - x * sin τ) - τ by push_cast; ring,
      show ((n + 1 : ℤ) : ℝ) * τ - x * sin τ = (n * τ - x * sin τ) + τ by push_cast; ring, cos_sub, cos_add]
    ring
  rw [e1] at h0
  rw [← mul_add, e2]
  have : x * ∫ τ in (0 : ℝ)..π, cos τ * cos (n * τ - x * sin τ) = n * ∫ τ in (0 : ℝ)..π, cos (n * τ - x * sin τ) := by
    linarith
  calc x * (1 / π * (2 * ∫ τ in (0 : ℝ)..π, cos τ * cos (n * τ - x * sin τ)))
      = 1 / π * 2 * (x * ∫ τ in (0 : ℝ)..π, cos τ * cos (n * τ - x * sin τ)) := by ring
    _ = _ := by rw [this]; ring

/-- `|J_n(x)| ≤ |x|^m (n - m)! / n!` for `m ≤ n`. -/
theorem abs_besselJ_le_aux (x : ℝ) (m : ℕ) : ∀ n : ℤ, m ≤ n.natAbs →
    |besselJ n x| * n.natAbs.factorial ≤ |x| ^ m * (n.natAbs - m).factorial := by
  induction m with
  | zero =>
    intro n _
    rw [pow_zero, one_mul, Nat.sub_zero]
    exact mul_le_of_le_one_left (Nat.cast_nonneg _) (abs_besselJ_le_one n x)
  | succ m ih =>
    intro n hn
    -- the neighbours
    have nb : ∀ k : ℤ, (k = n - 1 ∨ k = n + 1) → |besselJ k x| * (n.natAbs - 1).factorial
        ≤ |x| ^ m * (n.natAbs - 1 - m).factorial := by
      intro k hk
      have hk' : n.natAbs - 1 ≤ k.natAbs := by omega
      have hm : m ≤ k.natAbs := by omega
      have h1 := ih k hm
      have hdiv : ((k.natAbs - m).factorial : ℝ) * (n.natAbs - 1).factorial ≤
          (n.natAbs - 1 - m).factorial * k.natAbs.factorial := by
        -- descending factorials grow
        have d1 : (k.natAbs - m).factorial * k.natAbs.descFactorial m = k.natAbs.factorial :=
          Nat.factorial_mul_descFactorial hm
        have d2 : (n.natAbs - 1 - m).factorial * (n.natAbs - 1).descFactorial m = (n.natAbs - 1).factorial :=
          Nat.factorial_mul_descFactorial (by omega)
        have d3 : (n.natAbs - 1).descFactorial m ≤ k.natAbs.descFactorial m := Nat.descFactorial_le m hk'
        rw [← d1, ← d2]
        push_cast
        have : (((n.natAbs - 1).descFactorial m : ℕ) : ℝ) ≤ (k.natAbs.descFactorial m : ℕ) := by exact_mod_cast d3
        have p : (0 : ℝ) ≤ ((k.natAbs - m).factorial : ℝ) * ((n.natAbs - 1 - m).factorial : ℝ) := by positivity
        nlinarith [mul_le_mul_of_nonneg_left this p]
      have hkf : (0 : ℝ) < k.natAbs.factorial := by exact_mod_cast Nat.factorial_pos _
      refine le_of_mul_le_mul_right ?_ hkf
      calc |besselJ k x| * ((n.natAbs - 1).factorial : ℝ) * k.natAbs.factorial
          = (|besselJ k x| * k.natAbs.factorial) * (n.natAbs - 1).factorial := by ring
        _ ≤ (|x| ^ m * (k.natAbs - m).factorial) * (n.natAbs - 1).factorial :=
            mul_le_mul_of_nonneg_right h1 (Nat.cast_nonneg _)
        _ = |x| ^ m * ((k.natAbs - m).factorial * (n.natAbs - 1).factorial) := by ring
        _ ≤ |x| ^ m * ((n.natAbs - 1 - m).factorial * k.natAbs.factorial) :=
            mul_le_mul_of_nonneg_left hdiv (by positivity)
        _ = _ := by ring
    have hrec := congrArg abs (besselJ_recurrence n x)
    rw [abs_mul, abs_mul, abs_mul, abs_two] at hrec
    have hna : |(n : ℝ)| = n.natAbs := by
      rw [← Int.cast_abs, Int.abs_eq_natAbs]
      simp
    rw [hna] at hrec
    have hf : (n.natAbs.factorial : ℝ) = n.natAbs * (n.natAbs - 1).factorial := by
      have := Nat.mul_factorial_pred (show n.natAbs ≠ 0 by omega)
      exact_mod_cast this.symm
    have hs := abs_add_le (besselJ (n - 1) x) (besselJ (n + 1) x)
    have h1 := nb (n - 1) (Or.inl rfl)
    have h2 := nb (n + 1) (Or.inr rfl)
    have hx := abs_nonneg x
    have hg : (0 : ℝ) ≤ (n.natAbs - 1).factorial := Nat.cast_nonneg _
    have e : n.natAbs - (m + 1) = n.natAbs - 1 - m := by omega
    rw [hf, e, pow_succ]
    have : 2 * (|besselJ n x| * (n.natAbs * (n.natAbs - 1).factorial)) ≤
        2 * (|x| ^ m * |x| * (n.natAbs - 1 - m).factorial) := by
      calc 2 * (|besselJ n x| * (n.natAbs * (n.natAbs - 1).factorial))
          = (2 * n.natAbs * |besselJ n x|) * (n.natAbs - 1).factorial := by ring
        _ = |x| * |besselJ (n - 1) x + besselJ (n + 1) x| * (n.natAbs - 1).factorial := by rw [← hrec]
        _ ≤ |x| * (|besselJ (n - 1) x| + |besselJ (n + 1) x|) * (n.natAbs - 1).factorial := by gcongr
        _ = |x| * (|besselJ (n - 1) x| * (n.natAbs - 1).factorial
              + |besselJ (n + 1) x| * (n.natAbs - 1).factorial) := by ring
        _ ≤ |x| * (|x| ^ m * (n.natAbs - 1 - m).factorial + |x| ^ m * (n.natAbs - 1 - m).factorial) := by gcongr
        _ = _ := by ring
    linarith

/-- `|J_n(x)| ≤ |x|^|n| / |n|!`. -/
theorem abs_besselJ_le (n : ℤ) (x : ℝ) : |besselJ n x| ≤ |x| ^ n.natAbs / n.natAbs.factorial := by
  have := abs_besselJ_le_aux x n.natAbs n le_rfl
  rw [Nat.sub_self, Nat.factorial_zero, Nat.cast_one, mul_one] at this
  rw [le_div_iff₀ (by exact_mod_cast Nat.factorial_pos _)]
  exact this

/-- Weighted sums of Bessel functions converge, whatever the power of the weight. -/
theorem summable_besselJ (x : ℝ) (m : ℕ) : Summable fun n : ℤ => (1 + |(n : ℝ)|) ^ m * |besselJ n x| := by
  have hb : Summable fun n : ℕ => (1 + (n : ℝ)) ^ m * (|x| ^ n / n.factorial) := by
    have h1 := (Real.summable_pow_div_factorial (Real.exp 1 * |x|)).mul_left (m.factorial * Real.exp 1)
    refine Summable.of_nonneg_of_le (fun n => by positivity) (fun n => ?_) h1
    have h2 : (1 + (n : ℝ)) ^ m ≤ m.factorial * Real.exp 1 * Real.exp 1 ^ n := by
      have h3 := Real.pow_div_factorial_le_exp (1 + (n : ℝ)) (by positivity) m
      rw [div_le_iff₀ (by exact_mod_cast Nat.factorial_pos m), Real.exp_add] at h3
      have h4 : Real.exp n = Real.exp 1 ^ n := by rw [← Real.exp_nat_mul, mul_one]
      rw [h4] at h3
      linarith
    calc (1 + (n : ℝ)) ^ m * (|x| ^ n / n.factorial)
        ≤ (m.factorial * Real.exp 1 * Real.exp 1 ^ n) * (|x| ^ n / n.factorial) :=
          mul_le_mul_of_nonneg_right h2 (by positivity)
      _ = _ := by rw [mul_pow]; ring
  have key : ∀ n : ℤ, (1 + |(n : ℝ)|) ^ m * |besselJ n x| ≤ (1 + (n.natAbs : ℝ)) ^ m * (|x| ^ n.natAbs / n.natAbs.factorial) := by
    intro n
    have hna : |(n : ℝ)| = n.natAbs := by
      rw [← Int.cast_abs, Int.abs_eq_natAbs]
      simp
    rw [hna]
    exact mul_le_mul_of_nonneg_left (abs_besselJ_le n x) (by positivity)
  refine Summable.of_nonneg_of_le (fun n => by positivity) key ?_
  apply Summable.of_nat_of_neg
  · simpa using hb
  · simpa using hb

end QMix
