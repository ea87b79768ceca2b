import Mathlib.Analysis.Real.Sqrt
import Mathlib.Data.Nat.Factorial.Basic
import Mathlib.Analysis.Complex.Norm
import Mathlib.Analysis.Complex.Exponential
import Mathlib.Order.Interval.Finset.Nat
import Mathlib.Algebra.Order.BigOperators.Ring.Finset

/-!
# Specification: how much a truncated Bessel sum leaves out

For the drive level `x` (voltage over photon energy) and the summation limit `n`:
`5 (x/2)^n / n! * (x/2)^(n+1) / (n+1)!`. With several harmonics there is one bound for every base `ρ`.
-/

namespace QMix.Spec

/-- The part of a sum of products of two Bessel functions of `x` that the summation limit `n` leaves out. -/
noncomputable def leftOut (x : ℝ) (n : ℕ) : ℝ :=
  5 * ((x / 2) ^ n / n.factorial * ((x / 2) ^ (n + 1) / (n + 1).factorial))

/-- How far the coefficients of a tone of frequency `w` with harmonic voltages `v 1, ..., v P` are, with the summation limit
`n`, from the exact ones: `(2 P + 1) (1 + (n + 1) w) ρ^-(n+1) Π_p 2 exp(|v_p| ρ^p / (2 p w))`, for any `ρ`. -/
noncomputable def coeffLeftOut (v : ℕ → ℂ) (w : ℝ) (P n : ℕ) (ρ : ℝ) : ℝ :=
  (2 * P + 1) * ((1 + (n + 1) * w) / ρ ^ (n + 1)) * ∏ p ∈ Finset.Icc 1 P, (2 * Real.exp (‖v p‖ / (p * w) / 2 * ρ ^ p))

end QMix.Spec
