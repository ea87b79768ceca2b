import Mathlib.MeasureTheory.Integral.IntervalIntegral.Basic
import Mathlib.Analysis.SpecialFunctions.Trigonometric.Basic

/-!
# The Bessel function of the first kind

SciPy's `jv`, `j0` and `j1` of integer order are modelled by Bessel's integral.
-/

namespace QMix

/-- `scipy.special.jv(n, x)` for integer order `n` (and `j0`, `j1`): Bessel's first integral
`J_n(x) = (1/π) ∫₀^π cos(n τ - x sin τ) dτ`. Used by `qmix/qtcurrent.py:26-27` and
`qmix/exp/exp_data.py:26`. SciPy's numerical error is not modelled. -/
noncomputable def besselJ (n : ℤ) (x : ℝ) : ℝ :=
  (1 / Real.pi) * ∫ τ in (0 : ℝ)..Real.pi, Real.cos (n * τ - x * Real.sin τ)

end QMix
