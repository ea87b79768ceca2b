import Verif.Model.CircuitFp
import Verif.Model.MathFn

/-!
# The polynomial I-V curve in floating-point arithmetic
-/

namespace QMix.MathFn

open QMix.CctFp

variable {u : ℝ}

/-- `np.power` with an integer exponent: a function that is right up to `p` roundings, with the right result at zero. (NumPy uses the `pow` of
the C library, which is right up to one or two.) -/
structure Power (u : ℝ) (p : ℕ) where
  pow : ℝ → ℕ → ℝ
  pow_le : ∀ v n, |pow v n - v ^ n| ≤ (1 - (1 - u) ^ p) * |v ^ n|

/-- `polynomial`, `qmix/mathfn/ivcurve_models.py:85-101`, for one voltage of an array and an order that is a natural number, with a rounding after
the sum and the quotient. Overflow (see `polynomialF`) and underflow are not modelled. -/
noncomputable def polynomialR {p : ℕ} (A : Fp u) (P : Power u p) (v : ℝ) (order : ℕ) : ℝ :=
  A.rnd (P.pow v (2 * order + 1) / A.rnd (1 + P.pow v (2 * order)))

end QMix.MathFn
