import Verif.Model.MathFn

/-!
# Model of `polynomial` with the number ranges of NumPy

`qmix/mathfn/ivcurve_models.py:85-101` with the ranges of the two kinds of numbers an array can hold; see `Model/MathFn.lean` for the
same function on real numbers.
-/

namespace QMix.PolyRange

open QMix.Np QMix.MathFn

/-- 64-bit integers wrap around (two's complement); NumPy gives no warning for arrays. -/
def wrap (k : ℤ) : ℤ := Int.bmod k (2 ^ 64)

/-- `voltage ** e` for an array of 64-bit integers and an `int`: a negative exponent is a `ValueError`. Repeated products that wrap
around give the wrapped power. -/
def ipow (v e : ℤ) : Py ℤ := do
  raiseIf (e < 0) .value
  pure (wrap (v ^ e.toNat))

/-- `polynomial`, `qmix/mathfn/ivcurve_models.py:85-101`, for one element of an array of 64-bit integers and an `int` order. The
division is a division of floats. -/
noncomputable def polynomialI (v order : ℤ) : Py ℝ := do
  let a ← ipow v (2 * order + 1)
  let b ← ipow v (2 * order)
  fdiv (a : ℝ) (wrap (1 + b) : ℝ)

/-- Numbers from here on become infinite in double precision. -/
noncomputable def dblLimit : ℝ := 2 ^ 1024 - 2 ^ 970

/-- `v ** e` for a double, rounding aside: nothing finite beyond the range. -/
noncomputable def dpow (v e : ℝ) : Py ℝ := do
  let a ← npow v e
  raiseIf (dblLimit ≤ |a|) .nonFinite
  pure a

/-- `polynomial`, `qmix/mathfn/ivcurve_models.py:85-101`, for one double, rounding aside. If a power is infinite the result is infinite
or not a number. -/
noncomputable def polynomialD (v order : ℝ) : Py ℝ := do
  let a ← dpow v (2 * order + 1)
  let b ← dpow v (2 * order)
  fdiv a (1 + b)

end QMix.PolyRange
