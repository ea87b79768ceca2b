import Verif.Model.Circuit
import Mathlib.Analysis.Complex.Norm

/-!
# The powers of the embedding circuit in floating-point arithmetic

`set_available_power` and `available_power` (`qmix/circuit.py:282-381`) with a rounding after every operation. Overflow and underflow are
not modelled.
-/

namespace QMix.CctFp

open QMix.Cct

/-- Floating-point functions: `rnd x` is the number stored for the real number `x` (literals, sums, products, quotients, square roots);
`pow10` is `10 ** x`, `log10` is `np.log10`, `abs` is `np.abs` of a complex number. Each is within the relative error `u`. -/
structure Fp (u : ℝ) where
  rnd : ℝ → ℝ
  pow10 : ℝ → ℝ
  log10 : ℝ → ℝ
  abs : ℂ → ℝ
  rnd_le : ∀ x, |rnd x - x| ≤ u * |x|
  pow10_le : ∀ x : ℝ, |pow10 x - 10 ^ x| ≤ u * 10 ^ x
  log10_le : ∀ x, |log10 x - Real.logb 10 x| ≤ u * |Real.logb 10 x|
  abs_le : ∀ z, |abs z - ‖z‖| ≤ u * ‖z‖

variable {u : ℝ}

/-- The unit conversion of `set_available_power`, `qmix/circuit.py:356-373`. -/
noncomputable def inWatts (A : Fp u) (units : String) (power : ℝ) : Py ℝ :=
  if units.toLower = "w" then pure power
  else if units.toLower = "mw" then pure (A.rnd (power * A.rnd 1e-3))
  else if units.toLower = "uw" then pure (A.rnd (power * A.rnd 1e-6))
  else if units.toLower = "nw" then pure (A.rnd (power * A.rnd 1e-9))
  else if units.toLower = "pw" then pure (A.rnd (power * A.rnd 1e-12))
  else if units.toLower = "fw" then pure (A.rnd (power * A.rnd 1e-15))
  else if units.toLower = "dbm" then pure (A.rnd (A.pow10 (A.rnd (power / 10)) * A.rnd 1e-3))
  else if units.toLower = "dbw" then pure (A.pow10 (A.rnd (power / 10)))
  else throw .value

/-- `set_available_power`, `qmix/circuit.py:331-381`, for floats in `vt`, `zt`, `rn` and `vgap`. -/
noncomputable def setAvailablePower (A : Fp u) (c : Circuit) (power : ℝ) (f p : ℤ) (units : String) : Py Circuit := do
  let vgap ← getOpt .assertion c.vgap
  let rn ← getOpt .assertion c.rn
  let zt ← get2 c.zt f p
  pyAssert (zt ≠ 0)
  let power ← inWatts A units power
  let r_ohms := A.rnd (zt.re * rn)
  let x := A.rnd (A.rnd (8 * power) * r_ohms)
  raiseIf (x < 0) .nonFinite
  let volt_v := A.rnd (Real.sqrt x)
  raiseIf (vgap = 0) .nonFinite
  writeVt c f p ((A.rnd (volt_v / vgap) : ℝ) : ℂ)

/-- `10 * np.log10(x)`: `-inf` or NaN unless `x` is positive. -/
noncomputable def decibel (A : Fp u) (x : ℝ) : Py ℝ :=
  if 0 < x then .ok (A.rnd (10 * A.log10 x)) else .error .nonFinite

/-- The unit conversion of `available_power`, `qmix/circuit.py:312-329`. -/
noncomputable def fromWatts (A : Fp u) (units : String) (power : ℝ) : Py ℝ :=
  if units.toLower = "w" then pure power
  else if units.toLower = "mw" then pure (A.rnd (power / A.rnd 1e-3))
  else if units.toLower = "uw" then pure (A.rnd (power / A.rnd 1e-6))
  else if units.toLower = "nw" then pure (A.rnd (power / A.rnd 1e-9))
  else if units.toLower = "pw" then pure (A.rnd (power / A.rnd 1e-12))
  else if units.toLower = "fw" then pure (A.rnd (power / A.rnd 1e-15))
  else if units.toLower = "dbm" then decibel A (A.rnd (power * A.rnd 1e3))
  else if units.toLower = "dbw" then decibel A power
  else throw .value

/-- `available_power`, `qmix/circuit.py:282-329`. The product of a complex and a real number rounds each part once (the products with the
zero imaginary part of the real factor are zero). -/
noncomputable def availablePower (A : Fp u) (c : Circuit) (f p : ℤ) (units : String) : Py ℝ := do
  let vgap ← getOpt .assertion c.vgap
  let rn ← getOpt .assertion c.rn
  let vt ← get2 c.vt f p
  let zt ← get2 c.zt f p
  let v_v : ℂ := ⟨A.rnd (vt.re * vgap), A.rnd (vt.im * vgap)⟩
  let r_ohms := A.rnd (zt.re * rn)
  let power := if r_ohms ≠ 0 then A.rnd (A.rnd (A.rnd (A.abs v_v ^ 2) / r_ohms) / 8) else 0
  fromWatts A units power

end QMix.CctFp
