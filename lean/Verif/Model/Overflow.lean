import Verif.Model.MathFn
import Verif.Py.Float

/-!
# Overflow in the models of I-V curves

The models of `mathfn/ivcurve_models.py` with powers and exponentials that overflow: a result above the largest number of the arithmetic is an
infinity, and the operations that follow go on with it. `big` is the largest number (of binary64: about `1.8e308`). Roundings, and overflow of
the other operations, are not modelled.
-/

namespace QMix.MathFn

open QMix Fl

open Classical in
/-- The result `x` of a power or an exponential, or an infinity if it overflows. -/
noncomputable def orInf (big x : ℝ) : Flt := if big < x then some ⊤ else if x < -big then some ⊥ else num x

/-- `x / (1 + np.exp(y))`. -/
noncomputable def stepF (big x y : ℝ) : Flt := Fl.fdiv (num x) (fadd (num 1) (orInf big (Real.exp y)))

/-- `v ** e`, with the errors of `npow`. -/
noncomputable def npowF (big v e : ℝ) : Py Flt := do
  let x ← npow v e
  pure (orInf big x)

/-- `polynomial`, `qmix/mathfn/ivcurve_models.py:85-101`, for one voltage. -/
noncomputable def polynomialF (big v order : ℝ) : Py Flt := do
  let a ← npowF big v (2 * order + 1)
  let b ← npowF big v (2 * order)
  pure (Fl.fdiv a (fadd (num 1) b))

/-- `exponential`, `qmix/mathfn/ivcurve_models.py:104-163`, for one voltage of an array. `np.seterr(over='ignore')` is what lets the code go
on after an overflow. -/
noncomputable def exponentialF (big v vgap rn rsg agap : ℝ) (model : String) : Py Flt := do
  raiseIf (rn = 0) .zeroDiv
  let igap := vgap / rn
  let vv := v * vgap
  let sg := fun x => fmul (num (vv / (rsg * 2))) (stepF big 1 x)
  let nr := fun x => fmul (num (vv / rn)) (stepF big 1 x)
  let og := fun x => fmul (num (vv / rsg)) (stepF big 1 x)
  if lower model = "fixed".toList ∨ lower model = "corrected".toList then
    raiseIf (rsg = 0 ∨ igap = 0) .nonFinite
    let ia := fadd (fadd (fadd (fsub (fsub (sg (-agap * (vv + vgap))) (sg (agap * (vv + vgap)))) (sg (-agap * (vv - vgap))))
      (sg (agap * (vv - vgap)))) (nr (agap * (vv + vgap)))) (nr (-agap * (vv - vgap)))
    pure (Fl.fdiv ia (num igap))
  else if lower model = "original".toList then
    raiseIf (rsg = 0 ∨ igap = 0) .nonFinite
    let ia := fadd (fadd (fadd (og (-agap * (vv + vgap))) (og (agap * (vv - vgap)))) (nr (agap * (vv + vgap)))) (nr (-agap * (vv - vgap)))
    pure (Fl.fdiv ia (num igap))
  else .error .value

/-- `expanded`, `qmix/mathfn/ivcurve_models.py:166-225`, for one voltage of an array. -/
noncomputable def expandedF (big v vgap rn rsg agap a0 ileak vnot inot anot ioff : ℝ) : Py Flt := do
  let vv := v * vgap
  raiseIf (rn = 0) .zeroDiv
  let igap := vgap / rn
  raiseIf (rsg = 0 ∨ igap = 0) .nonFinite
  let t := fun c x => fmul (num c) (stepF big 1 x)
  let ia := t (ileak * 2) (-a0 * vv)
  let ia := fsub ia (num ileak)
  let ia := fsub ia (t ileak (-agap * (vv - vgap)))
  let ia := fadd ia (t ileak (agap * (vv + vgap)))
  let ia := fadd ia (t (vv / (rsg * 2)) (-agap * (vv + vgap)))
  let ia := fsub ia (t (vv / (rsg * 2)) (agap * (vv + vgap)))
  let ia := fsub ia (t (vv / (rsg * 2)) (-agap * (vv - vgap)))
  let ia := fadd ia (t (vv / (rsg * 2)) (agap * (vv - vgap)))
  let ia := fadd ia (t (vv / rn) (agap * (vv + vgap)))
  let ia := fadd ia (t (vv / rn) (-agap * (vv - vgap)))
  let ia := fadd ia (stepF big inot (anot * (vv - vnot)))
  let ia := fadd ia (stepF big inot (anot * (vv + vnot)))
  let ia := fsub ia (num inot)
  let ia := fadd ia (stepF big ioff (agap * (vv - vgap)))
  let ia := fadd ia (stepF big ioff (agap * (vv + vgap)))
  let ia := fsub ia (num ioff)
  pure (Fl.fdiv (fadd ia (num 0)) (num igap))

end QMix.MathFn
