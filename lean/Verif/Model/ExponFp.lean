import Verif.Model.CircuitFp
import Verif.Model.MathFn

/-!
# The exponential I-V curve in floating-point arithmetic
-/

namespace QMix.MathFn

open QMix.CctFp

variable {u : ℝ}

/-- `np.exp`, right up to `p` roundings. -/
structure ExpFn (u : ℝ) (p : ℕ) where
  fn : ℝ → ℝ
  fn_le : ∀ x, |fn x - Real.exp x| ≤ (1 - (1 - u) ^ p) * Real.exp x

variable {p : ℕ}

/-- `1 / (1 + np.exp(x))`. -/
noncomputable def stepR (A : Fp u) (E : ExpFn u p) (x : ℝ) : ℝ := A.rnd (1 / A.rnd (1 + E.fn x))

open Classical in
/-- `exponential`, `qmix/mathfn/ivcurve_models.py:104-163`, for one voltage of an array, with a rounding after every operation except negation.
Overflow (see `exponentialF`) and underflow are not modelled. -/
noncomputable def exponentialR (A : Fp u) (E : ExpFn u p) (v vgap rn rsg agap : ℝ) (model : String) : Py ℝ := do
  raiseIf (rn = 0) .zeroDiv
  let igap := A.rnd (vgap / rn)
  let vv := A.rnd (v * vgap)
  let nr := fun x => A.rnd (A.rnd (vv / rn) * stepR A E (A.rnd x))
  if lower model = "fixed".toList ∨ lower model = "corrected".toList then
    raiseIf (A.rnd (rsg * 2) = 0 ∨ igap = 0) .nonFinite
    let sg := fun x => A.rnd (A.rnd (vv / A.rnd (rsg * 2)) * stepR A E (A.rnd x))
    let ia := sg (-agap * A.rnd (vv + vgap))
    let ia := A.rnd (ia - sg (agap * A.rnd (vv + vgap)))
    let ia := A.rnd (ia - sg (-agap * A.rnd (vv - vgap)))
    let ia := A.rnd (ia + sg (agap * A.rnd (vv - vgap)))
    let ia := A.rnd (ia + nr (agap * A.rnd (vv + vgap)))
    let ia := A.rnd (ia + nr (-agap * A.rnd (vv - vgap)))
    pure (A.rnd (ia / igap))
  else if lower model = "original".toList then
    raiseIf (rsg = 0 ∨ igap = 0) .nonFinite
    let og := fun x => A.rnd (A.rnd (vv / rsg) * stepR A E (A.rnd x))
    let ia := og (-agap * A.rnd (vv + vgap))
    let ia := A.rnd (ia + og (agap * A.rnd (vv - vgap)))
    let ia := A.rnd (ia + nr (agap * A.rnd (vv + vgap)))
    let ia := A.rnd (ia + nr (-agap * A.rnd (vv - vgap)))
    pure (A.rnd (ia / igap))
  else .error .value

end QMix.MathFn
