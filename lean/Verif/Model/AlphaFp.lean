import Verif.Model.ZembRec
import Verif.Model.CircuitFp

/-!
# The drive level in floating-point arithmetic

`_find_alpha` and `_find_pumped_iv_curve` (`qmix/exp/exp_data.py:1894-1932`) at one bias point, with a rounding after every operation.
Overflow and underflow are not modelled; a division by zero is `nonFinite`. The response function `idc` is the function that the
interpolation computes, rounding included.
-/

namespace QMix.AlphaFp

open QMix.CctFp

variable {u : ℝ}

/-- One term of the sum, `qmix/exp/exp_data.py:1902`: `special.jv(n, alpha)**2 * resp.idc(vb + n * vph)`. -/
noncomputable def term (A : Fp u) (jv : ℤ → ℝ → ℝ) (idc : ℝ → ℝ) (vb vph alpha : ℝ) (n : ℤ) : ℝ :=
  A.rnd (A.rnd (jv n alpha ^ 2) * idc (A.rnd (vb + A.rnd (n * vph))))

/-- `_find_pumped_iv_curve`, `qmix/exp/exp_data.py:1894-1904`. -/
noncomputable def pumpedIv (A : Fp u) (jv : ℤ → ℝ → ℝ) (idc : ℝ → ℝ) (vb vph : ℝ) (numB : ℤ) (alpha : ℝ) : ℝ :=
  (pyRange (-numB) (numB + 1)).foldl (fun s n => A.rnd (s + term A jv idc vb vph alpha n)) 0

open Classical in
/-- One pass of the loop, `qmix/exp/exp_data.py:1921-1930`: the drive level and the step. -/
noncomputable def alphaStep (A : Fp u) (current : ℝ → ℝ) (iexp : ℝ) (s : ℝ × ℝ) : ℝ × ℝ :=
  let err := A.rnd (current s.1 - iexp)
  let a := if 0 < err then A.rnd (s.1 - s.2) else s.1
  let a := if err < 0 then A.rnd (a + s.2) else a
  (if a < 0 then 0 else a, A.rnd (s.2 / 2))

open Classical in
/-- The first estimate, `qmix/exp/exp_data.py:1913-1917`. -/
noncomputable def estimate (A : Fp u) (jv : ℤ → ℝ → ℝ) (idc : ℝ → ℝ) (vph alphaMax : ℝ) (numB : ℤ) (vexp iexp : ℝ) : Py ℝ := do
  let itmp := pumpedIv A jv idc vexp vph numB alphaMax
  let q ← Np.fdiv (A.rnd (iexp - idc vexp)) (A.rnd (itmp - idc vexp))
  let a := A.rnd (A.rnd q * alphaMax)
  pure (if a < 0 then 0 else a)

/-- `_find_alpha`, `qmix/exp/exp_data.py:1907-1932`, at one bias point. -/
noncomputable def findAlpha (A : Fp u) (jv : ℤ → ℝ → ℝ) (idc : ℝ → ℝ) (vph alphaMax : ℝ) (numB : ℤ) (vexp iexp : ℝ) : Py ℝ := do
  let a ← estimate A jv idc vph alphaMax numB vexp iexp
  pure ((alphaStep A (pumpedIv A jv idc vexp vph numB) iexp)^[15] (a, A.rnd (alphaMax / 4))).1

end QMix.AlphaFp
