import Verif.Model.DataFp
import Verif.Model.GaussFp

/-!
# The trapezoidal Kramers-Kronig transform in floating-point arithmetic

`kk_trans_trapz` of `qmix/mathfn/kktrans.py` with a rounding after every operation. The data are the stored numbers. Overflow and underflow
are not modelled.
-/

namespace QMix.KkFp

open QMix.Np QMix.CctFp QMix.GaussFp

variable {u : ℝ}

/-- `np.trapz(y, x=x)` for one-dimensional arrays: `(d * (y[1:] + y[:-1]) / 2.0).sum()` with `d = np.diff(x)`. -/
noncomputable def trapz (A : Fp u) (K : Kit u) (y x : List ℝ) : Py ℝ := do
  let d ← DataFp.sub A (slice x (some 1) none) (slice x none (some (-1)))
  let s ← zip (fun a b => A.rnd (a + b)) (slice y (some 1) none) (slice y none (some (-1)))
  let m ← zip (fun a b => A.rnd (A.rnd (a * b) / 2)) d s
  pure (K.sum m)

/-- The body of the loop, `qmix/mathfn/kktrans.py:72-73`. -/
noncomputable def trapzAt (A : Fp u) (K : Kit u) (v i : List ℝ) (a : ℕ) : Py ℝ := do
  let v' ← MathFn.delete v a
  let i' ← MathFn.delete i a
  let num ← DataFp.sub A i' v'
  let va ← pyGet v a
  let y ← DataFp.div A num (v'.map fun t => A.rnd (t - va))
  trapz A K y v'

/-- `kk_trans_trapz`, `qmix/mathfn/kktrans.py:42-76`. -/
noncomputable def kkTransTrapz (A : Fp u) (K : Kit u) (v i : List ℝ) : Py (List ℝ) := do
  let d ← DataFp.sub A (slice v (some 1) none) (slice v none (some (-1)))
  let v1 ← pyGet v 1
  let v0 ← pyGet v 0
  let m ← amax (d.map fun t => A.rnd (t - A.rnd (v1 - v0)))
  pyAssert (m < A.rnd (1 / 10 ^ 5))
  let ikk ← (List.range v.length).mapM (trapzAt A K v i)
  pure (ikk.map fun t => A.rnd (t / A.rnd Real.pi))

end QMix.KkFp
