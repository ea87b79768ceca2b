import Verif.Py.NumPy
import Mathlib.Analysis.SpecialFunctions.Trigonometric.Basic
import Mathlib.Analysis.SpecialFunctions.Exp
import Mathlib.Analysis.SpecialFunctions.Log.Basic
import Mathlib.Analysis.SpecialFunctions.Sqrt
import Mathlib.Analysis.SpecialFunctions.Pow.Real

/-!
# Model of `qmix/mathfn`

Floating-point numbers are real numbers.
-/

namespace QMix.MathFn

open QMix.Np

/-! ## `filters.py` -/

/-- `_gauss`, `qmix/mathfn/filters.py:37-56`. -/
noncomputable def gauss (sigma nSigma : ℝ) : Py (List ℝ) := do
  let r := nSigma * sigma
  let x := arange (-r) (r + 1 / 10 ^ 5)
  raiseIf (sigma = 0) .nonFinite
  pure (x.map fun t => 1 / (sigma * √(2 * Real.pi)) * Real.exp (-0.5 * (t / sigma) ^ 2))

/-- `gauss_conv`, `qmix/mathfn/filters.py:8-34`. `sigma = 0` ends in the second assertion whatever the
window contains, so it is rejected first. -/
noncomputable def gaussConv (x : List ℝ) (sigma extX : ℝ) : Py (List ℝ) := do
  pyAssert (sigma ≠ 0)
  let wind ← gauss sigma extX
  let wlen := wind.length
  pyAssert (wlen ≤ x.length)
  pyAssert (1 ≤ sigma * extX)
  let s := sliceRev x (some ((wlen : ℤ) - 1)) (some 0) ++ x
    ++ sliceRev x (some (-2)) (some (-(wlen : ℤ) - 1))
  let w ← div wind [wind.sum]
  let y ← convolveValid w s
  pure (slice y (some ((wlen / 2 : ℕ) : ℤ)) (some (-(wlen : ℤ) / 2 + 1)))

/-! ## `misc.py` -/

/-- `slope`, `qmix/mathfn/misc.py:9-34`. -/
noncomputable def slope (x y : List ℝ) : Py (List ℝ) := do
  let der := List.replicate x.length (0 : ℝ)
  let rise ← zip (· - ·) (slice y (some 2) none) (slice y none (some (-2)))
  let run ← zip (· - ·) (slice x (some 2) none) (slice x none (some (-2)))
  let q ← div rise run
  let der ← setSlice der (some 1) (some (-1)) q
  let y1 ← pyGet y 1
  let y0 ← pyGet y 0
  let x1 ← pyGet x 1
  let x0 ← pyGet x 0
  let d0 ← fdiv (y1 - y0) (x1 - x0)
  let der ← pySet der 0 d0
  let ya ← pyGet y (-1)
  let yb ← pyGet y (-2)
  let xa ← pyGet x (-1)
  let xb ← pyGet x (-2)
  let d1 ← fdiv (ya - yb) (xa - xb)
  pySet der (-1) d1

/-- `a[2 * n + 1:] - a[:-2 * n - 1]`, `qmix/mathfn/misc.py:62-63, 68-69`. -/
noncomputable def spanDiff (a : List ℝ) (n : ℤ) : Py (List ℝ) :=
  zip (· - ·) (slice a (some (2 * n + 1)) none) (slice a none (some (-2 * n - 1)))

/-- The body of the loop, `qmix/mathfn/misc.py:67-71`. -/
noncomputable def spanStep (x y : List ℝ) (der : List ℝ) (n : ℤ) : Py (List ℝ) := do
  let rise ← spanDiff y n
  let run ← spanDiff x n
  let a ← pyGet rise n
  let b ← pyGet run n
  let q ← fdiv a b
  let der ← pySet der n q
  let a ← pyGet rise (-n)
  let b ← pyGet run (-n)
  let q ← fdiv a b
  pySet der (-n) q

open Classical in
/-- `der[der == 0] = 1e-10`, `qmix/mathfn/misc.py:76-77`. -/
noncomputable def noZeros (flag : Bool) (der : List ℝ) : List ℝ :=
  if flag then der.map fun d => if d = 0 then 1 / 10 ^ 10 else d else der

/-- `slope_span_n`, `qmix/mathfn/misc.py:37-79`. -/
noncomputable def slopeSpanN (x y : List ℝ) (n : ℤ) (nozeros : Bool) : Py (List ℝ) := do
  pyAssert (n % 2 = 1)
  let n := (n - 1) / 2
  let der := List.replicate x.length (0 : ℝ)
  let rise ← spanDiff y n
  let run ← spanDiff x n
  let q ← div rise run
  let der ← setSlice der (some (n + 1)) (some (-n)) q
  let der ← pyFor (pyRange 1 (n + 1)) der (spanStep x y)
  let d1 ← pyGet der 1
  let der ← pySet der 0 d1
  let d2 ← pyGet der (-2)
  let der ← pySet der (-1) d2
  pure (noZeros nozeros der)

/-! ## `kktrans.py` -/

/-- The discrete Fourier transform of length `N` of `x`, padded with zeros or cut off (SciPy's `fft`,
by its definition). -/
noncomputable def fft (x : List ℝ) (N : ℕ) (f : ℕ) : ℂ :=
  ∑ t ∈ Finset.range N, (x.getD t 0 : ℂ) * Complex.exp (-(2 * Real.pi * f * t / N : ℝ) * Complex.I)

/-- The factors of `scipy.signal.hilbert`: 1 at zero frequency and, for even `N`, at `N / 2`; 2 below;
0 above. -/
noncomputable def hilbertWeight (N f : ℕ) : ℝ :=
  if f = 0 then 1
  else if N % 2 = 0 then (if f = N / 2 then 1 else if f < N / 2 then 2 else 0)
  else if f < (N + 1) / 2 then 2 else 0

/-- `scipy.signal.hilbert(x, N)` (the analytic signal), by its documented meaning; `N ≤ 0` is a
`ValueError`. -/
noncomputable def hilbert (x : List ℝ) (N : ℤ) : Py (List ℂ) := do
  raiseIf (N ≤ 0) .value
  let M := N.toNat
  pure (tab M fun k => 1 / M * ∑ f ∈ Finset.range M,
    hilbertWeight M f * fft x M f * Complex.exp ((2 * Real.pi * f * k / M : ℝ) * Complex.I))

/-- `kk_trans`, `qmix/mathfn/kktrans.py:13-39`. -/
noncomputable def kkTrans (v i : List ℝ) (n : ℤ) : Py (List ℝ) := do
  let npts := v.length
  let v1 ← pyGet v 1
  let v0 ← pyGet v 0
  let d ← zip (· - ·) (slice v (some 1) none) (slice v none (some (-1)))
  let m ← amax (d.map fun t => |v1 - v0 - t|)
  pyAssert (m < 1 / 10 ^ 5)
  let x ← zip (· - ·) i v
  let z ← hilbert x (npts * n)
  pure (slice (z.map fun c => -c.im) none (some npts))

/-- `np.delete(l, k)` for one non-negative index; out of range is an `IndexError`. -/
def delete (l : List ℝ) (k : ℕ) : Py (List ℝ) :=
  if k < l.length then .ok (l.eraseIdx k) else .error .index

/-- `np.trapz(y, x=x)` for one-dimensional arrays. -/
noncomputable def trapz (y x : List ℝ) : Py ℝ := do
  let d ← zip (· - ·) (slice x (some 1) none) (slice x none (some (-1)))
  let s ← zip (· + ·) (slice y (some 1) none) (slice y none (some (-1)))
  let m ← zip (fun a b => a * b / 2) d s
  pure m.sum

/-- The body of the loop of `kk_trans_trapz`, `qmix/mathfn/kktrans.py:72-73`. -/
noncomputable def trapzAt (v i : List ℝ) (a : ℕ) : Py ℝ := do
  let v' ← delete v a
  let i' ← delete i a
  let num ← zip (· - ·) i' v'
  let va ← pyGet v a
  let y ← div num (v'.map fun t => t - va)
  trapz y v'

/-- `kk_trans_trapz`, `qmix/mathfn/kktrans.py:42-76`. Assumes a NumPy that still has `np.trapz`. -/
noncomputable def kkTransTrapz (v i : List ℝ) : Py (List ℝ) := do
  let d ← zip (· - ·) (slice v (some 1) none) (slice v none (some (-1)))
  let v1 ← pyGet v 1
  let v0 ← pyGet v 0
  let m ← amax (d.map fun t => t - (v1 - v0))
  pyAssert (m < 1 / 10 ^ 5)
  let ikk ← (List.range v.length).mapM (trapzAt v i)
  pure (ikk.map fun t => t / Real.pi)

/-! ## `ivcurve_models.py` -/

/-- The argument `voltage`: an array of floats or of integers, a `float`, an `int`, or another type
(such as `numpy.int64`). -/
inductive Volt
  | arrF (l : List ℝ)
  | arrI (l : List ℤ)
  | flt (x : ℝ)
  | int (k : ℤ)
  | other

/-- The value returned. -/
inductive Ret
  | arrF (l : List ℝ)
  | arrI (l : List ℤ)
  | num (x : ℝ)
  | none

open Classical in
/-- The three masked assignments for one element, `qmix/mathfn/ivcurve_models.py:33-37`. -/
noncomputable def perfectElem (v : ℝ) : ℝ :=
  let c := v
  let c := if v = 1 then 0.5 else c
  let c := if v = -1 then -0.5 else c
  if |v| < 1 then 0 else c

/-- The same in an integer array, where 0.5 and -0.5 are truncated to 0. -/
def perfectElemI (v : ℤ) : ℤ :=
  let c := v
  let c := if v = 1 then 0 else c
  let c := if v = -1 then 0 else c
  if |v| < 1 then 0 else c

open Classical in
/-- The scalar branch, `qmix/mathfn/ivcurve_models.py:38-46`. -/
noncomputable def perfectScalar (v : ℝ) : Ret :=
  if |v| < 1 then .num 0
  else if 1 < |v| then .num v
  else if v = 1 then .num 0.5
  else if v = -1 then .num (-0.5)
  else .none

/-- `perfect`, `qmix/mathfn/ivcurve_models.py:13-46`. -/
noncomputable def perfect : Volt → Ret
  | .arrF l => .arrF (l.map perfectElem)
  | .arrI l => .arrI (l.map perfectElemI)
  | .flt x => perfectScalar x
  | .int k => perfectScalar k
  | .other => .none

open Classical in
/-- One element, `qmix/mathfn/ivcurve_models.py:66-73`. -/
noncomputable def perfectKkElem (maxKk v : ℝ) : ℝ :=
  if |v| ≠ 1 then -1 / Real.pi * (2 + v * Real.log |(v - 1) / (v + 1)|) else maxKk

open Classical in
/-- The scalar branch, `qmix/mathfn/ivcurve_models.py:77-82`. -/
noncomputable def perfectKkScalar (maxKk v : ℝ) : ℝ :=
  if |v| = 1 then maxKk else -1 / Real.pi * (2 + v * Real.log |(v - 1) / (v + 1)|)

/-- `perfect_kk`, `qmix/mathfn/ivcurve_models.py:49-82`. The array made by `np.empty_like` has dtype
float. -/
noncomputable def perfectKk (maxKk : ℝ) : Volt → Ret
  | .arrF l => .arrF (l.map (perfectKkElem maxKk))
  | .arrI l => .arrF (l.map fun (k : ℤ) => perfectKkElem maxKk (k : ℝ))
  | .flt x => .num (perfectKkScalar maxKk x)
  | .int k => .num (perfectKkScalar maxKk k)
  | .other => .none

open Classical in
/-- `v ** e` for floats: an infinity at zero with a negative exponent, NaN for a negative number with
an exponent that is not an integer. -/
noncomputable def npow (v e : ℝ) : Py ℝ := do
  raiseIf (v = 0 ∧ e < 0) .nonFinite
  raiseIf (v < 0 ∧ ∀ k : ℤ, e ≠ k) .nonFinite
  pure (v ^ e)

/-- `polynomial`, `qmix/mathfn/ivcurve_models.py:85-101`, for one voltage. -/
noncomputable def polynomial (v order : ℝ) : Py ℝ := do
  let a ← npow v (2 * order + 1)
  let b ← npow v (2 * order)
  fdiv a (1 + b)

/-- `s.lower()`. -/
def lower (s : String) : List Char := s.toList.map Char.toLower

/-- `1 / (1 + np.exp(x))`. -/
noncomputable def step (x : ℝ) : ℝ := 1 / (1 + Real.exp x)

/-- `exponential`, `qmix/mathfn/ivcurve_models.py:104-163`, for one voltage of an array.
`np.seterr` is not modelled. -/
noncomputable def exponential (v vgap rn rsg agap : ℝ) (model : String) : Py ℝ := do
  raiseIf (rn = 0) .zeroDiv
  let igap := vgap / rn
  let vv := v * vgap
  if lower model = "fixed".toList ∨ lower model = "corrected".toList then
    raiseIf (rsg = 0 ∨ igap = 0) .nonFinite
    let ia :=
      vv / (rsg * 2) * step (-agap * (vv + vgap)) -
      vv / (rsg * 2) * step (agap * (vv + vgap)) -
      vv / (rsg * 2) * step (-agap * (vv - vgap)) +
      vv / (rsg * 2) * step (agap * (vv - vgap)) +
      vv / rn * step (agap * (vv + vgap)) +
      vv / rn * step (-agap * (vv - vgap))
    pure (ia / igap)
  else if lower model = "original".toList then
    raiseIf (rsg = 0 ∨ igap = 0) .nonFinite
    let ia :=
      vv / rsg * step (-agap * (vv + vgap)) +
      vv / rsg * step (agap * (vv - vgap)) +
      vv / rn * step (agap * (vv + vgap)) +
      vv / rn * step (-agap * (vv - vgap))
    pure (ia / igap)
  else .error .value

/-- `expanded`, `qmix/mathfn/ivcurve_models.py:166-225`, for one voltage of an array. `np.seterr` is
not modelled. -/
noncomputable def expanded (v vgap rn rsg agap a0 ileak vnot inot anot ioff : ℝ) : Py ℝ := do
  let vv := v * vgap
  raiseIf (rn = 0) .zeroDiv
  let igap := vgap / rn
  raiseIf (rsg = 0 ∨ igap = 0) .nonFinite
  let ia :=
    ileak * 2 * step (-a0 * vv) -
    ileak -
    ileak * step (-agap * (vv - vgap)) +
    ileak * step (agap * (vv + vgap)) +
    vv / (rsg * 2) * step (-agap * (vv + vgap)) -
    vv / (rsg * 2) * step (agap * (vv + vgap)) -
    vv / (rsg * 2) * step (-agap * (vv - vgap)) +
    vv / (rsg * 2) * step (agap * (vv - vgap)) +
    vv / rn * step (agap * (vv + vgap)) +
    vv / rn * step (-agap * (vv - vgap)) +
    inot / (1 + Real.exp (anot * (vv - vnot))) +
    inot / (1 + Real.exp (anot * (vv + vnot))) - inot +
    ioff / (1 + Real.exp (agap * (vv - vgap))) +
    ioff / (1 + Real.exp (agap * (vv + vgap))) - ioff +
    0
  pure (ia / igap)

end QMix.MathFn
