import Verif.Model.MathFn
import Verif.Model.CircuitFp

/-!
# Resampling and numerical derivatives in floating-point arithmetic

`np.interp` and `qmix/mathfn/misc.py` with a rounding after every operation. The data are the stored numbers. Overflow and underflow are
not modelled.
-/

namespace QMix.DataFp

open QMix.Np QMix.CctFp

variable {u : ℝ}

open Classical in
/-- `np.interp` at one point, for increasing `xp` (used in `qmix/respfn.py:540`, `qmix/exp/iv_data.py:207, 322, 420, 430`,
`qmix/exp/if_data.py:421-422, 435`), as in NumPy's `arr_interp`: the position is found by comparisons; at a data point and outside
the data no arithmetic is done; otherwise `slope * (x - xp[j]) + fp[j]` with `slope = (fp[j+1] - fp[j]) / (xp[j+1] - xp[j])`. -/
noncomputable def npInterp (A : Fp u) (xp fp : List ℝ) (x : ℝ) : ℝ :=
  match xp, fp with
  | a :: b :: xs, p :: q :: ys =>
    if ∃ c ∈ b :: xs, c ≤ x then npInterp A (b :: xs) (q :: ys) x
    else if x < a then p
    else if x = a then p
    else A.rnd (A.rnd (A.rnd (A.rnd (q - p) / A.rnd (b - a)) * A.rnd (x - a)) + p)
  | _, p :: _ => p
  | _, [] => 0

/-- Element-wise difference. -/
noncomputable def sub (A : Fp u) (a b : List ℝ) : Py (List ℝ) := zip (fun x y => A.rnd (x - y)) a b

open Classical in
/-- Division of two numbers; a zero divisor gives an infinity or NaN in the code. -/
noncomputable def fdiv (A : Fp u) (a b : ℝ) : Py ℝ := do
  let q ← Np.fdiv a b
  pure (A.rnd q)

open Classical in
/-- Element-wise division. -/
noncomputable def div (A : Fp u) (a b : List ℝ) : Py (List ℝ) :=
  if (0 : ℝ) ∈ b then .error .nonFinite else zip (fun x y => A.rnd (x / y)) a b

/-- `slope`, `qmix/mathfn/misc.py:9-34`. -/
noncomputable def slope (A : Fp u) (x y : List ℝ) : Py (List ℝ) := do
  let der := List.replicate x.length (0 : ℝ)
  let rise ← sub A (slice y (some 2) none) (slice y none (some (-2)))
  let run ← sub A (slice x (some 2) none) (slice x none (some (-2)))
  let q ← div A rise run
  let der ← setSlice der (some 1) (some (-1)) q
  let y1 ← pyGet y 1
  let y0 ← pyGet y 0
  let x1 ← pyGet x 1
  let x0 ← pyGet x 0
  let d0 ← fdiv A (A.rnd (y1 - y0)) (A.rnd (x1 - x0))
  let der ← pySet der 0 d0
  let ya ← pyGet y (-1)
  let yb ← pyGet y (-2)
  let xa ← pyGet x (-1)
  let xb ← pyGet x (-2)
  let d1 ← fdiv A (A.rnd (ya - yb)) (A.rnd (xa - xb))
  pySet der (-1) d1

/-- `a[2 * n + 1:] - a[:-2 * n - 1]`, `qmix/mathfn/misc.py:62-63, 68-69`. -/
noncomputable def spanDiff (A : Fp u) (a : List ℝ) (n : ℤ) : Py (List ℝ) :=
  sub A (slice a (some (2 * n + 1)) none) (slice a none (some (-2 * n - 1)))

/-- The body of the loop, `qmix/mathfn/misc.py:67-71`. -/
noncomputable def spanStep (A : Fp u) (x y : List ℝ) (der : List ℝ) (n : ℤ) : Py (List ℝ) := do
  let rise ← spanDiff A y n
  let run ← spanDiff A x n
  let a ← pyGet rise n
  let b ← pyGet run n
  let q ← fdiv A a b
  let der ← pySet der n q
  let a ← pyGet rise (-n)
  let b ← pyGet run (-n)
  let q ← fdiv A a b
  pySet der (-n) q

open Classical in
/-- `der[der == 0] = 1e-10`, `qmix/mathfn/misc.py:76-77`. -/
noncomputable def noZeros (A : Fp u) (flag : Bool) (der : List ℝ) : List ℝ :=
  if flag then der.map fun d => if d = 0 then A.rnd (1 / 10 ^ 10) else d else der

/-- `slope_span_n`, `qmix/mathfn/misc.py:37-79`. -/
noncomputable def slopeSpanN (A : Fp u) (x y : List ℝ) (n : ℤ) (nozeros : Bool) : Py (List ℝ) := do
  pyAssert (n % 2 = 1)
  let n := (n - 1) / 2
  let der := List.replicate x.length (0 : ℝ)
  let rise ← spanDiff A y n
  let run ← spanDiff A x n
  let q ← div A rise run
  let der ← setSlice der (some (n + 1)) (some (-n)) q
  let der ← pyFor (pyRange 1 (n + 1)) der (spanStep A x y)
  let d1 ← pyGet der 1
  let der ← pySet der 0 d1
  let d2 ← pyGet der (-2)
  let der ← pySet der (-1) d2
  pure (noZeros A nozeros der)

end QMix.DataFp
