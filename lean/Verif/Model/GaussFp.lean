import Verif.Model.MathFn
import Verif.Model.CircuitFp

/-!
# Gaussian smoothing in floating-point arithmetic

`qmix/mathfn/filters.py` with a rounding after every operation. The data are the stored numbers. Overflow and underflow are not modelled.
-/

namespace QMix.GaussFp

open QMix.Np QMix.CctFp

variable {u : ℝ}

/-- The parts of NumPy used by the filter beside single operations: `exp` is `np.exp`, within one unit in the last place; `sum` is the sum
of an array and `dot` the sum of the products of two arrays of one length, in any order: every term goes through at most as many roundings
as there are terms. -/
structure Kit (u : ℝ) where
  exp : ℝ → ℝ
  sum : List ℝ → ℝ
  dot : List ℝ → List ℝ → ℝ
  exp_le : ∀ x, |exp x - Real.exp x| ≤ 2 * u * Real.exp x
  sum_eq : ∀ (n : ℕ) (f : ℕ → ℝ), ∃ c : ℕ → ℝ, (∀ j, (1 - u) ^ n ≤ c j ∧ c j * (1 - u) ^ n ≤ 1) ∧
    sum (tab n f) = ∑ j ∈ Finset.range n, f j * c j
  dot_eq : ∀ (n : ℕ) (f g : ℕ → ℝ), ∃ c : ℕ → ℝ, (∀ j, (1 - u) ^ n ≤ c j ∧ c j * (1 - u) ^ n ≤ 1) ∧
    dot (tab n f) (tab n g) = ∑ j ∈ Finset.range n, f j * g j * c j

/-- `np.arange(start, stop, 1)` as in NumPy: the first two values are `start` and `start + 1`, the others `start + i * delta` with their
difference `delta`. -/
noncomputable def arange (A : Fp u) (start stop : ℝ) : List ℝ :=
  let next := A.rnd (start + 1)
  let delta := A.rnd (next - start)
  tab ⌈A.rnd (stop - start)⌉.toNat fun i =>
    if i = 0 then start else if i = 1 then next else A.rnd (start + A.rnd (i * delta))

/-- `_gauss`, `qmix/mathfn/filters.py:37-56`. -/
noncomputable def gauss (A : Fp u) (K : Kit u) (sigma nSigma : ℝ) : Py (List ℝ) := do
  let r := A.rnd (nSigma * sigma)
  let x := arange A (-r) (A.rnd (r + A.rnd (1 / 10 ^ 5)))
  raiseIf (sigma = 0) .nonFinite
  let c := A.rnd (1 / A.rnd (sigma * A.rnd √(A.rnd (2 * A.rnd Real.pi))))
  pure (x.map fun t => A.rnd (c * K.exp (A.rnd (-0.5 * A.rnd (A.rnd (t / sigma) ^ 2)))))

/-- `np.convolve(w, s, mode='valid')`. -/
noncomputable def convolveValid (K : Kit u) (w s : List ℝ) : Py (List ℝ) :=
  if w = [] ∨ s = [] then .error .value
  else
    let lo := min w.length s.length
    let hi := max w.length s.length
    .ok (tab (hi - lo + 1) fun k =>
      K.dot w (tab w.length fun j => if j ≤ k + lo - 1 then s.getD (k + lo - 1 - j) 0 else 0))

/-- `gauss_conv`, `qmix/mathfn/filters.py:8-34`. As in `MathFn.gaussConv`, `sigma = 0` is rejected first. -/
noncomputable def gaussConv (A : Fp u) (K : Kit u) (x : List ℝ) (sigma extX : ℝ) : Py (List ℝ) := do
  pyAssert (sigma ≠ 0)
  let wind ← gauss A K sigma extX
  let wlen := wind.length
  pyAssert (wlen ≤ x.length)
  pyAssert (1 ≤ A.rnd (sigma * extX))
  let s := sliceRev x (some ((wlen : ℤ) - 1)) (some 0) ++ x
    ++ sliceRev x (some (-2)) (some (-(wlen : ℤ) - 1))
  raiseIf (K.sum wind = 0) .nonFinite
  let w := wind.map fun t => A.rnd (t / K.sum wind)
  let y ← convolveValid K w s
  pure (slice y (some ((wlen / 2 : ℕ) : ℤ)) (some (-(wlen : ℤ) / 2 + 1)))

end QMix.GaussFp
