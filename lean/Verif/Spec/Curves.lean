import Mathlib.Analysis.Complex.Trigonometric
import Mathlib.Data.Real.Sign

/-!
# What the exponential I-V models are made of

Written without the model. Every term of the two exponential models is built from two shapes, a window
that is open between `-c` and `c` and a pair of upward steps at `-c` and `c`, rounded at the sharpness `a`.
-/

namespace QMix.Spec

/-- A rounded window between `-c` and `c`. -/
noncomputable def window (a c v : ℝ) : ℝ := Real.sinh (a * c) / (Real.cosh (a * c) + Real.cosh (a * v))

/-- Two rounded steps of height 1, at `-c` and at `c`: about -1, 0 and 1 in the three regions. -/
noncomputable def steps (a c v : ℝ) : ℝ := Real.sinh (a * v) / (Real.cosh (a * c) + Real.cosh (a * v))

/-- The window with sharp edges: 1 inside, 0 outside, 1/2 on an edge. -/
noncomputable def sharpWindow (c v : ℝ) : ℝ := (Real.sign (v + c) - Real.sign (v - c)) / 2

/-- The sharp steps: -1 below `-c`, 0 between, 1 above `c`. -/
noncomputable def sharpSteps (c v : ℝ) : ℝ := (Real.sign (v + c) + Real.sign (v - c)) / 2

/-- Inside. -/
theorem sharp_inside {c v : ℝ} (h : |v| < c) : sharpWindow c v = 1 ∧ sharpSteps c v = 0 := by
  obtain ⟨h1, h2⟩ := abs_lt.mp h
  unfold sharpWindow sharpSteps
  rw [Real.sign_of_pos (by linarith), Real.sign_of_neg (by linarith)]
  norm_num

/-- Above. -/
theorem sharp_above {c v : ℝ} (hc : 0 ≤ c) (h : c < v) : sharpWindow c v = 0 ∧ sharpSteps c v = 1 := by
  unfold sharpWindow sharpSteps
  rw [Real.sign_of_pos (by linarith), Real.sign_of_pos (by linarith)]
  norm_num

/-- Below. -/
theorem sharp_below {c v : ℝ} (hc : 0 ≤ c) (h : v < -c) : sharpWindow c v = 0 ∧ sharpSteps c v = -1 := by
  unfold sharpWindow sharpSteps
  rw [Real.sign_of_neg (by linarith), Real.sign_of_neg (by linarith)]
  norm_num

/-- On the upper edge. -/
theorem sharp_edge {c : ℝ} (hc : 0 < c) : sharpWindow c c = 1 / 2 ∧ sharpSteps c c = 1 / 2 := by
  unfold sharpWindow sharpSteps
  rw [Real.sign_of_pos (by linarith), sub_self, Real.sign_zero]
  norm_num

end QMix.Spec
