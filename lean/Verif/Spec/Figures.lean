import Mathlib.Data.Real.Basic
import Mathlib.Data.List.Infix

/-!
# Specification: what a reader sees in a figure

Nothing here refers to the model of the code.
-/

namespace QMix.Spec

/-- The point `(x, y)` lies on the broken line through the points: it is one of them, or it lies on the
segment between two successive ones. -/
def OnLine (pts : List (ℝ × ℝ)) (x y : ℝ) : Prop :=
  (x, y) ∈ pts ∨ ∃ a b t, [a, b] <:+: pts ∧ 0 ≤ t ∧ t ≤ 1 ∧ x = (1 - t) * a.1 + t * b.1 ∧
    y = (1 - t) * a.2 + t * b.2

/-- Points in volts and amperes, shown in millivolts and microamperes. -/
noncomputable def shownMvUa (pts : List (ℝ × ℝ)) : List (ℝ × ℝ) := pts.map fun p => (p.1 * 1e3, p.2 * 1e6)

end QMix.Spec
