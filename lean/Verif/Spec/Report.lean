import Verif.Spec.Table
import Mathlib.Order.Bounds.Basic
import Mathlib.Analysis.Complex.Norm

/-!
# Specification: power in ac circuits, and reading reports

Nothing here refers to the model of the code.
-/

namespace QMix.Spec

/-- The power absorbed by an impedance `z` across which there is an ac voltage with peak value `v`: half the real part of the
voltage times the conjugate of the current. -/
noncomputable def absorbed (v z : ℂ) : ℝ := (v * (starRingEnd ℂ) (v / z)).re / 2

/-- The power that a source with peak voltage `v` and impedance `z` delivers to a load: the load sees its share of the voltage. -/
noncomputable def intoLoad (v z load : ℂ) : ℝ := absorbed (v * load / (z + load)) load

/-- The available power of a source: the most it can deliver to a load that does not generate power. -/
def IsAvailable (v z : ℂ) (p : ℝ) : Prop := IsGreatest {q | ∃ load : ℂ, 0 ≤ load.re ∧ q = intoLoad v z load} p

/-- What is written between the tabs of a line; blanks in front do not count. -/
def tabbed (t : List Char) : List (List Char) :=
  ((cutAt '\t' t).map fun w => w.dropWhile (· == ' ')).filter fun w => !w.isEmpty

/-- The report that a reader sees: line by line, what is written between the tabs. -/
def report (out : List Char) : List (List (List Char)) := (linesOf (shown out)).map tabbed

end QMix.Spec
