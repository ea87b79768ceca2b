import Mathlib.MeasureTheory.Integral.Bochner.Set
import Mathlib.MeasureTheory.Measure.Lebesgue.Basic
import Mathlib.Analysis.SpecialFunctions.Trigonometric.Basic

/-!
# The Kramers-Kronig transform of a curve known between two voltages

Independent of the model: the principal value integral of Tucker theory.
-/

namespace QMix.Spec

open MeasureTheory Filter Set Topology

/-- The integral over the voltages from `a` to `b`, except those closer than `ε` to `V`. -/
noncomputable def kkOutside (I : ℝ → ℝ) (a b V ε : ℝ) : ℝ :=
  1 / Real.pi * ∫ x in {x | x ∈ Icc a b ∧ ε ≤ |x - V|}, (I x - x) / (x - V)

/-- `L` is the Kramers-Kronig transform of `I` at `V`. -/
def IsKk (I : ℝ → ℝ) (a b V L : ℝ) : Prop := Tendsto (kkOutside I a b V) (𝓝[>] 0) (𝓝 L)

/-- A curve that stays within `B` of the normal state between `a` and `b`, jumps at most countably
often, and does not rise infinitely fast at `V`. -/
structure Regular (I : ℝ → ℝ) (a b V B : ℝ) : Prop where
  below : a < V
  above : V < b
  bounded : ∀ x ∈ Icc a b, |I x - x| ≤ B
  jumps : {x ∈ Ioo a b | ¬ ContinuousAt I x}.Countable
  slope : ∃ δ > 0, ∃ K, ∀ x ∈ Icc a b, |x - V| ≤ δ → |I x - I V| ≤ K * |x - V|

end QMix.Spec
