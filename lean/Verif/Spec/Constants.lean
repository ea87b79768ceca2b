import Mathlib.Data.Real.Basic

/-!
# The constants of the SI

The values fixed by the definition of the units in 2019, apart from the constants of the model.
-/

namespace QMix.Spec.SI

/-- The Planck constant in J s. -/
noncomputable def h : ℝ := 6.62607015e-34

/-- The elementary charge in C. -/
noncomputable def e : ℝ := 1.602176634e-19

/-- The Boltzmann constant in J / K. -/
noncomputable def k : ℝ := 1.380649e-23

end QMix.Spec.SI
