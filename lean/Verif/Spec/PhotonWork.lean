import Verif.Spec.Phase

/-!
# Specification: the energy that one tone gives to the junction

Photon bookkeeping. When the electrons at bias `v` have absorbed `k` photons of the first tone, `l`
of the second and so on (with probability `|C_k|² |C_l|² ...`) they pass the junction at the voltage
`v + k w₁ + l w₂ + ...`. Tone `j` then has given them the energy of its own photons, `k_j w_j` each.
-/

namespace QMix.Spec

/-- The energy that tone `j` (counted from 0) gives to a junction with dc curve `g`. -/
noncomputable def photonWork (g : ℝ → ℝ) : ℕ → List Tone → ℝ → ℝ
  | _, [], _ => 0
  | 0, t :: ts, v => ∑' k : ℤ, k * t.w * (‖t.C k‖ ^ 2 * photonAverage g ts (v + k * t.w))
  | j + 1, t :: ts, v => ∑' k : ℤ, ‖t.C k‖ ^ 2 * photonWork g j ts (v + k * t.w)

end QMix.Spec
