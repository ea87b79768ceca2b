import Verif.Spec.HarmonicBalance
import Mathlib.Algebra.Module.LinearMap.Defs
import Mathlib.Analysis.Normed.Group.Constructions

/-!
# Specification: solutions of the circuit equations at one bias point

The junction voltages of all signals at one bias point are a vector with one complex entry per tone and
harmonic, in the order (tone 1, harmonics 1, 2, ...), (tone 2, ...). Nothing here refers to the model of
the code.
-/

namespace QMix.Spec

/-- The voltage of tone `f`, harmonic `p` in a vector of all signals; signals that do not exist have no
voltage. -/
def signal {numF P : ℕ} (x : Fin (numF * P) → ℂ) (f p : ℕ) : ℂ :=
  if h : (f - 1) * P + (p - 1) < numF * P ∧ (1 ≤ f ∧ f ≤ numF) ∧ 1 ≤ p ∧ p ≤ P then x ⟨_, h.1⟩ else 0

/-- The source voltages with every one below `1e-10` in magnitude replaced by `1e-10`. -/
noncomputable def source (vt : ℕ → ℕ → ℂ) (f p : ℕ) : ℂ :=
  open Classical in if ‖vt f p‖ < 1 / 10 ^ 10 then 1 / 10 ^ 10 else vt f p

/-- The residuals of the circuit equations of all signals. -/
noncomputable def residuals (resp : ℝ → ℂ) (freq : ℕ → ℝ) (numF P : ℕ) (tup : List ℕ) (vb : ℝ)
    (vt zt : ℕ → ℕ → ℂ) (x : Fin (numF * P) → ℂ) : Fin (numF * P) → ℂ :=
  fun k => residual resp freq numF P tup vb vt zt (signal x) (k / P + 1) (k % P + 1)

/-- `xs` is a solution of `F = 0` near which `F` is nearly linear: on all voltages within
`ρ + 0.001` of it, `F` differs from the linear map `A` by at most `κ` times the change of the voltages,
and `A` can be inverted with gain `β`. The product `β κ` is small. -/
structure NearLinear {n : ℕ} (F : (Fin n → ℂ) → Fin n → ℂ) (xs : Fin n → ℂ) (ρ : ℝ)
    (A : (Fin n → ℂ) →ₗ[ℝ] (Fin n → ℂ)) (β κ : ℝ) : Prop where
  solution : F xs = 0
  nonneg : 0 ≤ κ
  nonneg' : 0 ≤ β
  invertible : ∀ u, ‖u‖ ≤ β * ‖A u‖
  near : ∀ x y, ‖x - xs‖ ≤ ρ + 1 / 1000 → ‖y - xs‖ ≤ ρ + 1 / 1000 → ‖F x - F y - A (x - y)‖ ≤ κ * ‖x - y‖
  small : β * κ * (6 * n + 2) ≤ 1

end QMix.Spec
