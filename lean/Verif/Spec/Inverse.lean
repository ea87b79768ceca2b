import Mathlib.Algebra.Module.LinearMap.Defs
import Mathlib.Data.Matrix.Mul
import Mathlib.Analysis.Complex.Norm
import Mathlib.LinearAlgebra.Complex.Module

/-!
# Specification: an accurate matrix inversion

A complex vector has its real and imaginary parts side by side. Nothing here refers to the model of the code.
-/

namespace QMix.Spec

open Complex

/-- The columns of the real matrix `J` are within `κ` of those of the linear map `A`. -/
def MatrixNear {n : ℕ} (A : (Fin n → ℂ) →ₗ[ℝ] (Fin n → ℂ)) (κ : ℝ) (J : Matrix (Fin n × Fin 2) (Fin n × Fin 2) ℝ) : Prop :=
  ∀ p q, ‖(⟨J (p, 0) (q, 0), J (p, 1) (q, 0)⟩ : ℂ) - A (Pi.single q 1) p‖ ≤ κ ∧ ‖(⟨J (p, 0) (q, 1), J (p, 1) (q, 1)⟩ : ℂ) - A (Pi.single q I) p‖ ≤ κ

/-- `inv` inverts every matrix within `κ` of `A`, and the entries of the inverse are right to `ω`. -/
def InvertsNear {n : ℕ} {ε : Type} (inv : Matrix (Fin n × Fin 2) (Fin n × Fin 2) ℝ → Except ε (Matrix (Fin n × Fin 2) (Fin n × Fin 2) ℝ))
    (A : (Fin n → ℂ) →ₗ[ℝ] (Fin n → ℂ)) (κ ω : ℝ) : Prop :=
  ∀ J, MatrixNear A κ J → ∃ Y, inv J = .ok Y ∧ ∀ X, J * X = 1 → ∀ a b, |Y a b - X a b| ≤ ω

end QMix.Spec
