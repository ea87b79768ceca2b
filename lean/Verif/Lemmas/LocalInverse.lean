import Mathlib.Analysis.Calculus.InverseFunctionTheorem.ContDiff
import Mathlib.Analysis.Calculus.ContDiff.Basic
import Mathlib.Analysis.Calculus.ContDiff.Operations
import Mathlib.Topology.Algebra.Module.FiniteDimension
import Mathlib.LinearAlgebra.FiniteDimensional.Basic
import Mathlib.Analysis.Normed.Module.FiniteDimension

/-! The local inverse of a smooth map, on balls. -/

namespace QMix

open Filter Topology Metric
open scoped ContDiff

theorem exists_local_inverse {E : Type} [NormedAddCommGroup E] [NormedSpace ℝ E] [FiniteDimensional ℝ E] {F : E → E} (hF : ContDiff ℝ ∞ F)
    {x₀ : E} {A : E →L[ℝ] E} (hA : HasFDerivAt F A x₀) (hinj : ∀ u, A u = 0 → u = 0) :
    ∃ (g : E → E) (ε δ : ℝ), 0 < ε ∧ 0 < δ ∧ g (F x₀) = x₀ ∧ ContDiffOn ℝ ∞ g (ball (F x₀) ε) ∧
      ∀ y, ‖y - F x₀‖ < ε → ‖g y - x₀‖ < δ ∧ ∀ x, ‖x - x₀‖ < δ → (F x = y ↔ x = g y) := by
  haveI := FiniteDimensional.complete ℝ E
  have hi : Function.Injective (A : E →ₗ[ℝ] E) := (injective_iff_map_eq_zero (A : E →ₗ[ℝ] E)).2 hinj
  let e₀ : E ≃L[ℝ] E := (LinearEquiv.ofInjectiveEndo (A : E →ₗ[ℝ] E) hi).toContinuousLinearEquiv
  have he₀ : (e₀ : E →L[ℝ] E) = A := by
    ext u
    rfl
  have hn : (∞ : WithTop ℕ∞) ≠ 0 := by simp
  let e := (hF.contDiffAt (x := x₀)).toOpenPartialHomeomorph F (f' := e₀) (he₀ ▸ hA) hn
  have hco : ∀ x, e x = F x := fun _ => rfl
  have hsrc : x₀ ∈ e.source := ContDiffAt.mem_toOpenPartialHomeomorph_source _ _ hn
  have hcd : Continuous (fderiv ℝ F) := hF.continuous_fderiv hn
  have hU : IsOpen (fderiv ℝ F ⁻¹' Set.range ((↑) : (E ≃L[ℝ] E) → E →L[ℝ] E)) := ContinuousLinearEquiv.isOpen.preimage hcd
  have hx₀U : x₀ ∈ fderiv ℝ F ⁻¹' Set.range ((↑) : (E ≃L[ℝ] E) → E →L[ℝ] E) := ⟨e₀, by rw [hA.fderiv, he₀]⟩
  obtain ⟨δ, hδ, hδs⟩ := Metric.isOpen_iff.1 (e.open_source.inter hU) x₀ ⟨hsrc, hx₀U⟩
  have hT : IsOpen (e.target ∩ e.symm ⁻¹' ball x₀ δ) := e.isOpen_inter_preimage_symm isOpen_ball
  have hy₀ : F x₀ ∈ e.target ∩ e.symm ⁻¹' ball x₀ δ := by
    refine ⟨e.map_source hsrc, ?_⟩
    rw [Set.mem_preimage, ← hco, e.left_inv hsrc]
    exact mem_ball_self hδ
  obtain ⟨ε, hε, hεs⟩ := Metric.isOpen_iff.1 hT (F x₀) hy₀
  refine ⟨e.symm, ε, δ, hε, hδ, by rw [← hco, e.left_inv hsrc], fun y hy => ?_, fun y hy => ?_⟩
  · obtain ⟨h1, h2⟩ := hεs hy
    obtain ⟨e₁, he₁⟩ := (hδs h2).2
    refine (e.contDiffAt_symm (f₀' := e₁) h1 ?_ hF.contDiffAt).contDiffWithinAt
    rw [he₁]
    exact ((hF.differentiable hn) _).hasFDerivAt
  · obtain ⟨h1, h2⟩ := hεs (by rwa [mem_ball, dist_eq_norm])
    refine ⟨by rwa [Set.mem_preimage, mem_ball, dist_eq_norm] at h2, fun x hx => ⟨fun h3 => ?_, fun h3 => ?_⟩⟩
    · rw [← h3, ← hco, e.left_inv (hδs (by rwa [mem_ball, dist_eq_norm])).1]
    · rw [h3, ← hco, e.right_inv h1]

end QMix
