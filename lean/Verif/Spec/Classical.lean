import Verif.Spec.Phase

/-!
# Specification: the classical junction

A junction that ignores the photon energy is a nonlinear resistor: at every instant it carries the
current that its I-V curve gives for the instantaneous voltage. Its response to several tones is found
by averaging over the phase angles of the tones, one angle per tone. Nothing here refers to photons,
Fourier series of the phase factor, the Kramers-Kronig transform or the model of the code.
-/

namespace QMix.Spec

open Complex

/-- The average of `h(v + u₁(t₁) + u₂(t₂) + ...)`, weighted with `e^{i(a₁ t₁ + a₂ t₂ + ...)}`, over the
phase angles `t₁, t₂, ...`. -/
noncomputable def phaseAverage (h : ℝ → ℂ) : List ((ℝ → ℝ) × ℤ) → ℝ → ℂ
  | [], v => h v
  | (u, a) :: l, v => (1 / (2 * Real.pi) : ℝ) * ∫ t in (-Real.pi)..Real.pi, exp (I * a * t) * phaseAverage h l (v + u t)

/-- The ac voltages of the tones `f, ..., f + n - 1` as functions of their phase angles. -/
noncomputable def drives (v : ℕ → ℕ → ℂ) (P : ℕ) : ℕ → ℕ → List (ℝ → ℝ)
  | _, 0 => []
  | f, n + 1 => acVoltage (v f) P :: drives v P (f + 1) n

/-- The phasor of the mixing product of orders `(a₁, a₂, ...)` of a nonlinear resistor with the
I-V curve `i`: the mean current for the orders `(0, 0, ...)`, twice the Fourier coefficient otherwise. -/
noncomputable def resistorCurrent (i : ℝ → ℝ) (l : List ((ℝ → ℝ) × ℤ)) (v : ℝ) : ℂ :=
  (if ∀ x ∈ l, x.2 = 0 then 1 else 2) * phaseAverage (fun x => (i x : ℂ)) l v

end QMix.Spec
