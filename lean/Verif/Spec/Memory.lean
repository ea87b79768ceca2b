import Verif.Spec.Phase
import Mathlib.MeasureTheory.Integral.Bochner.Set

/-!
# Specification: the junction in the time domain

The tunnelling current of a junction at an instant is a causal functional of its voltage: electrons
that tunnelled a time `τ` ago contribute with the weight `χ(τ)` and with the phase that the voltage has
built up since. Time is measured in units of the inverse (angular) gap frequency, voltages and
frequencies in units of the gap, so that the phase is the integral of the voltage. Phasors refer to
`e^{jωt}`: the signal `v` is the voltage `Re(v e^{jωt})`. Nothing here refers to photons, Bessel
functions, summation limits or the model of the code.
-/

namespace QMix.Spec

open Complex Finset MeasureTheory

/-- The voltage of a tone with harmonic phasors `v 1, ..., v P` at the phase angle `t` of its
fundamental: the real part of `v 1 e^{jt} + v 2 e^{2jt} + ...`. -/
noncomputable def signalVoltage (v : ℕ → ℂ) (P : ℕ) (t : ℝ) : ℝ := ∑ p ∈ Icc 1 P, (v p * exp (I * (p * t))).re

/-- The phase that a tone of frequency `w` has built up during the time `τ`, when its phase angle is
`t` now. -/
noncomputable def phaseGain (v : ℕ → ℂ) (w : ℝ) (P : ℕ) (t τ : ℝ) : ℝ := ∫ s in (-τ)..0, signalVoltage v P (t + w * s)

/-- The response function of the junction, its answer to a constant voltage `v`: a conductance `g` that
answers at once, and a part that remembers. -/
noncomputable def memoryResponse (g : ℝ) (χ : ℝ → ℂ) (v : ℝ) : ℂ :=
  I * (g * v : ℝ) + ∫ τ in Set.Ioi 0, χ τ * exp (I * (v * τ : ℝ))

/-- The mean, over the phase angles of the tones, of the current times `e^{-j(a₁ t₁ + a₂ t₂ + ...)}`.
A tone is given by its phasors, its frequency and its order `a`; `u` is the voltage due to everything
else, and `δ τ` the phase that it has built up during the time `τ`. -/
noncomputable def memoryMean (g : ℝ) (χ : ℝ → ℂ) (P : ℕ) : List ((ℕ → ℂ) × ℝ × ℤ) → ℝ → (ℝ → ℝ) → ℂ
  | [], u, δ => ((g * u + (∫ τ in Set.Ioi 0, χ τ * exp (I * δ τ)).im : ℝ) : ℂ)
  | x :: l, u, δ => (1 / (2 * Real.pi) : ℝ) * ∫ t in (-Real.pi)..Real.pi, exp (-(I * x.2.2 * t)) *
      memoryMean g χ P l (u + signalVoltage x.1 P t) fun τ => δ τ + phaseGain x.1 x.2.1 P t τ

/-- The tones `f, f + 1, ...` with the orders of the list. -/
def orders (v : ℕ → ℕ → ℂ) (freq : ℕ → ℝ) : ℕ → List ℤ → List ((ℕ → ℂ) × ℝ × ℤ)
  | _, [] => []
  | f, a :: as => (v f, freq f, a) :: orders v freq (f + 1) as

/-- The phasor of the mixing product of orders `as` of the current at bias voltage `vb`: the mean
current for the orders `(0, 0, ...)`, twice the Fourier coefficient otherwise. -/
noncomputable def memoryCurrent (g : ℝ) (χ : ℝ → ℂ) (v : ℕ → ℕ → ℂ) (freq : ℕ → ℝ) (P : ℕ) (as : List ℤ) (vb : ℝ) : ℂ :=
  (if ∀ a ∈ as, a = 0 then 1 else 2) * memoryMean g χ P (orders v freq 1 as) vb fun τ => vb * τ

/-- The current at time `t` of a junction with the voltage `V` as a function of time: it depends on the
voltage now and in the past. -/
noncomputable def instantCurrent (g : ℝ) (χ : ℝ → ℂ) (V : ℝ → ℝ) (t : ℝ) : ℝ :=
  g * V t + (∫ τ in Set.Ioi 0, χ τ * exp (I * (∫ s in (t - τ)..t, V s : ℝ))).im

end QMix.Spec
