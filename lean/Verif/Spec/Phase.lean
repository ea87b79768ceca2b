import Verif.Spec.Mtsda
import Mathlib.MeasureTheory.Integral.IntervalIntegral.Basic
import Mathlib.Topology.Algebra.InfiniteSum.Basic

/-!
# Specification: the junction without truncation

What `qtcurrent` approximates. A junction driven by a periodic voltage multiplies the quasiparticle
states by the phase factor `exp(i φ(t))`, with `dφ/dt` the voltage (in units of the gap voltage, with
time in units of the inverse gap frequency). Its Fourier coefficients are the exact coefficients
`C_k`, and the tunnelling current is the multi-tone sum over all integers. Nothing here refers to
summation limits, Bessel functions or the model of the code.
-/

namespace QMix

open Complex

/-- The Fourier coefficient of order `k` of a function of period 2π. -/
noncomputable def fcoef (F : ℝ → ℂ) (k : ℤ) : ℂ :=
  (1 / (2 * Real.pi) : ℝ) * ∫ t in (-Real.pi)..Real.pi, exp (-(I * k * t)) * F t

namespace Spec

open Finset

/-- The ac voltage of a tone with harmonic phasors `v 1, ..., v P` at the phase angle `t` of its
fundamental: the sum of `|v p| cos(p t - arg (v p))`. -/
noncomputable def acVoltage (v : ℕ → ℂ) (P : ℕ) (t : ℝ) : ℝ :=
  ∑ p ∈ Icc 1 P, ‖v p‖ * Real.cos (p * t - arg (v p))

/-- The junction phase of a tone of frequency `w`: the time integral of its ac voltage. -/
noncomputable def junctionPhase (v : ℕ → ℂ) (w : ℝ) (P : ℕ) (t : ℝ) : ℝ :=
  ∑ p ∈ Icc 1 P, ‖v p‖ / (p * w) * Real.sin (p * t - arg (v p))

/-- The phase factor of a tone. -/
noncomputable def phaseFactor (v : ℕ → ℂ) (w : ℝ) (P : ℕ) (t : ℝ) : ℂ := exp (I * junctionPhase v w P t)

/-- The exact coefficients of a tone: the Fourier coefficients of its phase factor. -/
noncomputable def phaseCoeff (v : ℕ → ℂ) (w : ℝ) (P : ℕ) : ℤ → ℂ := fcoef (phaseFactor v w P)

/-- The correlation with all sums running over the integers (`Tone.nb` is not used). -/
noncomputable def corrFull (resp : ℝ → ℂ) : List (Tone × ℤ) → ℝ → ℂ
  | [], v => resp v
  | (t, a) :: ts, v => ∑' k : ℤ, t.C k * (starRingEnd ℂ) (t.C (k + a)) * corrFull resp ts (v + k * t.w)

/-- The mixing product of orders `(a, b, ...)`, without truncation. -/
noncomputable def mixFull (resp : ℝ → ℂ) (ts : List (Tone × ℤ)) (v : ℝ) : ℂ :=
  if ∀ x ∈ ts, x.2 = 0 then ((corrFull resp ts v).im : ℂ)
  else -I * (corrFull resp ts v
    - (starRingEnd ℂ) (corrFull resp (ts.map fun x => (x.1, -x.2)) v))

/-- The tunnelling current at frequency `f`, without truncation. -/
noncomputable def currentFull (resp : ℝ → ℂ) (P : ℕ) (tones : List Tone) (v f : ℝ) : ℂ :=
  boxSum P tones fun l => if round4 (mixFreq l) = round4 f then mixFull resp l v else 0

/-- The tones `f, ..., f + n - 1` with their exact coefficients. -/
noncomputable def tonesFull (v : ℕ → ℕ → ℂ) (freq : ℕ → ℝ) (P : ℕ) : ℕ → ℕ → List Tone
  | _, 0 => []
  | f, n + 1 => ⟨phaseCoeff (v f) (freq f) P, 0, freq f⟩ :: tonesFull v freq P (f + 1) n

/-- The tunnelling current for `numF` tones and `P` harmonics, without truncation. -/
noncomputable def qtFull (resp : ℝ → ℂ) (v : ℕ → ℕ → ℂ) (freq : ℕ → ℝ) (numF P : ℕ) (vb f : ℝ) : ℂ :=
  currentFull resp P (tonesFull v freq P 1 numF) vb f

/-- The average of `g` over the voltages `v + k w₁ + l w₂ + ...` that photon exchange makes
available, with the probabilities `|C_k|² |C_l|² ...`. -/
noncomputable def photonAverage (g : ℝ → ℝ) : List Tone → ℝ → ℝ
  | [], v => g v
  | t :: ts, v => ∑' k : ℤ, ‖t.C k‖ ^ 2 * photonAverage g ts (v + k * t.w)

end Spec

end QMix
