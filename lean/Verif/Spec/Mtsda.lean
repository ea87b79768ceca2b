import Verif.Py.Basic
import Verif.Py.Bessel
import Mathlib.Analysis.SpecialFunctions.Complex.Arg
import Mathlib.Analysis.Complex.Exponential

/-!
# Specification: multi-tone spectral domain analysis

The formulas of Kittara's thesis that the documentation of `qmix/qtcurrent.py` refers to, at a single
bias point and for any number of tones, written as nested finite sums. Nothing here refers to the
model of the code.
-/

namespace QMix.Spec

open Complex Finset

/-- Jacobi-Anger coefficient (eqn. 5.7) of harmonic `p` of a tone of frequency `w` with voltage
phasor `v`, truncated to `|n| ≤ nb`. -/
noncomputable def jacobiAnger (v : ℂ) (w : ℝ) (p nb : ℕ) (n : ℤ) : ℂ :=
  if |n| ≤ nb then (besselJ n (‖v‖ / (p * w)) : ℂ) * exp (-I * n * arg v) else 0

/-- Harmonic convolution (eqn. 5.12) of the coefficient sequences `A 1, ..., A p`, all indices
limited to `[-M, M]`: `C⁰ = δ`, `Cᵖ_k = Σ_l Cᵖ⁻¹_{k - p l} Aᵖ_l`. -/
noncomputable def harmonicConv (M : ℕ) (A : ℕ → ℤ → ℂ) : ℕ → ℤ → ℂ
  | 0, k => if k = 0 then 1 else 0
  | p + 1, k => ∑ l ∈ Icc (-(M : ℤ)) M,
      if |k - (p + 1 : ℕ) * l| ≤ M then harmonicConv M A p (k - (p + 1 : ℕ) * l) * A (p + 1) l else 0

/-- The phase-factor coefficient `C_k` of a tone with harmonic voltages `v 1, ..., v P`. -/
noncomputable def toneCoeff (v : ℕ → ℂ) (w : ℝ) (P nb M : ℕ) : ℤ → ℂ :=
  harmonicConv M (fun p => jacobiAnger (v p) w p nb) P

/-- A tone: its phase-factor coefficients, its summation limit, its frequency. -/
structure Tone where
  C : ℤ → ℂ
  nb : ℕ
  w : ℝ

/-- The correlation `R(a, b, ...)` of eqn. 5.25: a nested sum over `k, l, ...` in the summation
limits, keeping the terms whose shifted index is also inside. The response function is evaluated at
the bias voltage plus `k w₁ + l w₂ + ...`. -/
noncomputable def corr (resp : ℝ → ℂ) : List (Tone × ℤ) → ℝ → ℂ
  | [], v => resp v
  | (t, a) :: ts, v => ∑ k ∈ Icc (-(t.nb : ℤ)) t.nb,
      if |k + a| ≤ t.nb then t.C k * (starRingEnd ℂ) (t.C (k + a)) * corr resp ts (v + k * t.w) else 0

/-- Mixing product of orders `(a, b, ...)` (eqn. 5.26): `-i (R(a..) - conj R(-a..))`, and the
imaginary part of `R(0..)` at dc. -/
noncomputable def mixProduct (resp : ℝ → ℂ) (ts : List (Tone × ℤ)) (v : ℝ) : ℂ :=
  if ∀ x ∈ ts, x.2 = 0 then ((corr resp ts v).im : ℂ)
  else -I * (corr resp ts v
    - (starRingEnd ℂ) (corr resp (ts.map fun x => (x.1, -x.2)) v))

/-- The frequency `a w₁ + b w₂ + ...` of a mixing product. -/
noncomputable def mixFreq (ts : List (Tone × ℤ)) : ℝ := (ts.map fun x => (x.2 : ℝ) * x.1.w).sum

/-- Sum of `g` over all orders in `[-P, P]` for every tone. -/
noncomputable def boxSum (P : ℕ) : List Tone → (List (Tone × ℤ) → ℂ) → ℂ
  | [], g => g []
  | t :: ts, g => ∑ a ∈ Icc (-(P : ℤ)) P, boxSum P ts fun l => g ((t, a) :: l)

/-- The tunnelling current at frequency `f`: the sum of all mixing products whose frequency equals
`f` when both are rounded to 4 decimals. -/
noncomputable def current (resp : ℝ → ℂ) (P : ℕ) (tones : List Tone) (v f : ℝ) : ℂ :=
  boxSum P tones fun l => if round4 (mixFreq l) = round4 f then mixProduct resp l v else 0

/-- The tones `f, f + 1, ...` with harmonic voltages `v f 1, ..., v f P`, frequencies `freq f` and
summation limits `nbs`; `M` is the size of the coefficient arrays. -/
noncomputable def tonesFrom (v : ℕ → ℕ → ℂ) (freq : ℕ → ℝ) (P M : ℕ) : ℕ → List ℕ → List Tone
  | _, [] => []
  | f, nb :: nbs => ⟨toneCoeff (v f) (freq f) P nb M, nb, freq f⟩ :: tonesFrom v freq P M (f + 1) nbs

/-- The tunnelling current for `numF` tones and `P` harmonics: `tup` are the summation limits (one
per tone, further entries allowed), the arrays are sized by the largest entry of `tup`. -/
noncomputable def qt (resp : ℝ → ℂ) (v : ℕ → ℕ → ℂ) (freq : ℕ → ℝ) (numF P : ℕ) (tup : List ℕ)
    (vb f : ℝ) : ℂ :=
  current resp P (tonesFrom v freq P (tup.foldr max 0) 1 (tup.take numF)) vb f

/-- `k freq[f] + l freq[f+1] + ...`. -/
noncomputable def photonShift (freq : ℕ → ℝ) : ℕ → List ℤ → ℝ
  | _, [] => 0
  | f, k :: ks => k * freq f + photonShift freq (f + 1) ks

/-- Phase `a θ[f] + b θ[f+1] + ...` that a delay of the tones by `θ` gives a mixing product. -/
noncomputable def delayPhase (θ : ℕ → ℝ) : ℕ → List (Tone × ℤ) → ℝ
  | _, [] => 0
  | f, x :: l => x.2 * θ f + delayPhase θ (f + 1) l

end QMix.Spec
