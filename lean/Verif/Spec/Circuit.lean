import Mathlib.Analysis.SpecialFunctions.Pow.Real
import Mathlib.Analysis.Complex.Norm

/-!
# Specification: physical units of the embedding circuit

Nothing here refers to the model of the code.
-/

namespace QMix.Spec

/-- The recognised units of power. -/
inductive PowerUnit | W | mW | uW | nW | pW | fW | dBm | dBW
  deriving DecidableEq

/-- Lower-case spelling. -/
def PowerUnit.spelling : PowerUnit → String
  | W => "w" | mW => "mw" | uW => "uw" | nW => "nw" | pW => "pw" | fW => "fw" | dBm => "dbm"
  | dBW => "dbw"

/-- The power in watts of a reading `x` in this unit. -/
noncomputable def PowerUnit.watts : PowerUnit → ℝ → ℝ
  | W, x => x
  | mW, x => x * 1e-3
  | uW, x => x * 1e-6
  | nW, x => x * 1e-9
  | pW, x => x * 1e-12
  | fW, x => x * 1e-15
  | dBm, x => 10 ^ (x / 10) / 1000
  | dBW, x => 10 ^ (x / 10)

/-- Units that cannot express zero power. -/
def PowerUnit.logarithmic : PowerUnit → Prop
  | dBm => True
  | dBW => True
  | _ => False

/-- Maximum power that a source of peak voltage `v` (a phasor) and internal resistance `r` delivers. -/
noncomputable def sourcePower (v : ℂ) (r : ℝ) : ℝ := ‖v‖ ^ 2 / (8 * r)

/-- The recognised units of frequency; volts stand for the photon voltage `h ν / e`. -/
inductive FreqUnit | Hz | MHz | GHz | THz | V | mV
  deriving DecidableEq

/-- Lower-case spelling. -/
def FreqUnit.spelling : FreqUnit → String
  | Hz => "hz" | MHz => "mhz" | GHz => "ghz" | THz => "thz" | V => "v" | mV => "mv"

/-- The frequency in hertz of a reading `x` in this unit; `q` is `e / h`. -/
noncomputable def FreqUnit.hertz (q : ℝ) : FreqUnit → ℝ → ℝ
  | Hz, x => x
  | MHz, x => x * 1e6
  | GHz, x => x * 1e9
  | THz, x => x * 1e12
  | V, x => x * q
  | mV, x => x * 1e-3 * q

/-- Drive level of a junction voltage at harmonic `p` of a tone with photon voltage `w`. -/
noncomputable def driveLevel (v : ℂ) (w : ℝ) (p : ℕ) : ℝ := ‖v‖ / (p * w)

/-- Voltage across `zj` in series with `zt` and a source `vt`. -/
noncomputable def divider (vt zt zj : ℂ) : ℂ := vt * zj / (zt + zj)

end QMix.Spec
