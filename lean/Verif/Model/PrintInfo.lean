import Verif.Model.Circuit

/-!
# Model of `EmbeddingCircuit.print_info`

The output is a list of lines; each line holds the numbers that are printed, before they are rounded
by the format strings (`{:.4f}` for frequencies and voltages, `{:.2f}` for impedances, `{:.1f}` for
GHz, `{:.2E}` and `{:.3f}` for powers; the rounding of such formats is modelled in
`Verif.Model.CircuitIO` and `Verif.Model.Terminal`). An infinite or undefined number (`inf`, `nan`)
is `none`.
-/

namespace QMix.Cct

/-- One line of output. -/
inductive Line
  /-- `__str__`, `qmix/circuit.py:251-258`; the name only if it is not empty -/
  | head (numF numP : ℕ) (name : Option String)
  /-- `str1`, `qmix/circuit.py:482` -/
  | signal (f p : ℤ) (freq : ℝ) (comment : String)
  /-- `str2`, `qmix/circuit.py:483` -/
  | signalGHz (f p : ℤ) (ghz : ℝ) (comment : String)
  /-- `str3`, `qmix/circuit.py:484` -/
  | voltGap (x : ℝ)
  /-- `str6`, `qmix/circuit.py:485` -/
  | voltPh (x : Option ℝ)
  /-- `str4`, `qmix/circuit.py:486` -/
  | imp (z : ℂ)
  /-- `str7`, `qmix/circuit.py:487` -/
  | watts (x : ℝ)
  /-- `str8`, `qmix/circuit.py:488` -/
  | dbm (x : Option ℝ)
  /-- the last line, `qmix/circuit.py:514` -/
  | blank

/-- A NumPy number that may be infinite or undefined; other exceptions stay exceptions. -/
def orInf {α : Type} : Py α → Py (Option α)
  | .ok x => .ok (some x)
  | .error .nonFinite => .ok none
  | .error e => .error e

/-- The first line, `print(self)`, `qmix/circuit.py:251-258,480`. -/
def headLine (c : Circuit) : Line := .head c.numF c.numP (if c.name ≠ "" then some c.name else none)

/-- The lines of one signal without physical units, `qmix/circuit.py:493-498`. -/
noncomputable def blockNorm (c : Circuit) (f p : ℤ) : Py (List Line) := do
  let freq ← pyGet c.freq f
  let vt ← get2 c.vt f p
  let zt ← get2 c.zt f p
  let comment ← get2 c.comment f p
  pure [.signal f p freq comment, .voltGap vt.re, .imp zt]

/-- The lines of one signal with physical units, `qmix/circuit.py:502-513`. The quotient is one of
NumPy numbers: a zero divisor gives an infinity or NaN. -/
noncomputable def blockPhys (c : Circuit) (fgap : ℝ) (f p : ℤ) : Py (List Line) := do
  let freq ← pyGet c.freq f
  let fq := freq * fgap / 1e9
  let vt ← get2 c.vt f p
  let zt ← get2 c.zt f p
  let power_w ← availablePower c f p "W"
  let power_dbm ← orInf (availablePower c f p "dBm")
  let comment ← get2 c.comment f p
  pure [.signalGHz f p fq comment, .voltGap vt.re,
    .voltPh (if freq * p = 0 then none else some (vt.re / (freq * p))), .imp zt,
    .watts power_w, .dbm power_dbm]

/-- The choice between the two loops, `qmix/circuit.py:490,499`. -/
noncomputable def blockOf (c : Circuit) (f p : ℤ) : Py (List Line) :=
  match c.fgap, c.vgap, c.rn with
  | some fgap, some _, some _ => blockPhys c fgap f p
  | _, _, _ => blockNorm c f p

/-- `print_info`, `qmix/circuit.py:477-514`. It only reads the circuit. -/
noncomputable def printInfo (c : Circuit) : Py (List Line) := do
  let body ← pyFor (pyRange 1 (c.numF + 1)) [headLine c] fun out f =>
    pyFor (pyRange 1 (c.numP + 1)) out fun out p => do
      let block ← blockOf c f p
      pure (out ++ block)
  pure (body ++ [.blank])

end QMix.Cct
