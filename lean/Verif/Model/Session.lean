import Verif.Model.Circuit
import Verif.Model.CircuitIO
import Verif.Model.HarmonicBalance

/-!
# The circuit object as a whole

The model of the class (`Verif.Model.Circuit`), of its files (`Verif.Model.CircuitIO`) and of the
circuit that the simulations read (`HB.HCct`) describe the same Python object. Here they are put together.
-/

namespace QMix.Session

/-- The attributes that `harmonic_balance` and `qtcurrent` read: `qmix/harmonic_balance.py:77-83`,
`qmix/qtcurrent.py:80-93`. (Entries outside the arrays, which the simulations do not read, are 0.) -/
noncomputable def hcct (c : Cct.Circuit) : HB.HCct c.vb.length where
  numF := c.numF
  numP := c.numP
  freq := fun f => c.freq.getD f 0
  vb := fun i => c.vb[i]
  vt := fun f p => (c.vt.getD f []).getD p 0
  zt := fun f p => (c.zt.getD f []).getD p 0

/-- The value of a complex double. -/
def cval (z : IO.Flt × IO.Flt) : ℂ := ⟨z.1.toReal, z.2.toReal⟩

/-- `io` are the doubles in the arrays of the object `c` (which adds the signs of zeros to the values). -/
structure Doubles (c : Cct.Circuit) (io : IO.Circuit) : Prop where
  numF : io.numF = c.numF
  numP : io.numP = c.numP
  freq : io.freq.map IO.Flt.toReal = c.freq
  vt : io.vt.map (List.map cval) = c.vt
  zt : io.zt.map (List.map cval) = c.zt

/-- `read_circuit`, `qmix/circuit.py:581-622`, with the object it returns: the constructor is called with the numbers of
tones and harmonics only (`qmix/circuit.py:603`, defaults at line 197), and the arrays are filled from the file
(`IO.read`). -/
noncomputable def readCircuit (T : IO.FloatFormat) (text : List Char) : Py Cct.Circuit := do
  let io ← IO.read T text
  let c ← Cct.new io.numF io.numP 0 2 201 none none none ""
  pure { c with freq := io.freq.map IO.Flt.toReal, vt := io.vt.map (List.map cval), zt := io.zt.map (List.map cval) }

/-- `harmonic_balance(cct, ...)`, `qmix/harmonic_balance.py:39-228`, with the object it is given: its arrays may be
locked. Returns what the call does (`HB.Run`) and the object afterwards. -/
noncomputable def harmonicBalance (c : Cct.Circuit) (resp : ℝ → ℂ) (nb : Qt.NumB) (maxIt : ℤ) (stop : ℝ)
    (vjInit : Option (ℕ → ℕ → Qt.Arr (Fin c.vb.length))) (damp : ℝ) (mode : HB.Mode) (zj : ℂ) :
    Py (HB.Run c.vb.length (c.numF * c.numP) × Cct.Circuit) := do
  let c' ← Cct.hbTouch c
  let run ← HB.harmonicBalance (hcct c) resp nb maxIt stop vjInit damp mode zj
  pure (run, c')

end QMix.Session
