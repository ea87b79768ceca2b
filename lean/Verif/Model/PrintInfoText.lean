import Verif.Model.PrintInfo
import Verif.Model.HbPrint
import Verif.Model.RespPrint

/-!
# The characters that `EmbeddingCircuit.print_info` prints

As `Verif.Model.PrintInfo`, with the format strings applied. Zero is positive (Python also knows `-0.0`).
-/

namespace QMix.Cct

open QMix Fl Report Results HbPrint

/-- `__str__`, `qmix/circuit.py:251-258`. -/
def headText (c : Circuit) : List Char :=
  let name := if c.name ≠ "" then ": ".toList ++ c.name.toList else []
  "Embedding circuit (Tones:".toList ++ IO.natChars c.numF ++ ", Harmonics:".toList ++ IO.natChars c.numP ++ [')'] ++ name

/-- `str1.format(f, p, freq, comment)`, `qmix/circuit.py:482`. -/
noncomputable def str1 (f p : ℤ) (freq : ℝ) (comment : String) : List Char :=
  "   f=".toList ++ intChars f ++ ", p=".toList ++ intChars p ++ "\t\t\tfreq = ".toList ++ fmt 0 4 (num freq) ++ " x ".toList ++
    intChars p ++ "\t\t".toList ++ comment.toList

/-- `str2.format(f, p, ghz, comment)`, `qmix/circuit.py:483`. -/
noncomputable def str2 (f p : ℤ) (ghz : ℝ) (comment : String) : List Char :=
  "   f=".toList ++ intChars f ++ ", p=".toList ++ intChars p ++ "\t\t\t".toList ++ fmt 0 1 (num ghz) ++ " GHz x ".toList ++
    intChars p ++ "\t\t".toList ++ comment.toList

/-- `str3.format(x)`, `qmix/circuit.py:484`. -/
noncomputable def str3 (x : ℝ) : List Char := "\tThev. voltage:\t\t".toList ++ fmt 0 4 (num x) ++ " * Vgap".toList

/-- `str6.format(x)`, `qmix/circuit.py:485`. -/
noncomputable def str6 (x : Flt) : List Char := "\t              \t\t".toList ++ fmt 0 4 x ++ " * Vph".toList

/-- `str4.format(z)`, `qmix/circuit.py:486`. -/
noncomputable def str4 (z : ℂ) : List Char := "\tThev. impedance:\t".toList ++ fmtC 2 z ++ " * Rn".toList

/-- `str7.format(x)`, `qmix/circuit.py:487`. -/
noncomputable def str7 (x : ℝ) : List Char := "\tAvail. power:   \t".toList ++ RespPrint.fmtSci 2 x ++ " W".toList

/-- `str8.format(x)`, `qmix/circuit.py:488`. -/
noncomputable def str8 (x : Flt) : List Char := "\t                \t".toList ++ fmt 0 3 x ++ " dBm".toList

/-- A power in dBm as a float, given the power in W: `np.log10` of 0 is `-inf` and of a negative number `nan`. -/
noncomputable def dbmFlt (watts : ℝ) : Option ℝ → Flt
  | some x => num x
  | none => if watts = 0 then some ⊥ else none

/-- What is printed for one signal without physical units, `qmix/circuit.py:493-498`. -/
noncomputable def textNorm (c : Circuit) (f p : ℤ) : Py (List Char) := do
  let freq ← pyGet c.freq f
  let vt ← get2 c.vt f p
  let zt ← get2 c.zt f p
  let comment ← get2 c.comment f p
  let a ← Term.cprint (str1 f p freq comment) (some "GREEN".toList)
  pure (a ++ line (str3 vt.re) ++ line (str4 zt))

/-- What is printed for one signal with physical units, `qmix/circuit.py:502-513`. -/
noncomputable def textPhys (c : Circuit) (fgap : ℝ) (f p : ℤ) : Py (List Char) := do
  let freq ← pyGet c.freq f
  let fq := freq * fgap / 1e9
  let vt ← get2 c.vt f p
  let zt ← get2 c.zt f p
  let power_w ← availablePower c f p "W"
  let power_dbm ← orInf (availablePower c f p "dBm")
  let comment ← get2 c.comment f p
  let a ← Term.cprint (str2 f p fq comment) (some "GREEN".toList)
  pure (a ++ line (str3 vt.re) ++ line (str6 (Fl.fdiv (num vt.re) (num (freq * p)))) ++ line (str4 zt) ++ line (str7 power_w) ++
    line (str8 (dbmFlt power_w power_dbm)))

/-- The choice between the two loops, `qmix/circuit.py:490,499`. -/
noncomputable def textOf (c : Circuit) (f p : ℤ) : Py (List Char) :=
  match c.fgap, c.vgap, c.rn with
  | some fgap, some _, some _ => textPhys c fgap f p
  | _, _, _ => textNorm c f p

/-- The characters that `print_info` prints, `qmix/circuit.py:477-514`. -/
noncomputable def printInfoText (c : Circuit) : Py (List Char) := do
  let body ← pyFor (pyRange 1 (c.numF + 1)) (line (headText c)) fun out f =>
    pyFor (pyRange 1 (c.numP + 1)) out fun out p => do
      let block ← textOf c f p
      pure (out ++ block)
  pure (body ++ line [])

end QMix.Cct
