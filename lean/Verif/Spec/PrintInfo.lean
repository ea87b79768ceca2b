import Verif.Spec.Report
import Verif.Spec.HbPrint
import Verif.Spec.RespPrint
import Mathlib.Analysis.SpecialFunctions.Pow.Real

/-!
# Specification: the lines about one signal of an embedding circuit

Nothing here refers to the model of the code. A block is a list of lines, a line the list of what is written between its tabs.
-/

namespace QMix.Spec

/-- The lines about harmonic `p` of tone `f`, in normalised units: the frequency of the tone, the voltage and the impedance. -/
def SignalBlock (b : List (List (List Char))) (f p : ℕ) (comment : List Char) (freq v : ℝ) (z : ℂ) : Prop :=
  ∃ nf np tf tv tz, b = [("f=".toList ++ nf ++ ", p=".toList ++ np) :: ("freq = ".toList ++ tf ++ " x ".toList ++ np) :: tabbed comment,
      ["Thev. voltage:".toList, tv ++ " * Vgap".toList], ["Thev. impedance:".toList, tz ++ " * Rn".toList]] ∧
    Count nf f ∧ Count np p ∧ Shows tf freq 4 ∧ Shows tv v 4 ∧ ShowsJ tz z 2

/-- The text of the quotient `x / y` to `d` decimals, as a computer writes it: `inf`, `-inf` or `nan` if `y` is zero. -/
def ShowsQuot (t : List Char) (x y : ℝ) (d : ℕ) : Prop :=
  (y ≠ 0 → Shows t (x / y) d) ∧ (y = 0 → 0 < x → t = "inf".toList) ∧ (y = 0 → x < 0 → t = "-inf".toList) ∧
    (y = 0 → x = 0 → t = "nan".toList)

/-- The text of a power in dBm to `d` decimals: `-inf` without power, `nan` if the power is negative. -/
def ShowsDbm (t : List Char) (watts : ℝ) (d : ℕ) : Prop :=
  (0 < watts → ∃ x, watts = 10 ^ (x / 10) / 1000 ∧ Shows t x d) ∧ (watts = 0 → t = "-inf".toList) ∧ (watts < 0 → t = "nan".toList)

/-- The lines about harmonic `p` of tone `f`, in physical units: the frequency of the tone in Hz (printed in GHz), the voltage in
units of the gap, again in units of the photon voltage of the harmonic, the impedance, and the available power. -/
def SignalBlockSI (b : List (List (List Char))) (f p : ℕ) (comment : List Char) (hz v vph : ℝ) (z : ℂ) (watts : ℝ) : Prop :=
  ∃ nf np tf tv tq tz tw td,
    b = [("f=".toList ++ nf ++ ", p=".toList ++ np) :: (tf ++ " GHz x ".toList ++ np) :: tabbed comment,
      ["Thev. voltage:".toList, tv ++ " * Vgap".toList], [tq ++ " * Vph".toList], ["Thev. impedance:".toList, tz ++ " * Rn".toList],
      ["Avail. power:   ".toList, tw ++ " W".toList], [td ++ " dBm".toList]] ∧
    Count nf f ∧ Count np p ∧ Shows tf (hz / 10 ^ 9) 1 ∧ Shows tv v 4 ∧ ShowsQuot tq v vph 4 ∧ ShowsJ tz z 2 ∧ Sci tw watts 2 ∧
    ShowsDbm td watts 3

end QMix.Spec
