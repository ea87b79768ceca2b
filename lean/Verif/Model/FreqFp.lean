import Verif.Model.CircuitFp

/-!
# The frequencies of the embedding circuit in floating-point arithmetic

The gap attributes of the constructor, `set_freq`, `set_alpha` for a real junction impedance, and the frequency printed by `print_info`, with a
rounding after every operation. The constants are rounded too (some of them, such as `1e9`, are stored exactly; `Fp` allows that). Overflow
and underflow are not modelled.
-/

namespace QMix.CctFp

open QMix.Cct

variable {u : ℝ}

/-- The `vgap` attribute, `qmix/circuit.py:221-225`. -/
noncomputable def newVgap (A : Fp u) (fgap vgap : Option ℝ) : Option ℝ :=
  match vgap, fgap with
  | some v, _ => some v
  | none, some f => some (A.rnd (A.rnd (f * A.rnd planck) / A.rnd charge))
  | none, none => none

/-- The `fgap` attribute, `qmix/circuit.py:226-230`. -/
noncomputable def newFgap (A : Fp u) (fgap vgap : Option ℝ) : Option ℝ :=
  match fgap, vgap with
  | some f, _ => some f
  | none, some v => some (A.rnd (A.rnd (v * A.rnd charge) / A.rnd planck))
  | none, none => none

/-- `EmbeddingCircuit.__init__`, `qmix/circuit.py:197-249`, with the rounding of the gap frequency, the gap voltage and the gap current. The
bias voltages are not rounded here. -/
noncomputable def new (A : Fp u) (numF numP : ℤ) (vbMin vbMax : ℝ) (npts : ℤ) (fgap vgap rn : Option ℝ) (name : String) : Py Circuit := do
  let c ← Cct.new numF numP vbMin vbMax npts fgap vgap rn name
  pure { c with fgap := newFgap A fgap vgap, vgap := newVgap A fgap vgap, igap := c.igap.map A.rnd }

/-- The quotient of a float and an attribute that may be `None` (`TypeError`) or zero (`ZeroDivisionError`). -/
noncomputable def divOpt (A : Fp u) (x : ℝ) : Option ℝ → Py ℝ
  | none => .error .type
  | some y => do
    let q ← pyDiv x y
    pure (A.rnd q)

/-- The unit conversion of `set_freq`, `qmix/circuit.py:445-460`. -/
noncomputable def normFreq (A : Fp u) (c : Circuit) (value : ℝ) (units : String) : Py ℝ :=
  if units.toLower = "hz" then divOpt A value c.fgap
  else if units.toLower = "mhz" then divOpt A (A.rnd (value * A.rnd 1e6)) c.fgap
  else if units.toLower = "ghz" then divOpt A (A.rnd (value * A.rnd 1e9)) c.fgap
  else if units.toLower = "thz" then divOpt A (A.rnd (value * A.rnd 1e12)) c.fgap
  else if units.toLower = "v" then divOpt A value c.vgap
  else if units.toLower = "mv" then divOpt A (A.rnd (value * A.rnd 1e-3)) c.vgap
  else if units.toLower = "norm" then pure value
  else throw .value

/-- `set_freq`, `qmix/circuit.py:410-460`. -/
noncomputable def setFreq (A : Fp u) (c : Circuit) (value : ℝ) (f : ℤ) (units : String) : Py Circuit := do
  pyAssert (c.fgap ≠ none)
  let x ← normFreq A c value units
  writeFreq c f x

/-- The frequency in GHz that `print_info` prints, `qmix/circuit.py:502`: `self.freq[f] * self.fgap / 1e9`. -/
noncomputable def printedGHz (A : Fp u) (c : Circuit) (f : ℤ) : Py ℝ := do
  let g ← getOpt .type c.fgap
  let w ← pyGet c.freq f
  pure (A.rnd (A.rnd (w * g) / A.rnd 1e9))

/-- `set_alpha`, `qmix/circuit.py:383-408`, for a real `zj`. NumPy divides by the complex number `zj + 0j` with Smith's method, which here
multiplies both parts with the rounded inverse of `zj`; the product of a real and a complex number rounds each part once. -/
noncomputable def setAlpha (A : Fp u) (c : Circuit) (alpha : ℝ) (f p : ℤ) (zj : ℝ) : Py Circuit := do
  let zt ← get2 c.zt f p
  pyAssert (zt ≠ 0)
  let w ← pyGet c.freq f
  pyAssert (w ≠ 0)
  raiseIf (zj = 0) .nonFinite
  let inv := A.rnd (1 / zj)
  let q : ℂ := ⟨A.rnd (zt.re * inv), A.rnd (zt.im * inv)⟩
  let s : ℂ := ⟨A.rnd (q.re + 1), q.im⟩
  let a := A.rnd (alpha * w)
  writeVt c f p ⟨A.rnd (a * s.re), A.rnd (a * s.im)⟩

end QMix.CctFp
