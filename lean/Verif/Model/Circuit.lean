import Verif.Py.Basic
import Mathlib.Data.Complex.Basic
import Mathlib.Analysis.Complex.Norm
import Mathlib.Analysis.SpecialFunctions.Log.Base
import Mathlib.Analysis.SpecialFunctions.Pow.Real
import Mathlib.Analysis.SpecialFunctions.Sqrt

/-!
# Model of `qmix/circuit.py`: the embedding circuit class

Arrays are lists (nested for two axes) accessed with Python index rules. Real arithmetic; a value that
would be an infinity or NaN in the code is the error `nonFinite` here. `print_info` and `__str__`
are in `Verif.Model.PrintInfo`, `save_info` and `read_circuit` in `Verif.Model.CircuitIO`.
-/

namespace QMix.Cct

/-- Planck constant, `scipy.constants.h` (the exact value of the SI). -/
noncomputable def planck : ℝ := 6.62607015e-34

/-- Elementary charge, `scipy.constants.e` (the exact value of the SI). -/
noncomputable def charge : ℝ := 1.602176634e-19

/-- The attributes of `EmbeddingCircuit` (`qmix/circuit.py:211-249`) and the `writeable` flags of its
four arrays. (`num_n` is `num_f * num_p` and `vb_npts` is the length of `vb`.) -/
structure Circuit where
  numF : ℕ
  numP : ℕ
  fgap : Option ℝ
  vgap : Option ℝ
  igap : Option ℝ
  rn : Option ℝ
  freq : List ℝ
  vt : List (List ℂ)
  zt : List (List ℂ)
  vb : List ℝ
  name : String
  comment : List (List String)
  freqW : Bool
  vtW : Bool
  ztW : Bool
  vbW : Bool

/-- `a[f, p]`. -/
def get2 {α : Type} (a : List (List α)) (f p : ℤ) : Py α := do
  let r ← pyGet a f
  pyGet r p

/-- `a[f, p] = x`. -/
def set2 {α : Type} (a : List (List α)) (f p : ℤ) (x : α) : Py (List (List α)) := do
  let r ← pyGet a f
  let r' ← pySet r p x
  pySet a f r'

/-- `np.linspace(lo, hi, n)` for `n ≥ 1`, used at `qmix/circuit.py:244`. -/
noncomputable def linspace (lo hi : ℝ) (n : ℕ) : List ℝ :=
  (List.range n).map fun (i : ℕ) => if n = 1 then lo else lo + i * ((hi - lo) / (n - 1 : ℕ))

/-- The `vgap` attribute, `qmix/circuit.py:221-225`. -/
noncomputable def newVgap (fgap vgap : Option ℝ) : Option ℝ :=
  match vgap, fgap with
  | some v, _ => some v
  | none, some f => some (f * planck / charge)
  | none, none => none

/-- The `fgap` attribute, `qmix/circuit.py:226-230`. -/
noncomputable def newFgap (fgap vgap : Option ℝ) : Option ℝ :=
  match fgap, vgap with
  | some f, _ => some f
  | none, some v => some (v * charge / planck)
  | none, none => none

/-- The quotient of two Python floats. -/
noncomputable def pyDiv (x y : ℝ) : Py ℝ := if y = 0 then .error .zeroDiv else .ok (x / y)

/-- The `igap` attribute, `qmix/circuit.py:234-235`: it tests the *argument* `vgap`. -/
noncomputable def newIgap (vgap rn : Option ℝ) : Py (Option ℝ) :=
  match vgap, rn with
  | some v, some r => do
    let x ← pyDiv v r
    pure (some x)
  | _, _ => pure none

/-- `EmbeddingCircuit.__init__`, `qmix/circuit.py:197-249`, for integer `num_f`, `num_p`, `vb_npts`
(a non-integer one fails an assertion or NumPy's shape check). -/
noncomputable def new (numF numP : ℤ) (vbMin vbMax : ℝ) (npts : ℤ) (fgap vgap rn : Option ℝ)
    (name : String) : Py Circuit := do
  pyAssert (numF = 1 ∨ numF = 2 ∨ numF = 3 ∨ numF = 4)
  pyAssert (numP ≥ 1)
  pyAssert (npts ≥ 1)
  pyAssert (vbMax ≥ vbMin)
  let igap' ← newIgap vgap rn
  let nf := numF.toNat
  let np := numP.toNat
  pure
    { numF := nf, numP := np, fgap := newFgap fgap vgap, vgap := newVgap fgap vgap, igap := igap', rn := rn
      freq := List.replicate (nf + 1) 0
      vt := List.replicate (nf + 1) (List.replicate (np + 1) 0)
      zt := List.replicate (nf + 1) (List.replicate (np + 1) 0)
      vb := linspace vbMin vbMax npts.toNat
      name := name
      comment := List.replicate (nf + 1) (List.replicate (np + 1) "")
      freqW := true, vtW := true, ztW := true, vbW := true }

/-- `initialize_vj`, `qmix/circuit.py:264-280`: an array of zeros, shape
`(num_f + 1, num_p + 1, vb_npts)`. -/
def initializeVj (c : Circuit) : List (List (List ℂ)) :=
  List.replicate (c.numF + 1) (List.replicate (c.numP + 1) (List.replicate c.vb.length 0))

/-- `10 * np.log10(x)`: `-inf` or NaN unless `x` is positive. -/
noncomputable def decibel (x : ℝ) : Py ℝ :=
  if 0 < x then .ok (10 * Real.logb 10 x) else .error .nonFinite

/-- The unit conversion of `available_power`, `qmix/circuit.py:312-329`. `str.lower` on the unit; no
non-ASCII character lower-cases to a letter used in a unit, so the ASCII `toLower` is exact. -/
noncomputable def fromWatts (units : String) (power : ℝ) : Py ℝ :=
  if units.toLower = "w" then pure power
  else if units.toLower = "mw" then pure (power / 1e-3)
  else if units.toLower = "uw" then pure (power / 1e-6)
  else if units.toLower = "nw" then pure (power / 1e-9)
  else if units.toLower = "pw" then pure (power / 1e-12)
  else if units.toLower = "fw" then pure (power / 1e-15)
  else if units.toLower = "dbm" then decibel (power * 1e3)
  else if units.toLower = "dbw" then decibel power
  else throw .value

/-- `available_power`, `qmix/circuit.py:282-329`. -/
noncomputable def availablePower (c : Circuit) (f p : ℤ) (units : String) : Py ℝ := do
  let vgap ← getOpt .assertion c.vgap
  let rn ← getOpt .assertion c.rn
  let vt ← get2 c.vt f p
  let zt ← get2 c.zt f p
  let v_v := vt * vgap
  let r_ohms := zt.re * rn
  let power := if r_ohms ≠ 0 then ‖v_v‖ ^ 2 / r_ohms / 8 else 0
  fromWatts units power

/-- `self.vt[f, p] = x` on a possibly locked array; NumPy tests the flag first. -/
def writeVt (c : Circuit) (f p : ℤ) (x : ℂ) : Py Circuit :=
  if c.vtW then do
    let a ← set2 c.vt f p x
    pure { c with vt := a }
  else throw .readOnly

/-- `self.zt[f, p] = x`. -/
def writeZt (c : Circuit) (f p : ℤ) (x : ℂ) : Py Circuit :=
  if c.ztW then do
    let a ← set2 c.zt f p x
    pure { c with zt := a }
  else throw .readOnly

/-- `self.freq[f] = x`. -/
def writeFreq (c : Circuit) (f : ℤ) (x : ℝ) : Py Circuit :=
  if c.freqW then do
    let a ← pySet c.freq f x
    pure { c with freq := a }
  else throw .readOnly

/-- `self.vb[i] = x`. -/
def writeVb (c : Circuit) (i : ℤ) (x : ℝ) : Py Circuit :=
  if c.vbW then do
    let a ← pySet c.vb i x
    pure { c with vb := a }
  else throw .readOnly

/-- The unit conversion of `set_available_power`, `qmix/circuit.py:356-373`. -/
noncomputable def inWatts (units : String) (power : ℝ) : Py ℝ :=
  if units.toLower = "w" then pure power
  else if units.toLower = "mw" then pure (power * 1e-3)
  else if units.toLower = "uw" then pure (power * 1e-6)
  else if units.toLower = "nw" then pure (power * 1e-9)
  else if units.toLower = "pw" then pure (power * 1e-12)
  else if units.toLower = "fw" then pure (power * 1e-15)
  else if units.toLower = "dbm" then pure ((10 : ℝ) ^ (power / 10) * 1e-3)
  else if units.toLower = "dbw" then pure ((10 : ℝ) ^ (power / 10))
  else throw .value

/-- `set_available_power`, `qmix/circuit.py:331-381`. The square root of a negative number (NaN) and
the division by a zero gap voltage (infinity or NaN) are `nonFinite`. -/
noncomputable def setAvailablePower (c : Circuit) (power : ℝ) (f p : ℤ) (units : String) :
    Py Circuit := do
  let vgap ← getOpt .assertion c.vgap
  let rn ← getOpt .assertion c.rn
  let zt ← get2 c.zt f p
  pyAssert (zt ≠ 0)
  let power ← inWatts units power
  let r_ohms := zt.re * rn
  let x := 8 * power * r_ohms
  raiseIf (x < 0) .nonFinite
  let volt_v := Real.sqrt x
  raiseIf (vgap = 0) .nonFinite
  writeVt c f p ((volt_v / vgap : ℝ) : ℂ)

/-- `set_alpha`, `qmix/circuit.py:383-408`. A zero `zj` divides by zero. -/
noncomputable def setAlpha (c : Circuit) (alpha : ℝ) (f p : ℤ) (zj : ℂ) : Py Circuit := do
  let zt ← get2 c.zt f p
  pyAssert (zt ≠ 0)
  let w ← pyGet c.freq f
  pyAssert (w ≠ 0)
  raiseIf (zj = 0) .nonFinite
  writeVt c f p (alpha * w * (zt / zj + 1))

/-- `x / self.vgap` with the attribute possibly `None` (`TypeError`). -/
noncomputable def divOpt (x : ℝ) : Option ℝ → Py ℝ
  | none => .error .type
  | some y => pyDiv x y

/-- The unit conversion of `set_freq`, `qmix/circuit.py:445-460`. -/
noncomputable def normFreq (c : Circuit) (value : ℝ) (units : String) : Py ℝ :=
  if units.toLower = "hz" then divOpt value c.fgap
  else if units.toLower = "mhz" then divOpt (value * 1e6) c.fgap
  else if units.toLower = "ghz" then divOpt (value * 1e9) c.fgap
  else if units.toLower = "thz" then divOpt (value * 1e12) c.fgap
  else if units.toLower = "v" then divOpt value c.vgap
  else if units.toLower = "mv" then divOpt (value * 1e-3) c.vgap
  else if units.toLower = "norm" then pure value
  else throw .value

/-- `set_freq`, `qmix/circuit.py:410-460`. The guard compares the bound method `units.lower` (not its
result) with a string, so it is true for every unit. -/
noncomputable def setFreq (c : Circuit) (value : ℝ) (f : ℤ) (units : String) : Py Circuit := do
  pyAssert (c.fgap ≠ none)
  let x ← normFreq c value units
  writeFreq c f x

/-- `set_name`, `qmix/circuit.py:462-475`: `comment` is a list of lists. -/
def setName (c : Circuit) (name : String) (f p : ℤ) : Py Circuit := do
  let a ← set2 c.comment f p name
  pure { c with comment := a }

/-- `lock`, `qmix/circuit.py:545-556`. -/
def lock (c : Circuit) : Circuit :=
  { c with freqW := false, vtW := false, ztW := false, vbW := false }

/-- `unlock`, `qmix/circuit.py:558-568`. -/
def unlock (c : Circuit) : Circuit :=
  { c with freqW := true, vtW := true, ztW := true, vbW := true }

/-- The `vph` property, `qmix/circuit.py:571-578`, reads an attribute that does not exist. -/
def vph (_ : Circuit) : Py (List ℝ) := .error .attribute

/-! ## Histories of calls -/

/-- What harmonic balance does to the circuit it is given, `qmix/harmonic_balance.py:84-94`: nothing
if all impedances are zero; otherwise tiny Thevenin voltages are replaced by `MIN_VT = 1e-10` and row
and column 0 are cleared (three assignments to `cct.vt`). -/
noncomputable def hbTouch (c : Circuit) : Py Circuit :=
  if ∀ row ∈ c.zt, ∀ z ∈ row, z = 0 then pure c
  else if c.vtW then
    pure { c with vt := c.vt.mapIdx fun f row => row.mapIdx fun p (x : ℂ) =>
      if f = 0 ∨ p = 0 then 0 else if ‖x‖ < 1e-10 then 1e-10 else x }
  else throw .readOnly

/-- The library calls and direct assignments that address the arrays or comments of a circuit, plus
`lock` and `unlock`. -/
inductive Op
  | power (x : ℝ) (f p : ℤ) (units : String)
  | alpha (x : ℝ) (f p : ℤ) (zj : ℂ)
  | freq (x : ℝ) (f : ℤ) (units : String)
  | name (s : String) (f p : ℤ)
  | putFreq (f : ℤ) (x : ℝ)
  | putVt (f p : ℤ) (x : ℂ)
  | putZt (f p : ℤ) (x : ℂ)
  | putVb (i : ℤ) (x : ℝ)
  | hb
  | lock
  | unlock

/-- One call. -/
noncomputable def Op.call : Op → Circuit → Py Circuit
  | .power x f p u, c => setAvailablePower c x f p u
  | .alpha x f p z, c => setAlpha c x f p z
  | .freq x f u, c => setFreq c x f u
  | .name s f p, c => setName c s f p
  | .putFreq f x, c => writeFreq c f x
  | .putVt f p x, c => writeVt c f p x
  | .putZt f p x, c => writeZt c f p x
  | .putVb i x, c => writeVb c i x
  | .hb, c => hbTouch c
  | .lock, c => .ok (QMix.Cct.lock c)
  | .unlock, c => .ok (QMix.Cct.unlock c)

/-- The state after a call: a call that raises leaves the object as it was (in each setter every
exception is raised before the single assignment). -/
noncomputable def Op.step (c : Circuit) (o : Op) : Circuit :=
  match o.call c with
  | .ok c' => c'
  | .error _ => c

/-- The state after a history of calls, exceptions being caught by the caller. -/
noncomputable def run (c : Circuit) (h : List Op) : Circuit := h.foldl Op.step c

end QMix.Cct
