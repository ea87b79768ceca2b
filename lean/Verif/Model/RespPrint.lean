import Verif.Model.RespFn
import Verif.Model.Figures
import Verif.Model.Report
import Mathlib.Data.Int.Log

/-!
# What the response functions print and draw

`qmix/respfn.py`: the figures of `plot_interpolation`, `plot` and `show_current` (211-341), `__str__`
(198-204, 545-547, 589-591, 634-636, 710-712), and what is printed if `verbose` is set (162-163, 177-178,
667-668, 704-705, 749-750, 788-809). What is printed is a list of characters, and only calls that return are
followed (a failed check prints the same report before it raises). Not modelled: colours, line styles, grids
and the places of legends; writing a file. The sum of `np.mean` is exact, as are all numbers of the model.
-/

namespace QMix.RespPrint

open QMix Np MathFn RespFn Exp

/-! ## The figures -/

/-- What a plotting method does: the commands, the file the figure is then written to, whether the figure is
closed after that, and the axis that is returned. -/
structure Shown where
  cmds : List Cmd
  file : Option String
  closed : Bool
  axis : Option ℕ

/-- The end of both methods, `qmix/respfn.py:263-268, 315-320`. -/
def finish (cmds : List Cmd) (a : ℕ) (figName : Option String) : Shown :=
  match figName with
  | some f => { cmds := cmds, file := some f, closed := true, axis := none }
  | none => { cmds := cmds, file := none, closed := false, axis := some a }

/-- `plot_interpolation`, `qmix/respfn.py:211-268`; `new` is the axis that `plt.subplots()` makes. -/
noncomputable def plotInterpolation (r : Obj) (new : ℕ) (figName : Option String) (ax : Option ℕ) : Py Shown := do
  let a := ax.getD new
  let c1 ← draw a (.text "$I_\\mathrm{{dc}}^0(V_0)$: imported") r.voltage r.current
  let c2 ← draw a (.text "$I_\\mathrm{{kk}}^0(V_0)$: imported") r.voltage r.currentKk
  let c3 ← draw a (.text "$I_\\mathrm{{dc}}^0(V_0)$: interpolated") r.voltage (r.voltage.map r.fIdc)
  let c4 ← draw a (.text "$I_\\mathrm{{kk}}^0(V_0)$: interpolated") r.voltage (r.voltage.map r.fIkk)
  pure <| finish [c1, c2, c3, c4, .xlabel a "Bias Voltage / $V_\\mathrm{{gap}}$", .ylabel a "Current / $I_\\mathrm{{gap}}$",
    .xlim a (some (-2)) (some 2), .ylim a (some (-2)) (some (Fl.num 2))] a figName

/-- `plot`, `qmix/respfn.py:270-320`. -/
noncomputable def plot (r : Obj) (new : ℕ) (figName : Option String) (ax : Option ℕ) : Py Shown := do
  let a := ax.getD new
  let c1 ← draw a (.text "$I_\\mathrm{{dc}}^0(V_0)$") r.voltage r.current
  let c2 ← draw a (.text "$I_\\mathrm{{kk}}^0(V_0)$") r.voltage r.currentKk
  pure <| finish [c1, c2, .xlabel a "Bias Voltage (normalized)", .ylabel a "Current (normalized)",
    .xlim a (some 0) (some 2), .ylim a (some (-1.2)) (some (Fl.num 2))] a figName

/-- `show_current`, `qmix/respfn.py:322-341`. -/
noncomputable def showCurrent (r : Obj) (new : ℕ) (figName : Option String) (ax : Option ℕ) : Py Shown :=
  plotInterpolation r new figName ax

/-! ## The text -/

/-- `'{:.dE}'.format(x)` for a finite number: one digit before the point, at least two digits in the exponent. -/
noncomputable def fmtSci (d : ℕ) (x : ℝ) : List Char :=
  let e := if x = 0 then 0 else Int.log 10 |x|
  let e := if roundHalfEven (|x| / 10 ^ e * 10 ^ d) = 10 ^ (d + 1) then e + 1 else e
  IO.fmtFloat d (Results.signed (x / 10 ^ e)) ++ 'E' :: (if e < 0 then '-' else '+') ::
    ((if e.natAbs < 10 then ['0'] else []) ++ IO.natChars e.natAbs)

/-- `np.mean` of a list that is not empty. -/
noncomputable def mean (l : List ℝ) : ℝ := l.sum / l.length

open Classical in
/-- `voltage[idx_check]`, `qmix/respfn.py:774-775`. -/
noncomputable def checked (voltage : List ℝ) : List ℝ := voltage.filter fun v => -(VRANGE - 1) < v ∧ v < VRANGE - 1

/-- The lines about one curve, `qmix/respfn.py:789-808`. -/
noncomputable def curveText (title count : String) (npts : ℕ) (err errV : List ℝ) : Py (List Char) := do
  let m ← amax err
  let k ← IvData.argmax err
  let v ← pyGet errV k
  pure <| Report.line title.toList ++ Report.line (count.toList ++ IO.natChars npts) ++
    Report.line ("\t\t- avg. error: ".toList ++ fmtSci 4 (mean (err.map abs))) ++
    Report.line ("\t\t- max. error: ".toList ++ Results.fmt 0 4 (Fl.num m) ++ " at v=".toList ++ Results.fmt 0 2 (Fl.num v))

/-- What `_setup_interpolation` prints after the interpolation, `qmix/respfn.py:788-809`. -/
noncomputable def errorText (voltage current currentKk : List ℝ) (nDc nKk : ℕ) (fDc fKk : ℝ → ℝ) : Py (List Char) := do
  let t1 ← curveText "\t- DC I-V curve:" "\t\t- npts for DC I-V: " nDc (errors voltage current fDc) (checked voltage)
  let t2 ← curveText "\t- KK curve:" "\t\t- npts for KK I-V: " nKk (errors voltage currentKk fKk) (checked voltage)
  pure (t1 ++ t2 ++ Report.line [])

/-- `_setup_interpolation` with what it prints, `qmix/respfn.py:717-817`. -/
noncomputable def setupPrint (S : Splines) (voltage current currentKk : List ℝ) (p : Params) (verbose : Bool) :
    Py (Interps × List Char) := do
  let t0 := if verbose then Report.line " - Interpolating:".toList else []
  let dcIdx ← sampleCurve voltage current p.maxNptsDc 0.25
  let kkIdx ← sampleCurve voltage current p.maxNptsKk 1
  let xd ← takeIdx voltage dcIdx
  let yd ← takeIdx current dcIdx
  let fDc ← interp S xd yd p.splineOrder
  let xk ← takeIdx voltage kkIdx
  let yk ← takeIdx currentKk kkIdx
  let fKk ← interp S xk yk p.splineOrder
  let t1 ← if verbose then errorText voltage current currentKk dcIdx.length kkIdx.length fDc fKk else pure []
  checkErr p.checkError (errors voltage current fDc) p.maxInterpError
  checkErr p.checkError (errors voltage currentKk fKk) p.maxInterpError
  pure ({ dc := fDc, kk := fKk, ddc := S.deriv xd yd p.splineOrder, dkk := S.deriv xk yk p.splineOrder }, t0 ++ t1)

/-- The line about the smearing, `qmix/respfn.py:177-178, 704-705`. -/
noncomputable def smearText (verbose : Bool) : Option ℝ → List Char
  | some s => if verbose then Report.line (" - Voltage smear: ".toList ++ Results.fmt 0 4 (Fl.num s)) else []
  | none => []

/-- `qmix/respfn.py:162-163, 667-668`. -/
def heading (verbose : Bool) : List Char := if verbose then Report.line "Generating response function:".toList else []

/-- `RespFn.__init__` with what it prints, `qmix/respfn.py:158-196`. -/
noncomputable def respInitPrint (S : Splines) (voltage current : List ℝ) (p : Params) (verbose : Bool) :
    Py (Obj × List Char) := do
  let first ← pyGet voltage 0
  pyAssert (first = 0)
  let last ← pyGet voltage (-1)
  pyAssert (last > 5)
  let voltage := reflected voltage
  let current := reflected current
  let current ← smear p.vSmear voltage current
  let kk ← kkTrans voltage current p.kkN
  let (f, t) ← setupPrint S voltage current kk p verbose
  pure (Obj.mk f.dc f.kk (some f.ddc) (some f.dkk) voltage current kk, heading verbose ++ smearText verbose p.vSmear ++ t)

/-- `RespFnFromIVData.__init__`, `qmix/respfn.py:526-543`. -/
noncomputable def fromIVDataPrint (S : Splines) (voltage current : List ℝ) (vlimit : Option ℝ) (p : Params) (verbose : Bool) :
    Py (Obj × List Char) := do
  let i ← ivResample voltage current (vlimit.getD 1.8)
  respInitPrint S VINIT i p verbose

/-- `RespFnPolynomial.__init__`, `qmix/respfn.py:580-587`. -/
noncomputable def respPolynomialPrint (S : Splines) (order : ℝ) (p : Params) (verbose : Bool) : Py (Obj × List Char) := do
  let i ← VINIT.mapM fun v => polynomial v order
  respInitPrint S VINIT i p verbose

/-- `RespFnExponential.__init__`, `qmix/respfn.py:625-632`. -/
noncomputable def respExponentialPrint (S : Splines) (vgap rn rsg agap : ℝ) (p : Params) (verbose : Bool) :
    Py (Obj × List Char) := do
  let i ← VINIT.mapM fun v => exponential v vgap rn rsg agap "fixed"
  respInitPrint S VINIT i p verbose

/-- `RespFnPerfect.__init__`, `qmix/respfn.py:663-708`. -/
noncomputable def respPerfectPrint (S : Splines) (p : Params) (verbose : Bool) : Py (Obj × List Char) :=
  match p.vSmear with
  | none => pure
      ({ fIdc := perfectElem, fIkk := perfectKkElem 100, fDidc := none, fDikk := none,
         voltage := reflected VINIT, current := reflected (VINIT.map perfectElem),
         currentKk := (reflected VINIT).map (perfectKkElem 100) }, heading verbose)
  | some s => do
    let i ← perfectSmeared s
    let (r, t) ← respInitPrint S VINIT i p verbose
    pure (r, heading verbose ++ smearText verbose (some s) ++ t)

/-- The classes of the module. -/
inductive Cls
  | base
  | fromIVData
  | polynomial
  | exponential
  | perfect
  deriving DecidableEq

/-- `__str__` and `__repr__`, `qmix/respfn.py:198-204, 545-547, 589-591, 634-636, 710-712`; `__repr__` is inherited
and calls the `__str__` of the class of the object. -/
def strText : Cls → String
  | .base => "Response function object: RespFn"
  | .fromIVData => "Response function object: RespFnFromIVData"
  | .polynomial => "Response function object: RespFnPolynomial"
  | .exponential => "Response function object: RespFnExponential"
  | .perfect => "Response function object: RespFnPerfect"

end QMix.RespPrint
