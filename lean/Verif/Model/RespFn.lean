import Verif.Model.MathFn
import Mathlib.Data.Finset.Sort

/-!
# Model of `qmix/respfn.py`

Floating-point numbers are real numbers; printing and plotting are modelled in `RespPrint`. SciPy's spline
interpolation is a parameter (`Splines`).
-/

namespace QMix.RespFn

open QMix.Np QMix.MathFn

/-- `np.linspace(0, 35, 7001)`, `qmix/respfn.py:109-112`. -/
noncomputable def VINIT : List ℝ := tab 7001 fun i => i * (35 / 7000)

/-- `VRANGE`, `qmix/respfn.py:109`. -/
def VRANGE : ℝ := 35

/-- `int(1 / VSTEP)`, `qmix/respfn.py:112, 857-859`: `VSTEP` is 0.005. Also in double precision, see `C38_steps`. -/
def NSTEP : ℤ := 200

/-- SciPy's `InterpolatedUnivariateSpline`: `eval x y k` is the spline of order `k` through the points
`(x, y)`, and `deriv x y k` its derivative. All that is assumed is that the spline passes through the
points, as documented. -/
structure Splines where
  eval : List ℝ → List ℝ → ℤ → ℝ → ℝ
  deriv : List ℝ → List ℝ → ℤ → ℝ → ℝ
  passes : ∀ x y k, x.SortedLT → x.length = y.length → 1 ≤ k → k ≤ 5 → k < x.length →
    ∀ i, i < x.length → eval x y k (x.getD i 0) = y.getD i 0

open Classical in
/-- `InterpolatedUnivariateSpline(x, y, k=k)`: the conditions checked by SciPy. -/
noncomputable def interp (S : Splines) (x y : List ℝ) (k : ℤ) : Py (ℝ → ℝ) := do
  raiseIf (x.length ≠ y.length) .value
  raiseIf (¬ x.SortedLT) .value
  raiseIf (¬ (1 ≤ k ∧ k ≤ 5)) .value
  raiseIf (¬ (k < x.length)) .value
  pure (S.eval x y k)

/-- `np.r_[-a[::-1][:-1], a]`, `qmix/respfn.py:169-170`. -/
def reflected (a : List ℝ) : List ℝ := a.reverse.dropLast.map (fun t => -t) ++ a

/-! ## `_sample_curve` -/

/-- `range(lo, hi, step)`. -/
def pyRangeStep (lo hi step : ℤ) : Py (List ℤ) :=
  if step = 0 then .error .value
  else if 0 < step then .ok ((List.range ((hi - lo + step - 1) / step).toNat).map fun (i : ℕ) => lo + step * i)
  else .ok ((List.range ((lo - hi + -step - 1) / -step).toNat).map fun (i : ℕ) => lo + step * i)

/-- The state of the loop: the indices so far and the last cumulative sum and voltage. -/
structure Sample where
  idx : List ℤ
  cumsumLast : ℝ
  voltageLast : ℝ

/-- `condition1`, `qmix/respfn.py:847`: near zero or near a gap. -/
def nearGap (v : ℝ) : Prop := |v| < 0.05 ∨ |v - 1| < 0.1 ∨ |v + 1| < 0.1

/-- `condition4`, `qmix/respfn.py:850`. -/
def nearEnd (n : ℕ) (i : ℕ) : Prop := i < 3 ∨ (i : ℤ) > n - 4

open Classical in
/-- The body of the loop, `qmix/respfn.py:847-855`. If the total is zero then so are all the cumulative
sums, and the quotient in `condition3` is NaN. -/
noncomputable def sampleStep (n : ℕ) (maxNpts : ℤ) (total : ℝ) (s : Sample) (i : ℕ) (v c : ℝ) : Py Sample := do
  let last ← pyGet s.idx (-1)
  if nearGap v ∨ v - s.voltageLast ≥ 1 ∨ (total ≠ 0 ∧ (c - s.cumsumLast) * maxNpts / total > 1) ∨ nearEnd n i then
    pure { idx := if (i : ℤ) ≠ last then s.idx ++ [(i : ℤ)] else s.idx, cumsumLast := c, voltageLast := v }
  else pure s

/-- `_sample_curve`, `qmix/respfn.py:820-871`. -/
noncomputable def sampleCurve (voltage current : List ℝ) (maxNpts : ℤ) (smear : ℝ) : Py (List ℤ) := do
  let s1 ← slope voltage current
  let s2 ← slope voltage s1
  let dd := s2.map fun t => |t|
  let v1 ← pyGet voltage 1
  let v0 ← pyGet voltage 0
  let sigma ← fdiv smear (v1 - v0)
  let g ← gaussConv dd sigma 3
  let cs := cumsum g
  let total ← pyGet cs (-1)
  let n := voltage.length
  let s ← pyFor (List.range n) { idx := [0], cumsumLast := 0, voltageLast := v0 } fun s i => do
    let v ← pyGet voltage i
    let c ← pyGet cs i
    sampleStep n maxNpts total s i v c
  let first ← pyRangeStep 0 NSTEP 20
  let final ← pyRangeStep (n - NSTEP - 1) n 20
  let lo ← argmin (voltage.map fun t => |t + 1|)
  let hi ← argmin (voltage.map fun t => |t - 1|)
  let middle ← pyRangeStep lo hi (((hi : ℤ) - lo) / 30)
  pure ((s.idx ++ first ++ final ++ middle).toFinset.sort (· ≤ ·))

/-! ## The parameters -/

/-- The parameters used, `qmix/respfn.py:874-895`. -/
structure Params where
  maxNptsDc : ℤ := 101
  maxNptsKk : ℤ := 151
  maxInterpError : ℝ := 0.001
  checkError : Bool := false
  vSmear : Option ℝ := none
  kkN : ℤ := 50
  splineOrder : ℤ := 3

/-! ## `_setup_interpolation` -/

/-- `a[idx]` for a list of indices. -/
def takeIdx (a : List ℝ) (idx : List ℤ) : Py (List ℝ) := idx.mapM fun i => pyGet a i

open Classical in
/-- `current[mask] - f(voltage[mask])` with the mask of `qmix/respfn.py:772-777`. -/
noncomputable def errors (voltage current : List ℝ) (f : ℝ → ℝ) : List ℝ :=
  ((voltage.zip current).filter fun p => -(VRANGE - 1) < p.1 ∧ p.1 < VRANGE - 1).map fun p => p.2 - f p.1

/-- The test of one curve, `qmix/respfn.py:811-815`. -/
noncomputable def checkErr (check : Bool) (err : List ℝ) (limit : ℝ) : Py Unit :=
  if check then do
    let m ← amax err
    pyAssert (m < limit)
  else pure ()

/-- What `_setup_interpolation` returns. -/
structure Interps where
  dc : ℝ → ℝ
  kk : ℝ → ℝ
  ddc : ℝ → ℝ
  dkk : ℝ → ℝ

/-- `_setup_interpolation`, `qmix/respfn.py:717-817`. -/
noncomputable def setupInterpolation (S : Splines) (voltage current currentKk : List ℝ) (p : Params) :
    Py Interps := do
  let dcIdx ← sampleCurve voltage current p.maxNptsDc 0.25
  let kkIdx ← sampleCurve voltage current p.maxNptsKk 1
  let xd ← takeIdx voltage dcIdx
  let yd ← takeIdx current dcIdx
  let fDc ← interp S xd yd p.splineOrder
  let xk ← takeIdx voltage kkIdx
  let yk ← takeIdx currentKk kkIdx
  let fKk ← interp S xk yk p.splineOrder
  checkErr p.checkError (errors voltage current fDc) p.maxInterpError
  checkErr p.checkError (errors voltage currentKk fKk) p.maxInterpError
  pure { dc := fDc, kk := fKk, ddc := S.deriv xd yd p.splineOrder, dkk := S.deriv xk yk p.splineOrder }

/-! ## `RespFn` -/

/-- A response function object. -/
structure Obj where
  fIdc : ℝ → ℝ
  fIkk : ℝ → ℝ
  fDidc : Option (ℝ → ℝ)
  fDikk : Option (ℝ → ℝ)
  voltage : List ℝ
  current : List ℝ
  currentKk : List ℝ

/-- The optional smearing, `qmix/respfn.py:172-176`. -/
noncomputable def smear (vSmear : Option ℝ) (voltage current : List ℝ) : Py (List ℝ) :=
  match vSmear with
  | none => pure current
  | some s => do
    let v1 ← pyGet voltage 1
    let v0 ← pyGet voltage 0
    let x ← zip (· - ·) current voltage
    let sigma ← fdiv s (v1 - v0)
    let y ← gaussConv x sigma 3
    zip (· + ·) y voltage

/-- `RespFn.__init__`, `qmix/respfn.py:158-196`. -/
noncomputable def respInit (S : Splines) (voltage current : List ℝ) (p : Params) : Py Obj := do
  let first ← pyGet voltage 0
  pyAssert (first = 0)
  let last ← pyGet voltage (-1)
  pyAssert (last > 5)
  let voltage := reflected voltage
  let current := reflected current
  let current ← smear p.vSmear voltage current
  let kk ← kkTrans voltage current p.kkN
  let f ← setupInterpolation S voltage current kk p
  pure (Obj.mk f.dc f.kk (some f.ddc) (some f.dkk) voltage current kk)

/-- `idc`, `qmix/respfn.py:344-359`. -/
def Obj.idc (r : Obj) (v : ℝ) : ℝ := r.fIdc v

/-- `ikk`, `qmix/respfn.py:361-377`. -/
def Obj.ikk (r : Obj) (v : ℝ) : ℝ := r.fIkk v

/-- Calling a function that may be `None`. -/
def callOpt (f : Option (ℝ → ℝ)) (v : ℝ) : Py ℝ := do
  let g ← getOpt .type f
  pure (g v)

/-- `didc`, `qmix/respfn.py:379-400`. -/
def Obj.didc (r : Obj) (v : ℝ) : Py ℝ := callOpt r.fDidc v

/-- `dikk`, `qmix/respfn.py:402-423`. -/
def Obj.dikk (r : Obj) (v : ℝ) : Py ℝ := callOpt r.fDikk v

/-- `resp`, `qmix/respfn.py:425-436`. -/
noncomputable def Obj.resp (r : Obj) (v : ℝ) : ℂ := r.fIkk v + Complex.I * r.fIdc v

/-- `resp_conj`, `qmix/respfn.py:438-459`. -/
noncomputable def Obj.respConj (r : Obj) (v : ℝ) : ℂ := r.fIkk v - Complex.I * r.fIdc v

/-- `resp_swap`, `qmix/respfn.py:461-485`. -/
noncomputable def Obj.respSwap (r : Obj) (v : ℝ) : ℂ := r.fIdc v + Complex.I * r.fIkk v

/-! ## `RespFnFromIVData` -/

open Classical in
/-- `np.interp` at one point, for increasing `xp`: linear between neighbouring points and constant
outside. (For other `xp` NumPy's result is unspecified; here the last position with `xp[j] <= x` is
used.) -/
noncomputable def npInterp (xp fp : List ℝ) (x : ℝ) : ℝ :=
  match xp, fp with
  | a :: b :: xs, p :: q :: ys =>
    if ∃ c ∈ b :: xs, c ≤ x then npInterp (b :: xs) (q :: ys) x
    else if x < a then p
    else p + (q - p) / (b - a) * (x - a)
  | _, p :: _ => p
  | _, [] => 0

open Classical in
/-- The data kept and the point added, `qmix/respfn.py:531-537`. -/
noncomputable def ivPoints (voltage current : List ℝ) (vmax : ℝ) : Py (List ℝ × List ℝ) := do
  raiseIf (current.length ≠ voltage.length) .index
  let kept := (voltage.zip current).filter fun p => 0 < p.1 ∧ p.1 < vmax
  let v := kept.map Prod.fst
  let i := kept.map Prod.snd
  let il ← pyGet i (-1)
  let vl ← pyGet v (-1)
  pure (v ++ [50], i ++ [50 + (il - vl)])

/-- The resampled current, `qmix/respfn.py:540`. -/
noncomputable def ivResample (voltage current : List ℝ) (vmax : ℝ) : Py (List ℝ) := do
  let pts ← ivPoints voltage current vmax
  pure (VINIT.map (npInterp pts.1 pts.2))

/-- `RespFnFromIVData.__init__`, `qmix/respfn.py:526-543`, after the options have been merged. -/
noncomputable def fromIVData (S : Splines) (voltage current : List ℝ) (vlimit : Option ℝ) (p : Params) :
    Py Obj := do
  let i ← ivResample voltage current (vlimit.getD 1.8)
  respInit S VINIT i p

/-! ## The classes made from models -/

/-- `RespFnPolynomial.__init__`, `qmix/respfn.py:580-587`. -/
noncomputable def respPolynomial (S : Splines) (order : ℝ) (p : Params) : Py Obj := do
  let i ← VINIT.mapM fun v => polynomial v order
  respInit S VINIT i p

/-- `RespFnExponential.__init__`, `qmix/respfn.py:625-632`. -/
noncomputable def respExponential (S : Splines) (vgap rn rsg agap : ℝ) (p : Params) : Py Obj := do
  let i ← VINIT.mapM fun v => exponential v vgap rn rsg agap "fixed"
  respInit S VINIT i p

/-- The impulse at the gap, `qmix/respfn.py:699-701`. -/
noncomputable def impulse (voltage : List ℝ) : Py (List ℝ) := do
  let i ← argmin (voltage.map fun t => |t - 1|)
  pySet (voltage.map fun _ => (0 : ℝ)) i 1

/-- The current of the smeared curve, `qmix/respfn.py:703-704`. -/
noncomputable def perfectSmeared (vSmear : ℝ) : Py (List ℝ) := do
  let tmp ← impulse VINIT
  let v1 ← pyGet VINIT 1
  let v0 ← pyGet VINIT 0
  let sigma ← fdiv vSmear (v1 - v0)
  let g ← gaussConv tmp sigma 3
  zip (· + ·) g (VINIT.map perfectElem)

/-- `RespFnPerfect.__init__`, `qmix/respfn.py:665-708`; the default of `max_kk` is 100. -/
noncomputable def respPerfect (S : Splines) (p : Params) : Py Obj :=
  match p.vSmear with
  | none => pure
      { fIdc := perfectElem, fIkk := perfectKkElem 100, fDidc := none, fDikk := none,
        voltage := reflected VINIT, current := reflected (VINIT.map perfectElem),
        currentKk := (reflected VINIT).map (perfectKkElem 100) }
  | some s => do
    let i ← perfectSmeared s
    respInit S VINIT i p

end QMix.RespFn
