import Verif.Py.Bessel
import Verif.Model.IvData

/-!
# `qmix/exp/exp_data.py`: impedance recovery

Array operations are element-wise; what happens to one bias point is a function of numbers, and the
arrays are lists of bias points. A drive level may be an infinity or NaN (`Flt`). Complex numbers are
followed only while they are finite: `none` stands for a complex number with an infinite or NaN part.
-/

namespace QMix.Zemb

open Np Fl IvData

/-! ## Tucker theory -/

/-- `_find_pumped_iv_curve`, exp_data.py 1894-1904, at one bias voltage. -/
noncomputable def pumpedIv (idc : ℝ → ℝ) (vb vph : ℝ) (numB : ℤ) (alpha : ℝ) : ℝ :=
  (pyRange (-numB) (numB + 1)).foldl (fun s n => s + besselJ n alpha ^ 2 * idc (vb + n * vph)) 0

/-- `_find_ac_current`, exp_data.py 1873-1891, at one bias voltage. -/
noncomputable def acCurrent (idc ikk : ℝ → ℝ) (vb vph : ℝ) (numB : ℤ) (alpha : ℝ) : ℂ :=
  (pyRange (-numB) (numB + 1)).foldl (fun (s : ℂ) n =>
    s + (besselJ n alpha * (besselJ (n - 1) alpha + besselJ (n + 1) alpha) * idc (vb + n * vph) : ℝ)
      + Complex.I *
        (besselJ n alpha * (besselJ (n - 1) alpha - besselJ (n + 1) alpha) * ikk (vb + n * vph) : ℝ)) 0

/-- The real number, if it is one. -/
noncomputable def finite (a : Flt) : Option ℝ :=
  match a with
  | some x => if x = ⊤ ∨ x = ⊥ then none else some x.toReal
  | none => none

/-- A function of a floating-point number which is NaN unless the number is finite. SciPy's Bessel
functions of an infinite argument are not followed (a drive level that is infinite stays infinite
whatever they are). -/
noncomputable def onFinite (f : ℝ → ℝ) (a : Flt) : Flt := (finite a).elim none fun x => num (f x)

/-! ## Drive level -/

open Classical in
/-- `alpha[alpha < 0] = 0`. -/
noncomputable def clamp (a : Flt) : Flt := if flt a (num 0) then num 0 else a

open Classical in
/-- One pass of the loop, exp_data.py 1921-1930, at one bias point: the drive level and the step. -/
noncomputable def alphaStep (current : ℝ → ℝ) (iexp : ℝ) (s : Flt × ℝ) : Flt × ℝ :=
  let err := fsub (onFinite current s.1) (num iexp)
  let a := if flt (num 0) err then fsub s.1 (num s.2) else s.1
  let a := if flt err (num 0) then fadd a (num s.2) else a
  (clamp a, s.2 / 2)

/-- `_find_alpha`, exp_data.py 1907-1932, at one bias point. -/
noncomputable def findAlpha (idc : ℝ → ℝ) (vph alphaMax : ℝ) (numB : ℤ) (vexp iexp : ℝ) : Flt :=
  let itmp := pumpedIv idc vexp vph numB alphaMax
  let i0 := idc vexp
  let a := clamp (fmul (Fl.fdiv (num (iexp - i0)) (num (itmp - i0))) (num alphaMax))
  ((alphaStep (pumpedIv idc vexp vph numB) iexp)^[15] (a, alphaMax / 4)).1

/-! ## Embedding impedance -/

open Classical in
/-- `a / b` for complex numbers. A zero divisor gives infinities or NaN. -/
noncomputable def cdiv (a b : Option ℂ) : Option ℂ :=
  match a, b with
  | some x, some y => if y = 0 then none else some (x / y)
  | _, _ => none

/-- `a * b`. -/
noncomputable def cmul (a b : Option ℂ) : Option ℂ :=
  match a, b with
  | some x, some y => some (x * y)
  | _, _ => none

/-- `np.sum(np.abs(a)**k)`. -/
noncomputable def sumAbs (k : ℕ) (l : List (Option ℂ)) : Option ℝ :=
  (l.mapM id).map fun z => (z.map fun x => ‖x‖ ^ k).sum

open Classical in
/-- `a / b` for real numbers. -/
noncomputable def rdiv (a b : Option ℝ) : Option ℝ :=
  match a, b with
  | some x, some y => if y = 0 then none else some (x / y)
  | _, _ => none

/-- `zwi / (zs + zwi)`. -/
noncomputable def divider (zs : ℂ) (z : Option ℂ) : Option ℂ := cdiv z (z.map fun z => zs + z)

/-- `vwi * zwi / (zs + zwi)`. -/
noncomputable def matched (zs : ℂ) (v z : Option ℂ) : Option ℂ :=
  cdiv (cmul v z) (z.map fun z => zs + z)

/-- `_error_function`, exp_data.py 1836-1852. `none` is NaN: with infinite or NaN data, or a zero
divisor, the error is NaN (`inf**2 / inf`, `inf - inf` or `0 / 0`). -/
noncomputable def errorFunction (vwi zwi : List (Option ℂ)) (zs : ℂ) : Py (Option ℝ) := do
  let m ← zip (matched zs) vwi zwi
  let err1 := sumAbs 2 vwi
  let err2 := sumAbs 1 m
  let err3 := sumAbs 2 (zwi.map (divider zs))
  let q := rdiv (err2.map (· ^ 2)) err3
  return rdiv (err1.bind fun e => q.map fun x => e - x) (some (vwi.length : ℝ))

/-- `_find_source_voltage`, exp_data.py 1855-1870. -/
noncomputable def sourceVoltage (vwi zwi : List (Option ℂ)) (zs : ℂ) : Py (Option ℝ) := do
  let m ← zip (matched zs) vwi zwi
  return rdiv (sumAbs 1 m) (sumAbs 2 (zwi.map (divider zs)))

/-- `_good_error`, exp_data.py 48. -/
noncomputable def goodError : ℝ := 7e-7

/-- The options of the impedance recovery. -/
structure ZembOpts where
  /-- fit interval: `fit_low`, `fit_high` of exp_data.py 708-719, the latter before `1 - fit_high` -/
  fitLow : ℝ
  /-- see `fitLow` -/
  fitHigh : ℝ
  /-- `remb_range` -/
  remb : ℝ × ℝ
  /-- `xemb_range` -/
  xemb : ℝ × ℝ
  /-- `zemb` -/
  zemb : Option ℂ
  /-- `alpha_max` -/
  alphaMax : ℝ
  /-- `num_b` -/
  numB : ℤ

/-- What `_recover_zemb` saves. -/
structure Result where
  /-- embedding impedance -/
  zt : ℂ
  /-- embedding voltage -/
  vt : Option ℝ
  /-- is the fit good? -/
  fitGood : Bool
  /-- junction impedance in the middle of the interval -/
  zw : Option ℂ
  /-- drive level in the middle of the interval -/
  alpha : Flt
  /-- the error surface, row by row -/
  errSurf : List (Option ℝ)

open Classical in
/-- The bias points used, exp_data.py 740-744. -/
noncomputable def fitPoints (o : ZembOpts) (vph : ℝ) (voltage current : List ℝ) :
    Py (List ℝ × List ℝ) :=
  let lo := 1 - vph + vph * o.fitLow
  let hi := 1 - vph * (1 - o.fitHigh)
  masked (voltage.map fun v => decide (lo ≤ v ∧ v ≤ hi)) voltage current

/-- The ac voltage across the junction and its ac impedance at one bias point, exp_data.py 750-755. -/
noncomputable def junction (idc ikk : ℝ → ℝ) (vph : ℝ) (numB : ℤ) (vb : ℝ) (alpha : Flt) :
    Option ℂ × Option ℂ :=
  let v : Option ℂ := (finite alpha).map fun a => ((a * vph : ℝ) : ℂ)
  let i : Option ℂ := (finite alpha).map fun a => acCurrent idc ikk vb vph numB a
  (v, cdiv v i)

/-- The search grid, row by row, exp_data.py 759-760. -/
noncomputable def grid (remb xemb : ℝ × ℝ) : Py (List ℂ) := do
  let re ← linspace remb.1 remb.2 101
  let im ← linspace xemb.1 xemb.2 201
  return re.flatMap fun (r : ℝ) => im.map fun (x : ℝ) => (r : ℂ) + Complex.I * (x : ℂ)

/-- A number or NaN as a floating-point number. -/
noncomputable def toFlt (a : Option ℝ) : Flt := a.map fun x => (x : EReal)

open Classical in
/-- `_recover_zemb`, exp_data.py 727-800. `np.unravel_index` and the two-dimensional array are
replaced by lists in the same order. Not modelled: printing. -/
noncomputable def recoverZemb (o : ZembOpts) (idc ikk : ℝ → ℝ) (vph : ℝ) (voltage current : List ℝ) :
    Py Result := do
  let e ← fitPoints o vph voltage current
  let mid ← argmin (e.1.map fun v => |v - (1 - vph / 2)|)
  let alpha ← zip (findAlpha idc vph o.alphaMax o.numB) e.1 e.2
  let j ← zip (junction idc ikk vph o.numB) e.1 alpha
  let vac := j.map Prod.fst
  let zac := j.map Prod.snd
  let zw ← pyGet zac mid
  let zt ← grid o.remb o.xemb
  let surf ← zt.mapM (errorFunction vac zac)
  let best ← argminF (surf.map toFlt)
  let zbest ← pyGet zt best
  let zbest := o.zemb.getD zbest
  let vbest ← sourceVoltage vac zac zbest
  let err ← pyGet surf best
  let a ← pyGet alpha mid
  return { zt := zbest, vt := vbest, fitGood := decide (fle (toFlt err) (num goodError)), zw := zw,
           alpha := a, errSurf := surf }

end QMix.Zemb
