import Verif.Model.IfData
import Verif.Model.IvData

/-!
# `qmix/exp/if_data.py`: importing IF data and the IF noise
-/

namespace QMix.IfData

open Np Fl Clean IvData

/-- `vshot`: nothing, a pair, a list of pairs, or something that is not a list. -/
inductive Vshot
  /-- `None` -/
  | auto
  /-- neither a list nor a tuple -/
  | other
  /-- a list of numbers -/
  | flat (r : List ℝ)
  /-- a list of lists -/
  | nested (l : List (List ℝ))

/-- The options used when IF data is imported; `kwargs.get` with the default is not modelled. -/
structure IfOpts where
  /-- factor for the voltage -/
  vMult : ℝ
  /-- width of the Gaussian, V -/
  sigma : Option ℝ
  /-- largest voltage of the result, V -/
  vmax : ℝ
  /-- number of points of the result -/
  npts : ℤ
  /-- series resistance -/
  rseries : Option ℝ
  /-- units of the voltage -/
  vFmt : String
  /-- voltage ranges of the shot noise -/
  vshot : Vshot

/-! ## Importing -/

/-- The voltages after the correction for a series resistance, if_data.py 417-425. Zero currents among
`dc.iraw` give infinities or NaN in the code. -/
noncomputable def ifSeries (rseries : Option ℝ) (dc : DCIV) (v : List ℝ) : Py (List ℝ) :=
  match rseries with
  | none => .ok v
  | some rs => do
    let q ← div dc.vraw dc.iraw
    let r := q.map fun t => max t 0
    let rst ← interp v dc.vraw r
    let ir ← interp v dc.vraw dc.iraw
    zip (· * ·) ir (rst.map (· - rs))

open Classical in
/-- Smoothing, if_data.py 440-445. -/
noncomputable def smoothIf (sigma : Option ℝ) (vgap : ℝ) (v p : List ℝ) : Py (List ℝ) :=
  match sigma with
  | none => .ok p
  | some s => do
    let v1 ← pyGet v 1
    let v0 ← pyGet v 0
    let step := (v1 - v0) * vgap
    let s := if 0.5 < s then s * step else s
    let w ← Np.fdiv s step
    MathFn.gaussConv p w 3

/-- The voltage scaled in place, if_data.py 403. -/
noncomputable def scaleVolt (u : ℝ) (m : Mat) : Mat :=
  { m with rows := m.rows.map fun r => r.set 0 (fmul (r.getD 0 none) (num u)) }

/-- if_data.py 367-447. The result is given as two columns. `other` stands for a list; an
object without `copy` raises `AttributeError`. Infinite values are not followed. -/
noncomputable def loadIf (S : Sorter) (o : IfOpts) (dc : DCIV) (data : IfResp.Input) :
    Py (List ℝ × List ℝ) :=
  match data with
  | .other => .error .assertion
  | .array => .error .assertion
  | .matrix m => do
    pyAssert (m.ncol = 2)
    let u ← vUnit o.vFmt
    let a ← removeNansMatrix (scaleVolt u m)
    let b ← sortMatrix S a 0
    let c ← removeDoublesMatrix b 0 true
    let v ← c.col 0
    let p ← c.col 1
    let v ← toReals v
    let p ← toReals p
    let v ← ifSeries o.rseries dc (v.map fun t => t * o.vMult - dc.offset.1)
    let vn ← div v [dc.vgap]
    let top ← Np.fdiv o.vmax dc.vgap
    let vout ← linspace 0 top o.npts
    let pout ← interp0 vout vn p
    let ps ← smoothIf o.sigma dc.vgap vout pout
    return (vout, ps)

/-! ## IF noise -/

open Classical in
/-- `np.median`: NaN for an empty array. -/
noncomputable def median (l : List ℝ) : Flt :=
  if l = [] then none
  else
    let s := l.mergeSort fun a b => decide (a ≤ b)
    num ((s.getD ((l.length - 1) / 2) 0 + s.getD (l.length / 2) 0) / 2)

/-- The mean of the products of the deviations from the means. -/
noncomputable def covar (x y : List ℝ) : ℝ :=
  let mx := x.sum / x.length
  let my := y.sum / y.length
  (List.zipWith (fun a b => (a - mx) * (b - my)) x y).sum / x.length

/-- `stats.linregress(x, y)`: slope and intercept. Empty data and data with only one value of `x` raise
`ValueError`, as do arrays of different lengths. -/
noncomputable def linregress (x y : List ℝ) : Py (ℝ × ℝ) := do
  raiseIf (x = []) .value
  raiseIf (x.length ≠ y.length) .value
  raiseIf (∀ a ∈ x, ∀ b ∈ x, a = b) .value
  let s := covar x y / covar x x
  return (s, y.sum / y.length - s * (x.sum / x.length))

open Classical in
/-- The automatic choice of the points, if_data.py 290-308. -/
noncomputable def autoMask (R : Routines) (x y : List ℝ) : Py (List Bool) := do
  let yf ← R.savgol y 21 3
  let d ← MathFn.slopeSpanN x yf 11 true
  let d ← R.savgol d 51 3
  let e ← MathFn.slopeSpanN x d 11 true
  let e ← R.savgol (e.map fun t => |t|) 51 3
  let top ← amax (e.map fun t => |t|)
  let m1 ← zip (fun a b => decide (1.7 < a ∧ |b| < top * 1e-2)) x e
  let sel ← select d m1
  let m2 := d.map fun t => decide (0 < t ∧ flt (num t) (fmul (median sel) (num 2)))
  let m ← zip (· && ·) m1 m2
  let both ← zip (· && ·) (slice m none (some (-1))) (slice m (some 1) none)
  let m3 ← setSlice (List.replicate m.length false) none (some (-1)) both
  zip (· && ·) m m3

open Classical in
/-- The points chosen by the user, if_data.py 309-318. -/
noncomputable def userMask (ranges : List (List ℝ)) (vgap : ℝ) (x : List ℝ) : Py (List Bool) :=
  pyFor ranges (List.replicate x.length false) fun mask r => do
    let a ← pyGet r 0
    let b ← pyGet r 1
    zip (· || ·) mask (x.map fun t => decide (a < t * vgap ∧ t * vgap < b))

/-- The choice of the points, if_data.py 290-318. -/
noncomputable def shotMask (R : Routines) (o : IfOpts) (vgap : ℝ) (x y : List ℝ) : Py (List Bool) :=
  match o.vshot with
  | .auto => autoMask R x y
  | .other => .error .assertion
  | .flat [] => .error .index
  | .flat r => userMask [r] vgap x
  | .nested [] => .error .index
  | .nested l => userMask l vgap x

open Classical in
/-- if_data.py 255-362: the IF noise, the correction factor, the calibrated line, and whether the noise is
reasonable. Not modelled: printing. -/
noncomputable def findIfNoise (R : Routines) (o : IfOpts) (dc : DCIV) (x y : List ℝ) :
    Py (ℝ × ℝ × List ℝ × Bool) := do
  let mask ← shotMask R o dc.vgap x y
  let mask := if mask.count true < 5 then x.map fun t => decide (2 < t) else mask
  let red ← masked mask x y
  let l ← linregress red.1 red.2
  let line := x.map fun t => l.1 * t + l.2
  let q ← Np.fdiv 5.8 l.1
  let corr := q * dc.vgap * 1e3
  let line := line.map (· * corr)
  let at0 ← Np.fdiv dc.vint dc.vgap
  let noise ← interp [at0] x line
  let noise ← pyGet noise 0
  return (noise, corr, line, decide (0 < noise ∧ noise < 50))

/-! ## The two analyses -/

/-- `DCIFData`, if_data.py 36-48; the first column of `shot_slope` is the voltage. -/
structure DCIF where
  /-- IF noise, K -/
  ifNoise : ℝ
  /-- correction factor, `None` if unknown -/
  corr : Option ℝ
  /-- is the noise reasonable? -/
  ifFit : Bool
  /-- the calibrated line -/
  shotSlope : List (ℝ × ℝ)
  /-- largest voltage, V -/
  vmax : ℝ

/-- if_data.py 51-93. -/
noncomputable def dcifData (R : Routines) (o : IfOpts) (dc : DCIV) (data : IfResp.Input) :
    Py ((List ℝ × List ℝ) × DCIF) := do
  let d ← loadIf R.sorter o dc data
  let n ← findIfNoise R o dc d.1 d.2
  let vm ← amax d.1
  let out : DCIF :=
    { ifNoise := n.1, corr := some n.2.1, ifFit := n.2.2.2, shotSlope := d.1.zip n.2.2.1,
      vmax := vm * dc.vgap }
  return ((d.1, d.2.map (· * n.2.1)), out)

/-- The calibration used for pumped data, if_data.py 140-149: from the dc measurement, or else from the
average of the hot and the cold measurement. -/
noncomputable def calibration (R : Routines) (o : IfOpts) (dc : DCIV) (dcif : Option DCIF)
    (hot cold : List ℝ × List ℝ) : Py (ℝ × ℝ × List (ℝ × ℝ) × Bool) :=
  let average : Py (ℝ × ℝ × List (ℝ × ℝ) × Bool) := do
    let x ← zip (fun a b => (a + b) / 2) hot.1 cold.1
    let y ← zip (fun a b => (a + b) / 2) hot.2 cold.2
    let n ← findIfNoise R o dc x y
    return (n.1, n.2.1, cold.1.zip n.2.2.1, n.2.2.2)
  match dcif with
  | none => average
  | some d =>
    match d.corr with
    | none => average
    | some c => .ok (d.ifNoise, c, d.shotSlope, d.ifFit)

/-- The rows returned by `if_data`. -/
structure IfResult where
  /-- voltage -/
  v : List ℝ
  /-- hot power, K -/
  hot : List ℝ
  /-- cold power, K -/
  cold : List ℝ
  /-- noise temperature -/
  tn : List Flt
  /-- gain -/
  gain : List Flt

/-- if_data.py 96-164. Not modelled: printing. -/
noncomputable def ifData (R : Routines) (o : IfOpts) (t : TnOpts) (dc : DCIV) (dcif : Option DCIF)
    (hotData coldData : IfResp.Input) : Py (IfResult × ℕ × DCIF) := do
  let hot ← loadIf R.sorter o dc hotData
  let cold ← loadIf R.sorter o dc coldData
  let c ← calibration R o dc dcif hot cold
  let h := hot.2.map (· * c.2.1)
  let k := cold.2.map (· * c.2.1)
  let r ← findTnGain t dc.vgap ((hot.1.zip h).map fun p => (num p.1, num p.2))
    ((cold.1.zip k).map fun p => (num p.1, num p.2))
  let vm ← amax hot.1
  let res : IfResult := { v := hot.1, hot := h, cold := k, tn := r.1, gain := r.2.1 }
  let out : DCIF :=
    { ifNoise := c.1, corr := some c.2.1, ifFit := c.2.2.2, shotSlope := c.2.2.1, vmax := vm * dc.vgap }
  return (res, r.2.2, out)

end QMix.IfData
