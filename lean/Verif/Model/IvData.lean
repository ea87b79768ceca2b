import Verif.Model.IfResponse
import Verif.Model.MathFn
import Verif.Model.RespFn
import Mathlib.Analysis.SpecialFunctions.Trigonometric.Basic

/-!
# `qmix/exp/iv_data.py`
-/

namespace QMix.IvData

open Np Fl Clean

/-! ## NumPy and SciPy -/

/-- `np.linspace(a, b, n)`; a negative number of points is a `ValueError`. -/
noncomputable def linspace (a b : ℝ) (n : ℤ) : Py (List ℝ) := do
  raiseIf (n < 0) .value
  return tab n.toNat fun i => a + i * ((b - a) / (n - 1 : ℤ))

/-- `np.interp(x, xp, fp)` for increasing `xp`. Arrays of different lengths and empty arrays raise
`ValueError`. -/
noncomputable def interp (x xp fp : List ℝ) : Py (List ℝ) := do
  raiseIf (xp.length ≠ fp.length) .value
  raiseIf (xp = []) .value
  return x.map (RespFn.npInterp xp fp)

open Classical in
/-- `np.interp(x, xp, fp, left=0, right=0)` for increasing `xp`. -/
noncomputable def interp0 (x xp fp : List ℝ) : Py (List ℝ) := do
  raiseIf (xp.length ≠ fp.length) .value
  raiseIf (xp = []) .value
  return x.map fun t =>
    if (∀ a ∈ xp, t < a) ∨ (∀ a ∈ xp, a < t) then 0 else RespFn.npInterp xp fp t

/-- `a.min()`. -/
noncomputable def minimum (l : List ℝ) : Py ℝ := do
  let m ← amax (l.map fun t => -t)
  return -m

/-- `a.argmax()`. -/
noncomputable def argmax (l : List ℝ) : Py ℕ := argmin (l.map fun t => -t)

/-- The sum of the squared residuals of the line `p[0] * x + p[1]`. -/
noncomputable def residual (x y : List ℝ) (p : ℝ × ℝ) : ℝ :=
  (List.zipWith (fun a b => (b - (p.1 * a + p.2)) ^ 2) x y).sum

/-- The numerical routines of NumPy and SciPy that are not modelled. -/
structure Routines where
  /-- `argsort` -/
  sorter : Sorter
  /-- `scipy.signal.savgol_filter(y, window, order)` -/
  savgol : List ℝ → ℤ → ℤ → Py (List ℝ)
  /-- it returns as many points as it gets -/
  savgol_length : ∀ y w p z, savgol y w p = .ok z → z.length = y.length
  /-- it is linear: a multiple of the data gives the same multiple of the result -/
  savgol_smul : ∀ y w p (c : ℝ), savgol (y.map (c * ·)) w p = (savgol y w p).map (List.map (c * ·))
  /-- with an order of at least one it does not change evenly sampled straight lines -/
  savgol_line : ∀ (n : ℕ) w p (a b : ℝ) z, 1 ≤ p →
    savgol (tab n fun i => a + i * b) w p = .ok z → z = tab n fun i => a + i * b
  /-- `scipy.optimize.minimize(model, x0).x` for a function of two variables -/
  minimize : (ℝ × ℝ → ℝ) → ℝ × ℝ → ℝ × ℝ
  /-- `np.polyfit(x, y, 1)`: slope and intercept -/
  fitLine : List ℝ → List ℝ → ℝ × ℝ
  /-- a least-squares fit -/
  fitLine_best : ∀ x y p, residual x y (fitLine x y) ≤ residual x y p

/-- `np.polyfit(x, y, 1)`: an empty `x` raises `TypeError`, as do arrays of different lengths. -/
noncomputable def polyfit (R : Routines) (x y : List ℝ) : Py (ℝ × ℝ) := do
  raiseIf (x = []) .type
  raiseIf (x.length ≠ y.length) .type
  return R.fitLine x y

/-- The real numbers of an array; infinities and NaN are not followed any further. -/
noncomputable def toReals (l : List Flt) : Py (List ℝ) := l.mapM fun (a : Flt) =>
  match a with
  | some x => if x = ⊤ ∨ x = ⊥ then .error .nonFinite else .ok x.toReal
  | none => .error .nonFinite

/-- `volt[mask], curr[mask]`. -/
def masked {α β : Type} (mask : List Bool) (v : List α) (i : List β) : Py (List α × List β) := do
  let v' ← select v mask
  let i' ← select i mask
  return (v', i')

/-! ## Options -/

/-- `voffset_range`: one number or a pair. -/
inductive VRange
  /-- a number -/
  | one (r : ℝ)
  /-- a pair -/
  | two (a b : ℝ)

/-- iv_data.py 521-522. -/
def VRange.pair : VRange → ℝ × ℝ
  | .one r => (-r, r)
  | .two a b => (a, b)

/-- The options used when I-V data is imported; `kwargs.get` with the default is not modelled. -/
structure Opts where
  /-- units of the voltage -/
  vFmt : String
  /-- units of the current -/
  iFmt : String
  /-- largest voltage of the result, V -/
  vmax : ℝ
  /-- number of points of the result -/
  npts : ℤ
  /-- voltage offset -/
  voffset : Option ℝ
  /-- current offset -/
  ioffset : Option ℝ
  /-- range in which the offset is searched -/
  voffsetRange : VRange
  /-- series resistance -/
  rseries : Option ℝ
  /-- factor for the current -/
  iMult : ℝ
  /-- factor for the voltage -/
  vMult : ℝ
  /-- filter the data -/
  filterData : Bool
  /-- angle of rotation -/
  theta : ℝ
  /-- window of the filter -/
  nwind : ℤ
  /-- order of the filter -/
  npoly : ℤ
  /-- voltage range of the normal branch -/
  vrn : ℝ × ℝ
  /-- voltage at which the subgap resistance is found -/
  vrsg : ℝ
  /-- gap voltage -/
  vgap : Option ℝ

/-- iv_data.py 35. -/
noncomputable def vUnit (s : String) : Py ℝ :=
  if s = "uV" then .ok 1e-6 else if s = "mV" then .ok 1e-3 else if s = "V" then .ok 1
  else .error .key

/-- iv_data.py 36. -/
noncomputable def iUnit (s : String) : Py ℝ :=
  if s = "uA" then .ok 1e-6 else if s = "mA" then .ok 1e-3 else if s = "A" then .ok 1
  else .error .key

/-! ## Loading -/

/-- iv_data.py 450-491. -/
noncomputable def takeOnePass (v i : List Flt) : Py (List Flt × List Flt) := do
  let imin ← argminF v
  let imax ← argmaxF v
  if imin = 0 ∧ (imax : ℤ) = (i.length : ℤ) - 1 then return (v, i)
  else if imax = 0 ∧ (imin : ℤ) = (i.length : ℤ) - 1 then return (v.reverse, i.reverse)
  else if imax < imin then do
    let v0 ← pyGet v 0
    let k ← argminF ((slice v (some imax) (some (imin + 1))).map fun a => fabs (fsub a v0))
    let start := k + imax
    return ((slice v (some start) (some (imin + 1))).reverse ++ slice v (some 0) (some (imax + 1)),
      (slice i (some start) (some (imin + 1))).reverse ++ slice i (some 0) (some (imax + 1)))
  else do
    let v0 ← pyGet v 0
    let k ← argminF ((slice v (some imin) (some (imax + 1))).map fun a => fabs (fsub a v0))
    let start := k + imin
    return ((slice v (some 0) (some (imin + 1))).reverse ++ slice v (some start) (some (imax + 1)),
      (slice i (some 0) (some (imin + 1))).reverse ++ slice i (some start) (some (imax + 1)))

/-- iv_data.py 331-368. -/
noncomputable def loadIv (R : Routines) (o : Opts) (data : IfResp.Input) :
    Py (List Flt × List Flt) :=
  match data with
  | .other => .error .assertion
  | .array => .error .assertion
  | .matrix m => do
    pyAssert (m.ncol = 2)
    let vraw ← m.col 0
    let iraw ← m.col 1
    let vu ← vUnit o.vFmt
    let iu ← iUnit o.iFmt
    let a ← removeNansXy (vraw.map (fmul · (num vu))) (iraw.map (fmul · (num iu)))
    let b ← takeOnePass a.1 a.2
    let c ← sortXy R.sorter b.1 b.2
    removeDoublesXy c.1 c.2 true

/-! ## Filter -/

/-- iv_data.py 439-445. -/
noncomputable def rotate (x y : List ℝ) (theta : ℝ) : Py (List ℝ × List ℝ) := do
  let xo ← zip (fun a b => Real.cos theta * a - Real.sin theta * b) x y
  let yo ← zip (fun a b => Real.sin theta * a + Real.cos theta * b) x y
  return (xo, yo)

/-- iv_data.py 373-436. -/
noncomputable def filterIv (R : Routines) (o : Opts) (v i : List ℝ) : Py (List ℝ × List ℝ) :=
  if o.filterData = false then .ok (v, i)
  else do
    let vmax ← amax v
    let imax ← amax i
    let vnorm ← div v [vmax]
    let inorm ← div i [imax]
    let r ← rotate vnorm inorm (-o.theta)
    let xlo ← minimum r.1
    let xhi ← amax r.1
    let xres ← linspace xlo xhi o.npts
    let yres ← interp xres r.1 r.2
    let yfilt ← R.savgol yres o.nwind o.npoly
    let q ← rotate xres yfilt o.theta
    let lo ← minimum q.1
    let hi ← amax q.1
    let x ← linspace lo hi o.npts
    let y ← interp x q.1 q.2
    return (x.map (· * vmax), y.map (· * imax))

/-! ## Offset -/

/-- The mismatch of the data and the reflected data, iv_data.py 543-554. -/
noncomputable def mismatch (lo hi : ℝ) (v i : List ℝ) (off : ℝ × ℝ) : ℝ :=
  let v1 := v.map (· - off.1)
  let i1 := i.map (· - off.2)
  let v2 := v1.reverse.map (fun t => -t)
  let i2 := i1.reverse.map (fun t => -t)
  ((tab 101 fun k => lo / 2 + k * ((hi / 2 - lo / 2) / 100)).map fun x =>
    |RespFn.npInterp v1 i1 x - RespFn.npInterp v2 i2 x|).sum

open Classical in
/-- iv_data.py 494-571. If no data lies in the range, `np.interp` raises `ValueError`. -/
noncomputable def correctOffset (R : Routines) (o : Opts) (v i : List ℝ) :
    Py (List ℝ × List ℝ × (ℝ × ℝ)) := do
  let r := o.voffsetRange.pair
  let lo ← minimum v
  let hi ← amax v
  if ¬ (lo < r.1 ∧ r.2 < hi) then
    let vo := o.voffset.getD 0
    let io := o.ioffset.getD 0
    return (v.map (· - vo), i.map (· - io), (vo, io))
  else
    let red ← masked (v.map fun t => decide (r.1 ≤ t ∧ t ≤ r.2)) v i
    raiseIf (red.1 = []) .value
    let x0 := (o.voffset.getD 0, o.ioffset.getD (red.2.sum / red.2.length))
    let x := R.minimize (mismatch r.1 r.2 red.1 red.2) x0
    return (v.map (· - x.1), i.map (· - x.2), x)

/-! ## Properties of the curve -/

open Classical in
/-- iv_data.py 574-605. -/
noncomputable def normalResistance (R : Routines) (o : Opts) (v i : List ℝ) : Py (ℝ × ℝ) := do
  let m ← masked (v.map fun t => decide (o.vrn.1 < t ∧ t < o.vrn.2)) v i
  let p ← polyfit R m.1 m.2
  let rn ← Np.fdiv 1 p.1
  let vint ← Np.fdiv (-p.2) p.1
  return (rn, vint)

/-- The gap voltage from the normal branch `prn` and the line `pgap` fitted to the transition,
iv_data.py 646-652. -/
noncomputable def gapFromLines (prn pgap : ℝ × ℝ) : Py ℝ := do
  let vcorner ← Np.fdiv (pgap.2 - prn.2) (prn.1 - pgap.1)
  let icorner := pgap.1 * vcorner + pgap.2
  let igap := icorner / 2
  Np.fdiv (igap - pgap.2) pgap.1

open Classical in
/-- iv_data.py 608-665 (without plots). -/
noncomputable def gapVoltage (R : Routines) (o : Opts) (v i : List ℝ) : Py ℝ := do
  let m ← masked (v.map fun t => decide (o.vrn.1 < t ∧ t < o.vrn.2)) v i
  let prn ← polyfit R m.1 m.2
  let v1 ← pyGet v 1
  let v0 ← pyGet v 0
  let a ← masked (v.map fun t => decide (2e-3 < t)) v i
  let der ← MathFn.slope a.1 a.2
  let sigma ← Np.fdiv 0.2e-3 (v1 - v0)
  let der ← MathFn.gaussConv der sigma 3
  let k ← argmax der
  let vg ← pyGet a.1 k
  let b ← masked (v.map fun t => decide (vg - 0.1e-4 < t ∧ t < vg + 0.1e-4)) v i
  let pgap ← polyfit R b.1 b.2
  gapFromLines prn pgap

open Classical in
/-- iv_data.py 668-691. -/
noncomputable def subgapResistance (R : Routines) (o : Opts) (v i : List ℝ) : Py ℝ := do
  let m ← masked (v.map fun t => decide (o.vrsg - 1e-4 < t ∧ t < o.vrsg + 1e-4)) v i
  let p ← polyfit R m.1 m.2
  Np.fdiv 1 p.1

open Classical in
/-- The static resistance of one point, iv_data.py 716-717. -/
noncomputable def rstatic (v i : Flt) : Flt :=
  let r := fdiv v i
  if flt r (num 0) then num 0 else r

/-- iv_data.py 694-724. -/
noncomputable def seriesResistance (rseries : Option ℝ) (v i : List Flt) :
    Py (List Flt × List Flt) :=
  match rseries with
  | none => .ok (v, i)
  | some rs => do
    let r ← zip rstatic v i
    let mask := r.map notNan
    let rj := r.map fun a => fsub a (num rs)
    let im ← select i mask
    let rm ← select rj mask
    let v0 ← zip fmul im rm
    return (v0, im)

/-! ## The whole -/

/-- `sc.e`. -/
noncomputable def chargeE : ℝ := 1.602176634e-19

/-- `sc.h`. -/
noncomputable def planckH : ℝ := 6.62607015e-34

/-- `DCIVData`, iv_data.py 40-66. -/
structure DCIV where
  /-- filtered voltage, V -/
  vraw : List ℝ
  /-- filtered current, A -/
  iraw : List ℝ
  /-- normalised voltage -/
  vnorm : List ℝ
  /-- normalised current -/
  inorm : List ℝ
  /-- gap voltage -/
  vgap : ℝ
  /-- gap current -/
  igap : ℝ
  /-- gap frequency -/
  fgap : ℝ
  /-- normal resistance -/
  rn : ℝ
  /-- subgap resistance -/
  rsg : ℝ
  /-- offset -/
  offset : ℝ × ℝ
  /-- intercept of the normal branch -/
  vint : ℝ
  /-- series resistance -/
  rseries : Option ℝ

/-- The gap voltage given by the user, or else found in the data, iv_data.py 186-187. -/
noncomputable def chooseGap (R : Routines) (o : Opts) (v i : List ℝ) : Py ℝ :=
  match o.vgap with
  | some g => .ok g
  | none => gapVoltage R o v i

/-- iv_data.py 69-218. Not modelled: plots and warnings. -/
noncomputable def dcivCurve (R : Routines) (o : Opts) (data : IfResp.Input) :
    Py (List ℝ × List ℝ × DCIV) := do
  let raw ← loadIv R o data
  let v ← toReals raw.1
  let i ← toReals raw.2
  let c ← correctOffset R o (v.map (· * o.vMult)) (i.map (· * o.iMult))
  let f ← filterIv R o c.1 c.2.1
  let s ← seriesResistance o.rseries (f.1.map num) (f.2.map num)
  let v ← toReals s.1
  let i ← toReals s.2
  let vgap ← chooseGap R o v i
  let rn ← normalResistance R o v i
  let rsg ← subgapResistance R o v i
  let igap ← Np.fdiv vgap rn.1
  let vn ← div v [vgap]
  let cn ← div i [igap]
  let grid ← linspace (-o.vmax) o.vmax o.npts
  let vt ← div grid [vgap]
  let cur ← interp vt vn cn
  let dc : DCIV :=
    { vraw := f.1, iraw := f.2, vnorm := vt, inorm := cur, vgap := vgap, igap := igap,
      fgap := chargeE * vgap / planckH, rn := rn.1, rsg := rsg, offset := c.2.2, vint := rn.2,
      rseries := o.rseries }
  return (vt, cur, dc)

/-- The offset removed from pumped data, iv_data.py 284-290. -/
def pumpedOffset (o : Opts) (dc : DCIV) : ℝ × ℝ :=
  match o.voffset, o.ioffset with
  | some a, some b => (a, b)
  | _, _ => dc.offset

/-- iv_data.py 221-326. Not modelled: plots. -/
noncomputable def ivCurve (R : Routines) (o : Opts) (data : IfResp.Input) (dc : DCIV) :
    Py (List ℝ × List ℝ) := do
  let raw ← loadIv R o data
  let v ← toReals raw.1
  let i ← toReals raw.2
  let f ← filterIv R o (v.map fun t => t * o.vMult - (pumpedOffset o dc).1)
    (i.map fun t => t * o.iMult - (pumpedOffset o dc).2)
  let s ← seriesResistance o.rseries (f.1.map num) (f.2.map num)
  let v ← toReals s.1
  let i ← toReals s.2
  let vn ← div v [dc.vgap]
  let cn ← div i [dc.igap]
  let grid ← linspace (-o.vmax) o.vmax o.npts
  let vt ← div grid [dc.vgap]
  let cur ← interp0 vt vn cn
  return (vt, cur)

end QMix.IvData
