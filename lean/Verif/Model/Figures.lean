import Verif.Model.ExpData
import Verif.Model.HarmonicBalance

/-!
# The figures of the classes for experimental data

`qmix/exp/exp_data.py` 250-448 and 802-1372. A figure is the list of drawing commands given to
Matplotlib, with the numbers that are drawn. Axes are numbers; `new` is the number of axes that did not
exist before the call. Not modelled: colours, line styles, tick marks, grids, the places of legends and
of texts, and the rounding of numbers in legends (a label carries the number and the decimals).
-/

namespace QMix.Exp

open QMix Np Fl IvData IfData Opt

/-- A text in a figure: fixed, or with a real or complex number formatted with `d` decimals. -/
inductive Label
  | text (s : String)
  | num (pre : String) (d : ℕ) (x : Flt) (post : String)
  | cnum (pre : String) (d : ℕ) (z : ℂ) (post : String)

/-- A drawing command. -/
inductive Cmd
  /-- `ax.plot(xs, ys, label=label)` -/
  | plot (ax : ℕ) (label : Label) (xs ys : List Flt)
  /-- `ax.axvline(x)` -/
  | vline (ax : ℕ) (x : ℝ)
  /-- `ax.axhline(y)` -/
  | hline (ax : ℕ) (y : ℝ)
  /-- `ax.pcolor`: the cells as (x, y, value), row by row -/
  | mesh (ax : ℕ) (cells : List (List (ℝ × ℝ × Flt)))
  /-- `ax.annotate(label, xy=(x, y))` -/
  | note (ax : ℕ) (label : Label) (x y : Flt)
  /-- `ax.set_xlim`; a missing bound is left alone -/
  | xlim (ax : ℕ) (lo : Option ℝ) (hi : Option ℝ)
  /-- `ax.set_ylim` -/
  | ylim (ax : ℕ) (lo : Option ℝ) (hi : Option Flt)
  /-- `ax.set_xlabel` -/
  | xlabel (ax : ℕ) (s : String)
  /-- `ax.set_ylabel` -/
  | ylabel (ax : ℕ) (s : String)
  /-- the title of the legend, line by line -/
  | title (ax : ℕ) (lines : List Label)

/-- What a plotting method does: the axes it returns (if it is not told to save the figure) and the
commands. -/
structure Drawing where
  axes : List ℕ
  cmds : List Cmd

/-- `ax.plot(xs, ys)`: `ValueError` for arrays of different lengths. -/
def drawF (ax : ℕ) (label : Label) (xs ys : List Flt) : Py Cmd := do
  raiseIf (xs.length ≠ ys.length) .value
  return .plot ax label xs ys

/-- The same for finite numbers. -/
noncomputable def draw (ax : ℕ) (label : Label) (xs ys : List ℝ) : Py Cmd :=
  drawF ax label (xs.map num) (ys.map num)

/-- `np.interp(x, xp, fp)` for a number `x`. -/
noncomputable def interpVal (x : ℝ) (xp fp : List ℝ) : Py ℝ := do
  let y ← interp [x] xp fp
  pyGet y 0

/-! ## DCData -/

open Classical in
/-- `DCData.plot_dciv`, exp_data.py 250-328. -/
noncomputable def plotDciv (R : Routines) (d : DCData) (vmax : ℝ) (new : ℕ) (ax : Option ℕ) :
    Py Drawing := do
  let mv := d.dc.vgap * 1e3
  let g ← Np.fdiv d.dc.vgap d.dc.rn
  let ua := g * 1e6
  let vmv := d.voltage.map (· * mv)
  let iua := d.current.map (· * ua)
  let vv := vmv.map (· / 1000)
  let r0 ← Np.fdiv (-d.dc.vint) d.dc.rn
  let slope := d.voltage.map fun v => r0 * 1e6 + v * ua
  let atGap ← interp [1] d.voltage d.current
  let x ← Np.fdiv d.vleak d.dc.vgap
  let ileak ← interpVal x d.voltage d.current
  let m ← masked (vv.map fun t => decide (d.vleak - 0.2e-3 < t ∧ t < d.vleak + 0.2e-3)) vmv iua
  let psg ← polyfit R m.1 m.2
  let a := ax.getD new
  let c1 ← draw a (.text "DC I-V") vmv iua
  let c2 ← draw a (.num "$V_\\mathrm{{gap}}$ = " 2 (num (d.dc.vgap * 1e3)) " mV") [d.dc.vgap * 1e3]
    (atGap.map (· * ua))
  let c3 ← draw a (.num "$I_\\mathrm{{leak}}$ = " 2 (num (ileak * ua)) " $\\mu$A") [2] [ileak * ua]
  let c4 ← draw a (.num "$R_\\mathrm{{n}}$ = " 2 (num d.dc.rn) " $\\Omega$") vmv slope
  let c5 ← draw a (.num "$R_\\mathrm{{sg}}$ = " 1 (num d.dc.rsg) " $\\Omega$") vmv
    (vmv.map fun v => psg.1 * v + psg.2)
  let i ← argmin (vmv.map fun v => |vmax - v|)
  let xm ← pyGet vmv i
  let ym ← pyGet iua i
  return { axes := [a]
           cmds := [c1, c2, c3, c4, c5, .xlim a (some 0) (some xm), .ylim a (some 0) (some (num ym)),
             .xlabel a "Bias Voltage (mV)", .ylabel a "Current ($\\mu$A)"] }

open Classical in
/-- `DCData.plot_offset`, exp_data.py 330-374. -/
noncomputable def plotOffset (d : DCData) (new : ℕ) (ax : Option ℕ) : Py Drawing := do
  let mv := d.dc.vgap * 1e3
  let g ← Np.fdiv d.dc.vgap d.dc.rn
  let ua := g * 1e6
  let vmv := d.voltage.map (· * mv)
  let iua := d.current.map (· * ua)
  let m ← masked (vmv.map fun t => decide (-0.2 < t ∧ t < 0.2)) vmv iua
  let a := ax.getD new
  let c1 ← draw a (.text "") m.1 m.2
  return { axes := [a]
           cmds := [c1, .xlim a (some (-0.2)) (some 0.2), .xlabel a "Bias Voltage (mV)",
             .ylabel a "Current ($\\mu$A)"] }

/-- `DCData.plot_if_noise`, exp_data.py 376-448. Without IF data a message is printed and nothing is
drawn. -/
noncomputable def plotIfNoise (d : DCData) (new : ℕ) (ax : Option (ℕ × ℕ)) : Py (Option Drawing) :=
  match d.ifs with
  | none => .ok none
  | some ((v, p), dcif) => do
    let x0 ← Np.fdiv d.dc.vint d.dc.rn
    let rslope ← d.voltage.mapM fun t => do
      let y ← Np.fdiv (t * d.dc.vgap) d.dc.rn
      return (y - x0) * 1e6
    let mv := d.dc.vgap * 1e3
    let ua := d.dc.igap * 1e6
    let vmv := d.voltage.map (· * mv)
    let iua := d.current.map (· * ua)
    let a := ax.getD (new, new + 1)
    let c1 ← draw a.1 (.text "I-V curve") vmv iua
    let c2 ← draw a.1 (.text "Normal-state") vmv rslope
    let vmv := v.map (· * mv)
    let c3 ← draw a.2 (.text "IF Power") vmv p
    let c4 ← draw a.2 (.text "5.8 K/mV") (dcif.shotSlope.map fun q => q.1 * d.dc.vgap * 1e3)
      (dcif.shotSlope.map Prod.snd)
    let c5 ← draw a.2 (.num "IF noise: " 2 (num dcif.ifNoise) " K") [d.dc.vint * 1e3] [dcif.ifNoise]
    let xm ← amax vmv
    return some { axes := [a.1, a.2]
                  cmds := [c1, c2, .vline a.1 (d.dc.vint * 1e3), .ylabel a.1 "Current ($\\mu$A)",
                    .ylim a.1 (some 0) none, .xlim a.1 (some 0) none, c3, c4, c5,
                    .vline a.2 (d.dc.vint * 1e3), .xlabel a.2 "Bias Voltage (mV)",
                    .ylabel a.2 "IF Power (K)", .xlim a.2 (some 0) (some xm), .ylim a.2 (some 0) none] }

/-! ## PumpedData -/

/-- `self.if_hot[...]` and the like: without IF data these attributes are `None`. -/
def theIf (p : PumpedData) : Py PumpedIf := getOpt .type p.ifs

open Classical in
/-- `PumpedData.plot_iv`, exp_data.py 802-851; `d` is `self.dciv`. -/
noncomputable def plotIv (p : PumpedData) (d : DCData) (vmax : ℝ) (new : ℕ) (ax : Option ℕ) :
    Py Drawing := do
  let vmv := d.dc.vgap * 1e3
  let iua := d.dc.igap * 1e6
  let imax ← interpVal vmax (d.voltage.map (· * vmv)) (d.current.map (· * iua))
  let a := ax.getD new
  let c1 ← draw a (.text "Unpumped") (d.voltage.map (· * vmv)) (d.current.map (· * iua))
  let m ← masked (p.current.map fun c => decide (c ≠ 0)) p.voltage p.current
  let c2 ← draw a (.text "Pumped") (m.1.map (· * vmv)) (m.2.map (· * iua))
  return { axes := [a]
           cmds := [c1, c2, .vline a (p.dc.vgap * 1e3), .vline a (p.dc.vgap * 1e3 - p.vph * vmv),
             .xlabel a "Bias Voltage (mV)", .ylabel a "DC Current (uA)", .xlim a (some 0) (some vmax),
             .ylim a (some 0) (some (num imax)), .title a [.num "LO: " 1 (num p.freq) " GHz"]] }

/-- The voltages of the IF data in mV, `self.if_hot[:, 0] * self.vgap * 1e3`. -/
noncomputable def ifVolts (p : PumpedData) (f : PumpedIf) : List ℝ :=
  f.hot.map fun q => q.1 * p.dc.vgap * 1e3

/-- The IF data without LO as drawn by `plot_if`, exp_data.py 882-884. -/
noncomputable def noLo (p : PumpedData) (d : DCData) (a : ℕ) : Py (List Cmd) :=
  match d.ifs with
  | none => .ok []
  | some ((v, w), _) => do
    let c ← draw a (.text "No LO") (v.map fun x => x * p.dc.vgap * 1e3) w
    return [c]

/-- `PumpedData.plot_if`, exp_data.py 853-897. -/
noncomputable def plotIf (p : PumpedData) (d : DCData) (vmax : ℝ) (new : ℕ) (ax : Option ℕ) :
    Py Drawing := do
  let f ← theIf p
  let vmv := ifVolts p f
  let a := ax.getD new
  let c1 ← draw a (.text "Hot") vmv (f.hot.map Prod.snd)
  let c2 ← draw a (.text "Cold") vmv (f.cold.map Prod.snd)
  let c3 ← noLo p d a
  return { axes := [a]
           cmds := [c1, c2] ++ c3 ++ [.xlabel a "Bias Voltage (mV)", .ylabel a "IF Power (K)",
             .ylim a (some 0) none, .xlim a (some 0) (some vmax),
             .title a [.num "LO: " 1 (num p.freq) " GHz"]] }

open Classical in
/-- `PumpedData.plot_ivif`, exp_data.py 899-962. The second axes given by the caller are replaced by
new ones (line 947). -/
noncomputable def plotIvif (p : PumpedData) (d : DCData) (vmax : ℝ) (new : ℕ) (ax : Option (ℕ × ℕ)) :
    Py Drawing := do
  let mv := p.dc.vgap * 1e3
  let g ← Np.fdiv p.dc.vgap p.dc.rn
  let ua := g * 1e6
  let imax ← interpVal vmax (d.voltage.map (· * mv)) (d.current.map (· * ua))
  let a1 := match ax with
    | none => new
    | some a => a.1
  let c1 ← draw a1 (.text "Unpumped") (d.voltage.map (· * mv)) (d.current.map (· * ua))
  let m ← masked (p.current.map fun c => decide (c ≠ 0)) p.voltage p.current
  let c2 ← draw a1 (.text "Pumped") (m.1.map (· * mv)) (m.2.map (· * ua))
  let f ← theIf p
  let vmv := ifVolts p f
  let a2 := match ax with
    | none => new + 1
    | some _ => new
  let h ← masked (f.hot.map fun q => decide (q.2 ≠ 0)) vmv (f.hot.map Prod.snd)
  let c3 ← draw a2 (.text "Hot") h.1 h.2
  let c ← masked (f.cold.map fun q => decide (q.2 ≠ 0)) vmv (f.cold.map Prod.snd)
  let c4 ← draw a2 (.text "Cold") c.1 c.2
  return { axes := [a1, a2]
           cmds := [c1, c2, .vline a1 (p.dc.vgap * 1e3), .vline a1 (p.dc.vgap * 1e3 - p.vph * mv),
             .xlabel a1 "Bias Voltage (mV)", .ylabel a1 "DC Current ($\\mu$A)",
             .ylim a1 (some 0) (some (num imax)), c3, c4, .ylabel a2 "IF Power (K)",
             .ylim a2 (some 0) none, .xlim a2 (some 0) (some vmax)] }

open Classical in
/-- `PumpedData.plot_noise_temp`, exp_data.py 964-1027. -/
noncomputable def plotNoiseTemp (p : PumpedData) (vmax : ℝ) (new : ℕ) (ax : Option (ℕ × ℕ)) :
    Py Drawing := do
  let f ← theIf p
  let mask := f.hot.map fun q => decide (q.2 ≠ 0)
  let v ← select f.hot mask
  let vmv := v.map fun q => q.1 * p.dc.vgap * 1e3
  let hot ← MathFn.gaussConv (v.map Prod.snd) 5 3
  let c ← select f.cold mask
  let cold ← MathFn.gaussConv (c.map Prod.snd) 5 3
  let a := ax.getD (new, new + 1)
  let c1 ← draw a.1 (.text "Hot IF") vmv hot
  let c2 ← draw a.1 (.text "Cold IF") vmv cold
  let ym ← amax hot
  let tn ← select f.tn mask
  let c3 ← drawF a.2 (.text "Noise Temp.") (vmv.map num) tn
  let best ← pyGet f.hot f.idxBest
  let c4 ← drawF a.2 (.num "$T_\\mathrm{n}=" 1 f.tnBest "$ K") [num (best.1 * p.dc.vgap * 1e3)]
    [f.tnBest]
  return { axes := [a.1, a.2]
           cmds := [c1, c2, .xlabel a.1 "Bias Voltage (mV)", .ylabel a.1 "IF Power (K)",
             .xlim a.1 (some 1) (some 3.5), .ylim a.1 (some 0) (some (num (ym * 1.3))), c3, c4,
             .ylabel a.2 "Noise Temperature (K)", .ylim a.2 (some 0) (some (fmul f.tnBest (num 5))),
             .xlim a.2 (some 0) (some vmax)] }

/-- `PumpedData.plot_yfac_noise_temp`, exp_data.py 1029-1093. -/
noncomputable def plotYfac (p : PumpedData) (vmax : ℝ) (new : ℕ) (ax : Option (ℕ × ℕ)) :
    Py Drawing := do
  let f ← theIf p
  let vmv := ifVolts p f
  let hot ← MathFn.gaussConv (f.hot.map Prod.snd) 5 3
  let cold ← MathFn.gaussConv (f.cold.map Prod.snd) 5 3
  let yfac ← zip Fl.fdiv (hot.map num) (cold.map num)
  let a := ax.getD (new, new + 1)
  let c1 ← drawF a.1 (.text "Y-factor") (vmv.map num) yfac
  let c2 ← drawF a.2 (.text "Noise Temp.") (vmv.map num) f.tn
  let x ← pyGet vmv f.idxBest
  let c3 ← drawF a.2 (.text "") [num x] [f.tnBest]
  return { axes := [a.1, a.2]
           cmds := [c1, .hline a.1 (293 / 77), .xlabel a.1 "Bias Voltage (mV)", .ylabel a.1 "Y-factor",
             .ylim a.1 (some 1) (some (num 4)), c2, c3, .note a.2 (.num "" 1 f.tnBest " K") (num x) f.tnBest,
             .ylabel a.2 "Noise Temperature (K)", .ylim a.2 (some 0) (some (num 300)),
             .xlim a.2 (some 0) (some vmax)] }

/-- `PumpedData.plot_gain_noise_temp`, exp_data.py 1095-1165. -/
noncomputable def plotGainNoise (p : PumpedData) (vmax : ℝ) (new : ℕ) (ax : Option (ℕ × ℕ)) :
    Py Drawing := do
  let f ← theIf p
  let vmv := ifVolts p f
  let a := ax.getD (new, new + 1)
  let c1 ← drawF a.1 (.text "Gain") (vmv.map num) f.gain
  let x ← pyGet vmv f.idxBest
  let g ← pyGet f.gain f.idxBest
  let c2 ← drawF a.1 (.text "") [num x] [g]
  let c3 ← drawF a.2 (.text "Noise Temp.") (vmv.map num) f.tn
  let c4 ← drawF a.2 (.text "") [num x] [f.tnBest]
  return { axes := [a.1, a.2]
           cmds := [c1, c2, .note a.1 (.num "$G_\\mathrm{c}=" 2 g "$") (num x) g,
             .xlabel a.1 "Bias Voltage (mV)", .ylabel a.1 "Gain", .ylim a.1 (some 0) none, c3, c4,
             .note a.2 (.num "$T_\\mathrm{N}=" 1 f.tnBest "$ K") (num x) f.tnBest,
             .ylabel a.2 "Noise Temperature (K)", .ylim a.2 (some 0) (some (fmul f.tnBest (num 5))),
             .xlim a.2 (some 0) (some vmax)] }

/-- `PumpedData.plot_gain`, exp_data.py 1167-1204. The upper limit of the second axis is not
modelled. -/
noncomputable def plotGain (p : PumpedData) (vmax : ℝ) (new : ℕ) (ax : Option ℕ) : Py Drawing := do
  let f ← theIf p
  let a := ax.getD new
  let c1 ← drawF a (.text "$G_{{c}}$") ((ifVolts p f).map num) (f.gain.map fun g => fmul g (num 100))
  return { axes := [a]
           cmds := [c1, .xlabel a "Bias Voltage (mV)", .ylabel a "Gain (%)",
             .xlim a (some 0) (some vmax)] }

/-- `np.log10` of the error surface. -/
noncomputable def logErr (e : Option ℝ) : Flt := flog10 (Zemb.toFlt e)

/-- `PumpedData.plot_error_surface`, exp_data.py 1206-1290. Without impedance recovery `self.zt` is
`None` (`TypeError`). -/
noncomputable def plotErrorSurface (params kw : Dict) (p : PumpedData) (new : ℕ) (ax : Option ℕ) :
    Py Drawing := do
  let remb ← read params kw "remb_range" >>= asPair
  let xemb ← read params kw "xemb_range" >>= asPair
  let re ← linspace remb.1 remb.2 101
  let im ← linspace xemb.1 xemb.2 201
  let re := re.map (· * p.dc.rn)
  let im := im.map (· * p.dc.rn)
  let z ← getOpt .type p.zemb
  let best := z.zt * (p.dc.rn : ℂ)
  let cells := im.zipIdx.map fun y => re.zipIdx.map fun x =>
    (x.1, y.1, logErr (z.errSurf.getD (201 * x.2 + y.2) none))
  let a := ax.getD new
  return { axes := [a]
           cmds := [.mesh a cells,
             .note a (.cnum "Minimum Error at\n$Z_\\mathrm{T}$=" 2 best " $\\Omega$") (num best.re) (num best.im),
             .xlabel a "$R_\\mathrm{{T}}$ ($\\Omega$)", .ylabel a "$X_\\mathrm{{T}}$ ($\\Omega$)"] }

/-- `vph = self.freq * sc.giga / self.dciv.fgap`, exp_data.py 1312. -/
noncomputable def simVph (p : PumpedData) (d : DCData) : Py ℝ := Np.fdiv (p.freq * 1e9) d.dc.fgap

/-- The circuit of `plot_simulated`, exp_data.py 1332-1336: one tone, one harmonic, 201 bias points
from 0 to 2. -/
noncomputable def simCircuit (vph : ℝ) (zt : ℂ) (vt : ℝ) : HB.HCct 201 where
  numF := 1
  numP := 1
  freq := fun f => if f = 1 then vph else 0
  vb := fun i => 0 + (i : ℕ) * ((2 - 0) / 200)
  vt := fun f p => if f = 1 ∧ p = 1 then (vt : ℂ) else 0
  zt := fun f p => if f = 1 ∧ p = 1 then zt else 0

/-- The junction voltages among the possible values of `harmonic_balance`. -/
def resVj {N : ℕ} : HB.Res N → Py (ℕ → ℕ → Qt.Arr (Fin N))
  | .vj v => .ok v
  | _ => .error .type

/-- The simulated tunnelling current, exp_data.py 1338-1341, with the default options of
`harmonic_balance` and `num_b = 30`: the dc current in the bias points. `resp` is the response
function as a complex function, `ikk + 1j * idc`. -/
noncomputable def simCurrent (resp : ℝ → ℂ) (c : HB.HCct 201) : Py (List ℝ) := do
  let run ← HB.harmonicBalance c resp (.int 30) 10 0.001 none 1 .o 0.67
  let vj ← resVj run.res
  let rows ← Qt.qtcurrentList vj run.cct.toCct resp [0, c.freq 1] (.int 30) none
  let row ← pyGet rows 0
  return List.ofFn fun i => (row i).re

open Classical in
/-- `PumpedData.plot_simulated`, exp_data.py 1292-1372. An embedding voltage that is NaN is not
followed. -/
noncomputable def plotSimulated (params kw : Dict) (p : PumpedData) (d : DCData) (vmax : ℝ)
    (new : ℕ) (ax : Option ℕ) : Py Drawing := do
  let vph ← simVph p d
  let fit ← fitRangePlot params kw
  let high := 1 - fit.2
  let vmin := (1 - vph + vph * fit.1) * p.dc.vgap * 1e3
  let vmx := (1 - vph * high) * p.dc.vgap * 1e3
  let z ← getOpt .type p.zemb
  let vt ← getOpt .nonFinite z.vt
  let c := simCircuit vph z.zt vt
  let cur ← simCurrent d.respSmear.resp c
  let mv := p.dc.vgap * 1e3
  let ua := p.dc.igap * 1e6
  let vb := List.ofFn c.vb
  let a := ax.getD new
  let c1 ← draw a (.text "Unpumped") (d.voltage.map (· * mv)) (d.current.map (· * ua))
  let m ← masked (p.current.map fun c => decide (c ≠ 0)) p.voltage p.current
  let c2 ← draw a (.text "Pumped") (m.1.map (· * mv)) (m.2.map (· * ua))
  let c3 ← draw a (.text "Simulated") (vb.map (· * mv)) (cur.map (· * ua))
  let y ← interp [vmin, vmx] (vb.map (· * mv)) (cur.map (· * ua))
  let c4 ← draw a (.text "Fit Interval") [vmin, vmx] y
  let imax ← interpVal vmax (d.voltage.map (· * mv)) (d.current.map (· * ua))
  return { axes := [a]
           cmds := [c1, c2, c3, c4, .vline a (p.dc.vgap * 1e3), .vline a (p.dc.vgap * 1e3 - p.vph * mv),
             .xlim a (some 0) (some vmax), .ylim a (some 0) (some (num imax)),
             .xlabel a "Bias Voltage (mV)", .ylabel a "DC Current (uA)",
             .title a [.num "LO: " 1 (num p.freq) " GHz", .num "$V_{ph}$ = " 2 (num (p.vph * mv)) " mV",
               .num "$V_T$ = " 2 (num (vt * p.dc.vgap * 1e3)) " mV",
               .cnum "$Z_T$ = " 2 (z.zt * (p.dc.rn : ℂ)) " $\\Omega$"]] }

end QMix.Exp
