import Verif.Model.Options
import Mathlib.Analysis.SpecialFunctions.Log.Base

/-!
# The classes for experimental data

`DCData` and `PumpedData` of `qmix/exp/exp_data.py`. The figures are in
`Verif/Model/Figures.lean`. Not modelled here: printing and the names of files.
-/

namespace QMix.Exp

open QMix Np Fl IvData IfData Opt

/-! ## Dictionaries in memory -/

/-- The dictionaries in memory, by address. The shared dictionary `PARAMS` (the same object in
`parameters.py`, `iv_data.py`, `if_data.py` and `exp_data.py`) has address 0. The values inside a
dictionary are never changed in place by the code and are not given addresses. -/
abbrev Heap := List Dict

/-- The address of `PARAMS`. -/
def sharedAt : ℕ := 0

/-- The dictionary at an address. -/
def deref (h : Heap) (a : ℕ) : Dict := h.getD a fun _ => none

/-- Changing the dictionary at an address. -/
def write (h : Heap) (a : ℕ) (d : Dict) : Heap := h.set a d

/-- A new dictionary and its address. -/
def alloc (h : Heap) (d : Dict) : Heap × ℕ := (h ++ [d], h.length)

/-- `tmp = deepcopy(PARAMS)`, `tmp.update(kw)`, exp_data.py 142-144 and 559-561. -/
def mergeOptions (h : Heap) (kw : Dict) : Heap × ℕ :=
  let n := alloc h (deref h sharedAt)
  (write n.1 n.2 (update (deref n.1 n.2) kw), n.2)

/-- Python refuses a keyword that names a positional parameter of the function called (or, further
down, of one of the functions it calls, which all get the same keywords). -/
def noClash (kw : Dict) (names : List String) : Py Unit :=
  if names.any fun k => (kw k).isSome then .error .type else .ok ()

/-! ## DCData -/

/-- The attributes of `DCData`. -/
structure DCData where
  /-- address of the options -/
  kwargs : ℕ
  /-- comment -/
  comment : Val
  /-- voltage of the leakage current -/
  vleak : ℝ
  /-- normalised voltage -/
  voltage : List ℝ
  /-- normalised current -/
  current : List ℝ
  /-- the metadata; `vgap`, `igap`, `fgap`, `rn`, `rsg`, `offset`, `vint` are copied from here -/
  dc : DCIV
  /-- quality factor -/
  q : Flt
  /-- resistance-area product -/
  rna : ℝ
  /-- critical current density -/
  jc : Flt
  /-- leakage current -/
  ileak : ℝ
  /-- response function -/
  resp : RespFn.Obj
  /-- smeared response function -/
  respSmear : RespFn.Obj
  /-- IF data and its analysis: `if_data`, and `dcif` from which `if_noise`, `corr`, `shot_slope`
  and `if_fit` are copied -/
  ifs : Option ((List ℝ × List ℝ) × DCIF)

/-- The options given to the response functions, exp_data.py 180-187. -/
def respOpts (vSmear : Val) : Dict := fun k =>
  List.lookup k [("check_error", .bool false), ("verbose", .bool false), ("v_smear", vSmear)]

/-- The DC IF data, exp_data.py 190-207. -/
noncomputable def dcIf (R : Routines) (params kw : Dict) (dc : DCIV) :
    Option IfResp.Input → Py (Option ((List ℝ × List ℝ) × DCIF))
  | none => .ok none
  | some d => do
    noClash kw ["ifdata", "dc", "if_data"]
    let o ← ifOpts params kw
    let r ← dcifData R o dc d
    return some r

open Classical in
/-- `DCData.__init__` after the options are merged, exp_data.py 146-207. Division of one measured
number by another can give an infinity or NaN. -/
noncomputable def dcInit (R : Routines) (S : RespFn.Splines) (params kw : Dict) (at_ : ℕ)
    (data : IfResp.Input) (dcif : Option IfResp.Input) : Py DCData := do
  let comment ← item kw "comment"
  let vSmear ← item kw "v_smear"
  let vleak ← item kw "vleak"
  let area ← item kw "area"
  let _ ← item kw "verbose"
  raiseIf (data = .other) .value
  noClash kw ["ivdata", "volt_v", "curr_a", "vmeas", "imeas"]
  let o ← ivOpts params kw
  let r ← dcivCurve R o data
  let dc := r.2.2
  let area ← asReal area
  let rna := dc.rn * area * 1e-12
  let vleak ← asReal vleak
  let x ← Np.fdiv vleak dc.vgap
  let y ← interp [x] r.1 r.2.1
  let y ← pyGet y 0
  let resp ← respFnFromIVData S r.1 r.2.1 (respOpts .none)
  let respSmear ← respFnFromIVData S r.1 r.2.1 (respOpts vSmear)
  let ifs ← dcIf R params kw dc dcif
  return { kwargs := at_, comment := comment, vleak := vleak, voltage := r.1, current := r.2.1, dc := dc,
           q := Fl.fdiv (num dc.rsg) (num dc.rn), rna := rna, jc := Fl.fdiv (num dc.vgap) (num rna),
           ileak := y * dc.igap, resp := resp, respSmear := respSmear, ifs := ifs }

/-- `DCData(dciv, dcif, **kw)`, exp_data.py 139-209: the result and the memory afterwards. -/
noncomputable def dcData (R : Routines) (S : RespFn.Splines) (h : Heap) (data : IfResp.Input)
    (dcif : Option IfResp.Input) (kw : Dict) : Py DCData × Heap :=
  let m := mergeOptions h kw
  (dcInit R S (deref m.1 sharedAt) (deref m.1 m.2) m.2 data dcif, m.1)

/-! ## PumpedData -/

open Classical in
/-- `np.log10`. -/
noncomputable def flog10 : Flt → Flt
  | none => none
  | some a =>
    if a = ⊤ then some ⊤
    else if a < 0 then none
    else if a = 0 then some ⊥
    else num (Real.logb 10 a.toReal)

/-- The attributes set when there is IF data, exp_data.py 640-660. -/
structure PumpedIf where
  /-- voltage and hot power -/
  hot : List (ℝ × ℝ)
  /-- voltage and cold power -/
  cold : List (ℝ × ℝ)
  /-- noise temperature -/
  tn : List Flt
  /-- gain -/
  gain : List Flt
  /-- index of the best point -/
  idxBest : ℕ
  /-- calibration -/
  dcif : DCIF
  /-- best noise temperature -/
  tnBest : Flt
  /-- gain at the best point -/
  gainBest : Flt
  /-- gain at the best point, dB -/
  gDb : Flt
  /-- voltage of the best point -/
  vBest : ℝ
  /-- dynamic resistance at the best point -/
  zjIf : Flt

/-- The attributes of `PumpedData`; `vgap`, `igap`, `fgap`, `rn`, `offset`, `vint` are copied from
`dc`. -/
structure PumpedData where
  /-- address of the options -/
  kwargs : ℕ
  /-- the metadata of the unpumped curve -/
  dc : DCIV
  /-- LO frequency, GHz -/
  freq : ℝ
  /-- photon voltage -/
  vph : ℝ
  /-- normalised voltage -/
  voltage : List ℝ
  /-- normalised current -/
  current : List ℝ
  /-- dynamic resistance, `none` if some of its values are not finite -/
  rdyn : Option (List ℝ)
  /-- embedding circuit -/
  zemb : Option Zemb.Result
  /-- IF data -/
  ifs : Option PumpedIf

/-- Values that are not finite are a result and not an exception. -/
def finiteOrNone {α : Type} : Py α → Py (Option α)
  | .ok a => .ok (some a)
  | .error .nonFinite => .ok none
  | .error e => .error e

open Classical in
/-- What is done before the frequency is stored, exp_data.py 565-604. A text cannot be formatted as a number
(`f"{freq:.1f}"`, a `ValueError`). -/
noncomputable def pumpedFreq (kw : Dict) (data : IfResp.Input) : Py Val := do
  let _ ← item kw "comment"
  let freq ← item kw "freq"
  let _ ← item kw "analyze_if"
  let _ ← item kw "analyze_iv"
  let _ ← item kw "verbose"
  raiseIf (data = .other) .value
  raiseIf (freq = .none) .value
  raiseIf (∃ t, freq = .str t) .value
  return freq

/-- The dynamic resistance at the best point, exp_data.py 657-659. -/
noncomputable def bestRdyn (R : Routines) (rn vBest : ℝ) (voltage current : List ℝ) : Py Flt := do
  let i ← argmin (voltage.map fun v => |v - vBest|)
  let p ← polyfit R (slice voltage (some i) (some (i + 10))) (slice current (some i) (some (i + 10)))
  return Fl.fdiv (num rn) (num p.1)

/-- The IF data, exp_data.py 635-660. -/
noncomputable def pumpedIf (R : Routines) (params kw : Dict) (dc : DCIV) (dcif : Option DCIF)
    (voltage current : List ℝ) (hot cold : IfResp.Input) : Py PumpedIf := do
  noClash kw ["dcif", "dc", "if_hot", "if_cold", "ifdata", "if_data", "if_data_hot", "if_data_cold"]
  let o ← ifOpts params kw
  let t ← tnOpts params kw
  let r ← ifData R o t dc dcif hot cold
  let tnBest ← pyGet r.1.tn r.2.1
  let gainBest ← pyGet r.1.gain r.2.1
  let vBest ← pyGet r.1.v r.2.1
  let zj ← bestRdyn R dc.rn vBest voltage current
  return { hot := r.1.v.zip r.1.hot, cold := r.1.v.zip r.1.cold, tn := r.1.tn, gain := r.1.gain,
           idxBest := r.2.1, dcif := r.2.2, tnBest := tnBest, gainBest := gainBest,
           gDb := fmul (num 10) (flog10 gainBest), vBest := vBest, zjIf := zj }

/-- The impedance recovery, exp_data.py 625-633 and 680-800, with the response function of the
unpumped curve (not the smeared one). -/
noncomputable def pumpedZemb (params kw : Dict) (d : DCData) (vph : ℝ) (voltage current : List ℝ) :
    Py (Option Zemb.Result) := do
  let on ← item kw "analyze_iv"
  if truth on then
    noClash kw ["vdc_exp", "idc_exp", "vph", "resp", "vb", "alpha"]
    let o ← zembOpts params kw
    let r ← Zemb.recoverZemb o d.resp.idc d.resp.ikk vph voltage current
    return some r
  else return none

/-- The IF data if there is any, exp_data.py 635-673. -/
noncomputable def pumpedIfs (R : Routines) (params kw : Dict) (d : DCData)
    (voltage current : List ℝ) (hot cold : Option IfResp.Input) : Py (Option PumpedIf) := do
  let on ← item kw "analyze_if"
  match hot, cold with
  | some a, some b =>
    if truth on then
      let r ← pumpedIf R params kw d.dc (d.ifs.map Prod.snd) voltage current a b
      return some r
    else return none
  | _, _ => return none

/-- `PumpedData.__init__` after the frequency is stored, exp_data.py 604-678. -/
noncomputable def pumpedInit (R : Routines) (params kw : Dict) (at_ : ℕ) (data : IfResp.Input)
    (d : DCData) (hot cold : Option IfResp.Input) : Py PumpedData := do
  let freq ← item kw "freq"
  let freq ← asReal freq
  let x ← Np.fdiv freq d.dc.fgap
  let vph := x * 1e9
  noClash kw ["dc", "ivdata", "volt_v", "curr_a", "vmeas", "imeas"]
  let o ← ivOpts params kw
  let r ← ivCurve R o data d.dc
  let rdyn ← finiteOrNone (MathFn.slopeSpanN r.2 r.1 21 true)
  let z ← pumpedZemb params kw d vph r.1 r.2
  let ifs ← pumpedIfs R params kw d r.1 r.2 hot cold
  return { kwargs := at_, dc := d.dc, freq := freq, vph := vph, voltage := r.1, current := r.2,
           rdyn := rdyn, zemb := z, ifs := ifs }

/-- `PumpedData(ivdata, dciv, if_hot, if_cold, **kw)`, exp_data.py 556-678: the result and the memory
afterwards. -/
noncomputable def pumpedData (R : Routines) (h : Heap) (data : IfResp.Input) (d : DCData)
    (hot cold : Option IfResp.Input) (kw : Dict) : Py PumpedData × Heap :=
  let m := mergeOptions h kw
  match pumpedFreq (deref m.1 m.2) data with
  | .error e => (.error e, m.1)
  | .ok freq =>
    let h := write m.1 m.2 (setKey (deref m.1 m.2) "freq" freq)
    (pumpedInit R (deref h sharedAt) (deref h m.2) m.2 data d hot cold, h)

end QMix.Exp
