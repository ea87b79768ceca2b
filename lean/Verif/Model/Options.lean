import Verif.Model.IvData
import Verif.Model.IfData
import Verif.Model.IfNoise
import Verif.Model.ZembRec
import Verif.Model.RespFn

/-!
# Options

How options reach the functions that use them: `qmix/exp/parameters.py`, `kwargs.get(...)` in
`qmix/exp/iv_data.py`, `if_data.py`, `exp_data.py`, and `_default_params` in `qmix/respfn.py`.

Simplification for this file: a value of the wrong type is refused when the options are read, and
not at the first operation that cannot handle it.
-/

namespace QMix.Opt

open QMix IvData IfData Zemb

/-! ## Values and dictionaries -/

/-- The values that options can take. Lists and tuples are both `seq`. -/
inductive Val
  | none
  | bool (b : Bool)
  | int (n : ℤ)
  | num (r : ℝ)
  | str (s : String)
  | cplx (z : ℂ)
  | seq (l : List Val)

/-- A dictionary with strings as keys. The order of the keys is not modelled. -/
abbrev Dict := String → Option Val

/-- `d.update(e)`. -/
def update (d e : Dict) : Dict := fun k => (e k).orElse fun _ => d k

/-- `d[k] = v`. -/
def setKey (d : Dict) (k : String) (v : Val) : Dict := fun j => if j = k then some v else d j

/-- `d.get(k, v)`. -/
def getD (d : Dict) (k : String) (v : Val) : Val := (d k).getD v

/-- `d[k]`. -/
def item (d : Dict) (k : String) : Py Val := getOpt .key (d k)

/-- `kw.get(k, PARAMS[k])`: the default is looked up first. -/
def read (params kw : Dict) (k : String) : Py Val := do
  let v ← item params k
  return getD kw k v

/-- The dictionary `params`, parameters.py 153-214, as it is when the module is imported. -/
noncomputable def table : List (String × Val) :=
  [("v_fmt", .str "mV"), ("i_fmt", .str "mA"), ("vmax", .num 6e-3), ("npts", .int 6001),
   ("debug", .bool false), ("ioffset", .none), ("voffset", .none),
   ("voffset_range", .seq [.num (-1e-3), .num 1e-3]), ("rseries", .none), ("i_multiplier", .num 1),
   ("v_multiplier", .num 1), ("ifdata_npts", .int 3000), ("filter_data", .bool true),
   ("filter_theta", .num 0.785), ("filter_nwind", .int 21), ("filter_npoly", .int 3),
   ("ifdata_sigma", .num 1e-5), ("analyze_iv", .bool true), ("analyze_if", .bool true),
   ("analyze", .none), ("area", .num 1.5), ("freq", .none), ("vgap", .none),
   ("vrn", .seq [.num 3.5e-3, .num 5e3]), ("vrsg", .num 2e-3), ("vleak", .num 2e-3),
   ("vshot", .none), ("fit_range", .seq [.num 0.25, .num 0.8]), ("remb_range", .seq [.int 0, .int 1]),
   ("xemb_range", .seq [.int (-1), .int 1]), ("zemb", .none), ("alpha_max", .num 1.5),
   ("num_b", .int 20), ("t_cold", .num 78), ("t_hot", .num 293), ("vbest", .none),
   ("best_pt", .str "Max Gain"), ("ifresp_maxtn", .num 1e6), ("v_smear", .num 0.020),
   ("vmax_plot", .num 4.0), ("comment", .str ""), ("verbose", .bool true)]

/-- `params`, parameters.py 153-214. -/
noncomputable def PARAMS : Dict := fun k => table.lookup k

/-! ## Reading values -/

/-- A real number. -/
noncomputable def asReal : Val → Py ℝ
  | .num r => .ok r
  | .int n => .ok n
  | .bool b => .ok (if b then 1 else 0)
  | _ => .error .type

/-- A real number or `None`. -/
noncomputable def asOptReal : Val → Py (Option ℝ)
  | .none => .ok Option.none
  | v => do
    let r ← asReal v
    return some r

/-- An integer. -/
def asInt : Val → Py ℤ
  | .int n => .ok n
  | .bool b => .ok (if b then 1 else 0)
  | _ => .error .type

/-- The name of a unit. Anything else than a string is as good as an unknown unit. -/
def asUnit : Val → Py String
  | .str s => .ok s
  | _ => .ok ""

/-- `v.lower()` exists for strings only. -/
def asName : Val → Py String
  | .str s => .ok s
  | _ => .error .attribute

open Classical in
/-- The truth value, as in `if v:`. -/
noncomputable def truth : Val → Bool
  | .none => false
  | .bool b => b
  | .int n => decide (n ≠ 0)
  | .num r => decide (r ≠ 0)
  | .str s => decide (s ≠ "")
  | .cplx z => decide (z ≠ 0)
  | .seq l => decide (l ≠ [])

/-- `v[0]` and `v[1]` as real numbers. -/
noncomputable def asPair : Val → Py (ℝ × ℝ)
  | .seq (a :: b :: _) => do
    let x ← asReal a
    let y ← asReal b
    return (x, y)
  | .seq _ => .error .index
  | _ => .error .type

/-- `voffset_range`, iv_data.py 521-522: one number stands for a symmetric range. -/
noncomputable def asVRange : Val → Py VRange
  | .seq l => do
    let p ← asPair (.seq l)
    return .two p.1 p.2
  | v => do
    let r ← asReal v
    return .one r

/-- A complex number or `None`. -/
noncomputable def asOptCplx : Val → Py (Option ℂ)
  | .none => .ok Option.none
  | .cplx z => .ok (some z)
  | v => do
    let r ← asReal v
    return some (r : ℂ)

/-- A list of real numbers. -/
noncomputable def asReals : Val → Py (List ℝ)
  | .seq l => l.mapM asReal
  | _ => .error .type

/-- `vshot`, if_data.py 290, 310-313. -/
noncomputable def asVshot : Val → Py Vshot
  | .none => .ok .auto
  | .seq (.seq a :: l) => do
    let r ← (Val.seq a :: l).mapM asReals
    return .nested r
  | .seq l => do
    let r ← l.mapM asReal
    return .flat r
  | _ => .ok .other

/-! ## The options of the experimental-data functions -/

/-- The options read for I-V data, iv_data.py 120-127, 263-269, 349-350, 401-405, 517-519, 591, 626,
686 and 711. `debug` is left out: it only opens plots. -/
noncomputable def ivOpts (params kw : Dict) : Py Opts := do
  let vgap ← read params kw "vgap" >>= asOptReal
  let vMult ← read params kw "v_multiplier" >>= asReal
  let iMult ← read params kw "i_multiplier" >>= asReal
  let rseries ← read params kw "rseries" >>= asOptReal
  let vmax ← read params kw "vmax" >>= asReal
  let npts ← read params kw "npts" >>= asInt
  let vFmt ← read params kw "v_fmt" >>= asUnit
  let iFmt ← read params kw "i_fmt" >>= asUnit
  let voffset ← read params kw "voffset" >>= asOptReal
  let ioffset ← read params kw "ioffset" >>= asOptReal
  let voffsetRange ← read params kw "voffset_range" >>= asVRange
  let nwind ← read params kw "filter_nwind" >>= asInt
  let npoly ← read params kw "filter_npoly" >>= asInt
  let theta ← read params kw "filter_theta" >>= asReal
  let filter ← read params kw "filter_data"
  let vrn ← read params kw "vrn" >>= asPair
  let vrsg ← read params kw "vrsg" >>= asReal
  return { vFmt, iFmt, vmax, npts, voffset, ioffset, voffsetRange, rseries, iMult, vMult,
           filterData := truth filter, theta, nwind, npoly, vrn, vrsg, vgap }

/-- The options read for IF data, if_data.py 274 and 389-394. -/
noncomputable def ifOpts (params kw : Dict) : Py IfOpts := do
  let vMult ← read params kw "v_multiplier" >>= asReal
  let sigma ← read params kw "ifdata_sigma" >>= asOptReal
  let vmax ← read params kw "vmax" >>= asReal
  let npts ← read params kw "ifdata_npts" >>= asInt
  let rseries ← read params kw "rseries" >>= asOptReal
  let vFmt ← read params kw "v_fmt" >>= asUnit
  let vshot ← read params kw "vshot" >>= asVshot
  return { vMult, sigma, vmax, npts, rseries, vFmt, vshot }

/-- The options read for the noise temperature, if_data.py 197-202. -/
noncomputable def tnOpts (params kw : Dict) : Py TnOpts := do
  let freq ← read params kw "freq" >>= asOptReal
  let tHot ← read params kw "t_hot" >>= asReal
  let tCold ← read params kw "t_cold" >>= asReal
  let vbest ← read params kw "vbest" >>= asOptReal
  let bestPt ← read params kw "best_pt" >>= asName
  return { freq, tHot, tCold, vbest, bestPt }

/-- The fit interval of `_recover_zemb`, exp_data.py 708-718, before `fit_high = 1 - fit_high`. In
line 715 `fit_high` is never `None`: the subtraction in line 714 has already failed then. -/
noncomputable def fitRange (params kw : Dict) : Py (ℝ × ℝ) :=
  match getD kw "fit_range" .none with
  | .none => do
    let high ← asReal (getD kw "cut_high" .none)
    let low ← asOptReal (getD kw "cut_low" .none)
    match low with
    | some l => return (l, 1 - high)
    | none => item params "fit_range" >>= asPair
  | v => asPair v

/-- The fit interval shaded by `plot_simulated`, exp_data.py 1316-1325, before
`fit_high = 1 - fit_high`. -/
noncomputable def fitRangePlot (params kw : Dict) : Py (ℝ × ℝ) :=
  match getD kw "fit_range" .none with
  | .none => do
    let low ← asOptReal (getD kw "cut_low" .none)
    let high ← asOptReal (getD kw "cut_high" .none)
    match low, high with
    | some l, some h => return (l, h)
    | _, _ => item params "fit_range" >>= asPair
  | v => asPair v

/-- The options read by `_recover_zemb`, exp_data.py 707-725, 1873 and 1907. -/
noncomputable def zembOpts (params kw : Dict) : Py ZembOpts := do
  let fit ← fitRange params kw
  let remb ← read params kw "remb_range" >>= asPair
  let xemb ← read params kw "xemb_range" >>= asPair
  let zemb ← read params kw "zemb" >>= asOptCplx
  let alphaMax ← asReal (getD kw "alpha_max" (.num 1.5))
  let numB ← asInt (getD kw "num_b" (.int 20))
  return { fitLow := fit.1, fitHigh := fit.2, remb, xemb, zemb, alphaMax, numB }

/-! ## The options of the response functions -/

/-- `_default_params`, respfn.py 874-898. `verbose` is left out: it only prints. -/
noncomputable def respDefaults (maxDc maxKk : ℤ) (kw : Dict) : Dict :=
  update (fun k => List.lookup k
    [("max_npts_dc", .int maxDc), ("max_npts_kk", .int maxKk), ("max_interp_error", .num 0.001),
     ("check_error", .bool false), ("v_smear", .none), ("kk_n", .int 50), ("spline_order", .int 3)]) kw

/-- The parameters read by `RespFn.__init__` and `_setup_interpolation`, respfn.py 162-184 and
748-753. `RespFn.__init__` calls `_default_params` again with the parameters it is given. -/
noncomputable def respParams (kw : Dict) : Py RespFn.Params := do
  let p := respDefaults 101 151 kw
  let vSmear ← item p "v_smear" >>= asOptReal
  let kkN ← item p "kk_n" >>= asInt
  let maxNptsDc ← item p "max_npts_dc" >>= asInt
  let maxNptsKk ← item p "max_npts_kk" >>= asInt
  let maxInterpError ← item p "max_interp_error" >>= asReal
  let check ← item p "check_error"
  let splineOrder ← item p "spline_order" >>= asInt
  return { maxNptsDc, maxNptsKk, maxInterpError, checkError := truth check, vSmear, kkN, splineOrder }

/-- `RespFn(voltage, current, **kw)`, respfn.py 158-196. -/
noncomputable def respFn (S : RespFn.Splines) (voltage current : List ℝ) (kw : Dict) : Py RespFn.Obj := do
  let p ← respParams kw
  RespFn.respInit S voltage current p

/-- `RespFnFromIVData(voltage, current, **kw)`, respfn.py 526-543. -/
noncomputable def respFnFromIVData (S : RespFn.Splines) (voltage current : List ℝ) (kw : Dict) :
    Py RespFn.Obj := do
  let d := respDefaults 81 101 kw
  let vlimit ← asReal (getD d "vlimit" (.num 1.8))
  let p ← respParams d
  RespFn.fromIVData S voltage current (some vlimit) p

/-- `RespFnPolynomial(p_order, **kw)`, respfn.py 580-587. -/
noncomputable def respFnPolynomial (S : RespFn.Splines) (order : ℝ) (kw : Dict) : Py RespFn.Obj := do
  let p ← respParams (respDefaults 101 151 kw)
  RespFn.respPolynomial S order p

/-- `RespFnExponential(vgap, rn, rsg, agap, **kw)`, respfn.py 625-632. -/
noncomputable def respFnExponential (S : RespFn.Splines) (vgap rn rsg agap : ℝ) (kw : Dict) :
    Py RespFn.Obj := do
  let p ← respParams (respDefaults 101 251 kw)
  RespFn.respExponential S vgap rn rsg agap p

/-- `RespFnPerfect(**kw)`, respfn.py 665-708. -/
noncomputable def respFnPerfect (S : RespFn.Splines) (kw : Dict) : Py RespFn.Obj := do
  let p ← respParams (respDefaults 101 151 kw)
  RespFn.respPerfect S p

end QMix.Opt
