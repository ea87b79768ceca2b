import Verif.Model.Results

/-!
# What the classes for experimental data print

`qmix/exp/exp_data.py` 208-248, 609-617, 677-678, 732-791, `qmix/exp/iv_data.py` 194-200 and `qmix/exp/if_data.py` 131, 162-163,
235-239, 320-322. What is printed is a list of characters; only calls that return are followed. Parameters: the text of a complex
number that is not finite, the power printed for it, and the text of a comment (`str`).
-/

namespace QMix.Report

open QMix Np Fl IvData IfData Opt Exp Results

/-! ## Formats -/

open Classical in
/-- `'{:+w.df}'.format(x)`. -/
noncomputable def fmtS (w d : ℕ) (x : Flt) : List Char :=
  Term.padLeft w <| match x with
    | none => "+nan".toList
    | some x => if x = ⊤ then "+inf".toList else if x = ⊥ then "-inf".toList else Term.fmtSigned 0 d (signed x.toReal)

/-- `'{:+w.df}'.format(z)` for a complex number; `bad` is the text if it is not finite. -/
noncomputable def fmtCS (bad : List Char) (w d : ℕ) (z : Option ℂ) : List Char :=
  Term.padLeft w <| match z with
    | none => bad
    | some z => Term.fmtSigned 0 d (signed z.re) ++ Term.fmtSigned 0 d (signed z.im) ++ ['j']

/-- `print(text)`. -/
def line (t : List Char) : List Char := t ++ ['\n']

/-! ## Impedance recovery -/

/-- `np.abs(v * vgap)**2 / k / np.real(z * rn)`. -/
noncomputable def power (k : ℝ) (v : Flt) (vgap : ℝ) (z : ℂ) (rn : ℝ) : Flt :=
  let a := fmul v (num vgap)
  Fl.fdiv (Fl.fdiv (fmul a a) (num k)) (num (z * rn).re)

/-- The lines printed in the end, exp_data.py 776-791: `avail` and `deliv` are the powers in W. -/
noncomputable def recoveryLines (bad : List Char) (avail deliv : Flt) (r : Zemb.Result) : List (List Char) :=
  ["\t- embedding circuit:".toList,
   "\t\t- voltage:     \t".toList ++ fmtS 6 2 (Zemb.toFlt r.vt) ++ "\t\t* Vgap".toList,
   "\t\t- impedance:   \t".toList ++ fmtCS bad 12 2 (some r.zt) ++ "\t* Rn".toList,
   "\t\t- avail. power:\t".toList ++ fmtS 7 2 (Fl.fdiv avail (num 1e-9)) ++ "\t\tnW".toList,
   "\t- junction:".toList,
   "\t\t- drive level:\t".toList ++ fmtS 6 2 r.alpha,
   "\t\t- impedance:\t".toList ++ fmtCS bad 12 2 r.zw ++ "\t* Rn".toList,
   "\t\t- deliv. power:\t".toList ++ fmtS 7 2 (Fl.fdiv deliv (num 1e-9)) ++ "\t\tnW".toList]

/-- Whether the fit is good, exp_data.py 771-775. -/
def fitLine (good : Bool) : Py (List Char) :=
  if good then Term.cprint "\t- good fit".toList (some "OKGREEN".toList)
  else Term.cprint "\t- bad fit".toList (some "WARNING".toList)

/-- What `_recover_zemb` prints, exp_data.py 732 and 771-791; `other` is the delivered power if the impedance of the junction is
not finite, and `bad` its text. An impedance given by the user is a complex number here. -/
noncomputable def recovery (bad : List Char) (other : Flt) (vph vgap rn : ℝ) (r : Zemb.Result) : Py (List Char) := do
  let a ← Term.cprint " -> Impedance recovery:".toList (some "HEADER".toList)
  let b ← fitLine r.fitGood
  let avail := power 8 (Zemb.toFlt r.vt) vgap r.zt rn
  let deliv := match r.zw with
    | none => other
    | some z => power 2 (fmul r.alpha (num vph)) vgap z rn
  return a ++ b ++ (recoveryLines bad avail deliv r).flatMap line

/-! ## DCData -/

/-- `DCData.__str__`, exp_data.py 211-235. -/
noncomputable def dcText (str : Val → List Char) (d : DCData) : List Char :=
  Term.esc :: "[35m\nDC I-V data:".toList ++ Term.esc :: "[0m ".toList ++ str d.comment ++ "\n\n".toList ++
  "\tVgap:  \t\t".toList ++ fmt 6 2 (num (d.dc.vgap * 1e3)) ++ "\tmV\n".toList ++
  "\tfgap:  \t\t".toList ++ fmt 6 2 (num (d.dc.fgap / 1e9)) ++ "\tGHz\n".toList ++
  "\n".toList ++
  "\tRn:    \t\t".toList ++ fmt 6 2 (num d.dc.rn) ++ "\tohms\n".toList ++
  "\tRsg:   \t\t".toList ++ fmt 6 2 (num d.dc.rsg) ++ "\tohms\n".toList ++
  "\tQ:     \t\t".toList ++ fmt 6 2 d.q ++ "\n".toList ++
  "\n".toList ++
  "\tJc:    \t\t".toList ++ fmt 6 2 (Fl.fdiv d.jc (num 1e7)) ++ "\tkA/cm^2\n".toList ++
  "\tIleak: \t\t".toList ++ fmt 6 2 (num (d.ileak * 1e6)) ++ "\tuA\n".toList ++
  "\n".toList ++
  "\tOffset:\t\t".toList ++ fmt 6 2 (num (d.dc.offset.1 * 1e3)) ++ "\tmV\n".toList ++
  "\t       \t\t".toList ++ fmt 6 2 (num (d.dc.offset.2 * 1e6)) ++ "\tuA\n".toList ++
  "\n".toList ++
  "\tVint:  \t\t".toList ++ fmt 6 2 (num (d.dc.vint * 1e3)) ++ "\tmV\n".toList ++
  match d.ifs with
  | none => []
  | some x => "\tIF noise:\t".toList ++ fmt 6 2 (num x.2.ifNoise) ++ "\tK\n".toList

/-- `DCData.__repr__`, exp_data.py 237-241. -/
noncomputable def dcRepr (d : DCData) : List Char :=
  "DC I-V curve: Vgap = ".toList ++ fmt 0 2 (num (d.dc.vgap / 1e-3)) ++ " mV, Rn = ".toList ++ fmt 0 2 (num d.dc.rn) ++
    " ohms".toList

open Classical in
/-- One of the warnings of `dciv_curve`, iv_data.py 195-197 and 198-200. -/
noncomputable def rnWarning (on : Prop) (text : List Char) : Py (List Char) :=
  if on then do
    let a ← Term.cprint text (some "RED".toList)
    let b ← Term.cprint "         Are you sure you have the right units?\n".toList (some "RED".toList)
    return a ++ b
  else .ok []

/-- The warnings of `dciv_curve`, iv_data.py 194-200. -/
noncomputable def dcivWarnings (rn : ℝ) : Py (List Char) := do
  let a ← rnWarning (rn < 1) "\nWarning: Normal resistance is very low...".toList
  let b ← rnWarning (50 < rn) "\nWarning: Normal resistance is very high...".toList
  return a ++ b

open Classical in
/-- The warning of `_find_if_noise`, if_data.py 320-322. -/
noncomputable def shotWarning (R : Routines) (o : IfOpts) (dc : DCIV) (x y : List ℝ) : Py (List Char) := do
  let mask ← shotMask R o dc.vgap x y
  if mask.count true < 5 then do
    let a ← Term.cprint "\t\tShot noise fit failed.".toList (some "RED".toList)
    let b ← Term.cprint "\t\tSelecting all voltages above 2*Vgap.".toList (some "RED".toList)
    return a ++ b
  else return []

/-- The warning for the DC IF data, if_data.py 51-93. -/
noncomputable def dcWarning (R : Routines) (params kw : Dict) (dc : DCIV) : Option IfResp.Input → Py (List Char)
  | none => .ok []
  | some i => do
    let o ← ifOpts params kw
    let x ← loadIf R.sorter o dc i
    shotWarning R o dc x.1 x.2

/-- What `DCData(dciv, dcif, **kw)` prints, exp_data.py 139-209 and the functions called; `kw` are the merged options and `d` the
instance. The response functions print nothing: they get `verbose=False`. -/
noncomputable def dcPrint (R : Routines) (str : Val → List Char) (params kw : Dict) (d : DCData)
    (dcif : Option IfResp.Input) : Py (List Char) := do
  let w ← dcivWarnings d.dc.rn
  let s ← dcWarning R params kw d.dc dcif
  let verbose ← item kw "verbose"
  return w ++ s ++ if truth verbose then line (dcText str d) else []

/-! ## PumpedData -/

/-- The warning for the average of the hot and the cold measurement, if_data.py 141-144. -/
noncomputable def averageWarning (R : Routines) (o : IfOpts) (dc : DCIV) (hot cold : List ℝ × List ℝ) : Py (List Char) := do
  let x ← zip (fun a b => (a + b) / 2) hot.1 cold.1
  let y ← zip (fun a b => (a + b) / 2) hot.2 cold.2
  shotWarning R o dc x y

/-- Only without a calibration of the dc measurement is there a fit (and a warning), if_data.py 141-149. -/
noncomputable def ifWarning (R : Routines) (o : IfOpts) (dc : DCIV) (dcif : Option DCIF) (hot cold : List ℝ × List ℝ) :
    Py (List Char) :=
  match dcif with
  | none => averageWarning R o dc hot cold
  | some d =>
    match d.corr with
    | none => averageWarning R o dc hot cold
    | some _ => .ok []

/-- What `if_data` prints, if_data.py 131-163 and 235-239. -/
noncomputable def ifPrint (R : Routines) (o : IfOpts) (dc : DCIV) (dcif : Option DCIF) (hotData coldData : IfResp.Input)
    (verbose : Bool) (f : PumpedIf) : Py (List Char) := do
  let hot ← loadIf R.sorter o dc hotData
  let cold ← loadIf R.sorter o dc coldData
  let w ← ifWarning R o dc dcif hot cold
  return line (Term.esc :: "[95m -> Analyze IF data:".toList ++ Term.esc :: "[0m".toList) ++ w ++
    if verbose then
      line ("\t- noise temp:\t".toList ++ fmt 6 1 f.tnBest ++ " K".toList) ++
      line ("\t- gain:\t\t".toList ++ fmtS 6 2 (fmul (num 10) (flog10 f.gainBest)) ++ " dB".toList) ++
      line ("\t- IF noise:\t".toList ++ fmtS 6 2 (num f.dcif.ifNoise) ++ " K".toList)
    else []

/-- The lines printed before the data is loaded, exp_data.py 609-617. The file names are `'Numpy array'` (571-584). -/
noncomputable def importing (comment : List Char) (freq : ℝ) (withIf : Bool) : Py (List Char) := do
  let a ← Term.cprint ("Importing: ".toList ++ comment) (some "HEADER".toList)
  return a ++ line " -> Files:".toList ++ line "\tI-V file:    \tNumpy array".toList ++
    (if withIf then line "\tIF hot file: \tNumpy array".toList ++ line "\tIF cold file:\tNumpy array".toList else []) ++
    line (" -> Frequency: ".toList ++ fmt 0 1 (num freq) ++ " GHz".toList)

/-- What is printed for the embedding circuit, if there is one. -/
noncomputable def pumpedRecovery (bad : List Char) (other : Flt) (p : PumpedData) : Py (List Char) :=
  match p.zemb with
  | none => .ok []
  | some r => recovery bad other p.vph p.dc.vgap p.dc.rn r

/-- What is printed for the IF data, if it is analysed. -/
noncomputable def pumpedIfPrint (R : Routines) (params kw : Dict) (d : DCData) (verbose : Bool) (hot cold : Option IfResp.Input)
    (p : PumpedData) : Py (List Char) :=
  match p.ifs, hot, cold with
  | some f, some x, some y => do
    let o ← ifOpts params kw
    ifPrint R o p.dc (d.ifs.map Prod.snd) x y verbose f
  | _, _, _ => .ok []

/-- The lines printed first, exp_data.py 609-617. -/
noncomputable def pumpedHead (verbose withIf : Bool) (comment : List Char) (freq : ℝ) : Py (List Char) :=
  if verbose then importing comment freq withIf else .ok []

/-- What `PumpedData(ivdata, dciv, if_hot, if_cold, **kw)` prints, exp_data.py 556-678 and the functions called; `p` is the
instance. -/
noncomputable def pumpedPrint (R : Routines) (str : Val → List Char) (bad : List Char) (other : Flt) (params kw : Dict)
    (d : DCData) (hot cold : Option IfResp.Input) (p : PumpedData) : Py (List Char) := do
  let verbose ← item kw "verbose"
  let comment ← item kw "comment"
  let a ← pumpedHead (truth verbose) (hot.isSome && cold.isSome) (str comment) p.freq
  let b ← pumpedRecovery bad other p
  let c ← pumpedIfPrint R params kw d (truth verbose) hot cold p
  return a ++ b ++ c ++ if truth verbose then line [] else []

end QMix.Report
