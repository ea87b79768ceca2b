import Verif.Model.Files
import Verif.Model.Terminal
import Verif.Model.MathFn

/-!
# Model of `plot_if_spectrum` and `plot_overall_results`

`qmix/exp/exp_data.py` 1455-1833. Conventions for files as in `Verif/Model/Files.lean`, for figures as in
`Verif/Model/Figures.lean`; that an axis is logarithmic is left out. Parameters: the text forms of the frequencies and of
the IF noise (`str`), and the spline of SciPy (`UnivariateSpline`), which may raise.
-/

namespace QMix.Results

open QMix Np Fl IvData IfData Opt Exp Spec Files

/-! ## `plot_if_spectrum` -/

/-- One figure of `plot_if_spectrum` without curves. -/
noncomputable def emptySpectrum (ax : ℕ) (top : ℝ) : Drawing where
  axes := [ax]
  cmds := [.ylabel ax "Noise Temperature (K)", .xlabel ax "Frequency (GHz)", .ylim ax (some 0) (some (num 500)),
    .xlim ax (some 0) (some 20)] ++ if top = 500 then [] else [.ylim ax (some 0) (some (num top))]

/-- `os.path.join(fig_folder, name)` where `fig_folder` may be `None` (`TypeError`). -/
def joinOpt (fig : Option (List Char)) (name : List Char) : Py (List Char) :=
  match fig with
  | none => .error .type
  | some f => .ok (join f name)

/-- The four figures at the end of `plot_if_spectrum`, exp_data.py 1497-1517. -/
noncomputable def saveSpectra (cwd : List Name) (fig : Option (List Char)) (g1 g2 : ℝ → Drawing) : Op Unit := do
  let p ← lift (joinOpt fig "if_spectra.png".toList)
  save cwd p (.figure (g1 500))
  let p ← lift (joinOpt fig "if_spectra2.png".toList)
  save cwd p (.figure (g1 2000))
  let p ← lift (joinOpt fig "if_spectra_smooth.png".toList)
  save cwd p (.figure (g2 500))
  let p ← lift (joinOpt fig "if_spectra_smooth2.png".toList)
  save cwd p (.figure (g2 2000))
  return ()

/-- `plot_if_spectrum`, exp_data.py 1455-1519. `files` are the names found by `glob` and `fig` is the folder for the figures.
The body of the loop ends at `if_response(if_file)`: a name of a file is not an array, whatever the file holds. What would
come after it in the loop (curves and files of single spectra) is left out as it cannot be reached. `th`, `tc`, `maxtn` are the
defaults of `t_hot`, `t_cold` and `ifresp_maxtn`. -/
noncomputable def plotIfSpectrum (th tc maxtn : ℝ) (cwd : List Name) (files : List (List Char))
    (fig : Option (List Char)) (new : ℕ) : Op Unit := do
  match files with
  | [] => pure ()
  | _ :: _ => do
    let _ ← lift (IfResp.ifResponse .other th tc maxtn)
    throw (.py .name)
  saveSpectra cwd fig (emptySpectrum new) (emptySpectrum (new + 1))

/-! ## `plot_overall_results`: the text files -/

/-- A measurement: an instance of `PumpedData`, and `str(data.freq)`. -/
structure Entry where
  p : PumpedData
  freqText : List Char

/-- A measurement with its IF data and its embedding circuit. -/
structure Point where
  e : Entry
  f : PumpedIf
  z : Zemb.Result

/-- The loop that collects the data, exp_data.py 1559-1579. Without IF data there is no attribute `zj_if`
(`AttributeError`), without embedding circuit `data.zt * data.rn` is `None * float` (`TypeError`). -/
def gather (data : List Entry) : Py (List Point) := data.mapM fun e => do
  let f ← getOpt .attribute e.p.ifs
  let z ← getOpt .type e.p.zemb
  return ⟨e, f, z⟩

/-- A real number as a floating-point number with sign and magnitude (zero is positive). -/
noncomputable def signed (x : ℝ) : IO.Flt := ⟨decide (x < 0), |x|⟩

open Classical in
/-- `'{:w.df}'.format(x)` for a floating-point number. -/
noncomputable def fmt (w d : ℕ) (x : Flt) : List Char :=
  Term.padLeft w <| match x with
    | none => "nan".toList
    | some x => if x = ⊤ then "inf".toList else if x = ⊥ then "-inf".toList else IO.fmtFloat d (signed x.toReal)

/-- `'{:.df}'.format(z)` for a complex number. -/
noncomputable def fmtC (d : ℕ) (z : ℂ) : List Char := IO.fmtComplex d (signed z.re, signed z.im)

/-- `str(b)` for a truth value. -/
def boolText (b : Bool) : List Char := if b then "True".toList else "False".toList

/-- The recovered voltage times a factor. -/
noncomputable def scaledVt (r : Zemb.Result) (c : ℝ) : Flt := fmul (Zemb.toFlt r.vt) (num c)

/-- A line of `recovered-emb.txt`, exp_data.py 1598-1608. -/
noncomputable def embLine (d : DCData) (q : Point) : List Char :=
  let vt := fmul (scaledVt q.z d.dc.vgap) (num 1e3)
  let zt := q.z.zt * d.dc.rn
  q.e.freqText ++ '\t' :: fmt 5 2 vt ++ '\t' :: (fmt 6 2 (num zt.re) ++ " + 1j * (".toList ++ fmt 6 2 (num zt.im) ++ [')'])
    ++ '\t' :: boolText q.z.fitGood ++ ['\n']

/-- `dciv-info.txt`, exp_data.py 1611-1614. -/
noncomputable def infoText (d : DCData) : List Char :=
  "Gap voltage      \t".toList ++ fmt 6 2 (num (d.dc.vgap * 1e3)) ++ " [mV]\n".toList ++
  "Normal resistance\t".toList ++ fmt 6 2 (num d.dc.rn) ++ " [ohms]\n".toList ++
  "Gap frequency    \t".toList ++ fmt 6 2 (num (d.dc.fgap / 1e9)) ++ " [GHz]\n".toList

/-- `', '.join(words)`. -/
def commas : List (List Char) → List Char
  | [] => []
  | [w] => w
  | w :: ws => w ++ ", ".toList ++ commas ws

/-- The column names of `results.txt`, exp_data.py 1618-1629. -/
def headers : List (List Char) :=
  ["Frequency (GHz)".toList, "IV Filename".toList, "IF Filename (Hot)".toList, "IF Filename (Cold)".toList,
   "Noise Temperature (K)".toList, "Gain (dB)".toList, "Drive Level".toList, "Embedding Impedance (ohms)".toList,
   "Embedding Voltage (mV)".toList, "Embedding Circuit Recovered".toList, "IF Noise (K)".toList,
   "IF Noise Recovered".toList]

/-- The entries of a line of `results.txt`, exp_data.py 1632-1643. The names of the files are `'Numpy array'` for
all data that can be loaded (571-584). -/
noncomputable def cells (str : ℝ → List Char) (d : DCData) (q : Point) : List (List Char) :=
  [q.e.freqText, "Numpy array".toList, "Numpy array".toList, "Numpy array".toList,
   fmt 0 2 q.f.tnBest, fmt 0 2 q.f.gDb, fmt 0 2 q.z.alpha, fmtC 4 (q.z.zt * d.dc.rn),
   fmt 0 4 (fmul (scaledVt q.z d.dc.vgap) (num 1e3)), boolText q.z.fitGood, str q.f.dcif.ifNoise,
   boolText q.f.dcif.ifFit]

/-- `results.txt`, exp_data.py 1617-1645. -/
noncomputable def resultsText (str : ℝ → List Char) (d : DCData) (l : List Point) : List Char :=
  commas headers ++ '\n' :: l.flatMap fun q => commas (cells str d q) ++ ['\n']

/-- `np.vstack((a, b)).T` for two arrays: `ValueError` for different lengths. -/
def columns (a b : List ℝ) : Py Content := do
  raiseIf (a.length ≠ b.length) .value
  return .table (a.zip b)

/-- The four text files, exp_data.py 1592-1645. -/
noncomputable def texts (str : ℝ → List Char) (d : DCData) (l : List Point) : List (List Char × Py Content) :=
  [("dciv-data.txt".toList, columns d.voltage d.current),
   ("recovered-emb.txt".toList, .ok (.text (l.flatMap (embLine d)))),
   ("dciv-info.txt".toList, .ok (.text (infoText d))),
   ("results.txt".toList, .ok (.text (resultsText str d l)))]

/-! ## `plot_overall_results`: the figures -/

/-- `if f_range is not None: ax.set_xlim(...)`. -/
def rangeCmd (ax : ℕ) : Option (ℝ × ℝ) → List Cmd
  | none => []
  | some r => [.xlim ax (some r.1) (some r.2)]

/-- `ax.set_ylim(bottom=0)` or `ax.set_ylim([0, tn_max])`. -/
noncomputable def tnCmd (ax : ℕ) : Option ℝ → List Cmd
  | none => [.ylim ax (some 0) none]
  | some m => [.ylim ax (some 0) (some (num m))]

/-- The frequencies. -/
noncomputable def freqs (l : List Point) : List Flt := l.map fun q => num q.e.p.freq

/-- A smallest and a largest entry; empty arrays raise `ValueError`. -/
noncomputable def extent : List ℝ → Py (ℝ × ℝ)
  | [] => .error .value
  | x :: l => .ok (l.foldl min x, l.foldl max x)

/-- The impedance times a resistance: real and imaginary part. -/
noncomputable def zParts (z : Option ℂ) (rn : ℝ) : Flt × Flt :=
  match z with
  | none => (none, none)
  | some z => (num (z * rn).re, num (z * rn).im)

/-- exp_data.py 1649-1665. The frequency range is set and then replaced by the voltage range. -/
noncomputable def ivCurves (d : DCData) (l : List Point) (vmax imax : ℝ) (fr : Option (ℝ × ℝ)) (a : ℕ) : Py Drawing := do
  let mv := d.dc.vgap * 1e3
  let ua := d.dc.igap * 1e6
  let c0 ← draw a (.text "") (d.voltage.map (· * mv)) (d.current.map (· * ua))
  let cs ← l.mapM fun q => draw a (.text (String.ofList q.e.freqText)) (q.e.p.voltage.map (· * mv))
    (q.e.p.current.map (· * ua))
  return { axes := [a]
           cmds := c0 :: cs ++ rangeCmd a fr ++ [.xlabel a "Voltage (mV)", .ylabel a "Current (uA)",
             .xlim a (some 0) (some vmax), .ylim a (some 0) (some (num imax)), .title a [.text "LO (GHz)"]] }

/-- A figure with one line over the frequency; `post` are the commands that follow the labels. -/
noncomputable def lineFig (l : List Point) (ys : List Flt) (yl : String) (pre post : List Cmd) (a : ℕ) : Py Drawing := do
  let c ← drawF a (.text "") (freqs l) ys
  return { axes := [a], cmds := c :: pre ++ [.xlabel a "Frequency (GHz)", .ylabel a yl] ++ post }

/-- exp_data.py 1698-1717. -/
noncomputable def splineFig (spline : List ℝ → List Flt → Py (List ℝ → List Flt)) (l : List Point) (fr : Option (ℝ × ℝ))
    (tnMax : Option ℝ) (a : ℕ) : Py Drawing := do
  let fs := l.map fun q => q.e.p.freq
  let tn := l.map fun q => q.f.tnBest
  let r ← extent fs
  let t ← linspace r.1 r.2 1001
  let sp ← spline fs tn
  let c1 ← drawF a (.text "") (freqs l) tn
  let c2 ← drawF a (.text "") (t.map num) (sp t)
  return { axes := [a]
           cmds := [c1, c2, .xlabel a "Frequency (GHz)", .ylabel a "Noise Temperature (K)"] ++ rangeCmd a fr ++
             tnCmd a tnMax }

/-- exp_data.py 1730-1752. -/
noncomputable def gainFig (l : List Point) (fr : Option (ℝ × ℝ)) (tnMax : Option ℝ) (a : ℕ) : Py Drawing := do
  let c1 ← drawF a (.text "") (freqs l) (l.map fun q => q.f.tnBest)
  let c2 ← drawF (a + 1) (.text "") (freqs l) (l.map fun q => q.f.gDb)
  return { axes := [a, a + 1]
           cmds := c1 :: [.xlabel a "Frequency (GHz)", .ylabel a "Noise Temperature (K)"] ++ rangeCmd a fr ++
             tnCmd a tnMax ++ [c2, .ylabel (a + 1) "Gain (dB)"] }

/-- exp_data.py 1767-1795 and 1816-1831: real and imaginary part over the frequency. -/
noncomputable def zFig (l : List Point) (z : Point → Flt × Flt) (n1 n2 yl : String) (fr : Option (ℝ × ℝ)) (a : ℕ) :
    Py Drawing := do
  let c1 ← drawF a (.text n1) (freqs l) (l.map fun q => (z q).1)
  let c2 ← drawF a (.text n2) (freqs l) (l.map fun q => (z q).2)
  return { axes := [a]
           cmds := [c1, c2] ++ rangeCmd a fr ++ [.xlabel a "Frequency (GHz)", .ylabel a yl] }

/-- The twelve figures in the order in which they are made, exp_data.py 1647-1831. -/
noncomputable def figures (spline : List ℝ → List Flt → Py (List ℝ → List Flt)) (d : DCData) (l : List Point)
    (vmax imax : ℝ) (tnMax : Option ℝ) (fr : Option (ℝ × ℝ)) (a : ℕ) : List (List Char × Py Drawing) :=
  let good := l.filter fun q => q.z.fitGood
  let noisy := l.filter fun q => q.f.dcif.ifFit
  let tn := l.map fun q => q.f.tnBest
  let zt := fun q : Point => zParts (some q.z.zt) q.e.p.dc.rn
  [("iv_curves.png".toList, ivCurves d l vmax imax fr a),
   ("rdyn.png".toList, lineFig l (l.map fun q => q.f.zjIf) "Dynamic resistance ($\\Omega$)" (rangeCmd a fr)
      [.ylim a (some 0) none] a),
   ("noise_temperature.png".toList, lineFig l tn "Noise Temperature (K)" [] (rangeCmd a fr ++ tnCmd a tnMax) a),
   ("noise_temperature_spline_fit.png".toList, splineFig spline l fr tnMax a),
   ("noise_temperature_logy.png".toList, lineFig l tn "Noise Temperature (K)" [] (rangeCmd a fr) a),
   ("noise_temperature_and_gain.png".toList, gainFig l fr tnMax a),
   ("if_noise.png".toList, lineFig noisy (noisy.map fun q => num q.f.dcif.ifNoise) "IF Noise Contribution (K)"
      (rangeCmd a fr) [.ylim a (some 0) none] a),
   ("embedding_impedance.png".toList, zFig good zt "Real" "Imaginary" "Embedding Impedance ($\\Omega$)" fr a),
   ("embedding_impedance_all.png".toList, zFig l zt "Real" "Imaginary" "Embedding Impedance ($\\Omega$)" fr a),
   ("embedding_voltage.png".toList, lineFig good (good.map fun q => fmul (scaledVt q.z q.e.p.dc.vgap) (num 1e3))
      "Embedding Voltage (mV)" (rangeCmd a fr) [.ylim a (some 0) none] a),
   ("drive_level.png".toList, lineFig l (l.map fun q => q.z.alpha) "Drive Level, $\\alpha$" (rangeCmd a fr)
      [.ylim a (some 0) (some (num 1.2))] a),
   ("junction_impedance.png".toList, zFig l (fun q => zParts q.z.zw d.dc.rn) "Re$\\{Z_J\\}$" "Im$\\{Z_J\\}$"
      "Junction Impedance ($\\Omega$)" fr a)]

/-- Compute and write one file after the other. -/
noncomputable def writeAll (cwd : List Name) (folder : List Char) (l : List (List Char × Py Content)) : Op Unit :=
  l.forM fun x => do
    let c ← lift x.2
    save cwd (join folder x.1) c

/-- `plot_overall_results`, exp_data.py 1522-1833; `new` is a number for the axes of each of the figures (every figure is a new
one and is closed after it has been saved). The two folders of `_file_structure` are always found. -/
noncomputable def plotOverall (spline : List ℝ → List Flt → Py (List ℝ → List Flt)) (str : ℝ → List Char)
    (cwd : List Name) (d : DCData) (data : List Entry) (fig : List Char) (vmax : ℝ) (tnMax : Option ℝ)
    (fr : Option (ℝ × ℝ)) (new : ℕ) : Op Unit := do
  structure_.forM fun k => ensure cwd (join fig k.2)
  let csv ← lift (folderAt defaultFolders "CSV data")
  let all ← lift (folderAt defaultFolders "Overall performance")
  let l ← lift (gather data)
  let imax ← lift (interpVal vmax (d.voltage.map (· * (d.dc.vgap * 1e3))) (d.current.map (· * (d.dc.igap * 1e6))))
  writeAll cwd (join fig csv) (texts str d l)
  writeAll cwd (join fig all) ((figures spline d l vmax imax tnMax fr new).map fun x => (x.1, x.2.map .figure))

end QMix.Results
