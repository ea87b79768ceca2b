import Verif.Model.Figures
import Verif.Spec.Files

/-!
# Model of the parts of `qmix/exp/exp_data.py` that write files

A call may write some files and then raise, so an operation maps a disk to a result and a disk.
`savefig` and `open(..., 'w')` store their content under the name they are given. What the functions print is
in `Verif.Model.FilesPrint`. Not modelled: permissions, links, the name `..`, a full disk.
-/

namespace QMix.Files

open QMix Np Fl IvData IfData Opt Exp Spec

/-- Exceptions: those of the other models, and those of the operating system. -/
inductive Err
  | py (e : PyErr)
  /-- `FileNotFoundError` -/
  | noEntry
  /-- `FileExistsError` -/
  | exists_
  /-- `NotADirectoryError` -/
  | notDir
  /-- `IsADirectoryError` -/
  | isDir
  deriving DecidableEq

/-- The content of a file. -/
inductive Content
  /-- a figure -/
  | figure (d : Drawing)
  /-- a table of numbers, `np.savetxt` -/
  | table (rows : List (ℝ × ℝ))
  /-- text -/
  | text (s : List Char)
  /-- anything else -/
  | other (n : ℕ)

/-- An operation. -/
def Op (α : Type) : Type := Disk Content → Except Err α × Disk Content

instance : Monad Op where
  pure a := fun s => (.ok a, s)
  bind m f := fun s =>
    match m s with
    | (.ok a, s') => f a s'
    | (.error e, s') => (.error e, s')

/-- An exception. -/
def throw {α : Type} (e : Err) : Op α := fun s => (.error e, s)

/-- A computation that does not touch the disk. -/
def lift {α : Type} (x : Py α) : Op α := fun s =>
  match x with
  | .ok a => (.ok a, s)
  | .error e => (.error (.py e), s)

/-- `os.path.join(a, b)` (POSIX). -/
def join (a b : List Char) : List Char :=
  if b.head? = some '/' then b
  else if a = [] ∨ a.getLast? = some '/' then a ++ b
  else a ++ '/' :: b

open Classical in
/-- `os.path.exists(p)`. -/
noncomputable def pathExists (cwd : List Name) (p : List Char) : Op Bool := fun s =>
  (.ok (decide (p ≠ [] ∧ (s.dir (place cwd p) ∨ (s.file (place cwd p) ≠ none ∧ p.getLast? ≠ some '/')))), s)

open Classical in
/-- `os.makedirs(p)`: creates the directory and all that lead to it. (Python does so from the top; the
directories created before an error are the same as here: none, as an error can only come from a file
on the way or from the last directory.) -/
noncomputable def makedirs (cwd : List Name) (p : List Char) : Op Unit := fun s =>
  if p = [] then (.error .noEntry, s)
  else if s.dir (place cwd p) ∨ s.file (place cwd p) ≠ none then (.error .exists_, s)
  else if ¬ s.Free (place cwd p) then (.error .notDir, s)
  else (.ok (), { s with dir := fun l => s.dir l ∨ l <+: place cwd p })

open Classical in
/-- Write a file, replacing what was there. -/
noncomputable def save (cwd : List Name) (p : List Char) (c : Content) : Op Unit := fun s =>
  if p = [] then (.error .noEntry, s)
  else if p.getLast? = some '/' ∨ s.dir (place cwd p) then (.error .isDir, s)
  else if ¬ s.Free (place cwd p).dropLast then (.error .notDir, s)
  else if ¬ s.dir (place cwd p).dropLast then (.error .noEntry, s)
  else (.ok (), { s with file := fun l => if l = place cwd p then some c else s.file l })

/-- `if not os.path.exists(p): os.makedirs(p)`. -/
noncomputable def ensure (cwd : List Name) (p : List Char) : Op Unit := do
  let e ← pathExists cwd p
  if e then pure () else makedirs cwd p

/-- `_file_structure`, exp_data.py 60-69. -/
def structure_ : List (String × List Char) :=
  [("DC IV curve", "dciv/".toList), ("Pumped IV curve", "iv-curves/".toList), ("IV + IF", "iv-if/".toList),
   ("Impedance recovery", "impedance/".toList), ("Impedance recovery (sim)", "impedance-sim/".toList),
   ("IF noise", "if-noise/".toList), ("Noise temperature", "noise-temp/".toList),
   ("IF spectrum", "if-spectrum/".toList), ("Overall performance", "overall-results/".toList),
   ("CSV data", "csv/".toList)]

/-- A dictionary of folders. -/
abbrev Folders := String → Option (List Char)

/-- `folders[key]`. -/
def folderAt (f : Folders) (key : String) : Py (List Char) := getOpt .key (f key)

/-- The default folders. -/
def defaultFolders : Folders := fun k => structure_.lookup k

/-- `initialize_dir`, exp_data.py 1937-1954. The folders are appended to the text `fig`, without a slash. -/
noncomputable def initializeDir (cwd : List Name) (fig : List Char) : Op Unit :=
  ([] :: structure_.map Prod.snd).forM fun folder => ensure cwd (fig ++ folder)

/-- `DCData.plot_all`, exp_data.py 450-486; of the keywords only `vmax_plot`. -/
noncomputable def plotAllDc (R : Routines) (cwd : List Name) (d : DCData) (vmax : ℝ) (fig : List Char)
    (sub : Option (List Char)) (new : ℕ) : Op Unit := do
  let sub ← match sub with
    | none => lift (folderAt defaultFolders "DC IV curve")
    | some s => pure s
  let folder := join fig sub
  ensure cwd folder
  let fig1 := join folder "dciv.png".toList
  let fig2 := join folder "dcif.png".toList
  let g ← lift (plotDciv R d vmax new none)
  save cwd fig1 (.figure g)
  let g ← lift (plotIfNoise d new none)
  match g with
  | some g => save cwd fig2 (.figure g)
  | none => pure ()

/-- The argument `file_struc`. -/
inductive Struc
  /-- `None` -/
  | default
  /-- the empty string -/
  | flat
  /-- a dictionary -/
  | dict (f : Folders)
  /-- anything else -/
  | other

/-- The five folders of `PumpedData.plot_all`, exp_data.py 1397-1416. -/
def pumpedFolders : Struc → Py (List (List Char))
  | .default => folders defaultFolders
  | .flat => .ok [[], [], [], [], []]
  | .dict f => folders f
  | .other => .error .value
where
  folders (f : Folders) : Py (List (List Char)) := do
    let iv ← folderAt f "Pumped IV curve"
    let if_ ← folderAt f "IV + IF"
    let zr ← folderAt f "Impedance recovery"
    let zs ← folderAt f "Impedance recovery (sim)"
    let tn ← folderAt f "Noise temperature"
    return [iv, if_, zr, zs, tn]

/-- `PumpedData.plot_all`, exp_data.py 1374-1450; of the keywords only `vmax_plot`. `freq` is
`str(self.freq)`, `params` and `kw` are the options used when the data were loaded. -/
noncomputable def plotAllPumped (params kw : Dict) (cwd : List Name) (p : PumpedData) (d : DCData)
    (freq : List Char) (vmax : ℝ) (fig : List Char) (struc : Struc) (new : ℕ) : Op Unit := do
  let f ← lift (pumpedFolders struc)
  let iv := join fig (f.getD 0 [])
  let if_ := join fig (f.getD 1 [])
  let zr := join fig (f.getD 2 [])
  let zs := join fig (f.getD 3 [])
  let tn := join fig (f.getD 4 [])
  ensure cwd iv
  ensure cwd if_
  ensure cwd zr
  ensure cwd zs
  ensure cwd tn
  let fig1 := join iv (freq ++ "-iv.png".toList)
  let fig2 := join if_ (freq ++ "-iv-if.png".toList)
  let fig3 := join zr (freq ++ "-err-surf.png".toList)
  let fig4 := join zs (freq ++ "-sim.png".toList)
  let fig5 := join tn (freq ++ "-tn.png".toList)
  let g ← lift (plotIv p d vmax new none)
  save cwd fig1 (.figure g)
  let g ← lift (plotIvif p d vmax new none)
  save cwd fig2 (.figure g)
  let g ← lift (plotNoiseTemp p vmax new none)
  save cwd fig5 (.figure g)
  if p.zemb.isSome then
    let g ← lift (plotErrorSurface params kw p new none)
    save cwd fig3 (.figure g)
    let g ← lift (plotSimulated params kw p d vmax new none)
    save cwd fig4 (.figure g)

end QMix.Files
