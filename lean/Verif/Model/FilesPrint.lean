import Verif.Model.Results
import Verif.Model.Report

/-!
# What the functions that write files print

`initialize_dir`, `plot_if_spectrum` and `plot_overall_results` of `qmix/exp/exp_data.py` once more, with the text that
has been printed when they return or raise.
-/

namespace QMix.Files

open QMix Spec Exp Opt Results

/-- An operation on the disk that also prints. -/
def Talk (α : Type) : Type := Disk Content → (Except Err α × Disk Content) × List Char

instance : Monad Talk where
  pure a := fun s => ((.ok a, s), [])
  bind m f := fun s =>
    match m s with
    | ((.ok a, s'), t) => ((f a s').1, t ++ (f a s').2)
    | ((.error e, s'), t) => ((.error e, s'), t)

/-- `print(text)`. -/
def tell (text : List Char) : Talk Unit := fun s => ((.ok (), s), Report.line text)

/-- `cprint(text, color)`. -/
def tellC (text color : List Char) : Talk Unit := fun s =>
  match Term.cprint text (some color) with
  | .ok t => ((.ok (), s), t)
  | .error e => ((.error (.py e), s), [])

/-- Operations that print nothing. -/
def quiet {α : Type} (m : Op α) : Talk α := fun s => (m s, [])

/-- One pass of the loop in `initialize_dir`, exp_data.py 1950-1953. -/
noncomputable def createSay (cwd : List Name) (fig folder : List Char) : Talk Unit := do
  let e ← quiet (pathExists cwd (fig ++ folder))
  if e then pure ()
  else do
    quiet (makedirs cwd (fig ++ folder))
    tell ("   - Created: ".toList ++ folder)

/-- `initialize_dir`, exp_data.py 1937-1954. -/
noncomputable def initializeDirSay (cwd : List Name) (fig : List Char) : Talk Unit := do
  ([] :: structure_.map Prod.snd).forM fun folder => createSay cwd fig folder
  tell " ".toList

/-- `os.path.basename(p)`. -/
def basename (p : List Char) : List Char := (p.reverse.takeWhile (· ≠ '/')).reverse

/-- `plot_if_spectrum`, exp_data.py 1455-1519; see `plotIfSpectrum`. `filename[:-4]` is `take (length - 4)`. -/
noncomputable def plotIfSpectrumSay (th tc maxtn : ℝ) (cwd : List Name) (files : List (List Char))
    (fig : Option (List Char)) (new : ℕ) : Talk Unit := do
  tellC "\nImporting and plotting IF data:".toList "HEADER".toList
  match files with
  | [] => pure ()
  | f :: _ => do
    let filename := (basename f).take ((basename f).length - 4)
    tell (" - ".toList ++ filename)
    let _ ← quiet (lift (IfResp.ifResponse .other th tc maxtn))
    quiet (throw (.py .name))
  quiet (saveSpectra cwd fig (emptySpectrum new) (emptySpectrum (new + 1)))
  tell []

/-- `plot_overall_results`, exp_data.py 1522-1833; see `plotOverall`. -/
noncomputable def plotOverallSay (spline : List ℝ → List Fl.Flt → Py (List ℝ → List Fl.Flt)) (str : ℝ → List Char)
    (cwd : List Name) (d : DCData) (data : List Entry) (fig : List Char) (vmax : ℝ) (tnMax : Option ℝ)
    (fr : Option (ℝ × ℝ)) (new : ℕ) : Talk Unit := do
  tellC "\nPlotting results.".toList "HEADER".toList
  quiet (plotOverall spline str cwd d data fig vmax tnMax fr new)
  tell " -> Done\n".toList

end QMix.Files
