import Verif.Model.QtCurrent
import Verif.Model.Report

/-!
# What `qtcurrent` prints

`qmix/qtcurrent.py` 97-101, 133-135 and 192-194. What is printed is a list of characters; the duration that the clock measures is a
parameter.
-/

namespace QMix.QtPrint

open QMix Np Fl Qt

/-- What has been printed, and the result or the exception of a call. -/
abbrev Said (α : Type) := List Char × Py α

/-- First the one, then, unless it raised an exception, the other. -/
def Said.bind {α β : Type} (x : Said α) (f : α → Said β) : Said β :=
  match x.2 with
  | .error e => (x.1, .error e)
  | .ok a => (x.1 ++ (f a).1, (f a).2)

/-- A step that prints nothing. -/
def quiet {α : Type} (x : Py α) : Said α := ([], x)

/-- A step that prints if `verbose` is set. -/
def tell (verbose : Bool) (t : List Char) : Said Unit := (if verbose then t else [], .ok ())

/-- `interpolate_respfn`, `qmix/qtcurrent.py:164-196`, with the message of lines 193-194. -/
noncomputable def interpolateRespfn {ι : Type} (cct : Cct ι) (resp : ℝ → ℂ) (nb : NumB) : Said (RespMat ι) :=
  match unpackNumB nb cct.numF with
  | .error e => ([], .error e)
  | .ok _ =>
    if cct.numF = 1 ∨ cct.numF = 2 ∨ cct.numF = 3 ∨ cct.numF = 4 then quiet (Qt.interpolateRespfn cct resp nb)
    else (Report.line "num_f must be 1, 2, 3 or 4!".toList, .error .value)

/-- The matrix that is used, `qmix/qtcurrent.py:109-113`. -/
noncomputable def matrix {ι : Type} (cct : Cct ι) (resp : ℝ → ℂ) (nb : NumB) : Option (RespMat ι) → Said (RespMat ι)
  | none => interpolateRespfn cct resp nb
  | some m => quiet (if m.ndim = cct.numF + 1 then .ok m else .error .assertion)

open Classical in
/-- `qtcurrent` for a list of frequencies, `qmix/qtcurrent.py:37-139`, with what it prints. -/
noncomputable def qtcurrentList {ι : Type} (verbose : Bool) (time : ℝ) (vj : ℕ → ℕ → Arr ι) (cct : Cct ι) (resp : ℝ → ℂ)
    (freqList : List ℝ) (nb : NumB) (respMat : Option (RespMat ι)) : Said (List (Arr ι)) :=
  (quiet (if freqPos cct.numF cct.freq then .ok () else .error .assertion)).bind fun _ =>
  (quiet (unpackNumB nb cct.numF)).bind fun nbl =>
  (tell verbose (Report.line "Calculating tunneling current...".toList ++
    Report.line (" - ".toList ++ IO.natChars cct.numF ++ " tone(s)".toList) ++
    Report.line (" - ".toList ++ IO.natChars cct.numP ++ " harmonic(s)".toList))).bind fun _ =>
  (quiet (phaseFactorCoeff vj cct.freq cct.numF cct.numP nb)).bind fun ccc =>
  (matrix cct resp nb respMat).bind fun r =>
  (quiet ((freqList.map round4).mapM (currentAt cct.numF cct.numP cct.freq ccc r nbl))).bind fun rows =>
  (tell verbose (Report.line "Done.".toList ++
    Report.line ("Time: ".toList ++ Results.fmt 0 4 (num time) ++ " s\n".toList))).bind fun _ =>
  quiet (.ok rows)

/-- `qtcurrent` for a scalar frequency, `qmix/qtcurrent.py:84-86, 140-144`. -/
noncomputable def qtcurrentScalar {ι : Type} (verbose : Bool) (time : ℝ) (vj : ℕ → ℕ → Arr ι) (cct : Cct ι) (resp : ℝ → ℂ)
    (f : ℝ) (nb : NumB) (respMat : Option (RespMat ι)) : Said (Arr ι) :=
  (qtcurrentList verbose time vj cct resp [f] nb respMat).bind fun rows =>
  (quiet (pyGet rows 0)).bind fun row => quiet (.ok (if round4 f = 0 then fun i => ((row i).re : ℂ) else row))

end QMix.QtPrint
