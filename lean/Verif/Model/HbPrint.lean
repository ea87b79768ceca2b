import Verif.Model.HarmonicBalance
import Verif.Model.Report

/-!
# What harmonic balance prints

`qmix/harmonic_balance.py` 70-71, 86-88, 119-123, 135-145, 152, 167-193, 331-357, 198-199, 213-220 and `check_hb_error`, 258-278. What is
printed is a list of characters. The readings of the clock are parameters, and so is the text of a float (`str`). For
`harmonic_balance` only calls that return are followed; the text of the progress bar is put after the calculation whose progress it
shows. The warning that NumPy issues for `0/0` is not modelled (it is not part of the standard output).
-/

namespace QMix.HbPrint

open QMix Np Fl HB Qt

/-- The text is printed if `verbose` is set. -/
def say (verbose : Bool) (t : Py (List Char)) : Py (List Char) := if verbose then t else .ok []

/-- `str(n)` for an integer. -/
def intChars (n : ℤ) : List Char := if n < 0 then '-' :: IO.natChars n.natAbs else IO.natChars n.natAbs

/-- A relative error as a float. -/
noncomputable def toFlt : Rel → Flt
  | .nan => none
  | .fin x => num x
  | .inf => some ⊤

open Classical in
/-- `np.median` of a non-empty array: NaN if there is a NaN in it. -/
noncomputable def npMedian (l : List Flt) : Flt :=
  if none ∈ l then none
  else
    let s := (l.filterMap id).mergeSort fun a b => decide (a ≤ b)
    some ((s.getD ((s.length - 1) / 2) 0 + s.getD (s.length / 2) 0) / 2)

open Classical in
/-- The limit for the display, `qmix/harmonic_balance.py:171-179`. -/
noncomputable def clip (x : Flt) : Flt := if flt (num 99999.999) x then num 99999.999 else x

/-- `'{:7.2f} s / {:6.2f} min / {:5.2f} hrs'`, for example `qmix/harmonic_balance.py:138-139`. -/
noncomputable def timeText (t : ℝ) : List Char :=
  Results.fmt 7 2 (num t) ++ " s / ".toList ++ Results.fmt 6 2 (num (t / 60)) ++ " min / ".toList ++
    Results.fmt 5 2 (num (t / 3600)) ++ " hrs".toList

/-- The readings of the clock: the duration of the first evaluation of the current, and of the whole call. -/
structure Clock where
  call : ℝ
  total : ℝ

/-- `qmix/harmonic_balance.py:119-123`. -/
def headText (numF numP : ℕ) (maxIt : ℤ) : List Char :=
  Report.line (" - ".toList ++ IO.natChars numF ++ " tone(s) and ".toList ++ IO.natChars numP ++ " harmonic(s)".toList) ++
  Report.line (" - ".toList ++ IO.natChars (numF * numP * 2 + 1) ++
    " calls to the quasiparticle tunneling current (qtc) function per iteration".toList) ++
  Report.line (" - max. iterations: ".toList ++ intChars maxIt)

/-- `qmix/harmonic_balance.py:135-145`. -/
noncomputable def estimate (n : ℕ) (maxIt : ℤ) (call : ℝ) : List Char :=
  Report.line "Estimated time:".toList ++
  Report.line (" - time per qtc call:  ".toList ++ timeText call) ++
  Report.line (" - time per iteration: ".toList ++ timeText (call * ((n * 2 + 1 : ℕ) : ℝ))) ++
  Report.line (" - max sim time:       ".toList ++ timeText (call * ((n * 2 + 1 : ℕ) : ℝ) * maxIt))

open Classical in
/-- The line of one signal, `qmix/harmonic_balance.py:153, 158-181`. -/
noncomputable def signalText {N : ℕ} (numP : ℕ) (stop : ℝ) (rel : Fin N → Rel) (k : ℕ) : Py (List Char) := do
  let m ← npMax (List.ofFn rel)
  let fp ← kToFp k numP
  let complete : ℝ := ((Finset.univ.filter fun i => (rel i).lt (.fin stop)).card : ℝ) / N
  pure <| "\tf:".toList ++ IO.natChars ⌊fp.1⌋₊ ++ ", p:".toList ++ IO.natChars fp.2 ++
    ",   med. rel. error: ".toList ++ Results.fmt 9 3 (clip (npMedian ((List.ofFn rel).map toFlt))) ++
    ",   max. rel. error: ".toList ++ Results.fmt 9 3 (clip (toFlt m)) ++
    ",   ".toList ++ Results.fmt 5 1 (num (complete * 100)) ++ " % complete".toList

/-- The report of one iteration, `qmix/harmonic_balance.py:151-181`. -/
noncomputable def reportText {n N : ℕ} (numP : ℕ) (stop : ℝ) (rel : Fin n → Fin N → Rel) (it : ℕ) : Py (List Char) :=
  pyFor (List.finRange n) (Report.line ("Error after ".toList ++ IO.natChars it ++ " iteration(s):".toList)) fun out k => do
    let t ← signalText numP stop (rel k) k
    pure (out ++ Report.line t)

/-- What is printed while the voltages are updated, `qmix/harmonic_balance.py:331-357, 198-199`. -/
noncomputable def updateText (str : ℝ → List Char) (n : ℕ) : Py (List Char) := do
  let bars ← pyFor (List.range (n + 1)) [] fun out (q : ℕ) => do
    let t ← Term.progressBar str q n "Calculating inverse Jacobian".toList "Complete".toList 2 20
    pure (out ++ t)
  pure (bars ++ Report.line "Applying correction".toList)

open Classical in
/-- The `for` loop with its text, `qmix/harmonic_balance.py:131-207`; see `HB.loop`. -/
noncomputable def loop {S E : Type} {n N : ℕ} (verbose : Bool) (numP : ℕ) (str : ℝ → List Char) (call : ℝ) (ev : S → Py E)
    (rel : S → E → Fin n → Fin N → Rel) (upd : S → E → Py S) (stop : ℝ) (maxIt : ℤ) :
    ℕ → ℕ → Stopped S N → Py (Stopped S N × List Char)
  | 0, _, st => .ok (st, [])
  | left + 1, it, st => do
    let e ← ev st.vj
    let a ← say (verbose && it == 0) (.ok (estimate n maxIt call))
    let r ← signalLoop stop (rel st.vj e)
    let b ← say verbose (reportText numP stop (rel st.vj e) it)
    let st := { st with iteration := it, mask := some r.2, evals := st.evals + 1 }
    if r.1.le (.fin stop) then do
      let c ← say verbose (.ok (Report.line "Done: Minimum error target was achieved.".toList))
      pure ({ st with exit := .target }, a ++ b ++ c)
    else if (Rel.fin stop).lt r.1 ∧ (it : ℤ) = maxIt then
      pure ({ st with exit := .limit }, a ++ b ++ Report.line "*** DID NOT ACHIEVE TARGET ERROR VALUE ***\n".toList)
    else do
      let vj ← upd st.vj e
      let c ← say verbose (updateText str n)
      let x ← loop verbose numP str call ev rel upd stop maxIt left (it + 1)
        { st with vj := vj, updates := st.updates + 1 }
      pure (x.1, a ++ b ++ c ++ x.2)

/-- The last lines, `qmix/harmonic_balance.py:213-220`. -/
noncomputable def tailText (it : ℕ) (total : ℝ) : List Char :=
  Report.line (" - sim time:\t\t".toList ++ timeText total) ++
  if 1 ≤ it then
    Report.line (" - ".toList ++ IO.natChars it ++ " iterations required".toList) ++
    Report.line (" - time per iteration:\t".toList ++ timeText (total / it))
  else []

open Classical in
/-- `harmonic_balance` with what it prints, `qmix/harmonic_balance.py:39-228`; see `HB.harmonicBalance`. -/
noncomputable def harmonicBalance {N : ℕ} (verbose : Bool) (str : ℝ → List Char) (clock : Clock) (cct : HCct N) (resp : ℝ → ℂ)
    (nb : NumB) (maxIt : ℤ) (stop : ℝ) (vjInit : Option (ℕ → ℕ → Arr (Fin N))) (damp : ℝ) (mode : Mode) (zj : ℂ) :
    Py (Run N (cct.numF * cct.numP) × List Char) := do
  let a ← say verbose (.ok (Report.line "Running harmonic balance:".toList))
  if ztZero cct then do
    let b ← say verbose (.ok (Report.line "Done.\n".toList))
    pure ({ res := .vj fun f p _ => cct.vt f p, cct := cct, vjInit := vjInit, stopped := none }, a ++ b)
  else do
    let start ← startVj cct vjInit zj
    let b ← say verbose (.ok (headText cct.numF cct.numP maxIt))
    let m ← interpolateRespfn cct.toCct resp nb
    let vt := to1d cct.numF cct.numP (clampVt cct.vt)
    let zt := to1d cct.numF cct.numP cct.zt
    let cur := currentForHb cct resp nb m
    let s ← loop verbose cct.numP str clock.call cur (relErr vt zt) (update cur vt zt damp) stop maxIt (maxIt + 1).toNat 0
      { vj := to2d cct.numF cct.numP start, iteration := 0, exit := .exhausted, mask := none, evals := 0, updates := 0 }
    let c ← say verbose (.ok (tailText s.1.iteration clock.total))
    let res ← result cct.numF cct.numP mode maxIt s.1
    pure
      ({ res := res, cct := cct.clamp,
         vjInit := vjInit.map fun v => writeBack cct.numF cct.numP v s.1.vj, stopped := some s.1 }, a ++ b ++ s.2 ++ c)

/-! ## `check_hb_error` -/

/-- Text printed so far, and the exception that ended the call. -/
abbrev Told := List Char × Option PyErr

open Classical in
/-- The loop over the signals, `qmix/harmonic_balance.py:263-277`, with `sci` the format `'{:.2E}'`. The two nested loops are one list
of signals here. -/
noncomputable def checkSignals {N : ℕ} (sci : Flt → List Char) (stop : ℝ) (rel : ℕ → ℕ → Fin N → Rel) :
    List (ℕ × ℕ) → Told
  | [] => ([], none)
  | (f, p) :: l =>
    match npMax (List.ofFn (rel f p)) with
    | .error e => ([], some e)
    | .ok m =>
      let good : Prop := m.lt (.fin stop)
      let t := Report.line ("\tf:".toList ++ IO.natChars f ++ ",\tp:".toList ++ IO.natChars p ++ ",\tmax rel. error: ".toList ++
        sci (toFlt m) ++ ",\tPass? ".toList ++ if good then "Yes".toList else "No".toList)
      if good then
        let r := checkSignals sci stop rel l
        (t ++ r.1, r.2)
      else (t, some .assertion)

/-- `for f in range(1, num_f + 1): for p in range(1, num_p + 1)`. -/
def signals (numF numP : ℕ) : List (ℕ × ℕ) :=
  (List.range numF).flatMap fun f => (List.range numP).map fun p => (f + 1, p + 1)

/-- `check_hb_error`, `qmix/harmonic_balance.py:237-278`: what it prints, and the exception it raises. -/
noncomputable def checkHbError {N : ℕ} (sci : Flt → List Char) (vj : ℕ → ℕ → Arr (Fin N)) (cct : HCct N) (resp : ℝ → ℂ)
    (nb : NumB) (stop : ℝ) : Told :=
  let head := Report.line "Double-checking harmonic balance error:".toList
  let cur : Py (Sig (cct.numF * cct.numP) N) := do
    let rows ← qtcurrentList vj cct.toCct resp (allFreqs cct) nb none
    rowsToSig rows
  match cur with
  | .error e => (head, some e)
  | .ok ij =>
    let ijAll := to3d cct.numF cct.numP ij
    let r := checkSignals sci stop (fun f p i => relDiv ‖cct.vt f p - cct.zt f p * ijAll f p i - vj f p i‖ ‖vj f p i‖)
      (signals cct.numF cct.numP)
    (head ++ r.1 ++ if r.2 = none then Report.line [] else [], r.2)

end QMix.HbPrint
