import Verif.Model.QtCurrent
import Mathlib.LinearAlgebra.Matrix.NonsingularInverse

/-!
# Model of `qmix/harmonic_balance.py`

Arithmetic is exact. The only non-finite numbers of the procedure that steer its control flow are
the relative errors, where a division by `|vj| = 0` gives an infinity or a NaN; these are modelled by
the type `Rel`. What is printed is in `Verif/Model/HbPrint.lean`.
-/

namespace QMix.HB

open Complex QMix.Qt

/-! ## Relative errors with IEEE special values -/

/-- A non-negative floating point number: NaN, a finite value or `inf`. -/
inductive Rel
  | nan
  | fin (x : ℝ)
  | inf

/-- IEEE `<`: false as soon as a NaN is involved. -/
def Rel.lt : Rel → Rel → Prop
  | .fin x, .fin y => x < y
  | .fin _, .inf => True
  | _, _ => False

/-- IEEE `<=`: false as soon as a NaN is involved. -/
def Rel.le : Rel → Rel → Prop
  | .fin x, .fin y => x ≤ y
  | .fin _, .inf => True
  | .inf, .inf => True
  | _, _ => False

open Classical in
/-- `a / b` for non-negative floats: `0/0` is NaN, `a/0` is `inf`. -/
noncomputable def relDiv (a b : ℝ) : Rel :=
  if b = 0 then if a = 0 then .nan else .inf else .fin (a / b)

open Classical in
/-- `np.maximum` of two floats: NaN if either is NaN. -/
noncomputable def npMax2 : Rel → Rel → Rel
  | .nan, _ => .nan
  | _, .nan => .nan
  | a, b => if a.lt b then b else a

/-- `np.max` of a 1-D array: NaN if there is a NaN in it, `ValueError` if it is empty. -/
noncomputable def npMax : List Rel → Py Rel
  | [] => .error .value
  | x :: l => .ok (l.foldl npMax2 x)

open Classical in
/-- Python's `max(a, b)`: `b` if `b > a`, otherwise `a` (also if one of them is NaN). -/
noncomputable def pyMax2 (a b : Rel) : Rel := if a.lt b then b else a

/-! ## Shapes -/

/-- `a[1:, 1:, :].reshape((num_n, npts))`, `qmix/harmonic_balance.py:115`: C order, so signal `k` is
tone `k // num_p + 1`, harmonic `k % num_p + 1`. -/
def to2d {ι : Type} (numF numP : ℕ) (a : ℕ → ℕ → Arr ι) : Fin (numF * numP) → Arr ι :=
  fun k => a (k / numP + 1) (k % numP + 1)

/-- The same for the arrays `vt`, `zt` without bias axis, `qmix/harmonic_balance.py:116-117`. -/
def to1d (numF numP : ℕ) (a : ℕ → ℕ → ℂ) : Fin (numF * numP) → ℂ :=
  fun k => a (k / numP + 1) (k % numP + 1)

/-- `vj = np.zeros((num_f + 1, num_p + 1, npts)); vj[1:, 1:, :] = vj_2d.reshape((num_f, num_p, npts))`,
`qmix/harmonic_balance.py:210-211, 388-389`. -/
def to3d {ι : Type} (numF numP : ℕ) (v : Fin (numF * numP) → Arr ι) : ℕ → ℕ → Arr ι :=
  fun f p i =>
    if h : (1 ≤ f ∧ f ≤ numF) ∧ 1 ≤ p ∧ p ≤ numP then
      v ⟨(f - 1) * numP + (p - 1), by
        obtain ⟨⟨h1, h2⟩, h3, h4⟩ := h
        calc (f - 1) * numP + (p - 1) < (f - 1) * numP + numP := by omega
          _ = (f - 1 + 1) * numP := by ring
          _ ≤ numF * numP := Nat.mul_le_mul_right _ (by omega)⟩ i
    else 0

/-- `_k_to_fp`, `qmix/harmonic_balance.py:404-411`. The tone is a true division (a float in the
code, an exact quotient here); `num_p = 0` raises. -/
noncomputable def kToFp (k numP : ℕ) : Py (ℝ × ℕ) := do
  raiseIf (numP = 0) .zeroDiv
  let p := k % numP + 1
  pure (((k : ℝ) + numP - p + 1) / numP, p)

/-- A loop over the signals that fills one entry of an array per pass; the first exception is
raised. -/
def pyTab {α : Type} : (n : ℕ) → (Fin n → Py α) → Py (Fin n → α)
  | 0, _ => .ok Fin.elim0
  | n + 1, f => do
    let x ← f 0
    let r ← pyTab n fun i => f i.succ
    pure (Fin.cons x r)

/-! ## Current, error, Jacobian -/

/-- The embedding circuit as harmonic balance sees it: `vt` and `zt` besides what the current
calculation reads; `N` bias points. -/
structure HCct (N : ℕ) extends Cct (Fin N) where
  vt : ℕ → ℕ → ℂ
  zt : ℕ → ℕ → ℂ

/-- The junction voltages or currents of all signals: `num_n x npts`. -/
abbrev Sig (n N : ℕ) := Fin n → Arr (Fin N)

/-- The rows of a current matrix as an array with `n` signals; NumPy raises `ValueError` when the
shapes do not fit. -/
def rowsToSig {n N : ℕ} (rows : List (Arr (Fin N))) : Py (Sig n N) :=
  if h : rows.length = n then .ok fun k => rows[(k : ℕ)] else .error .value

/-- The frequencies of all signals, `qmix/harmonic_balance.py:391-394`. -/
noncomputable def hbFreqs {N : ℕ} (cct : HCct N) : List ℝ :=
  (List.range cct.numF).flatMap fun (f : ℕ) =>
    (List.range cct.numP).map fun (p : ℕ) => round4 (cct.freq (f + 1) * ((p + 1 : ℕ) : ℝ))

/-- `_qt_current_for_hb`, `qmix/harmonic_balance.py:368-399`. -/
noncomputable def currentForHb {N : ℕ} (cct : HCct N) (resp : ℝ → ℂ) (nb : NumB)
    (m : RespMat (Fin N)) (vj : Sig (cct.numF * cct.numP) N) :
    Py (Sig (cct.numF * cct.numP) N) := do
  let rows ← qtcurrentList (to3d cct.numF cct.numP vj) cct.toCct resp (hbFreqs cct) nb (some m)
  rowsToSig rows

/-- `vt_2d[:, None] - zt_2d[:, None] * ij_2d - vj_2d`, `qmix/harmonic_balance.py:149`. -/
def errVec {n N : ℕ} (vt zt : Fin n → ℂ) (ij vj : Sig n N) : Sig n N :=
  fun k i => vt k - zt k * ij k i - vj k i

/-- The step of the numerical derivatives, `DV`, `qmix/harmonic_balance.py:28`. -/
noncomputable def dv : ℝ := 1 / 1000

/-- `vj_2d + c * dvj` where `dvj` is `DV` in row `q` and 0 elsewhere,
`qmix/harmonic_balance.py:336-345` (`c` is `1` or `1j`). -/
noncomputable def bump {n N : ℕ} (vj : Sig n N) (q : Fin n) (c : ℂ) : Sig n N :=
  fun k i => vj k i + if k = q then c * dv else 0

/-- The real index `2 p + a` of the Jacobian (`a = 0` real part, `a = 1` imaginary part), kept as a
pair `(p, a)`. -/
abbrev JIx (n : ℕ) := Fin n × Fin 2

/-- The Jacobian at one bias point, `qmix/harmonic_balance.py:332-355`: row `(p, a)`, column
`(q, b)`; `dre q`, `dim q` are the error vectors with signal `q` increased by `DV` and `1j * DV`. -/
noncomputable def jacobian {n N : ℕ} (err : Sig n N) (dre dim : Fin n → Sig n N) (i : Fin N) :
    Matrix (JIx n) (JIx n) ℝ :=
  fun pa qb =>
    let e := if qb.2 = 0 then dre qb.1 else dim qb.1
    let d := (e pa.1 i - err pa.1 i) / dv
    if pa.2 = 0 then d.re else d.im

open Classical in
/-- `_inv_jacobian`, `qmix/harmonic_balance.py:324-363`, for a given current function.
`np.linalg.inv` of a stack of matrices raises `LinAlgError` if one of them is singular. -/
noncomputable def invJacobian {n N : ℕ} (cur : Sig n N → Py (Sig n N)) (vt zt : Fin n → ℂ)
    (err vj : Sig n N) : Py (Fin N → Matrix (JIx n) (JIx n) ℝ) := do
  let d ← pyTab n fun q => do
    let ijre ← cur (bump vj q 1)
    let ijim ← cur (bump vj q I)
    pure (errVec vt zt ijre (bump vj q 1), errVec vt zt ijim (bump vj q I))
  let J := fun i => jacobian err (fun q => (d q).1) (fun q => (d q).2) i
  raiseIf (∃ i, (J i).det = 0) .linalg
  pure fun i => (J i)⁻¹

/-- The correction, `qmix/harmonic_balance.py:200-206`. The accumulation over `q` is written as a
sum. -/
noncomputable def correction {n N : ℕ} (inv : Fin N → Matrix (JIx n) (JIx n) ℝ) (err : Sig n N) :
    Sig n N :=
  fun p i => ∑ q, (-((inv i (p, 0) (q, 0) * (err q i).re + inv i (p, 0) (q, 1) * (err q i).im : ℝ) : ℂ)
    - I * ((inv i (p, 1) (q, 0) * (err q i).re + inv i (p, 1) (q, 1) * (err q i).im : ℝ) : ℂ))

/-- One update of the junction voltages, `qmix/harmonic_balance.py:195-207`. -/
noncomputable def update {n N : ℕ} (cur : Sig n N → Py (Sig n N)) (vt zt : Fin n → ℂ) (damp : ℝ)
    (vj ij : Sig n N) : Py (Sig n N) := do
  let err := errVec vt zt ij vj
  let inv ← invJacobian cur vt zt err vj
  pure fun k i => vj k i + correction inv err k i * damp

/-! ## The iteration -/

/-- `rel_error` of every signal and point, `qmix/harmonic_balance.py:160-161`. -/
noncomputable def relErr {n N : ℕ} (vt zt : Fin n → ℂ) (vj ij : Sig n N) (k : Fin n) (i : Fin N) :
    Rel :=
  relDiv ‖errVec vt zt ij vj k i‖ ‖vj k i‖

open Classical in
/-- The loop over the signals, `qmix/harmonic_balance.py:154-165`: the running maximum of the
relative error (starting at `0.`) and the mask of finished points. -/
noncomputable def signalLoop {n N : ℕ} (stop : ℝ) (rel : Fin n → Fin N → Rel) :
    Py (Rel × (Fin N → Prop)) :=
  pyFor (List.finRange n) (Rel.fin 0, fun _ => True) fun s k => do
    let m ← npMax (List.ofFn (rel k))
    pure (pyMax2 m s.1, fun i => s.2 i ∧ (rel k i).lt (.fin stop))

/-- How the iteration ended: the two `break`s (`qmix/harmonic_balance.py:185-193`), or the range of the
`for` loop used up. -/
inductive Exit
  | target
  | limit
  | exhausted
  deriving DecidableEq

/-- What is known after the loop. `evals` and `updates` count the evaluations of the error and the
updates of the voltages; they are not in the code. `mask` is `none` while `finished_points` is
unassigned. -/
structure Stopped (S : Type) (N : ℕ) where
  vj : S
  iteration : ℕ
  exit : Exit
  mask : Option (Fin N → Prop)
  evals : ℕ
  updates : ℕ

open Classical in
/-- The `for` loop, `qmix/harmonic_balance.py:131-207`, over an abstract state: `ev` evaluates the
current, `rel` the relative errors, `upd` the update. The first argument is the number of passes left in the
range, `st.iteration` is the value of the loop variable of the last pass started. -/
noncomputable def loop {S E : Type} {n N : ℕ} (ev : S → Py E) (rel : S → E → Fin n → Fin N → Rel)
    (upd : S → E → Py S) (stop : ℝ) (maxIt : ℤ) : ℕ → ℕ → Stopped S N → Py (Stopped S N)
  | 0, _, st => .ok st
  | left + 1, it, st => do
    let e ← ev st.vj
    let r ← signalLoop stop (rel st.vj e)
    let st := { st with iteration := it, mask := some r.2, evals := st.evals + 1 }
    if r.1.le (.fin stop) then pure { st with exit := .target }
    else if (Rel.fin stop).lt r.1 ∧ (it : ℤ) = maxIt then pure { st with exit := .limit }
    else do
      let vj ← upd st.vj e
      loop ev rel upd stop maxIt left (it + 1) { st with vj := vj, updates := st.updates + 1 }

/-- `iteration = 0; for iteration in range(max_it + 1): ...`, `qmix/harmonic_balance.py:130-207`. -/
noncomputable def iterate {S E : Type} {n N : ℕ} (ev : S → Py E)
    (rel : S → E → Fin n → Fin N → Rel) (upd : S → E → Py S) (stop : ℝ) (maxIt : ℤ) (vj : S) :
    Py (Stopped S N) :=
  loop ev rel upd stop maxIt (maxIt + 1).toNat 0
    { vj := vj, iteration := 0, exit := .exhausted, mask := none, evals := 0, updates := 0 }

/-! ## The public functions -/

/-- `(zt == 0).all()`, `qmix/harmonic_balance.py:86`. -/
def ztZero {N : ℕ} (cct : HCct N) : Prop := ∀ f p, f ≤ cct.numF → p ≤ cct.numP → cct.zt f p = 0

open Classical in
/-- The changes made in place to `cct.vt`, `qmix/harmonic_balance.py:93-95`; `MIN_VT = 1e-10`. -/
noncomputable def clampVt (vt : ℕ → ℕ → ℂ) : ℕ → ℕ → ℂ :=
  fun f p =>
    if f = 0 ∨ p = 0 then 0
    else if ‖vt f p‖ < 1 / 10 ^ 10 then 1 / 10 ^ 10 else vt f p

/-- The circuit after `qmix/harmonic_balance.py:93-95`. -/
noncomputable def HCct.clamp {N : ℕ} (cct : HCct N) : HCct N := { cct with vt := clampVt cct.vt }

open Classical in
/-- The default initial guess, `qmix/harmonic_balance.py:99-102`. A vanishing `zj_guess + zt` gives
a non-finite voltage. -/
noncomputable def initialGuess {N : ℕ} (cct : HCct N) (zj : ℂ) : Py (ℕ → ℕ → Arr (Fin N)) := do
  raiseIf (∃ f p, (1 ≤ f ∧ f ≤ cct.numF) ∧ (1 ≤ p ∧ p ≤ cct.numP) ∧ zj + cct.zt f p = 0) .nonFinite
  pure fun f p _ => cct.vt f p * zj / (zj + cct.zt f p)

/-- The starting point, `qmix/harmonic_balance.py:99-102`. -/
noncomputable def startVj {N : ℕ} (cct : HCct N) (vjInit : Option (ℕ → ℕ → Arr (Fin N))) (zj : ℂ) :
    Py (ℕ → ℕ → Arr (Fin N)) :=
  match vjInit with
  | some v => .ok v
  | none => initialGuess cct.clamp zj

/-- The `mode` argument. -/
inductive Mode
  | o
  | x
  | m
  | other
  deriving DecidableEq

/-- The value returned by `harmonic_balance`. -/
inductive Res (N : ℕ)
  | vj (v : ℕ → ℕ → Arr (Fin N))
  | extra (v : ℕ → ℕ → Arr (Fin N)) (iteration : ℕ) (flag : Prop)
  | masked (v : ℕ → ℕ → Arr (Fin N)) (finished : Fin N → Prop)
  | none

/-- The effects of a call: the value returned, the circuit and the caller's `vj_initial` as they are
left, and the state of the iteration (absent if it was not entered). -/
structure Run (N : ℕ) (n : ℕ) where
  res : Res N
  cct : HCct N
  vjInit : Option (ℕ → ℕ → Arr (Fin N))
  stopped : Option (Stopped (Sig n N) N)

open Classical in
/-- The contents of the caller's `vj_initial` afterwards, `qmix/harmonic_balance.py:115, 207`:
`vj_initial[1:, 1:, :].reshape(...)` of a C-contiguous array is a view when there is only one tone or
only one harmonic, and `vj_2d += ...` then writes through it; otherwise it is a copy. -/
noncomputable def writeBack {N : ℕ} (numF numP : ℕ) (old : ℕ → ℕ → Arr (Fin N))
    (v : Sig (numF * numP) N) : ℕ → ℕ → Arr (Fin N) :=
  if numF = 1 ∨ numP = 1 then
    fun f p => if (1 ≤ f ∧ f ≤ numF) ∧ 1 ≤ p ∧ p ≤ numP then to3d numF numP v f p else old f p
  else old

/-- The last lines, `qmix/harmonic_balance.py:209-228`. -/
noncomputable def result {N : ℕ} (numF numP : ℕ) (mode : Mode) (maxIt : ℤ)
    (s : Stopped (Sig (numF * numP) N) N) : Py (Res N) :=
  let out := to3d numF numP s.vj
  match mode with
  | .o => .ok (.vj out)
  | .x => .ok (.extra out s.iteration ((s.iteration : ℤ) ≠ maxIt))
  | .m => do
    let f ← getOpt .name s.mask
    pure (.masked out f)
  | .other => .ok .none

open Classical in
/-- `harmonic_balance`, `qmix/harmonic_balance.py:39-228`. When an exception is raised the state of the
arguments is not modelled. -/
noncomputable def harmonicBalance {N : ℕ} (cct : HCct N) (resp : ℝ → ℂ) (nb : NumB) (maxIt : ℤ)
    (stop : ℝ) (vjInit : Option (ℕ → ℕ → Arr (Fin N))) (damp : ℝ) (mode : Mode) (zj : ℂ) :
    Py (Run N (cct.numF * cct.numP)) :=
  if ztZero cct then .ok
    { res := .vj fun f p _ => cct.vt f p, cct := cct, vjInit := vjInit, stopped := none }
  else do
    let start ← startVj cct vjInit zj
    let m ← interpolateRespfn cct.toCct resp nb
    let vt := to1d cct.numF cct.numP (clampVt cct.vt)
    let zt := to1d cct.numF cct.numP cct.zt
    let cur := currentForHb cct resp nb m
    let s ← iterate cur (relErr vt zt) (update cur vt zt damp) stop maxIt
      (to2d cct.numF cct.numP start)
    let res ← result cct.numF cct.numP mode maxIt s
    pure
      { res := res, cct := cct.clamp,
        vjInit := vjInit.map fun v => writeBack cct.numF cct.numP v s.vj, stopped := some s }

/-- `_qtcurrent_all_freq`, `qmix/harmonic_balance.py:281-314`, as the list of rows before they are
arranged by tone and harmonic. -/
noncomputable def allFreqs {N : ℕ} (cct : HCct N) : List ℝ :=
  (List.range cct.numF).flatMap fun (f : ℕ) =>
    (List.range cct.numP).map fun (p : ℕ) => cct.freq (f + 1) * ((p + 1 : ℕ) : ℝ)

open Classical in
/-- `check_hb_error`, `qmix/harmonic_balance.py:237-278`. -/
noncomputable def checkHbError {N : ℕ} (vj : ℕ → ℕ → Arr (Fin N)) (cct : HCct N) (resp : ℝ → ℂ)
    (nb : NumB) (stop : ℝ) : Py Unit := do
  let rows ← qtcurrentList vj cct.toCct resp (allFreqs cct) nb none
  let ij ← rowsToSig (n := cct.numF * cct.numP) rows
  let ijAll := to3d cct.numF cct.numP ij
  pyFor (List.range cct.numF) () fun _ f =>
    pyFor (List.range cct.numP) () fun _ p => do
      let m ← npMax (List.ofFn fun i =>
        relDiv ‖cct.vt (f + 1) (p + 1) - cct.zt (f + 1) (p + 1) * ijAll (f + 1) (p + 1) i
          - vj (f + 1) (p + 1) i‖ ‖vj (f + 1) (p + 1) i‖)
      pyAssert (m.lt (.fin stop))

end QMix.HB
