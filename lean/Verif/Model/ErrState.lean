import Verif.Model.Overflow

/-!
# NumPy's error handling

What importing the package and calling the I-V curve models does to NumPy's treatment of floating-point errors (`np.geterr()`), which is shared
by the whole process. Of the errors themselves, overflow of powers and exponentials and invalid quotients are modelled.
-/

namespace QMix.MathFn

open QMix Fl

/-- What NumPy does about an error (`'print'`, `'call'` and `'log'` return a value, as `'warn'` does, and are left out). -/
inductive ErrMode
  | ignore
  | warn
  | raise
  deriving DecidableEq

/-- `np.geterr()`. -/
structure ErrState where
  divide : ErrMode
  over : ErrMode
  under : ErrMode
  invalid : ErrMode
  deriving DecidableEq

/-- How a call ends: with a result, with a `FloatingPointError` of NumPy, or with another exception. -/
inductive Ending
  | result (x : Flt)
  | floatError
  | error (e : PyErr)

/-- The end of a computation that raises no `FloatingPointError`. -/
def ofPy : Py Flt → Ending
  | .ok x => .result x
  | .error e => .error e

/-- A call of one of the functions below. -/
inductive Call
  /-- The first `import qmix` of the process (a later one does nothing). -/
  | load
  | polynomial (v order : ℝ)
  | exponential (v vgap rn rsg agap : ℝ) (model : String)
  | expanded (v vgap rn rsg agap a0 ileak vnot inot anot ioff : ℝ)

/-- `polynomial`, `qmix/mathfn/ivcurve_models.py:85-101`: an overflow of a power, or an infinity divided by an infinity, is an exception if
NumPy is told to raise one. -/
noncomputable def polynomialS (big v order : ℝ) (st : ErrState) : Ending :=
  match npowF big v (2 * order + 1), npowF big v (2 * order) with
  | .ok a, .ok b =>
    if st.over = .raise ∧ (a = some ⊤ ∨ a = some ⊥ ∨ b = some ⊤ ∨ b = some ⊥) then .floatError
    else if st.invalid = .raise ∧ Fl.fdiv a (fadd (num 1) b) = none then .floatError
    else .result (Fl.fdiv a (fadd (num 1) b))
  | .error e, _ => .error e
  | _, .error e => .error e

open Classical in
/-- One call: how it ends, and the state after it. `import qmix` runs `qmix/exp/if_data.py:31`. `exponential` computes the gap current and looks
at the name of the model before it calls `np.seterr(over='ignore')`, `qmix/mathfn/ivcurve_models.py:136-153`; `expanded` computes the gap
current before, `:199-202`. Nothing sets the state back. -/
noncomputable def callS (big : ℝ) (st : ErrState) : Call → Ending × ErrState
  | .load => (.result (num 0), { st with divide := .ignore, invalid := .ignore })
  | .polynomial v order => (polynomialS big v order st, st)
  | .exponential v vgap rn rsg agap model =>
    (ofPy (exponentialF big v vgap rn rsg agap model),
      if rn ≠ 0 ∧ (lower model = "fixed".toList ∨ lower model = "corrected".toList ∨ lower model = "original".toList) then
        { st with over := .ignore }
      else st)
  | .expanded v vgap rn rsg agap a0 ileak vnot inot anot ioff =>
    (ofPy (expandedF big v vgap rn rsg agap a0 ileak vnot inot anot ioff), if rn ≠ 0 then { st with over := .ignore } else st)

/-- The state after a sequence of calls. -/
noncomputable def afterS (big : ℝ) (st : ErrState) (l : List Call) : ErrState := l.foldl (fun s c => (callS big s c).2) st

end QMix.MathFn
