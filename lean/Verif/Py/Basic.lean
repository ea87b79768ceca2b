import Mathlib.Data.Int.Interval
import Mathlib.Algebra.Order.Archimedean.Real.Basic
import Mathlib.Algebra.Order.Floor.Ring
import Mathlib.Algebra.BigOperators.Group.Finset.Basic
import Mathlib.Tactic.Ring
import Mathlib.Tactic.Linarith

/-!
# Python and NumPy primitives used by the models

Exceptions are values of `PyErr`; a Python function that may raise is a Lean function into `Py`.
-/

namespace QMix

/-- The kinds of Python exception that the modelled code can raise. -/
inductive PyErr
  /-- a failed `assert` statement -/
  | assertion
  /-- `ValueError` -/
  | value
  /-- `IndexError` -/
  | index
  /-- `TypeError` -/
  | type
  /-- `AttributeError` -/
  | attribute
  /-- NumPy's "assignment destination is read-only" (a `ValueError` in NumPy; kept apart here so
  that it cannot be confused with an unrecognised unit) -/
  | readOnly
  /-- `numpy.linalg.LinAlgError` -/
  | linalg
  /-- `ZeroDivisionError` (division of Python numbers) -/
  | zeroDiv
  /-- `KeyError` -/
  | key
  /-- `NameError` (`UnboundLocalError`) -/
  | name
  /-- Not a Python exception: the code carries on with an infinity or NaN, which a model over the
  real numbers cannot represent. Used to keep totalised real functions (`x / 0`, `√(-1)`, `log 0`)
  from standing in for such values. -/
  | nonFinite
  deriving DecidableEq, Repr

/-- The result of a Python call: a value or an exception. -/
abbrev Py (α : Type*) := Except PyErr α

/-- `if c: raise e`. -/
def raiseIf (c : Prop) [Decidable c] (e : PyErr) : Py Unit := if c then .error e else .ok ()

/-- `assert c`. -/
def pyAssert (c : Prop) [Decidable c] : Py Unit := if c then .ok () else .error .assertion

/-- The value of an optional attribute; `None` raises `e`. -/
def getOpt {α : Type*} (e : PyErr) : Option α → Py α
  | none => .error e
  | some x => .ok x

/-- Index normalisation of Python sequences and NumPy arrays of length `n`: `0 ≤ k < n` is itself,
`-n ≤ k < 0` counts from the end, everything else is an `IndexError`. -/
def pyIndex (n : ℕ) (k : ℤ) : Py ℕ :=
  if 0 ≤ k ∧ k < n then .ok k.toNat
  else if -(n : ℤ) ≤ k ∧ k < 0 then .ok (k + n).toNat
  else .error .index

/-- `l[k]`. -/
def pyGet {α : Type*} (l : List α) (k : ℤ) : Py α :=
  match pyIndex l.length k with
  | .error e => .error e
  | .ok i =>
    match l[i]? with
    | some a => .ok a
    | none => .error .index

/-- `l[k] = a`, returning the new array. -/
def pySet {α : Type*} (l : List α) (k : ℤ) (a : α) : Py (List α) :=
  match pyIndex l.length k with
  | .error e => .error e
  | .ok i => .ok (l.set i a)

/-- `range(lo, hi)`. -/
def pyRange (lo hi : ℤ) : List ℤ :=
  (List.range (hi - lo).toNat).map fun (i : ℕ) => lo + (i : ℤ)

/-- `range(hi, lo, -1)`: `hi, hi - 1, ..., lo + 1`. -/
def pyRangeDown (hi lo : ℤ) : List ℤ :=
  (List.range (hi - lo).toNat).map fun (i : ℕ) => hi - (i : ℤ)

/-- `for k in l: s = body(s, k)` where the body may raise. -/
def pyFor {σ κ : Type*} (l : List κ) (s : σ) (body : σ → κ → Py σ) : Py σ :=
  match l with
  | [] => .ok s
  | k :: ks =>
    match body s k with
    | .error e => .error e
    | .ok s' => pyFor ks s' body

/-- Rounding to the nearest integer, ties to even (Python's `round`). -/
noncomputable def roundHalfEven (x : ℝ) : ℤ :=
  if Int.fract x < 1 / 2 then ⌊x⌋
  else if 1 / 2 < Int.fract x then ⌊x⌋ + 1
  else if Even ⌊x⌋ then ⌊x⌋ else ⌊x⌋ + 1

/-- `round(x, 4)` on reals. -/
noncomputable def round4 (x : ℝ) : ℝ := (roundHalfEven (x * 10 ^ 4) : ℝ) / 10 ^ 4

end QMix
