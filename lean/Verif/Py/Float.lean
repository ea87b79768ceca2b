import Verif.Py.NumPy
import Mathlib.Data.EReal.Inv

/-!
# Floating-point numbers without rounding

Measured data may contain NaN and infinities, and some of the code computes with them on purpose
(`np.seterr(divide='ignore', invalid='ignore')`). A number is a real number, an infinity, or NaN; the
operations follow IEEE 754 without rounding, and zero has no sign.
-/

namespace QMix.Fl

open Np

/-- A floating-point number without rounding: `none` is NaN, `some ⊤` and `some ⊥` are the
infinities. The two zeros of IEEE arithmetic, which compare equal, are one number here. -/
abbrev Flt := Option EReal

/-- The order in which NumPy sorts: NaN comes last. -/
def Flt.le : Flt → Flt → Prop
  | _, none => True
  | none, some _ => False
  | some a, some b => a ≤ b

open Classical in
/-- `a - b`: NaN if an operand is NaN, and for the difference of equal infinities. -/
noncomputable def fsub : Flt → Flt → Flt
  | some a, some b => if (a = ⊤ ∧ b = ⊤) ∨ (a = ⊥ ∧ b = ⊥) then none else some (a - b)
  | _, _ => none

open Classical in
/-- `a != b`: true if an operand is NaN. -/
noncomputable def fne : Flt → Flt → Bool
  | some a, some b => decide (a ≠ b)
  | _, _ => true

/-- `a >= 0`: false for NaN. -/
def ge0 : Flt → Prop
  | some a => 0 ≤ a
  | none => False

/-- `np.invert(np.isnan(a))`. -/
def notNan (a : Flt) : Bool := a.isSome

open Classical in
/-- `a.min()`: NaN if there is one; empty arrays raise `ValueError`. -/
noncomputable def amin : List Flt → Py Flt
  | [] => .error .value
  | a :: l => if none ∈ a :: l then .ok none else .ok (some (((a :: l).filterMap id).foldl min ⊤))

/-- `a[mask]` with a boolean mask: the lengths must agree (`IndexError` otherwise). -/
def select {α : Type} (a : List α) (mask : List Bool) : Py (List α) :=
  if a.length = mask.length then .ok (((a.zip mask).filter fun p => p.2).map fun p => p.1)
  else .error .index

/-- `a[idx]` with an array of indices. -/
def takeIdx {α : Type} (a : List α) (idx : List ℕ) : Py (List α) := idx.mapM fun (i : ℕ) => pyGet a (i : ℤ)

open Classical in
/-- `a + b`: NaN for the sum of opposite infinities. -/
noncomputable def fadd : Flt → Flt → Flt
  | some a, some b => if (a = ⊤ ∧ b = ⊥) ∨ (a = ⊥ ∧ b = ⊤) then none else some (a + b)
  | _, _ => none

open Classical in
/-- `a * b`: NaN for the product of zero and an infinity. -/
noncomputable def fmul : Flt → Flt → Flt
  | some a, some b =>
    if (a = 0 ∧ (b = ⊤ ∨ b = ⊥)) ∨ ((a = ⊤ ∨ a = ⊥) ∧ b = 0) then none else some (a * b)
  | _, _ => none

open Classical in
/-- `a / b`: NaN for `0/0` and for the quotient of infinities; `a/0` is an infinity with the sign of
`a` (zero has no sign here). -/
noncomputable def fdiv : Flt → Flt → Flt
  | some a, some b =>
    if b = 0 then (if a = 0 then none else if 0 < a then some ⊤ else some ⊥)
    else if b = ⊤ ∨ b = ⊥ then (if a = ⊤ ∨ a = ⊥ then none else some 0)
    else some (a / b)
  | _, _ => none

/-- `a <= b`: false if an operand is NaN. -/
def fle : Flt → Flt → Prop
  | some a, some b => a ≤ b
  | _, _ => False

/-- `a < b`: false if an operand is NaN. -/
def flt : Flt → Flt → Prop
  | some a, some b => a < b
  | _, _ => False

open Classical in
/-- `abs(a)`. -/
noncomputable def fabs : Flt → Flt
  | some a => some (max a (-a))
  | none => none

/-- The real number `a`. -/
noncomputable def num (a : ℝ) : Flt := some (a : EReal)

open Classical in
/-- The position of the first entry that no later entry beats. -/
noncomputable def argFrom (better : Flt → Flt → Prop) (best : Flt) (besti i : ℕ) : List Flt → ℕ
  | [] => besti
  | a :: l => if better a best then argFrom better a i (i + 1) l
    else argFrom better best besti (i + 1) l

/-- `argmax` or `argmin`; empty arrays raise `ValueError`. -/
noncomputable def argBest (better : Flt → Flt → Prop) : List Flt → Py ℕ
  | [] => .error .value
  | a :: l => .ok (argFrom better a 0 1 l)

/-- `a.argmax()`: the first NaN if there is one, otherwise the first maximum. -/
noncomputable def argmaxF : List Flt → Py ℕ :=
  argBest fun a b => (a = none ∧ b ≠ none) ∨ flt b a

/-- `a.argmin()`: the first NaN if there is one, otherwise the first minimum. -/
noncomputable def argminF : List Flt → Py ℕ :=
  argBest fun a b => (a = none ∧ b ≠ none) ∨ flt a b

/-- `np.nanargmin`: `ValueError` if there are only NaN. NumPy replaces NaN by infinity. -/
noncomputable def nanargmin (l : List Flt) : Py ℕ := do
  raiseIf (∀ a ∈ l, a = none) .value
  argminF (l.map fun a => some (a.getD ⊤))

end QMix.Fl
