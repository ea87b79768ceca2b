import Verif.Py.Basic
import Mathlib.Data.Real.Basic

/-!
# One-dimensional NumPy arrays

An array is a list. Slices, element-wise arithmetic, and the NumPy functions used by the modelled
code, by their documented meaning.
-/

namespace QMix.Np

/-- `[f 0, f 1, ..., f (n-1)]`. -/
def tab {α : Type*} (n : ℕ) (f : ℕ → α) : List α := (List.range n).map f

/-- A bound of a slice with positive step. -/
def bound (n : ℕ) (i : ℤ) : ℕ := if i < 0 then (i + n).toNat else min i.toNat n

/-- `l[lo:hi]`; a missing bound is `none`. -/
def slice {α : Type*} (l : List α) (lo hi : Option ℤ) : List α :=
  (l.take (hi.elim l.length (bound l.length))).drop (lo.elim 0 (bound l.length))

/-- One more than a bound of a slice with negative step. -/
def boundRev (n : ℕ) (i : ℤ) : ℕ := if i < 0 then (i + n + 1).toNat else min (i.toNat + 1) n

/-- `l[hi:lo:-1]`: from `hi` down to, and excluding, `lo`. -/
def sliceRev {α : Type*} (l : List α) (hi lo : Option ℤ) : List α :=
  ((l.take (hi.elim l.length (boundRev l.length))).drop (lo.elim 0 (boundRev l.length))).reverse

/-- Element-wise operation. Arrays of different lengths are combined only if one of them has length 1
(it is repeated); otherwise `ValueError`. -/
def zip {α β γ : Type} (f : α → β → γ) (a : List α) (b : List β) : Py (List γ) :=
  if a.length = b.length then .ok (List.zipWith f a b)
  else match a, b with
    | [x], b => .ok (b.map fun y => f x y)
    | a, [y] => .ok (a.map fun x => f x y)
    | _, _ => .error .value

open Classical in
/-- Division of real numbers. A zero divisor gives an infinity or NaN in the code. -/
noncomputable def fdiv (a b : ℝ) : Py ℝ := if b = 0 then .error .nonFinite else .ok (a / b)

open Classical in
/-- Element-wise division. -/
noncomputable def div (a b : List ℝ) : Py (List ℝ) :=
  if (0 : ℝ) ∈ b then .error .nonFinite else zip (· / ·) a b

/-- `l[lo:hi] = vals`: the values must be as many as the places, or a single one. -/
def setSlice {α : Type} (l : List α) (lo hi : Option ℤ) (vals : List α) : Py (List α) :=
  let a := lo.elim 0 (bound l.length)
  let b := max a (hi.elim l.length (bound l.length))
  if vals.length = b - a then .ok (l.take a ++ vals ++ l.drop b)
  else match vals with
    | [x] => .ok (l.take a ++ List.replicate (b - a) x ++ l.drop b)
    | _ => .error .value

/-- `np.arange(start, stop, 1)`. -/
noncomputable def arange (start stop : ℝ) : List ℝ := tab ⌈stop - start⌉.toNat fun i => start + i

/-- `np.convolve(w, s, mode='valid')`. -/
noncomputable def convolveValid (w s : List ℝ) : Py (List ℝ) :=
  if w = [] ∨ s = [] then .error .value
  else
    let lo := min w.length s.length
    let hi := max w.length s.length
    .ok (tab (hi - lo + 1) fun k => ∑ j ∈ Finset.range w.length,
      if j ≤ k + lo - 1 then w.getD j 0 * s.getD (k + lo - 1 - j) 0 else 0)

/-- `np.cumsum`. -/
noncomputable def cumsum (l : List ℝ) : List ℝ := tab l.length fun i => (l.take (i + 1)).sum

/-- `l.max()`; empty arrays raise `ValueError`. -/
noncomputable def amax : List ℝ → Py ℝ
  | [] => .error .value
  | x :: l => .ok (l.foldl max x)

open Classical in
/-- The position of the first smallest entry of `x :: l`, where `i` is the best so far. -/
noncomputable def argminFrom (best : ℝ) (besti i : ℕ) : List ℝ → ℕ
  | [] => besti
  | x :: l => if x < best then argminFrom x i (i + 1) l else argminFrom best besti (i + 1) l

/-- `l.argmin()`: the first position of the minimum; empty arrays raise `ValueError`. -/
noncomputable def argmin : List ℝ → Py ℕ
  | [] => .error .value
  | x :: l => .ok (argminFrom x 0 1 l)

end QMix.Np
