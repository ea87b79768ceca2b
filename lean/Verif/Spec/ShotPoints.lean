import Mathlib.Data.Real.Basic
import Mathlib.Data.List.Basic
import Mathlib.Algebra.Order.AbsoluteValue.Basic

/-!
# The straight part of a power curve

Nothing here refers to the model.
-/

namespace QMix.Spec

/-- The median of some values: the middle one, or the mean of the two in the middle. -/
def MiddleValue (l : List ℝ) (m : ℝ) : Prop :=
  ∃ s : List ℝ, s.Perm l ∧ s.Pairwise (· ≤ ·) ∧
    ∃ a b, s[(s.length - 1) / 2]? = some a ∧ s[s.length / 2]? = some b ∧ m = (a + b) / 2

/-- A sample above 1.7 gap voltages with little curvature: less than a hundredth of the largest one. -/
def Flat (x e : List ℝ) (top : ℝ) (i : ℕ) : Prop :=
  ∃ a b, x[i]? = some a ∧ e[i]? = some b ∧ 1.7 < a ∧ |b| < top / 100

/-- A flat sample with a positive slope less than twice the typical one. -/
def Straight (x d e : List ℝ) (top med : ℝ) (i : ℕ) : Prop :=
  Flat x e top i ∧ ∃ s, d[i]? = some s ∧ 0 < s ∧ s < 2 * med

open Classical in
/-- The samples used: of two neighbours on the straight part the first. If there are fewer than five, those above
twice the gap voltage. -/
noncomputable def usedAuto (x d e : List ℝ) (top med : ℝ) : List ℕ :=
  let l := (List.range x.length).filter fun i => decide (Straight x d e top med i ∧ Straight x d e top med (i + 1))
  if l.length < 5 then (List.range x.length).filter fun i => decide (∃ a, x[i]? = some a ∧ 2 < a) else l

open Classical in
/-- The samples used with ranges given by the user (in volts, ends excluded). If there are fewer than five, those
above twice the gap voltage. -/
noncomputable def usedGiven (ranges : List (ℝ × ℝ)) (vgap : ℝ) (x : List ℝ) : List ℕ :=
  let l := (List.range x.length).filter fun i => decide (∃ a, x[i]? = some a ∧ ∃ r ∈ ranges, r.1 < a * vgap ∧ a * vgap < r.2)
  if l.length < 5 then (List.range x.length).filter fun i => decide (∃ a, x[i]? = some a ∧ 2 < a) else l

end QMix.Spec
