import Mathlib.Analysis.SpecialFunctions.Exp
import Mathlib.Algebra.BigOperators.Group.Finset.Basic
import Mathlib.Order.Interval.Finset.Defs
import Mathlib.Data.Int.Interval

/-!
# Specification of the filters and derivatives

Nothing here refers to the model.
-/

namespace QMix.Spec

/-- The samples `x`, continued by reflection at the first and at the last sample. -/
structure Mirrored (x : List ℝ) (e : ℤ → ℝ) : Prop where
  inside : ∀ k : ℕ, ∀ t, x[k]? = some t → e k = t
  first : ∀ k : ℕ, k < x.length → e (-k) = e k
  last : ∀ k : ℕ, k < x.length → e ((x.length : ℤ) - 1 + k) = e ((x.length : ℤ) - 1 - k)

/-- A bell curve of width `s` around zero. -/
noncomputable def bell (s t : ℝ) : ℝ := Real.exp (-(t / s) ^ 2 / 2)

/-- `m` is the average of the samples `e (i + j)`, `a ≤ j ≤ b`, weighted with a bell curve of width `s` around
`i + δ`. -/
def BellAverage (s δ : ℝ) (a b : ℤ) (e : ℤ → ℝ) (i : ℤ) (m : ℝ) : Prop :=
  m * ∑ j ∈ Finset.Icc a b, bell s (j - δ) = ∑ j ∈ Finset.Icc a b, bell s (j - δ) * e (i + j)

/-- Every `y` is the average of the mirrored `x`, weighted with a bell curve of width `s`. The window reaches `s * w`
to the right and, but for less than a sample, to the left of the centre of the bell, and the centre is at most
half a sample (and 5e-6) away from the point itself. -/
def Smoothed (s w : ℝ) (x y : List ℝ) : Prop :=
  y.length = x.length ∧ ∃ (δ : ℝ) (a b : ℤ), |δ| ≤ 1 / 2 + 5e-6 ∧ b - δ = s * w ∧
    -(s * w) - 1e-5 < a - δ ∧ a - δ < -(s * w) + 1 ∧
    ∀ e, Mirrored x e → ∀ i : ℕ, ∀ m, y[i]? = some m → BellAverage s δ a b e i m

/-- The slope of the line through two points. -/
noncomputable def chord (p q : ℝ × ℝ) : ℝ := (q.2 - p.2) / (q.1 - p.1)

/-- `d` is the slope at the `i`-th of the points: of the chord through the two neighbours, or at the ends
through the point and its only neighbour. -/
inductive SlopeAt (P : List (ℝ × ℝ)) : ℕ → ℝ → Prop
  | first (p q) : P[0]? = some p → P[1]? = some q → SlopeAt P 0 (chord p q)
  | inner (i p q) : P[i]? = some p → P[i + 2]? = some q → SlopeAt P (i + 1) (chord p q)
  | last (i p q) : i + 2 = P.length → P[i]? = some p → P[i + 1]? = some q → SlopeAt P (i + 1) (chord p q)

/-- `p` is the first of the points `P` where the slope, smoothed over the width `s` (in points; cut off at
three widths), is largest. -/
def Steepest (P : List (ℝ × ℝ)) (s : ℝ) (p : ℝ × ℝ) : Prop :=
  ∃ (d y : List ℝ) (k : ℕ) (m : ℝ), d.length = P.length ∧ (∀ j t, d[j]? = some t → SlopeAt P j t) ∧
    Smoothed s 3 d y ∧ P[k]? = some p ∧ y[k]? = some m ∧ (∀ t ∈ y, t ≤ m) ∧
    ∀ j, j < k → ∀ t, y[j]? = some t → t < m

/-- `d` is the slope over `2 * k + 1` steps that belongs to the `i`-th of the points: of the chord from `k + 1`
points before to `k` points after it; near the ends of shorter chords that start or end at the point
itself; the first and the last point take the slope of their neighbours. -/
inductive SpanAt (P : List (ℝ × ℝ)) (k : ℕ) : ℕ → ℝ → Prop
  | inner (i p q) : P[i]? = some p → P[i + (2 * k + 1)]? = some q → SpanAt P k (i + (k + 1)) (chord p q)
  | left (i p q) : 1 ≤ i → i ≤ k → P[i]? = some p → P[3 * i + 1]? = some q → SpanAt P k i (chord p q)
  | right (i j p q) : 2 ≤ j → j ≤ k → i + j = P.length → P[i - (2 * j + 1)]? = some p → P[i]? = some q →
      SpanAt P k i (chord p q)
  | first (d) : SpanAt P k 1 d → SpanAt P k 0 d
  | last (i d) : i + 2 = P.length → SpanAt P k i d → SpanAt P k (i + 1) d

end QMix.Spec
