import Mathlib.Data.Real.Basic
import Mathlib.Data.List.Basic

/-!
# Unfolding of half a curve

Nothing here refers to the model.
-/

namespace QMix.Spec

/-- `b` is the odd continuation of `a`: the samples of `a`, preceded by the negated samples in the opposite
order. The first sample is not repeated. -/
structure Unfolded (a b : List ℝ) : Prop where
  length : b.length + 1 = 2 * a.length
  right : ∀ k t, a[k]? = some t → b[a.length - 1 + k]? = some t
  left : ∀ k t, 1 ≤ k → a[k]? = some t → b[a.length - 1 - k]? = some (-t)

end QMix.Spec
