import Verif.Spec.Mtsda

/-!
# Specification: harmonic balance

The circuit equations that the junction voltages have to satisfy, at one bias point, and the notion of
"so many Newton updates". Nothing here refers to the model of the code.
-/

namespace QMix.Spec

/-- What the circuit equation `vt = zt ij + vj` of tone `f`, harmonic `p` leaves over at the junction
voltages `v`, where `ij` is the tunnelling current of `qt` at the frequency of the signal. -/
noncomputable def residual (resp : ℝ → ℂ) (freq : ℕ → ℝ) (numF P : ℕ) (tup : List ℕ) (vb : ℝ)
    (vt zt : ℕ → ℕ → ℂ) (v : ℕ → ℕ → ℂ) (f p : ℕ) : ℂ :=
  vt f p - zt f p * qt resp v freq numF P tup vb (freq f * p) - v f p

/-- `k` steps of a partial function, from `x` to `y`. -/
inductive Steps {S : Type} (next : S → S → Prop) : ℕ → S → S → Prop
  | zero (x : S) : Steps next 0 x x
  | succ {k : ℕ} {x y z : S} : next x y → Steps next k y z → Steps next (k + 1) x z

end QMix.Spec
