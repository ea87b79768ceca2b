import Verif.Model.IfData
import Verif.Model.CircuitFp

/-!
# Noise temperature and gain in floating-point arithmetic

`_find_tn_gain` and `_temp_cw` (`qmix/exp/if_data.py:169-250`) with a rounding after every operation, for finite powers. Overflow and
underflow are not modelled; a division by zero is `nonFinite`.
-/

namespace QMix.IfFp

open Fl QMix.IfData QMix.CctFp

variable {u : ℝ}

/-- `np.tanh`, right to the relative error `u`. -/
structure Tanh (u : ℝ) where
  tanh : ℝ → ℝ
  tanh_le : ∀ x, |tanh x - Real.tanh x| ≤ u * |Real.tanh x|

/-- `sc.h * freq / 2 / sc.k`, from left to right. -/
noncomputable def half (A : Fp u) (freq : ℝ) : ℝ :=
  A.rnd (A.rnd (A.rnd (A.rnd planckH * freq) / 2) / A.rnd boltzmann)

/-- `_temp_cw`, `qmix/exp/if_data.py:244-250`. -/
noncomputable def tempCw (A : Fp u) (T : Tanh u) (freq tphys : ℝ) : Py ℝ := do
  raiseIf (tphys = 0) .zeroDiv
  let q ← Np.fdiv (half A freq) (T.tanh (A.rnd (half A freq / tphys)))
  pure (A.rnd q)

/-- `1. + 1e-10`. -/
noncomputable def floorY (A : Fp u) : ℝ := A.rnd (1 + A.rnd 1e-10)

open Classical in
/-- The Y-factor of one point, `qmix/exp/if_data.py:217-218`. -/
noncomputable def yFactor (A : Fp u) (ph pc : ℝ) : Py ℝ := do
  let q ← Np.fdiv ph pc
  pure (if A.rnd q ≤ floorY A then floorY A else A.rnd q)

/-- The noise temperature of one point, `qmix/exp/if_data.py:221`. -/
noncomputable def noiseTemp (A : Fp u) (th tc ph pc : ℝ) : Py ℝ := do
  let y ← yFactor A ph pc
  let q ← Np.fdiv (A.rnd (th - A.rnd (tc * y))) (A.rnd (y - 1))
  pure (A.rnd q)

/-- The gain of one point, `qmix/exp/if_data.py:222`. -/
noncomputable def gainOf (A : Fp u) (th tc ph pc : ℝ) : Py ℝ := do
  let q ← Np.fdiv (A.rnd (ph - pc)) (A.rnd (th - tc))
  pure (A.rnd q)

/-- `l.min()` of real numbers; empty arrays raise `ValueError`. -/
noncomputable def amin : List ℝ → Py ℝ
  | [] => .error .value
  | x :: l => .ok (l.foldl min x)

/-- The best bias point, `qmix/exp/if_data.py:225-233`. There is no NaN to be left out. -/
noncomputable def bestPoint (A : Fp u) (o : TnOpts) (vgap : ℝ) (v tn gain : List ℝ) : Py ℕ :=
  match o.vbest with
  | some vb => argminF (v.map fun a => num |A.rnd (A.rnd (a * vgap) - vb)|)
  | none =>
    if MathFn.lower o.bestPt = "max gain".toList then argmaxF (gain.map num)
    else if MathFn.lower o.bestPt = "min tn".toList then do
      let best ← amin tn
      argminF (tn.map fun t => num |A.rnd (t - best)|)
    else .error .value

/-- `_find_tn_gain`, `qmix/exp/if_data.py:169-241`. The measurements are lists of rows (voltage, power), of the same length. Not modelled:
printing. -/
noncomputable def findTnGain (A : Fp u) (T : Tanh u) (o : TnOpts) (vgap : ℝ) (hot cold : List (ℝ × ℝ)) : Py (List ℝ × List ℝ × ℕ) := do
  raiseIf (hot.length ≠ cold.length) .value
  let f ← getOpt .type o.freq
  let th ← tempCw A T (A.rnd (f * A.rnd 1e9)) o.tHot
  let tc ← tempCw A T (A.rnd (f * A.rnd 1e9)) o.tCold
  pyAssert (hot.map Prod.fst = cold.map Prod.fst)
  let tn ← (hot.zip cold).mapM fun p => noiseTemp A th tc p.1.2 p.2.2
  let gain ← (hot.zip cold).mapM fun p => gainOf A th tc p.1.2 p.2.2
  let idx ← bestPoint A o vgap (hot.map Prod.fst) tn gain
  pure (tn, gain, idx)

end QMix.IfFp
