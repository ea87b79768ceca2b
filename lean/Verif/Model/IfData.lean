import Verif.Model.CleanData
import Verif.Model.MathFn
import Verif.Model.RespFn
import Mathlib.Analysis.Complex.Trigonometric

/-!
# `qmix/exp/if_data.py`
-/

namespace QMix.IfData

open Np Fl Clean

/-- `sc.h`. -/
noncomputable def planckH : ℝ := 6.62607015e-34

/-- `sc.k`. -/
noncomputable def boltzmann : ℝ := 1.380649e-23

/-! ## Noise temperature and gain -/

/-- if_data.py 244-250. A zero temperature is a `ZeroDivisionError` of Python numbers; a zero
frequency gives NaN. -/
noncomputable def tempCw (freq tphys : ℝ) : Py ℝ := do
  raiseIf (tphys = 0) .zeroDiv
  Np.fdiv (planckH * freq / 2 / boltzmann) (Real.tanh (planckH * freq / 2 / boltzmann / tphys))

open Classical in
/-- The Y-factor of one point, if_data.py 217-218. -/
noncomputable def yFactor (ph pc : Flt) : Flt :=
  let y := fdiv ph pc
  if fle y (num (1 + 1e-10)) then num (1 + 1e-10) else y

/-- The noise temperature of one point, if_data.py 221. -/
noncomputable def noiseTemp (th tc : ℝ) (ph pc : Flt) : Flt :=
  let y := yFactor ph pc
  fdiv (fsub (num th) (fmul (num tc) y)) (fsub y (num 1))

/-- The gain of one point, if_data.py 222. -/
noncomputable def gainOf (th tc : ℝ) (ph pc : Flt) : Flt :=
  fdiv (fsub ph pc) (fsub (num th) (num tc))

/-- The options of `_find_tn_gain`, if_data.py 197-202. -/
structure TnOpts where
  /-- LO frequency, GHz -/
  freq : Option ℝ
  /-- temperature of the hot load -/
  tHot : ℝ
  /-- temperature of the cold load -/
  tCold : ℝ
  /-- bias voltage of the best point -/
  vbest : Option ℝ
  /-- rule for the best point -/
  bestPt : String

/-- The best bias point, if_data.py 225-233. -/
noncomputable def bestPoint (o : TnOpts) (vgap : ℝ) (v tn gain : List Flt) : Py ℕ :=
  match o.vbest with
  | some vb => argminF (v.map fun a => fabs (fsub (fmul a (num vgap)) (num vb)))
  | none =>
    if MathFn.lower o.bestPt = "max gain".toList then argmaxF gain
    else if MathFn.lower o.bestPt = "min tn".toList then do
      let best ← amin (tn.filter notNan)
      nanargmin (tn.map fun t => fabs (fsub t best))
    else .error .value

open Classical in
/-- if_data.py 169-241. The measurements are lists of rows (voltage, power). Comparing arrays of
different lengths is not possible: `ValueError` (older versions of NumPy: `AttributeError`). Not
modelled: printing. -/
noncomputable def findTnGain (o : TnOpts) (vgap : ℝ) (hot cold : List (Flt × Flt)) :
    Py (List Flt × List Flt × ℕ) := do
  let v := hot.map Prod.fst
  let f ← getOpt .type o.freq
  let th ← tempCw (f * 1e9) o.tHot
  let tc ← tempCw (f * 1e9) o.tCold
  let ne ← zip fne v (cold.map Prod.fst)
  pyAssert (true ∉ ne)
  let tn ← zip (noiseTemp th tc) (hot.map Prod.snd) (cold.map Prod.snd)
  let gain ← zip (gainOf th tc) (hot.map Prod.snd) (cold.map Prod.snd)
  let idx ← bestPoint o vgap v tn gain
  return (tn, gain, idx)

end QMix.IfData
