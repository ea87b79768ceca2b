import Verif.Model.CleanData
import Mathlib.Analysis.SpecialFunctions.Pow.Real

/-!
# `qmix/exp/if_response.py`
-/

namespace QMix.IfResp

open Np Fl Clean

/-- What a user may pass as IF response data: a NumPy array with some number of dimensions, or
something else. Only two-dimensional arrays have a matrix. -/
inductive Input
  /-- a two-dimensional array -/
  | matrix (m : Mat)
  /-- an array with another number of dimensions -/
  | array
  /-- not a NumPy array -/
  | other

/-- `m.T`. -/
def transpose (m : Mat) : Mat :=
  { ncol := m.rows.length, rows := tab m.ncol fun j => m.rows.map fun r => r.getD j none }

/-- if_response.py 69-80: `10 ** (db / 10.)`. -/
noncomputable def dbToLin : Flt → Flt
  | some db => if db = ⊤ then some ⊤ else if db = ⊥ then some 0
    else some (((10 : ℝ) ^ (db.toReal / 10) : ℝ) : EReal)
  | none => none

open Classical in
/-- The Y-factor of one point, if_response.py 53-54. -/
noncomputable def yFactor (ph pc : Flt) : Flt :=
  let y := fdiv (dbToLin ph) (dbToLin pc)
  if fle y (num 1) then num (1 + 1e-6) else y

open Classical in
/-- The noise temperature of one point, if_response.py 53-61. -/
noncomputable def noiseTemp (th tc maxtn : ℝ) (ph pc : Flt) : Flt :=
  let y := yFactor ph pc
  let tn := fdiv (fsub (num th) (fmul (num tc) y)) (fsub y (num 1))
  if flt tn (num 0) ∨ flt (num maxtn) tn then num maxtn else tn

/-- The result of `if_response`: a matrix with these four rows. -/
structure Response where
  /-- IF frequency -/
  freq : List Flt
  /-- noise temperature -/
  tn : List Flt
  /-- hot power -/
  hot : List Flt
  /-- cold power -/
  cold : List Flt

/-- if_response.py 15-66. The options `t_hot`, `t_cold` and `ifresp_maxtn` are arguments here;
`kw.get` with the default is not modelled. -/
noncomputable def ifResponse (data : Input) (th tc maxtn : ℝ) : Py Response :=
  match data with
  | .other => .error .value
  | .array => .error .assertion
  | .matrix m => do
    let m := if m.ncol ≠ 3 then transpose m else m
    pyAssert (m.ncol = 3)
    let f ← m.col 0
    let ph ← m.col 1
    let pc ← m.col 2
    let tn ← zip (noiseTemp th tc maxtn) ph pc
    return { freq := f, tn := tn, hot := ph, cold := pc }

end QMix.IfResp
