import Verif.Model.HarmonicBalance
import Verif.Model.QtRound
import Verif.Model.CircuitFp

/-!
# The error test of harmonic balance in floating-point arithmetic

`qmix/harmonic_balance.py:130-207` with the error vector and the relative errors rounded. The current and the update of the voltages are
parameters: whatever they return, the test decides on the voltages of the last pass.
-/

namespace QMix.HBFp

open QMix.HB QMix.Rnd QMix.CctFp

variable {u : ℝ} {n N : ℕ}

/-- `vt_2d[:, None] - zt_2d[:, None] * ij_2d - vj_2d`, `qmix/harmonic_balance.py:149`. A difference is a sum with the negative number. -/
def errVec (ar : Arith u) (vt zt : Fin n → ℂ) (ij vj : Sig n N) : Sig n N :=
  fun k i => ar.add (ar.add (vt k) (-ar.mul (zt k) (ij k i))) (-vj k i)

open Classical in
/-- `np.abs(err_all[k, :]) / np.abs(vj_2d[k, :])`, `qmix/harmonic_balance.py:160-161`. -/
noncomputable def relErr (ar : Arith u) (A : Fp u) (vt zt : Fin n → ℂ) (vj ij : Sig n N) (k : Fin n) (i : Fin N) : HB.Rel :=
  let a := A.abs (errVec ar vt zt ij vj k i)
  let b := A.abs (vj k i)
  if b = 0 then if a = 0 then .nan else .inf else .fin (A.rnd (a / b))

/-- The iteration, `qmix/harmonic_balance.py:130-207`. -/
noncomputable def iterate (ar : Arith u) (A : Fp u) (cur : Sig n N → Py (Sig n N)) (upd : Sig n N → Sig n N → Py (Sig n N))
    (vt zt : Fin n → ℂ) (stop : ℝ) (maxIt : ℤ) (vj : Sig n N) : Py (Stopped (Sig n N) N) :=
  HB.iterate cur (relErr ar A vt zt) upd stop maxIt vj

end QMix.HBFp
