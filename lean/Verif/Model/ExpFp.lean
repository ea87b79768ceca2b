import Verif.Model.FreqFp

/-!
# The parameters of a measured junction in floating-point arithmetic

The gap frequency and gap current, the resistance-area product, the current density, the photon voltage in its two forms and the window of the
impedance recovery, with a rounding after every operation. The gap voltage and the normal resistance are given. A division by zero is an error
here (NumPy warns and goes on with an infinity). Overflow and underflow are not modelled.
-/

namespace QMix.ExpFp

open QMix.Cct QMix.CctFp

variable {u : ℝ}

/-- A rounded quotient of two NumPy numbers. -/
noncomputable def quot (A : Fp u) (x y : ℝ) : Py ℝ := if y = 0 then .error .nonFinite else .ok (A.rnd (x / y))

/-- The gap frequency `sc.e * vgap / sc.h`, `qmix/exp/iv_data.py:190`. -/
noncomputable def gapFreq (A : Fp u) (vgap : ℝ) : ℝ := A.rnd (A.rnd (A.rnd charge * vgap) / A.rnd planck)

/-- The gap current `vgap / rn`, `qmix/exp/iv_data.py:191`. -/
noncomputable def gapCurrent (A : Fp u) (vgap rn : ℝ) : Py ℝ := quot A vgap rn

/-- `self.rn * area * 1e-12`, `qmix/exp/exp_data.py:172`. -/
noncomputable def rna (A : Fp u) (rn area : ℝ) : ℝ := A.rnd (A.rnd (rn * area) * A.rnd 1e-12)

/-- `self.vgap / self.rna`, `qmix/exp/exp_data.py:173`. -/
noncomputable def jc (A : Fp u) (vgap rn area : ℝ) : Py ℝ := quot A vgap (rna A rn area)

/-- The attribute `vph`, `self.freq / self.fgap * 1e9`, `qmix/exp/exp_data.py:606`. -/
noncomputable def vphStored (A : Fp u) (freq fgap : ℝ) : Py ℝ := do
  let x ← quot A freq fgap
  pure (A.rnd (x * A.rnd 1e9))

/-- The photon voltage of the impedance recovery and of the simulated curve, `self.freq * sc.giga / self.fgap`,
`qmix/exp/exp_data.py:732` and `:1312`. -/
noncomputable def vphUsed (A : Fp u) (freq fgap : ℝ) : Py ℝ := quot A (A.rnd (freq * A.rnd 1e9)) fgap

/-- The window of the impedance recovery, `qmix/exp/exp_data.py:718` (the upper end is turned round) and `:737-738`. -/
noncomputable def window (A : Fp u) (vph low high : ℝ) : ℝ × ℝ :=
  let high' := A.rnd (1 - high)
  (A.rnd (A.rnd (1 - vph) + A.rnd (vph * low)), A.rnd (1 - A.rnd (vph * high')))

end QMix.ExpFp
