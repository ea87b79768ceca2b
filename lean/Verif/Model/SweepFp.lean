import Verif.Model.FreqFp

/-!
# The bias voltages of the embedding circuit in floating-point arithmetic

`np.linspace`, as the constructor of the circuit calls it, with a rounding after every operation. The indices are stored exactly (there are
fewer than `2 ^ 53` points). Overflow and underflow are not modelled.
-/

namespace QMix.CctFp

open QMix.Cct

variable {u : ℝ}

/-- `np.linspace(lo, hi, n)` for `n ≥ 1`, used at `qmix/circuit.py:244`. NumPy multiplies the indices by the step (by the interval if the step
is zero or if there is one point only), adds the start, and then writes the end to the last of at least two points. -/
noncomputable def linspace (A : Fp u) (lo hi : ℝ) (n : ℕ) : List ℝ :=
  let delta := A.rnd (hi - lo)
  let step := A.rnd (delta / (n - 1 : ℕ))
  (List.range n).map fun (i : ℕ) =>
    if n = 1 then A.rnd (A.rnd (i * delta) + lo)
    else if i = n - 1 then hi
    else if step = 0 then A.rnd (A.rnd (A.rnd (i / (n - 1 : ℕ)) * delta) + lo)
    else A.rnd (A.rnd (i * step) + lo)

/-- `EmbeddingCircuit.__init__`, `qmix/circuit.py:197-249`, with the roundings of `CctFp.new` and of the bias voltages. -/
noncomputable def newSweep (A : Fp u) (numF numP : ℤ) (vbMin vbMax : ℝ) (npts : ℤ) (fgap vgap rn : Option ℝ) (name : String) :
    Py Circuit := do
  let c ← CctFp.new A numF numP vbMin vbMax npts fgap vgap rn name
  pure { c with vb := linspace A vbMin vbMax npts.toNat }

end QMix.CctFp
