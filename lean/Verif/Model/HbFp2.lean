import Verif.Model.HbFp

/-!
# The update of harmonic balance in floating-point arithmetic

`qmix/harmonic_balance.py:195-207` and `324-363` with every sum, difference, product and quotient rounded. The current and `np.linalg.inv`
are parameters.
-/

namespace QMix.HBFp

open QMix.HB QMix.Rnd QMix.CctFp Complex

variable {u : ℝ} {n N : ℕ}

/-- `_qt_current_for_hb`, `qmix/harmonic_balance.py:368-399`, with the kernels of `qtcurrent` in floating-point arithmetic: `tab` are the
Bessel functions and phase factors of given junction voltages, `r` is the response matrix, `hits` tells which mixing products belong to
which signal. -/
noncomputable def current {F P : ℕ} (ar : Arith u) (tab : Sig (F * P) N → ℕ → ℕ → List (Qt.Arr (Fin N))) (r : Mat (Qt.Arr (Fin N))) (nb : Qt.NumB)
    (hits : List (List ℤ → Prop)) (vj : Sig (F * P) N) : Py (Sig (F * P) N) := do
  let rows ← Rnd.qtcurrent (rounded ar (Fin N)) F P (tab vj) r nb hits
  rowsToSig rows

/-- The step `DV = 1e-3` as a float, `qmix/harmonic_balance.py:28`. -/
noncomputable def step (A : Fp u) : ℝ := A.rnd HB.dv

/-- A complex number divided by a float. NumPy multiplies both parts by the rounded reciprocal. -/
noncomputable def divR (A : Fp u) (x : ℂ) (h : ℝ) : ℂ := ⟨A.rnd (x.re * A.rnd (1 / h)), A.rnd (x.im * A.rnd (1 / h))⟩

/-- `vj_2d + c * dvj` with `dvj` equal to `DV` in row `q` and 0 elsewhere, `qmix/harmonic_balance.py:336-345` (`c` is `1` or `1j`). -/
noncomputable def bump (ar : Arith u) (A : Fp u) (vj : Sig n N) (q : Fin n) (c : ℂ) : Sig n N :=
  fun k i => ar.add (vj k i) (if k = q then c * step A else 0)

/-- The Jacobian at one bias point, `qmix/harmonic_balance.py:330-354`. -/
noncomputable def jacobian (ar : Arith u) (A : Fp u) (err : Sig n N) (dre dim : Fin n → Sig n N) (i : Fin N) : Matrix (JIx n) (JIx n) ℝ :=
  fun pa qb =>
    let e := if qb.2 = 0 then dre qb.1 else dim qb.1
    let d := divR A (ar.add (e pa.1 i) (-err pa.1 i)) (step A)
    if pa.2 = 0 then d.re else d.im

/-- `_inv_jacobian`, `qmix/harmonic_balance.py:324-363`. `inv` is `np.linalg.inv` of one matrix. -/
noncomputable def invJacobian (ar : Arith u) (A : Fp u) (inv : Matrix (JIx n) (JIx n) ℝ → Py (Matrix (JIx n) (JIx n) ℝ))
    (cur : Sig n N → Py (Sig n N)) (vt zt : Fin n → ℂ) (err vj : Sig n N) : Py (Fin N → Matrix (JIx n) (JIx n) ℝ) := do
  let d ← pyTab n fun q => do
    let ijre ← cur (bump ar A vj q 1)
    let ijim ← cur (bump ar A vj q I)
    pure (errVec ar vt zt ijre (bump ar A vj q 1), errVec ar vt zt ijim (bump ar A vj q I))
  pyTab N fun i => inv (jacobian ar A err (fun q => (d q).1) (fun q => (d q).2) i)

/-- One part of the correction of one signal, `qmix/harmonic_balance.py:200-206`: `row` is a row of the inverse Jacobian, `err` the error
vector. Each pass of the loop subtracts `inv[., 2q] * real(err[q]) + inv[., 2q + 1] * imag(err[q])`. -/
noncomputable def accum (A : Fp u) (row : JIx n → ℝ) (err : Fin n → ℂ) : List (Fin n) → ℝ → ℝ
  | [], acc => acc
  | q :: l, acc =>
    accum A row err l (A.rnd (acc - A.rnd (A.rnd (row (q, 0) * (err q).re) + A.rnd (row (q, 1) * (err q).im))))

/-- The correction, `qmix/harmonic_balance.py:199-206`. -/
noncomputable def correction (A : Fp u) (inv : Fin N → Matrix (JIx n) (JIx n) ℝ) (err : Sig n N) : Sig n N :=
  fun p i => ⟨accum A (inv i (p, 0)) (fun q => err q i) (List.finRange n) 0, accum A (inv i (p, 1)) (fun q => err q i) (List.finRange n) 0⟩

/-- One update of the junction voltages, `qmix/harmonic_balance.py:195-207`. -/
noncomputable def update (ar : Arith u) (A : Fp u) (inv : Matrix (JIx n) (JIx n) ℝ → Py (Matrix (JIx n) (JIx n) ℝ))
    (cur : Sig n N → Py (Sig n N)) (vt zt : Fin n → ℂ) (damp : ℝ) (vj ij : Sig n N) : Py (Sig n N) := do
  let err := errVec ar vt zt ij vj
  let y ← invJacobian ar A inv cur vt zt err vj
  pure fun k i => ar.add (vj k i) (ar.mul (correction A y err k i) damp)

/-- The loop of harmonic balance with everything rounded, `qmix/harmonic_balance.py:130-207`. -/
noncomputable def solve (ar : Arith u) (A : Fp u) (inv : Matrix (JIx n) (JIx n) ℝ → Py (Matrix (JIx n) (JIx n) ℝ))
    (cur : Sig n N → Py (Sig n N)) (vt zt : Fin n → ℂ) (stop damp : ℝ) (maxIt : ℤ) (vj : Sig n N) : Py (Stopped (Sig n N) N) :=
  iterate ar A cur (update ar A inv cur vt zt damp) vt zt stop maxIt vj

end QMix.HBFp
