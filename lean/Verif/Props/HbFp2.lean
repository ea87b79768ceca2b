import Verif.Lemmas.NewtonFp3
import Verif.Spec.Inverse
import Verif.Props.Convergence
import Verif.Props.Rounding

/-!
# Property C173: harmonic balance converges in floating-point arithmetic
-/

namespace QMix.Props

open Complex QMix.Qt QMix.HB QMix.Rnd QMix.CctFp Filter Topology

theorem near_mapOf {n : ℕ} {A : (Fin n → ℂ) →ₗ[ℝ] (Fin n → ℂ)} {κ : ℝ} {J : Matrix (JIx n) (JIx n) ℝ}
    (h : ∀ q z, z = 1 ∨ z = I → ‖mapOf J (Pi.single q z) - A (Pi.single q z)‖ ≤ κ) : Spec.MatrixNear A κ J := by
  have hI : I ≠ 1 := fun h => by have := congrArg Complex.im h; simp at this
  intro p q
  have r1 : realify (Pi.single q 1 : Fin n → ℂ) = Pi.single (q, 0) 1 := by
    funext ⟨k, a⟩
    by_cases hk : k = q
    · subst hk; fin_cases a <;> simp [realify]
    · simp [realify, Pi.single_apply, hk]
  have r2 : realify (Pi.single q I : Fin n → ℂ) = Pi.single (q, 1) 1 := by
    funext ⟨k, a⟩
    by_cases hk : k = q
    · subst hk; fin_cases a <;> simp [realify]
    · simp [realify, Pi.single_apply, hk]
  have e1 : mapOf J (Pi.single q 1) p = ⟨J (p, 0) (q, 0), J (p, 1) (q, 0)⟩ := by
    show cx (J.mulVec (realify (Pi.single q 1))) p = _
    rw [r1, Matrix.mulVec_single_one]
    rfl
  have e2 : mapOf J (Pi.single q I) p = ⟨J (p, 0) (q, 1), J (p, 1) (q, 1)⟩ := by
    show cx (J.mulVec (realify (Pi.single q I))) p = _
    rw [r2, Matrix.mulVec_single_one]
    rfl
  have h1 := (norm_le_pi_norm _ p).trans (h q 1 (.inl rfl))
  have h2 := (norm_le_pi_norm _ p).trans (h q I (.inr rfl))
  rw [Pi.sub_apply, e1] at h1
  rw [Pi.sub_apply, e2] at h2
  exact ⟨h1, h2⟩

/-- The exact current of every signal. -/
noncomputable def exactCurrent {N : ℕ} (cct : HCct N) (resp : ℝ → ℂ) (nb : NumB) (v : Sig (cct.numF * cct.numP) N) :
    Sig (cct.numF * cct.numP) N := fun k i =>
  Spec.qt resp (Spec.signal fun k => v k i) cct.freq cct.numF cct.numP (nb.toTup cct.numF) (cct.vb i)
    (cct.freq (k / cct.numP + 1) * ((k % cct.numP + 1 : ℕ) : ℝ))

/-- C173. Let the circuit equations be nearly linear near a solution `xs`, as in C122, with something to spare (`κ < κ'`). Then there is an
accuracy `ω₀` and a number of iterations `m` with the following property. If every operation of the loop, every current and every matrix
inversion near the Jacobian is accurate to some `ω ≤ ω₀`, then from every start within `r` of the solution the loop stops because the
target is met, after at most `m` updates, and the voltages are within `(1 - damp/4)^updates r + τ` of the solution. -/
theorem C173_converges {N : ℕ} (hN : 0 < N) (cct : HCct N) (resp : ℝ → ℂ) (nb : NumB)
    (xs : Fin N → Fin (cct.numF * cct.numP) → ℂ) (ρ : ℝ)
    (A : Fin N → (Fin (cct.numF * cct.numP) → ℂ) →ₗ[ℝ] (Fin (cct.numF * cct.numP) → ℂ)) (β κ κ' : Fin N → ℝ)
    (hA : ∀ i, Spec.NearLinear (equations cct resp nb i) (xs i) ρ (A i) (β i) (κ i)) (hκ : ∀ i, κ i < κ' i)
    (hsm : ∀ i, β i * κ' i * (6 * (cct.numF * cct.numP : ℕ) + 2) ≤ 1) (hx : ∀ i k, xs i k ≠ 0)
    (stop damp : ℝ) (hstop : 0 < stop) (hd0 : 0 < damp) (hd1 : damp ≤ 1) (r : ℝ) (hr0 : 0 ≤ r) (hr : r < ρ) (τ : ℝ) (hτ : 0 < τ) :
    ∃ ω₀ : ℝ, 0 < ω₀ ∧ ∃ m : ℕ, ∀ ω : ℝ, 0 ≤ ω → ω ≤ ω₀ → ∀ (ar : Arith ω) (P : Fp ω) inv cur,
      (∀ v, ∃ e, cur v = .ok e ∧ ∀ k i, ‖e k i - exactCurrent cct resp nb v k i‖ ≤ ω) → (∀ i, Spec.InvertsNear inv (A i) (κ' i) ω) →
      ∀ (maxIt : ℤ) (v0 : Sig (cct.numF * cct.numP) N), (m : ℤ) ≤ maxIt → (∀ k i, ‖v0 k i - xs i k‖ ≤ r) →
      ∃ s, HBFp.solve ar P inv cur cct.sigVt cct.sigZt stop damp maxIt v0 = .ok s ∧ s.exit = .target ∧ s.updates ≤ m ∧
        ∀ k i, ‖s.vj k i - xs i k‖ ≤ (1 - damp / 4) ^ s.updates * r + τ := by
  obtain ⟨B, _, hB0, -, hB⟩ := current_bound cct.toCct resp nb
  have hF : ∀ i, Spec.NearLinear (errPt cct.sigVt cct.sigZt (curPt cct resp nb i)) (xs i) ρ (A i) (β i) (κ i) := by
    intro i
    rw [errPt_residuals, ← equations_clamp]
    exact hA i
  obtain ⟨ω₀, h1, m, h2⟩ := HBFp.solve_converges hN cct.sigVt cct.sigZt (curPt cct resp nb) xs ρ A β κ κ' hF hκ hsm hx B hB0
    (fun i x k => (hB cct.vt cct.zt i k).1 x) stop damp hstop hd0 hd1 r hr0 hr τ hτ
  refine ⟨ω₀, h1, m, fun ω hω0 hω ar P inv cur hcur hinv maxIt v0 hmax hst => ?_⟩
  obtain ⟨s, a1, a2, a3, a4⟩ := h2 ω hω0 hω ar P inv cur hcur (fun i J hJ => hinv i J (near_mapOf hJ)) maxIt v0 hmax
    (fun i => (pi_norm_le_iff_of_nonneg hr0).2 fun k => hst k i)
  exact ⟨s, a1, a2, a3, fun k i => (norm_le_pi_norm ((fun k => s.vj k i) - xs i) k).trans (a4 i)⟩

/-! ## Small embedding impedances -/

/-- C173. Below some embedding impedance, which does not depend on the sources, the circuit equations have exactly one solution, and with
sufficiently accurate arithmetic the loop finds it from every start. -/
theorem C173_small {N : ℕ} (hN : 0 < N) (base : Cct (Fin N)) (resp : ℝ → ℂ) (nb : NumB) : ∃ ε κ' : ℝ, 0 < ε ∧ 0 < κ' ∧
    ∀ vt zt : ℕ → ℕ → ℂ, (∀ f p, 1 ≤ f → f ≤ base.numF → 1 ≤ p → p ≤ base.numP → ‖zt f p‖ ≤ ε) →
    ∃ xs : Fin N → Fin (base.numF * base.numP) → ℂ, (∀ i x, equations (embed base vt zt) resp nb i x = 0 ↔ x = xs i) ∧
      ∀ (stop damp r τ : ℝ), 0 < stop → 0 < damp → damp ≤ 1 → 0 ≤ r → 0 < τ →
      ∃ ω₀ : ℝ, 0 < ω₀ ∧ ∃ m : ℕ, ∀ ω : ℝ, 0 ≤ ω → ω ≤ ω₀ → ∀ (ar : Arith ω) (P : Fp ω) inv cur,
        (∀ v, ∃ e, cur v = .ok e ∧ ∀ k i, ‖e k i - exactCurrent (embed base vt zt) resp nb v k i‖ ≤ ω) →
        Spec.InvertsNear inv (-LinearMap.id) κ' ω →
        ∀ (maxIt : ℤ) (v0 : Sig (base.numF * base.numP) N), (m : ℤ) ≤ maxIt → (∀ k i, ‖v0 k i - xs i k‖ ≤ r) →
        ∃ s, HBFp.solve ar P inv cur (embed base vt zt).sigVt (embed base vt zt).sigZt stop damp maxIt v0 = .ok s ∧
          s.exit = .target ∧ s.updates ≤ m ∧ ∀ k i, ‖s.vj k i - xs i k‖ ≤ (1 - damp / 4) ^ s.updates * r + τ := by
  obtain ⟨ε, hε, hs⟩ := small_near base resp nb
  refine ⟨ε, 1 / (6 * (base.numF * base.numP : ℕ) + 2), hε, by positivity, fun vt zt hzt => ?_⟩
  obtain ⟨xs, h1, h2, κ, h3, h4⟩ := hs vt zt hzt
  refine ⟨xs, h1, fun stop damp r τ hstop hd0 hd1 hr0 hτ => ?_⟩
  obtain ⟨ω₀, a1, m, a2⟩ := C173_converges hN (embed base vt zt) resp nb xs (r + 1) (fun _ => -LinearMap.id) (fun _ => 1) (fun _ => κ)
    (fun _ => 1 / (6 * (base.numF * base.numP : ℕ) + 2)) (fun i => h4 (r + 1) i)
    (fun _ => by rw [lt_div_iff₀ (by positivity)]; exact h3) (fun _ => by rw [one_mul]; exact (one_div_mul_cancel (by positivity)).le) h2 stop damp hstop
    hd0 hd1 r hr0 (by linarith) τ hτ
  exact ⟨ω₀, a1, m, fun ω hω0 hω ar P inv cur hcur hinv maxIt v0 hmax hst =>
    a2 ω hω0 hω ar P inv cur hcur (fun _ => hinv) maxIt v0 hmax hst⟩

/-! ## The current of the kernels of `qtcurrent` -/

/-- A more accurate arithmetic. -/
def arithMono {u ω : ℝ} (ar : Arith u) (h : u ≤ ω) : Arith ω where
  add := ar.add
  mul := ar.mul
  radd := ar.radd
  rsub := ar.rsub
  add_le x y := (ar.add_le x y).trans (mul_le_mul_of_nonneg_right h (norm_nonneg _))
  mul_le x y := (ar.mul_le x y).trans (mul_le_mul_of_nonneg_right h (norm_nonneg _))
  radd_le x y := (ar.radd_le x y).trans (mul_le_mul_of_nonneg_right h (abs_nonneg _))
  rsub_le x y := (ar.rsub_le x y).trans (mul_le_mul_of_nonneg_right h (abs_nonneg _))

/-- More accurate functions. -/
def fpMono {u ω : ℝ} (P : Fp u) (h : u ≤ ω) : Fp ω where
  rnd := P.rnd
  pow10 := P.pow10
  log10 := P.log10
  abs := P.abs
  rnd_le x := (P.rnd_le x).trans (mul_le_mul_of_nonneg_right h (abs_nonneg _))
  pow10_le x := (P.pow10_le x).trans (mul_le_mul_of_nonneg_right h (by positivity))
  log10_le x := (P.log10_le x).trans (mul_le_mul_of_nonneg_right h (abs_nonneg _))
  abs_le z := (P.abs_le z).trans (mul_le_mul_of_nonneg_right h (norm_nonneg _))

theorem accum_mono {u ω : ℝ} (P : Fp u) (h : u ≤ ω) {n : ℕ} (row : JIx n → ℝ) (err : Fin n → ℂ) (l : List (Fin n)) (acc : ℝ) :
    HBFp.accum (fpMono P h) row err l acc = HBFp.accum P row err l acc := by
  induction l generalizing acc with
  | nil => rfl
  | cons q l ih => exact ih _

theorem solve_mono {u ω : ℝ} (ar : Arith u) (P : Fp u) (h : u ≤ ω) {n N : ℕ}
    (inv : Matrix (JIx n) (JIx n) ℝ → Py (Matrix (JIx n) (JIx n) ℝ)) (cur : Sig n N → Py (Sig n N)) (vt zt : Fin n → ℂ)
    (stop damp : ℝ) (maxIt : ℤ) (vj : Sig n N) :
    HBFp.solve (arithMono ar h) (fpMono P h) inv cur vt zt stop damp maxIt vj = HBFp.solve ar P inv cur vt zt stop damp maxIt vj := by
  have h1 : HBFp.update (arithMono ar h) (fpMono P h) inv cur vt zt damp = HBFp.update ar P inv cur vt zt damp := by
    funext v e
    unfold HBFp.update HBFp.correction
    simp only [accum_mono]
    rfl
  unfold HBFp.solve
  rw [h1]
  rfl

/-- The constant of C146 for a circuit. -/
noncomputable def sizeC {N : ℕ} (cct : HCct N) (nb : NumB) (R : ℝ) : ℝ :=
  (2 * cct.numP + 1) ^ cct.numF * (2 * ((((nb.toTup cct.numF).take cct.numF).map fun n => ((2 * n + 1 : ℕ) : ℝ)).prod
    * (((2 * (nb.toTup cct.numF).foldr max 0 + 1) ^ (cct.numP - 1)) ^ 2) ^ cct.numF * R))

/-- The number of roundings of C146 for a circuit. -/
def countC {N : ℕ} (cct : HCct N) (nb : NumB) (n0 n1 : ℕ) : ℕ :=
  currentCount (convCount ((nb.toTup cct.numF).foldr max 0) n0 cct.numP) n1 cct.numF cct.numP ((nb.toTup cct.numF).take cct.numF)

/-- The rounded current is near the exact current, for all voltages. -/
theorem current_rounded {N : ℕ} (cct : HCct N) (resp : ℝ → ℂ) (nb : NumB) (h : Valid cct.toCct nb) {u : ℝ} (hu : 0 ≤ u) (ar : Arith u)
    {n0 n1 : ℕ} {R : ℝ} (hR : 0 ≤ R) {tab : Sig (cct.numF * cct.numP) N → ℕ → ℕ → List (Arr (Fin N))} {rm : Rnd.Mat (Arr (Fin N))}
    {hits : List (List ℤ → Prop)} (hh : List.Forall₂ (SameHits cct.numF cct.numP) hits ((hbFreqs cct).map (Spec.matchesFreq cct.freq)))
    (v : Sig (cct.numF * cct.numP) N)
    (hc : Computed u n0 n1 (to3d cct.numF cct.numP v) cct.toCct resp nb (fun _ _ _ _ => 1) (fun _ => R) (tab v) rm) :
    ∃ e, HBFp.current ar tab rm nb hits v = .ok e ∧
      ∀ k i, ‖e k i - exactCurrent cct resp nb v k i‖ ≤ ((1 + u) ^ countC cct nb n0 n1 - 1) * sizeC cct nb R := by
  obtain ⟨cur, c1, rows, c2, c3⟩ := C146_bound hu ar (to3d cct.numF cct.numP v) cct.toCct resp h hR hc (hbFreqs cct) hh
  rw [qtcurrentList_eq _ _ _ _ _ h] at c1
  have c4 : ∀ f ∈ hbFreqs cct, (fun i => Spec.qt resp (fun f p => to3d cct.numF cct.numP v f p i) cct.freq cct.numF cct.numP
      (nb.toTup cct.numF) (cct.vb i) f) = cur f := List.map_inj_left.1 (Except.ok.inj c1)
  have hfl : hbFreqs cct = (List.range (cct.numF * cct.numP)).map fun k => round4 (cct.freq (k / cct.numP + 1) * ((k % cct.numP + 1 : ℕ) : ℝ)) :=
    flatMap_range _ _ fun f p => round4 (cct.freq (f + 1) * ((p + 1 : ℕ) : ℝ))
  have hlen : rows.length = cct.numF * cct.numP := by
    rw [c3.length_eq, hfl, List.length_map, List.length_range]
  refine ⟨fun k => rows[(k : ℕ)]'(by rw [hlen]; exact k.2), ?_, fun k i => ?_⟩
  · unfold HBFp.current
    rw [c2, py_bind]
    unfold rowsToSig
    rw [dif_pos hlen]
  · have hk : (k : ℕ) < (hbFreqs cct).length := by rw [hfl, List.length_map, List.length_range]; exact k.2
    have h1 := List.forall₂_iff_get.1 c3 |>.2 k (by rw [hlen]; exact k.2) hk i
    simp only [List.get_eq_getElem] at h1
    rw [← c4 _ (List.getElem_mem hk)] at h1
    have h2 : (hbFreqs cct)[(k : ℕ)] = round4 (cct.freq (k / cct.numP + 1) * ((k % cct.numP + 1 : ℕ) : ℝ)) := by
      simp only [hfl, List.getElem_map, List.getElem_range]
    have h3 : Spec.qt resp (fun f p => to3d cct.numF cct.numP v f p i) cct.freq cct.numF cct.numP (nb.toTup cct.numF) (cct.vb i)
        (hbFreqs cct)[(k : ℕ)] = exactCurrent cct resp nb v k i := by
      rw [h2]
      unfold exactCurrent Spec.qt
      rw [current_round]
      simp only [to3d_signal]
    rw [← h3]
    exact h1

/-- C173. The same with the current computed by the kernels of `qtcurrent` in the same arithmetic, from tables of Bessel functions and
phase factors and a response matrix that are right to `n0` and `n1` roundings: if the unit roundoff is small enough, harmonic balance
converges as in exact arithmetic. -/
theorem C173_rounded {N : ℕ} (hN : 0 < N) (cct : HCct N) (resp : ℝ → ℂ) (nb : NumB) (h : Valid cct.toCct nb)
    (xs : Fin N → Fin (cct.numF * cct.numP) → ℂ) (ρ : ℝ)
    (A : Fin N → (Fin (cct.numF * cct.numP) → ℂ) →ₗ[ℝ] (Fin (cct.numF * cct.numP) → ℂ)) (β κ κ' : Fin N → ℝ)
    (hA : ∀ i, Spec.NearLinear (equations cct resp nb i) (xs i) ρ (A i) (β i) (κ i)) (hκ : ∀ i, κ i < κ' i)
    (hsm : ∀ i, β i * κ' i * (6 * (cct.numF * cct.numP : ℕ) + 2) ≤ 1) (hx : ∀ i k, xs i k ≠ 0)
    (stop damp : ℝ) (hstop : 0 < stop) (hd0 : 0 < damp) (hd1 : damp ≤ 1) (r : ℝ) (hr0 : 0 ≤ r) (hr : r < ρ) (τ : ℝ) (hτ : 0 < τ)
    (n0 n1 : ℕ) (R : ℝ) (hR : 0 ≤ R) :
    ∃ ω₀ u₀ : ℝ, 0 < ω₀ ∧ 0 < u₀ ∧ ∃ m : ℕ, ∀ u : ℝ, 0 ≤ u → u ≤ u₀ → ∀ (ar : Arith u) (P : Fp u) inv
      (tab : Sig (cct.numF * cct.numP) N → ℕ → ℕ → List (Arr (Fin N))) (rm : Rnd.Mat (Arr (Fin N))) (hits : List (List ℤ → Prop)),
      List.Forall₂ (SameHits cct.numF cct.numP) hits ((hbFreqs cct).map (Spec.matchesFreq cct.freq)) →
      (∀ v, Computed u n0 n1 (to3d cct.numF cct.numP v) cct.toCct resp nb (fun _ _ _ _ => 1) (fun _ => R) (tab v) rm) →
      (∀ i, Spec.InvertsNear inv (A i) (κ' i) ω₀) →
      ∀ (maxIt : ℤ) (v0 : Sig (cct.numF * cct.numP) N), (m : ℤ) ≤ maxIt → (∀ k i, ‖v0 k i - xs i k‖ ≤ r) →
      ∃ s, HBFp.solve ar P inv (HBFp.current ar tab rm nb hits) cct.sigVt cct.sigZt stop damp maxIt v0 = .ok s ∧
        s.exit = .target ∧ s.updates ≤ m ∧ ∀ k i, ‖s.vj k i - xs i k‖ ≤ (1 - damp / 4) ^ s.updates * r + τ := by
  obtain ⟨ω₀, h1, m, h2⟩ := C173_converges hN cct resp nb xs ρ A β κ κ' hA hκ hsm hx stop damp hstop hd0 hd1 r hr0 hr τ hτ
  have ev : ∀ᶠ u in 𝓝 (0 : ℝ), u < ω₀ ∧ ((1 + u) ^ countC cct nb n0 n1 - 1) * sizeC cct nb R < ω₀ :=
    (HBFp.eventually_lt continuousAt_id h1).and (HBFp.eventually_lt
      (f := fun u => ((1 + u) ^ countC cct nb n0 n1 - 1) * sizeC cct nb R) (by fun_prop) (by simpa using h1))
  obtain ⟨u₁, hu₁, hball⟩ := Metric.eventually_nhds_iff.1 ev
  refine ⟨ω₀, u₁ / 2, h1, by positivity, m, fun u hu0 hu ar P inv tab rm hits hh hc hinv maxIt v0 hmax hst => ?_⟩
  obtain ⟨g1, g2⟩ := hball (y := u) (by rw [Real.dist_eq, sub_zero, abs_of_nonneg hu0]; linarith)
  rw [← solve_mono ar P g1.le]
  exact h2 ω₀ h1.le le_rfl (arithMono ar g1.le) (fpMono P g1.le) inv (HBFp.current ar tab rm nb hits)
    (fun v => by
      obtain ⟨e, e1, e2⟩ := current_rounded cct resp nb h hu0 ar hR hh v (hc v)
      exact ⟨e, e1, fun k i => (e2 k i).trans g2.le⟩) hinv maxIt v0 hmax hst

/-! ## One update, with numbers -/

/-- C173. One update of the loop near a solution. With `u` the unit roundoff, `δ` the error of the currents and `η` that of the inverse
matrix, the distance `t` to the solution becomes at most `(1 - damp/2) t` plus `corrE`, the error of the correction, plus the errors of the
final product and sum. The hypotheses say that the numerical Jacobian stays within `κ'` of `A`. -/
theorem C173_step {u : ℝ} {n N : ℕ} {inv : Matrix (JIx n) (JIx n) ℝ → Py (Matrix (JIx n) (JIx n) ℝ)} {cur : Sig n N → Py (Sig n N)}
    {vt zt : Fin n → ℂ} {g : Fin N → (Fin n → ℂ) → Fin n → ℂ} {xs : Fin N → Fin n → ℂ} {ρ : ℝ}
    {A : Fin N → (Fin n → ℂ) →ₗ[ℝ] (Fin n → ℂ)} {β κ κ' : Fin N → ℝ} {δ η B V Z X C : ℝ}
    (S : HBFp.Setting n N inv cur vt zt g xs ρ A β κ κ' δ η B V Z X C) (ar : Arith u) (P : Fp u) (h0 : 0 ≤ u) (h1 : u < 1)
    {d : ℝ} (hd0 : 0 ≤ d) (hd1 : d ≤ 1) {r : ℝ} (hr : r + HBFp.etaV u X r ≤ ρ)
    (hθ : ∀ i, HBFp.theta u δ B V Z X ρ r (κ i) C ≤ κ' i) {v e : Sig n N} (hcv : cur v = .ok e)
    (hv : ∀ i, ‖(fun k => v k i) - xs i‖ ≤ r) :
    ∃ w, HBFp.update ar P inv cur vt zt d v e = .ok w ∧ ∀ i t, t = ‖(fun k => v k i) - xs i‖ → ‖(fun k => w k i) - xs i‖
      ≤ (1 - d / 2) * t + HBFp.corrE n u δ η B V Z X ρ (β i) (κ' i) C t + u * (X + t)
        + 3 * u * (3 / 2 * t + HBFp.corrE n u δ η B V Z X ρ (β i) (κ' i) C t) := by
  obtain ⟨w, h2, h3⟩ := S.update ar P h0 h1 hd0 hd1 hr hθ hcv hv
  exact ⟨w, h2, fun i t ht => by rw [ht]; exact h3 i⟩

/-! ## An example -/

/-- An arithmetic in which every result is too large by the factor `1 + ω`. -/
noncomputable def largeArith {ω : ℝ} (h : 0 ≤ ω) : Arith ω where
  add x y := (x + y) * (1 + ω : ℝ)
  mul x y := x * y * (1 + ω : ℝ)
  radd x y := (x + y) * (1 + ω)
  rsub x y := (x - y) * (1 + ω)
  add_le x y := by
    rw [show (x + y) * ((1 + ω : ℝ) : ℂ) - (x + y) = (ω : ℂ) * (x + y) by push_cast; ring, norm_mul, norm_real, Real.norm_of_nonneg h]
  mul_le x y := by
    rw [show x * y * ((1 + ω : ℝ) : ℂ) - x * y = (ω : ℂ) * (x * y) by push_cast; ring, norm_mul, norm_real, Real.norm_of_nonneg h]
  radd_le x y := by rw [show (x + y) * (1 + ω) - (x + y) = ω * (x + y) by ring, abs_mul, abs_of_nonneg h]
  rsub_le x y := by rw [show (x - y) * (1 + ω) - (x - y) = ω * (x - y) by ring, abs_mul, abs_of_nonneg h]

/-- Functions whose results are too large by the factor `1 + ω`. -/
noncomputable def largeFp {ω : ℝ} (h : 0 ≤ ω) : Fp ω where
  rnd x := x * (1 + ω)
  pow10 x := 10 ^ x * (1 + ω)
  log10 x := Real.logb 10 x * (1 + ω)
  abs z := ‖z‖ * (1 + ω)
  rnd_le x := by rw [show x * (1 + ω) - x = ω * x by ring, abs_mul, abs_of_nonneg h]
  pow10_le x := by
    rw [show (10 : ℝ) ^ x * (1 + ω) - 10 ^ x = ω * 10 ^ x by ring, abs_mul, abs_of_nonneg h, abs_of_nonneg (by positivity)]
  log10_le x := by rw [show Real.logb 10 x * (1 + ω) - Real.logb 10 x = ω * Real.logb 10 x by ring, abs_mul, abs_of_nonneg h]
  abs_le z := by rw [show ‖z‖ * (1 + ω) - ‖z‖ = ω * ‖z‖ by ring, abs_mul, abs_of_nonneg h, abs_of_nonneg (norm_nonneg _)]

/-- One tone behind a small impedance, in an arithmetic with an error in every operation and with currents and inverse matrices that are
all wrong by `ω`: for some `ω > 0` the loop converges to the solution from every start within 1 of it. -/
example : ∃ (ε ω : ℝ) (xs : Fin 1 → Fin 1 → ℂ) (m : ℕ) (hω : 0 < ω), 0 < ε ∧
    ∀ (maxIt : ℤ) (v0 : Sig 1 1), (m : ℤ) ≤ maxIt → (∀ k i, ‖v0 k i - xs i k‖ ≤ 1) →
    ∃ s, HBFp.solve (largeArith hω.le) (largeFp hω.le) (fun J => .ok (J⁻¹ + Matrix.of fun _ _ => ω))
      (fun v => .ok (exactCurrent (embed (cct1 1).toCct (fun _ _ => 1) fun _ _ => (ε : ℂ)) (fun x => (x : ℂ) + I * |x|) (.int 1) v + fun _ _ => (ω : ℂ)))
      (embed (cct1 1).toCct (fun _ _ => 1) fun _ _ => (ε : ℂ)).sigVt (embed (cct1 1).toCct (fun _ _ => 1) fun _ _ => (ε : ℂ)).sigZt
      (1 / 1000) 1 maxIt v0 = .ok s ∧ s.exit = .target ∧ ∀ k i, ‖s.vj k i - xs i k‖ ≤ (3 / 4) ^ s.updates + 1 / 1000 := by
  obtain ⟨ε, κ', hε, _, hs⟩ := C173_small one_pos (cct1 1).toCct (fun x => (x : ℂ) + I * |x|) (.int 1)
  obtain ⟨xs, -, hxs⟩ := hs (fun _ _ => 1) (fun _ _ => (ε : ℂ)) fun f p _ _ _ _ => by rw [norm_real, Real.norm_of_nonneg hε.le]
  obtain ⟨ω, hω, m, hm⟩ := hxs (1 / 1000) 1 1 (1 / 1000) (by norm_num) one_pos le_rfl zero_le_one (by norm_num)
  refine ⟨ε, ω, xs, m, hω, hε, fun maxIt v0 hmax hst => ?_⟩
  obtain ⟨s, a1, a2, -, a4⟩ := hm ω hω.le le_rfl (largeArith hω.le) (largeFp hω.le) (fun J => .ok (J⁻¹ + Matrix.of fun _ _ => ω))
    (fun v => .ok (exactCurrent (embed (cct1 1).toCct (fun _ _ => 1) fun _ _ => (ε : ℂ)) (fun x => (x : ℂ) + I * |x|) (.int 1) v + fun _ _ => (ω : ℂ)))
    (fun v => ⟨_, rfl, fun k i => by
      simp only [Pi.add_apply, add_sub_cancel_left, norm_real, Real.norm_of_nonneg hω.le, le_refl]⟩)
    (fun J _ => ⟨_, rfl, fun X hX a b => by
      rw [Matrix.inv_eq_right_inv hX]
      show |X a b + ω - X a b| ≤ ω
      rw [add_sub_cancel_left, abs_of_pos hω]⟩) maxIt v0 hmax hst
  refine ⟨s, a1, a2, fun k i => ?_⟩
  have := a4 k i
  norm_num at this ⊢
  exact this

end QMix.Props
