import Verif.Lemmas.Deriv3
import Verif.Props.Convergence

/-!
# Regular solutions of the circuit equations (C150)

The numerical derivatives of harmonic balance are close to the exact ones, and harmonic balance converges from near every solution at
which the exact derivative can be inverted well enough.
-/

namespace QMix.Props

open Complex QMix.Qt QMix.HB

/-- The voltage of one signal as a linear map. -/
noncomputable def signalL {F P : ℕ} (f p : ℕ) : (Fin (F * P) → ℂ) →L[ℝ] ℂ :=
  if h : (f - 1) * P + (p - 1) < F * P ∧ (1 ≤ f ∧ f ≤ F) ∧ 1 ≤ p ∧ p ≤ P then ContinuousLinearMap.proj ⟨_, h.1⟩ else 0

theorem signalL_apply {F P : ℕ} (f p : ℕ) (x : Fin (F * P) → ℂ) : signalL f p x = Spec.signal x f p := by
  unfold signalL Spec.signal
  split_ifs <;> rfl

/-- The circuit equations of the circuit `base` behind the embedding circuit `vt`, `zt` at bias point `i`. -/
noncomputable def circuit {N : ℕ} (base : Cct (Fin N)) (vt zt : ℕ → ℕ → ℂ) (resp : ℝ → ℂ) (nb : NumB) (i : Fin N) :
    (Fin (base.numF * base.numP) → ℂ) → Fin (base.numF * base.numP) → ℂ :=
  Spec.residuals resp base.freq base.numF base.numP (nb.toTup base.numF) (base.vb i) (Spec.source vt) zt

/-- The currents at one bias point. -/
noncomputable def curB {N : ℕ} (base : Cct (Fin N)) (resp : ℝ → ℂ) (nb : NumB) (i : Fin N)
    (x : Fin (base.numF * base.numP) → ℂ) : Fin (base.numF * base.numP) → ℂ := fun k =>
  Spec.qt resp (Spec.signal x) base.freq base.numF base.numP (nb.toTup base.numF) (base.vb i)
    (base.freq (k / base.numP + 1) * ((k % base.numP + 1 : ℕ) : ℝ))

theorem circuit_apply {N : ℕ} (base : Cct (Fin N)) (vt zt : ℕ → ℕ → ℂ) (resp : ℝ → ℂ) (nb : NumB) (i : Fin N)
    (x : Fin (base.numF * base.numP) → ℂ) (k : Fin (base.numF * base.numP)) :
    circuit base vt zt resp nb i x k = Spec.source vt (k / base.numP + 1) (k % base.numP + 1)
      - zt (k / base.numP + 1) (k % base.numP + 1) * curB base resp nb i x k - x k := by
  unfold circuit Spec.residuals Spec.residual curB
  rw [signal_self]

/-- A bound on the curvature of the current at all bias points. -/
theorem current_taylor {N : ℕ} (base : Cct (Fin N)) (resp : ℝ → ℂ) (nb : NumB) :
    ∃ K : ℝ, 0 ≤ K ∧ ∀ i (k : Fin (base.numF * base.numP)), Taylor K fun x => curB base resp nb i x k := by
  have := fun y : Fin N × Fin (base.numF * base.numP) =>
    sm_qt resp (fun f p => signalL (F := base.numF) (P := base.numP) f p) base.freq base.numF base.numP (nb.toTup base.numF)
      (base.vb y.1) (base.freq (y.2 / base.numP + 1) * ((y.2 % base.numP + 1 : ℕ) : ℝ))
  simp only [signalL_apply] at this
  choose K hK h1 using this
  obtain ⟨K', hK', hK1⟩ := exists_common K
  refine ⟨K', hK', fun i k x => ?_⟩
  obtain ⟨-, L, -, hL⟩ := h1 (i, k) x
  exact ⟨L, fun h => (hL h).trans (mul_le_mul_of_nonneg_right (hK1 _) (by positivity))⟩

theorem circuit_taylor {N : ℕ} (base : Cct (Fin N)) (resp : ℝ → ℂ) (nb : NumB) :
    ∃ K : ℝ, 0 ≤ K ∧ ∀ (vt zt : ℕ → ℕ → ℂ) (Z : ℝ), 0 ≤ Z →
      (∀ f p, 1 ≤ f → f ≤ base.numF → 1 ≤ p → p ≤ base.numP → ‖zt f p‖ ≤ Z) → ∀ i,
        Taylor (K * Z) (circuit base vt zt resp nb i) := by
  obtain ⟨K, hK, hT⟩ := current_taylor base resp nb
  refine ⟨K, hK, fun vt zt Z hZ0 hZ i x => ?_⟩
  choose L hL using fun k => hT i k x
  let M : (Fin (base.numF * base.numP) → ℂ) →L[ℝ] (Fin (base.numF * base.numP) → ℂ) :=
    ContinuousLinearMap.pi fun k => -(zt (k / base.numP + 1) (k % base.numP + 1) • L k) - ContinuousLinearMap.proj k
  refine ⟨M, fun h => (pi_norm_le_iff_of_nonneg (by positivity)).2 fun k => ?_⟩
  have hk := signal_range k
  have e : (circuit base vt zt resp nb i (x + h) - circuit base vt zt resp nb i x - M h) k
      = -(zt (k / base.numP + 1) (k % base.numP + 1)
        * (curB base resp nb i (x + h) k - curB base resp nb i x k - L k h)) := by
    simp only [Pi.sub_apply]
    rw [circuit_apply, circuit_apply]
    show _ - (-(zt (k / base.numP + 1) (k % base.numP + 1) * L k h) - h k) = _
    rw [Pi.add_apply]
    ring
  rw [e, norm_neg, norm_mul, mul_comm K, mul_assoc]
  exact mul_le_mul (hZ _ _ (Nat.le_add_left _ _) hk.1 (Nat.le_add_left _ _) hk.2) (hL k h) (norm_nonneg _) hZ0

theorem invJacobian_close {n N : ℕ} (cur : Sig n N → Py (Sig n N)) (vt zt : Fin n → ℂ) (g : Fin N → (Fin n → ℂ) → Fin n → ℂ)
    (hcur : ∀ v, cur v = .ok fun k i => g i (fun k => v k i) k) {K : ℝ} (hT : ∀ i, Taylor K (errPt vt zt (g i))) (vj : Sig n N)
    (inv : Fin N → Matrix (JIx n) (JIx n) ℝ)
    (hinv : invJacobian cur vt zt (errVec vt zt (fun k i => g i (fun k => vj k i) k) vj) vj = .ok inv) (i : Fin N) :
    ∃ (J : Matrix (JIx n) (JIx n) ℝ) (A : (Fin n → ℂ) →L[ℝ] (Fin n → ℂ)), J * inv i = 1 ∧
      HasFDerivAt (errPt vt zt (g i)) A (fun k => vj k i) ∧
      ∀ p q, |J (p, 0) (q, 0) - (A (Pi.single q 1) p).re| ≤ K / 1000 ∧ |J (p, 1) (q, 0) - (A (Pi.single q 1) p).im| ≤ K / 1000 ∧
        |J (p, 0) (q, 1) - (A (Pi.single q I) p).re| ≤ K / 1000 ∧ |J (p, 1) (q, 1) - (A (Pi.single q I) p).im| ≤ K / 1000 := by
  set err := errVec vt zt (fun k i => g i (fun k => vj k i) k) vj with herr
  let e := fun (q : Fin n) (z : ℂ) => errVec vt zt (fun k i => g i (fun k => bump vj q z k i) k) (bump vj q z)
  have hent : ∀ (p q : Fin n) (z : ℂ),
      (e q z p i - err p i) / dv = quot (errPt vt zt (g i)) (fun k => vj k i) q z p := by
    intro p q z
    show (errPt vt zt (g i) (fun k => bump vj q z k i) p - errPt vt zt (g i) (fun k => vj k i) p) / dv = _
    rw [bump_point]
    rfl
  unfold invJacobian at hinv
  rw [pyTab_ok_iff (g := fun q => (e q 1, e q I)) |>.2 (by
    intro q; rw [hcur, py_bind, hcur, py_bind]; rfl), py_bind] at hinv
  dsimp only at hinv
  by_cases hd : ∃ i, (jacobian err (fun q => e q 1) (fun q => e q I) i).det = 0
  · rw [raiseIf_pos hd] at hinv
    cases hinv
  rw [raiseIf_neg hd] at hinv
  cases hinv
  obtain ⟨A, hA, hTA⟩ := (hT i).hasFDerivAt (fun k => vj k i)
  refine ⟨jacobian err (fun q => e q 1) (fun q => e q I) i, A,
    Matrix.mul_nonsing_inv _ (isUnit_iff_ne_zero.2 fun h0 => hd ⟨i, h0⟩), hA, fun p q => ?_⟩
  have hdv : dv = 1 / 1000 := rfl
  have hdp : 0 < dv := by rw [hdv]; norm_num
  -- the difference quotient is close to the derivative
  have hq : ∀ z : ℂ, ‖z‖ = 1 → ‖(e q z p i - err p i) / dv - A (Pi.single q z) p‖ ≤ K / 1000 := by
    intro z hz
    rw [hent]
    have h1 := hTA ((dv : ℝ) • (Pi.single q z : Fin n → ℂ))
    rw [norm_smul, Pi.norm_single, hz, mul_one, Real.norm_of_nonneg hdp.le, map_smul] at h1
    have h2 := (norm_le_pi_norm _ p).trans h1
    simp only [Pi.sub_apply, Pi.smul_apply, real_smul] at h2
    unfold quot
    have hdc : (dv : ℂ) ≠ 0 := by exact_mod_cast hdp.ne'
    rw [div_sub' hdc, norm_div, norm_real, Real.norm_of_nonneg hdp.le, div_le_iff₀ hdp]
    refine h2.trans (le_of_eq ?_)
    rw [hdv]
    ring
  have h1 := hq 1 norm_one
  have hI := hq I norm_I
  refine ⟨?_, ?_, ?_, ?_⟩
  · refine le_trans ?_ ((abs_re_le_norm _).trans h1)
    simp [jacobian]
  · refine le_trans ?_ ((abs_im_le_norm _).trans h1)
    simp [jacobian]
  · refine le_trans ?_ ((abs_re_le_norm _).trans hI)
    simp [jacobian]
  · refine le_trans ?_ ((abs_im_le_norm _).trans hI)
    simp [jacobian]

theorem errPt_circuit {N : ℕ} (base : Cct (Fin N)) (vt zt : ℕ → ℕ → ℂ) (resp : ℝ → ℂ) (nb : NumB) (i : Fin N) :
    errPt (to1d base.numF base.numP (clampVt vt)) (to1d base.numF base.numP zt) (curB base resp nb i) = circuit base vt zt resp nb i :=
  (errPt_residuals (embed base vt zt) resp nb i).trans (equations_clamp (embed base vt zt) resp nb i).symm

/-! ## C150 -/

/-- C150, numerical derivatives. There is a constant `K` for the junction, its bias, frequencies and summation limits such that, for
every embedding circuit with impedances up to `Z` and at all voltages, the matrix that is inverted differs from the matrix of the exact
derivatives of the circuit equations by at most `K Z / 1000` in each entry. -/
theorem C150_jacobian {N : ℕ} (base : Cct (Fin N)) (resp : ℝ → ℂ) (nb : NumB) (h : Valid base nb) : ∃ K : ℝ, 0 ≤ K ∧
    ∀ (vt zt : ℕ → ℕ → ℂ) (Z : ℝ), 0 ≤ Z →
    (∀ f p, 1 ≤ f → f ≤ base.numF → 1 ≤ p → p ≤ base.numP → ‖zt f p‖ ≤ Z) →
    ∀ m, interpolateRespfn base resp nb = .ok m → ∀ vj ij : Sig (base.numF * base.numP) N,
    currentForHb (embed base vt zt) resp nb m vj = .ok ij → ∀ inv,
    invJacobian (currentForHb (embed base vt zt) resp nb m) (embed base vt zt).sigVt (embed base vt zt).sigZt
      (errVec (embed base vt zt).sigVt (embed base vt zt).sigZt ij vj) vj = .ok inv →
    ∀ i, ∃ (J : Matrix (JIx (base.numF * base.numP)) (JIx (base.numF * base.numP)) ℝ)
      (A : (Fin (base.numF * base.numP) → ℂ) →L[ℝ] (Fin (base.numF * base.numP) → ℂ)),
      J * (show Matrix (JIx (base.numF * base.numP)) (JIx (base.numF * base.numP)) ℝ from inv i) = 1 ∧ HasFDerivAt (circuit base vt zt resp nb i) A (fun k => vj k i) ∧
      ∀ p q, |J (p, 0) (q, 0) - (A (Pi.single q 1) p).re| ≤ K * Z / 1000 ∧
        |J (p, 1) (q, 0) - (A (Pi.single q 1) p).im| ≤ K * Z / 1000 ∧
        |J (p, 0) (q, 1) - (A (Pi.single q I) p).re| ≤ K * Z / 1000 ∧
        |J (p, 1) (q, 1) - (A (Pi.single q I) p).im| ≤ K * Z / 1000 := by
  obtain ⟨K, hK, hT⟩ := circuit_taylor base resp nb
  refine ⟨K, hK, fun vt zt Z hZ0 hZ m hm vj ij hij inv hinv i => ?_⟩
  have hcur := current_pt (embed base vt zt) resp nb ⟨h.tones_pos, h.tones_le, h.harmonics, h.freq_pos, h.limits⟩ hm
  have hij' : ij = fun k i => curB base resp nb i (fun k => vj k i) k := by
    have := hij.symm.trans (hcur vj)
    cases this
    rfl
  subst hij'
  obtain ⟨J, A, h1, h2, h3⟩ := invJacobian_close _ (to1d base.numF base.numP (clampVt vt))
    (to1d base.numF base.numP zt) (curB base resp nb) hcur (K := K * Z)
    (fun i => by rw [errPt_circuit]; exact hT vt zt Z hZ0 hZ i) vj inv hinv i
  rw [errPt_circuit] at h2
  exact ⟨J, A, h1, h2, h3⟩

/-- C150. For the same kind of constant `K`: let the circuit equations have, at every bias point, a solution without zero voltages at
which their derivative can be inverted with gain `β`. If `β K Z (ρ + 0.001) ≤ 1`, there is no other solution within `ρ`, and there is a
number of iterations that suffices from every start within `ρ`: the call returns, it stops because the target is met, and the voltages
have come closer to the solution by the factor `1 - damp/2` at every update. -/
theorem C150_regular {N : ℕ} (hN : 0 < N) (base : Cct (Fin N)) (resp : ℝ → ℂ) (nb : NumB) (h : Valid base nb) : ∃ K : ℝ, 0 ≤ K ∧
    ∀ (vt zt : ℕ → ℕ → ℂ) (Z : ℝ), 0 ≤ Z →
    (∀ f p, 1 ≤ f → f ≤ base.numF → 1 ≤ p → p ≤ base.numP → ‖zt f p‖ ≤ Z) → ¬ ztZero (embed base vt zt) →
    ∀ (xs : Fin N → Fin (base.numF * base.numP) → ℂ)
      (A : Fin N → (Fin (base.numF * base.numP) → ℂ) →L[ℝ] (Fin (base.numF * base.numP) → ℂ)) (β ρ : ℝ), 0 ≤ β → 0 ≤ ρ →
    (∀ i, circuit base vt zt resp nb i (xs i) = 0) → (∀ i k, xs i k ≠ 0) →
    (∀ i, HasFDerivAt (circuit base vt zt resp nb i) (A i) (xs i)) → (∀ i u, ‖u‖ ≤ β * ‖A i u‖) →
    β * K * Z * (ρ + 1 / 1000) ≤ 1 →
    (∀ i x, ‖x - xs i‖ ≤ ρ → circuit base vt zt resp nb i x = 0 → x = xs i) ∧
    ∀ stop damp : ℝ, 0 < stop → 0 < damp → damp ≤ 1 →
    ∃ m : ℕ, ∀ (maxIt : ℤ) (vjInit : Option (ℕ → ℕ → Arr (Fin N))) (mode : Mode) (zj : ℂ)
      (start : ℕ → ℕ → Arr (Fin N)), (m : ℤ) ≤ maxIt → startVj (embed base vt zt) vjInit zj = .ok start →
      (∀ i f p, 1 ≤ f → f ≤ base.numF → 1 ≤ p → p ≤ base.numP → ‖start f p i - Spec.signal (xs i) f p‖ ≤ ρ) →
      ∃ run s, harmonicBalance (embed base vt zt) resp nb maxIt stop vjInit damp mode zj = .ok run ∧
        run.stopped = some s ∧ s.exit = .target ∧ s.updates ≤ m ∧
        ∀ v, voltage run.res = some v → ∀ i f p, 1 ≤ f → f ≤ base.numF → 1 ≤ p → p ≤ base.numP →
          ‖v f p i - Spec.signal (xs i) f p‖ ≤ (1 - damp / 2) ^ s.updates * ρ := by
  obtain ⟨K, hK, hT⟩ := circuit_taylor base resp nb
  set n : ℝ := ((base.numF * base.numP : ℕ) : ℝ) with hn
  have hn0 : 0 ≤ n := Nat.cast_nonneg _
  refine ⟨8 * K * (6 * n + 2), by positivity, fun vt zt Z hZ0 hZ hz xs A β ρ hβ hρ hsol hne hA hinv hsm => ?_⟩
  have hnear : ∀ i, Spec.NearLinear (n := base.numF * base.numP) (circuit base vt zt resp nb i) (xs i) ρ (A i : _ →ₗ[ℝ] _) β (8 * (K * Z) * (ρ + 1 / 1000)) := by
    refine fun i => ⟨hsol i, by positivity, hβ, hinv i, fun x y hx hy => ?_, ?_⟩
    · exact (hT vt zt Z hZ0 hZ i).near (by positivity) (hA i) hx hy
    · refine le_trans (le_of_eq ?_) hsm
      show β * (8 * (K * Z) * (ρ + 1 / 1000)) * (6 * n + 2) = _
      ring
  refine ⟨fun i x hx h0 => ?_, fun stop damp hs hd0 hd1 =>
    C122_local hN (embed base vt zt) resp nb ⟨h.tones_pos, h.tones_le, h.harmonics, h.freq_pos, h.limits⟩ hz xs ρ hρ
      (fun i => (A i : (Fin (base.numF * base.numP) → ℂ) →ₗ[ℝ] (Fin (base.numF * base.numP) → ℂ))) (fun _ => β) (fun _ => 8 * (K * Z) * (ρ + 1 / 1000)) hnear hne stop damp hs hd0 hd1⟩
  have h1 := (hnear i).near x (xs i) (by linarith) (by rw [sub_self, norm_zero]; linarith)
  rw [h0, (hnear i).solution, sub_zero, zero_sub, norm_neg] at h1
  have h2 := (hnear i).invertible (x - xs i)
  have h3 := (hnear i).small
  have h4 : β * (8 * (K * Z) * (ρ + 1 / 1000)) ≤ 1 / 2 := by
    have h5 : 0 ≤ β * (8 * (K * Z) * (ρ + 1 / 1000)) := by positivity
    change β * (8 * (K * Z) * (ρ + 1 / 1000)) * (6 * n + 2) ≤ 1 at h3
    nlinarith
  have h6 := mul_le_mul_of_nonneg_left h1 hβ
  have h7 : ‖x - xs i‖ ≤ 1 / 2 * ‖x - xs i‖ := by
    refine h2.trans (h6.trans ?_)
    rw [← mul_assoc]
    exact mul_le_mul_of_nonneg_right h4 (norm_nonneg _)
  have h8 : ‖x - xs i‖ = 0 := le_antisymm (by linarith) (norm_nonneg _)
  exact sub_eq_zero.1 (norm_eq_zero.1 h8)

/-- Behind small impedances every solution is regular, and C150 applies within any `ρ`. -/
theorem small_regular {N : ℕ} (base : Cct (Fin N)) (resp : ℝ → ℂ) (nb : NumB) (K ρ : ℝ) (hK : 0 ≤ K) (hρ : 0 ≤ ρ) : ∃ Z : ℝ, 0 < Z ∧
    ∀ vt zt : ℕ → ℕ → ℂ, (∀ f p, 1 ≤ f → f ≤ base.numF → 1 ≤ p → p ≤ base.numP → ‖zt f p‖ ≤ Z) →
    2 * K * Z * (ρ + 1 / 1000) ≤ 1 ∧ ∃ (xs : Fin N → Fin (base.numF * base.numP) → ℂ)
      (A : Fin N → (Fin (base.numF * base.numP) → ℂ) →L[ℝ] (Fin (base.numF * base.numP) → ℂ)),
      (∀ i, circuit base vt zt resp nb i (xs i) = 0) ∧ (∀ i k, xs i k ≠ 0) ∧
      (∀ i, HasFDerivAt (circuit base vt zt resp nb i) (A i) (xs i)) ∧ ∀ i u, ‖u‖ ≤ 2 * ‖A i u‖ := by
  obtain ⟨ε, hε, hs⟩ := small_near base resp nb
  obtain ⟨K', hK', hT⟩ := circuit_taylor base resp nb
  refine ⟨min ε (1 / (2 * K * (ρ + 1 / 1000) + 1)), by positivity, fun vt zt hzt => ⟨?_, ?_⟩⟩
  · have h1 : min ε (1 / (2 * K * (ρ + 1 / 1000) + 1)) ≤ 1 / (2 * K * (ρ + 1 / 1000) + 1) := min_le_right _ _
    have h0 : 0 ≤ min ε (1 / (2 * K * (ρ + 1 / 1000) + 1)) := by positivity
    rw [le_div_iff₀ (by positivity)] at h1
    nlinarith
  obtain ⟨xs, h1, h2, κ, -, h3⟩ := hs vt zt fun f p a b c d => (hzt f p a b c d).trans (min_le_left _ _)
  replace h3 : ∀ ρ i, Spec.NearLinear (n := base.numF * base.numP) (circuit base vt zt resp nb i) (xs i) ρ (-LinearMap.id) 1 κ := h3
  have hd := fun i => (hT vt zt _ (by positivity) hzt i).hasFDerivAt (xs i)
  choose A hA _ using hd
  refine ⟨xs, A, fun i => (h1 i _).2 rfl, h2, hA, fun i u => ?_⟩
  -- the derivative is close to minus the identity
  have hn := h3 1 i
  have hκ : κ ≤ 1 / 2 := by
    have h4 := hn.small
    have h5 : (0 : ℝ) ≤ ((base.numF * base.numP : ℕ) : ℝ) := Nat.cast_nonneg _
    change 1 * κ * (6 * ((base.numF * base.numP : ℕ) : ℝ) + 2) ≤ 1 at h4
    have h6 := hn.nonneg
    nlinarith
  have hLip : ∀ x y : Fin (base.numF * base.numP) → ℂ,
      ‖(circuit base vt zt resp nb i x + x) - (circuit base vt zt resp nb i y + y)‖ ≤ 1 / 2 * ‖x - y‖ := by
    intro x y
    have h4 := (h3 (‖x - xs i‖ + ‖y - xs i‖) i).near x y (by linarith [norm_nonneg (y - xs i)]) (by linarith [norm_nonneg (x - xs i)])
    have e : (circuit base vt zt resp nb i x + x) - (circuit base vt zt resp nb i y + y)
        = circuit base vt zt resp nb i x - circuit base vt zt resp nb i y - (-LinearMap.id : (Fin (base.numF * base.numP) → ℂ) →ₗ[ℝ] _) (x - y) := by
      rw [LinearMap.neg_apply, LinearMap.id_apply]
      abel
    rw [e]
    exact h4.trans (mul_le_mul_of_nonneg_right hκ (norm_nonneg _))
  have hd2 := (hA i).add (hasFDerivAt_id (𝕜 := ℝ) (xs i))
  have hb : ‖A i + ContinuousLinearMap.id ℝ (Fin (base.numF * base.numP) → ℂ)‖ ≤ 1 / 2 := by
    have hl : LipschitzWith (1 / 2 : NNReal) fun x => circuit base vt zt resp nb i x + x := by
      refine LipschitzWith.of_dist_le_mul fun x y => ?_
      rw [dist_eq_norm, dist_eq_norm]
      simpa using hLip x y
    have := HasFDerivAt.le_of_lipschitz hd2 hl
    simpa using this
  have h7 := (A i + ContinuousLinearMap.id ℝ (Fin (base.numF * base.numP) → ℂ)).le_of_opNorm_le hb u
  rw [ContinuousLinearMap.add_apply, ContinuousLinearMap.id_apply] at h7
  have h8 := norm_sub_le (A i u + u) (A i u)
  rw [add_sub_cancel_left] at h8
  linarith

/-- The hypotheses of C150 hold for the example circuit behind a small impedance, within 1 of the solution. -/
example : ∃ (zt : ℂ) (xs : Fin 1 → Fin 1 → ℂ), zt ≠ 0 ∧ ∃ m : ℕ, ∀ (maxIt : ℤ) (start : ℕ → ℕ → Arr (Fin 1)), (m : ℤ) ≤ maxIt →
    (∀ i f p, 1 ≤ f → f ≤ 1 → 1 ≤ p → p ≤ 1 → ‖start f p i - Spec.signal (numF := 1) (P := 1) (xs i) f p‖ ≤ 1) →
    ∃ run s, harmonicBalance (embed (cct1 1).toCct (fun _ _ => 1) fun _ _ => zt) (fun x => (x : ℂ) + I * |x|) (.int 1) maxIt (1 / 1000)
      (some start) 1 .o 0.67 = .ok run ∧ run.stopped = some s ∧ s.exit = .target := by
  obtain ⟨K, hK, hc⟩ := C150_regular one_pos (cct1 1).toCct (fun x => (x : ℂ) + I * |x|) (.int 1) (cct1_valid 1)
  obtain ⟨Z, hZ, hs⟩ := small_regular (cct1 1).toCct (fun x => (x : ℂ) + I * |x|) (.int 1) K 1 hK zero_le_one
  have hzt : ∀ f p : ℕ, 1 ≤ f → f ≤ (cct1 1).numF → 1 ≤ p → p ≤ (cct1 1).numP → ‖(Z : ℂ)‖ ≤ Z := fun _ _ _ _ _ _ => by
    rw [norm_real, Real.norm_of_nonneg hZ.le]
  obtain ⟨h1, xs, A, h2, h3, h4, h5⟩ := hs (fun _ _ => 1) (fun _ _ => (Z : ℂ)) hzt
  have hz : ¬ ztZero (embed (cct1 1).toCct (fun _ _ => 1) fun _ _ => (Z : ℂ)) := by
    intro h0
    have : (Z : ℂ) = 0 := h0 1 1 le_rfl le_rfl
    exact hZ.ne' (by exact_mod_cast this)
  obtain ⟨m, hm⟩ := (hc (fun _ _ => 1) (fun _ _ => (Z : ℂ)) Z hZ.le hzt hz xs A 2 1 zero_le_two zero_le_one h2 h3 h4 h5 h1).2 (1 / 1000) 1
    (by norm_num) one_pos le_rfl
  refine ⟨Z, xs, by exact_mod_cast hZ.ne', m, fun maxIt start hmax hst => ?_⟩
  obtain ⟨run, s, a, b, c, -⟩ := hm maxIt (some start) .o 0.67 start hmax rfl hst
  exact ⟨run, s, a, b, c⟩

end QMix.Props
