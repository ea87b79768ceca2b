import Verif.Lemmas.Newton2
import Verif.Props.HarmonicBalance2
import Mathlib.Topology.MetricSpace.Contracting

/-!
# Does harmonic balance converge? (C121, C122)

`Spec.residuals` are the circuit equations at one bias point, `Spec.source` the source voltages after
the replacement of the very small ones.
-/

namespace QMix.Props

open Complex QMix.Qt QMix.HB

/-- The circuit equations at bias point `i`. -/
noncomputable def equations {N : ℕ} (cct : HCct N) (resp : ℝ → ℂ) (nb : NumB) (i : Fin N) :
    (Fin (cct.numF * cct.numP) → ℂ) → Fin (cct.numF * cct.numP) → ℂ :=
  Spec.residuals resp cct.freq cct.numF cct.numP (nb.toTup cct.numF) (cct.vb i) (Spec.source cct.vt) cct.zt

theorem equations_clamp {N : ℕ} (cct : HCct N) (resp : ℝ → ℂ) (nb : NumB) (i : Fin N) :
    equations cct resp nb i = Spec.residuals resp cct.freq cct.numF cct.numP (nb.toTup cct.numF) (cct.vb i)
      (clampVt cct.vt) cct.zt := by
  funext x k
  unfold equations Spec.residuals Spec.residual clampVt Spec.source
  simp

theorem start_signal {F P N : ℕ} (start : ℕ → ℕ → Arr (Fin N)) (i : Fin N) (xs : Fin (F * P) → ℂ) {ρ : ℝ}
    (hρ : 0 ≤ ρ) (h : ∀ f p, 1 ≤ f → f ≤ F → 1 ≤ p → p ≤ P → ‖start f p i - Spec.signal xs f p‖ ≤ ρ) :
    ‖(fun k => to2d F P start k i) - xs‖ ≤ ρ := by
  refine (pi_norm_le_iff_of_nonneg hρ).2 fun k => ?_
  obtain ⟨h1, h2⟩ := signal_range k
  have := h (k / P + 1) (k % P + 1) (Nat.le_add_left _ _) h1 (Nat.le_add_left _ _) h2
  rwa [signal_self] at this

theorem voltage_signal {F P N : ℕ} (vj : Sig (F * P) N) (i : Fin N) (xs : Fin (F * P) → ℂ) {f p : ℕ}
    (h1 : 1 ≤ f) (h2 : f ≤ F) (h3 : 1 ≤ p) (h4 : p ≤ P) :
    ‖to3d F P vj f p i - Spec.signal xs f p‖ ≤ ‖(fun k => vj k i) - xs‖ := by
  obtain ⟨k, -, rfl, rfl⟩ := signal_index h1 h2 h3 h4
  rw [to3d_signal, signal_self, signal_self]
  exact norm_le_pi_norm ((fun k => vj k i) - xs) k

/-! ## C122: local convergence -/

/-- C122. Let the circuit equations have, at every bias point, a solution without zero voltages near
which they are nearly linear (within `ρ`). There is a number of iterations that suffices from every start
within `ρ` of the solution: the call returns, it stops because the target is met, and the voltages have
come closer to the solution by the factor `1 - damp/2` at every update. -/
theorem C122_local {N : ℕ} (hN : 0 < N) (cct : HCct N) (resp : ℝ → ℂ) (nb : NumB) (h : Valid cct.toCct nb)
    (hz : ¬ ztZero cct) (xs : Fin N → Fin (cct.numF * cct.numP) → ℂ) (ρ : ℝ) (hρ : 0 ≤ ρ)
    (A : Fin N → (Fin (cct.numF * cct.numP) → ℂ) →ₗ[ℝ] (Fin (cct.numF * cct.numP) → ℂ)) (β κ : Fin N → ℝ)
    (hA : ∀ i, Spec.NearLinear (equations cct resp nb i) (xs i) ρ (A i) (β i) (κ i)) (hx : ∀ i k, xs i k ≠ 0)
    (stop damp : ℝ) (hstop : 0 < stop) (hd0 : 0 < damp) (hd1 : damp ≤ 1) :
    ∃ m : ℕ, ∀ (maxIt : ℤ) (vjInit : Option (ℕ → ℕ → Arr (Fin N))) (mode : Mode) (zj : ℂ)
      (start : ℕ → ℕ → Arr (Fin N)), (m : ℤ) ≤ maxIt → startVj cct vjInit zj = .ok start →
      (∀ i f p, 1 ≤ f → f ≤ cct.numF → 1 ≤ p → p ≤ cct.numP → ‖start f p i - Spec.signal (xs i) f p‖ ≤ ρ) →
      ∃ run s, harmonicBalance cct resp nb maxIt stop vjInit damp mode zj = .ok run ∧
        run.stopped = some s ∧ s.exit = .target ∧ s.updates ≤ m ∧
        ∀ v, voltage run.res = some v → ∀ i f p, 1 ≤ f → f ≤ cct.numF → 1 ≤ p → p ≤ cct.numP →
          ‖v f p i - Spec.signal (xs i) f p‖ ≤ (1 - damp / 2) ^ s.updates * ρ := by
  simp only [equations_clamp] at hA
  obtain ⟨m, hm⟩ := hb_converges hN cct resp nb h hz xs ρ A β κ hA hx stop damp hstop hd0 hd1
  refine ⟨m, fun maxIt vjInit mode zj start hmax hst hin => ?_⟩
  obtain ⟨run, s, hrun, hs, ht, hu, hd⟩ := hm maxIt vjInit mode zj start hmax hst fun i =>
    start_signal start i (xs i) hρ (hin i)
  refine ⟨run, s, hrun, hs, ht, hu, fun v hv i f p h1 h2 h3 h4 => ?_⟩
  obtain ⟨_, _, s', hE⟩ := hb_entered hz hrun
  rw [hE.stopped] at hs
  cases hs
  rw [voltage_result hE.res hv]
  exact (voltage_signal _ _ _ h1 h2 h3 h4).trans (hd i)

/-- C122, accuracy. Whatever the start and the number of iterations: if the call stops because the target
is met, at nonzero voltages within `ρ` of such a solution, they are within `2 β stop` of the solution,
relative to the largest voltage at the bias point. -/
theorem C122_accuracy {N : ℕ} (cct : HCct N) (resp : ℝ → ℂ) (nb : NumB) (h : Valid cct.toCct nb) (maxIt : ℤ)
    (stop : ℝ) (vjInit : Option (ℕ → ℕ → Arr (Fin N))) (damp : ℝ) (mode : Mode) (zj : ℂ)
    (run : Run N (cct.numF * cct.numP))
    (hrun : harmonicBalance cct resp nb maxIt stop vjInit damp mode zj = .ok run)
    (s : Stopped (Sig (cct.numF * cct.numP) N) N) (hs : run.stopped = some s)
    (ht : s.exit = .target) (v : ℕ → ℕ → Arr (Fin N)) (hv : voltage run.res = some v)
    (hne : ∀ f p i, 1 ≤ f → f ≤ cct.numF → 1 ≤ p → p ≤ cct.numP → v f p i ≠ 0)
    (i : Fin N) (xs : Fin (cct.numF * cct.numP) → ℂ) (ρ β κ : ℝ) (hρ : 0 ≤ ρ)
    (A : (Fin (cct.numF * cct.numP) → ℂ) →ₗ[ℝ] (Fin (cct.numF * cct.numP) → ℂ))
    (hA : Spec.NearLinear (equations cct resp nb i) xs ρ A β κ)
    (hin : ∀ f p, 1 ≤ f → f ≤ cct.numF → 1 ≤ p → p ≤ cct.numP → ‖v f p i - Spec.signal xs f p‖ ≤ ρ)
    (M : ℝ) (hM : ∀ f p, 1 ≤ f → f ≤ cct.numF → 1 ≤ p → p ≤ cct.numP → ‖v f p i‖ ≤ M)
    (f p : ℕ) (h1 : 1 ≤ f) (h2 : f ≤ cct.numF) (h3 : 1 ≤ p) (h4 : p ≤ cct.numP) :
    ‖v f p i - Spec.signal xs f p‖ ≤ 2 * β * (stop * M) := by
  have hres := fun f p h1 h2 h3 h4 => C27_converged_partial cct resp nb maxIt stop vjInit damp mode zj h run hrun
    s hs ht v hv (fun f p i h1 h2 h3 h4 hh => hne f p i h1 h2 h3 h4 hh.1) f p i h1 h2 h3 h4
  by_cases hz : ztZero cct
  · rw [hb_zero _ _ _ _ _ _ _ _ hz] at hrun
    cases hrun; cases hs
  obtain ⟨_, _, s', hE⟩ := hb_entered hz hrun
  rw [hE.stopped] at hs
  cases hs
  have hvr := voltage_result hE.res hv
  rw [hE.cct_eq] at hres
  set x : Fin (cct.numF * cct.numP) → ℂ := fun k => s.vj k i with hx
  have hstop : 0 ≤ stop := by
    by_contra hc
    have h5 := (norm_nonneg _).trans (hres f p h1 h2 h3 h4)
    have h6 := norm_pos_iff.2 (hne f p i h1 h2 h3 h4)
    nlinarith
  have hM0 : 0 ≤ M := (norm_nonneg _).trans (hM f p h1 h2 h3 h4)
  have hF : ‖equations cct resp nb i x‖ ≤ stop * M := by
    refine (pi_norm_le_iff_of_nonneg (by positivity)).2 fun k => ?_
    obtain ⟨hk1, hk2⟩ := signal_range k
    have h5 := hres (k / cct.numP + 1) (k % cct.numP + 1) (Nat.le_add_left _ _) hk1 (Nat.le_add_left _ _) hk2
    have h6 := hM (k / cct.numP + 1) (k % cct.numP + 1) (Nat.le_add_left _ _) hk1 (Nat.le_add_left _ _) hk2
    have e : equations cct resp nb i x k
        = resid cct.clamp resp nb v (k / cct.numP + 1) (k % cct.numP + 1) i := by
      rw [equations_clamp, hvr]
      unfold Spec.residuals resid
      simp only [to3d_signal]
      rfl
    rw [e]
    exact h5.trans (mul_le_mul_of_nonneg_left h6 hstop)
  have hxs : ‖x - xs‖ ≤ ρ := by
    refine (pi_norm_le_iff_of_nonneg hρ).2 fun k => ?_
    obtain ⟨hk1, hk2⟩ := signal_range k
    have := hin (k / cct.numP + 1) (k % cct.numP + 1) (Nat.le_add_left _ _) hk1 (Nat.le_add_left _ _) hk2
    rwa [hvr, to3d_signal, signal_self, signal_self] at this
  have hn := hA.near x xs (by linarith) (by rw [sub_self, norm_zero]; linarith)
  rw [hA.solution, sub_zero] at hn
  have hi := hA.invertible (x - xs)
  have hAx : ‖A (x - xs)‖ ≤ stop * M + κ * ‖x - xs‖ := by
    have := norm_sub_norm_le (A (x - xs)) (equations cct resp nb i x)
    rw [norm_sub_rev] at this
    linarith
  have hb : β * κ ≤ 1 / 2 := by
    have h5 := hA.small
    have h6 := mul_nonneg hA.nonneg' hA.nonneg
    have h7 : (0 : ℝ) ≤ ((cct.numF * cct.numP : ℕ) : ℝ) := Nat.cast_nonneg _
    nlinarith
  rw [hvr]
  refine (voltage_signal _ _ _ h1 h2 h3 h4).trans ?_
  have h8 : ‖x - xs‖ ≤ β * (stop * M) + β * κ * ‖x - xs‖ := by
    calc _ ≤ β * ‖A (x - xs)‖ := hi
      _ ≤ β * (stop * M + κ * ‖x - xs‖) := mul_le_mul_of_nonneg_left hAx hA.nonneg'
      _ = _ := by ring
  have h9 : β * κ * ‖x - xs‖ ≤ 1 / 2 * ‖x - xs‖ := mul_le_mul_of_nonneg_right hb (norm_nonneg _)
  show ‖x - xs‖ ≤ _
  linarith

/-! ## C121: small embedding impedance -/

theorem lip_signal {F P : ℕ} (f p : ℕ) : Lip1 fun x : Fin (F * P) → ℂ => Spec.signal x f p := by
  intro x y
  unfold Spec.signal
  split_ifs with h
  · rw [← dist_eq_norm]
    exact dist_le_pi_dist x y _
  · simp

/-- The circuit `base` with the embedding circuit `vt`, `zt`. -/
def embed {N : ℕ} (base : Cct (Fin N)) (vt zt : ℕ → ℕ → ℂ) : HCct N := { base with vt := vt, zt := zt }

/-- A bound on the current and its slope at all bias points. -/
theorem current_bound {N : ℕ} (base : Cct (Fin N)) (resp : ℝ → ℂ) (nb : NumB) :
    ∃ B K : ℝ, 0 ≤ B ∧ 0 ≤ K ∧ ∀ vt zt i (k : Fin (base.numF * base.numP)),
      (∀ x : Fin (base.numF * base.numP) → ℂ, ‖curPt (embed base vt zt) resp nb i x k‖ ≤ B) ∧
      ∀ x y : Fin (base.numF * base.numP) → ℂ, ‖curPt (embed base vt zt) resp nb i x k - curPt (embed base vt zt) resp nb i y k‖ ≤ K * ‖x - y‖ := by
  have := fun y : Fin N × Fin (base.numF * base.numP) =>
    bl_qt resp (lip_signal (F := base.numF) (P := base.numP)) base.freq base.numF base.numP (nb.toTup base.numF)
      (base.vb y.1) (base.freq (y.2 / base.numP + 1) * ((y.2 % base.numP + 1 : ℕ) : ℝ))
  choose B K hB hK h1 h2 using this
  obtain ⟨B', hB', hB1⟩ := exists_common B
  obtain ⟨K', hK', hK1⟩ := exists_common K
  refine ⟨B', K', hB', hK', fun vt zt i k => ⟨fun x => (h1 (i, k) x).trans (hB1 _), fun x y => ?_⟩⟩
  refine (h2 (i, k) x y).trans ?_
  rw [show dist x y = ‖x - y‖ from dist_eq_norm x y]
  exact mul_le_mul_of_nonneg_right (hK1 _) (norm_nonneg _)

theorem equations_apply {N : ℕ} (cct : HCct N) (resp : ℝ → ℂ) (nb : NumB) (i : Fin N)
    (x : Fin (cct.numF * cct.numP) → ℂ) (k : Fin (cct.numF * cct.numP)) :
    equations cct resp nb i x k = Spec.source cct.vt (k / cct.numP + 1) (k % cct.numP + 1)
      - cct.zt (k / cct.numP + 1) (k % cct.numP + 1) * curPt cct resp nb i x k - x k := by
  unfold equations Spec.residuals Spec.residual curPt
  rw [signal_self]

theorem source_ge (vt : ℕ → ℕ → ℂ) (f p : ℕ) : 1 / 10 ^ 10 ≤ ‖Spec.source vt f p‖ := by
  unfold Spec.source
  split_ifs with h
  · rw [norm_div, norm_pow]; norm_num
  · exact not_lt.1 h

theorem small_near {N : ℕ} (base : Cct (Fin N)) (resp : ℝ → ℂ) (nb : NumB) : ∃ ε : ℝ, 0 < ε ∧
    ∀ vt zt : ℕ → ℕ → ℂ, (∀ f p, 1 ≤ f → f ≤ base.numF → 1 ≤ p → p ≤ base.numP → ‖zt f p‖ ≤ ε) →
    ∃ xs : Fin N → Fin (base.numF * base.numP) → ℂ,
      (∀ i x, equations (embed base vt zt) resp nb i x = 0 ↔ x = xs i) ∧ (∀ i k, xs i k ≠ 0) ∧
      ∃ κ : ℝ, κ * (6 * (base.numF * base.numP : ℕ) + 2) < 1 ∧
        ∀ ρ i, Spec.NearLinear (equations (embed base vt zt) resp nb i) (xs i) ρ (-LinearMap.id) 1 κ := by
  obtain ⟨B, K, hB, hK, hcur⟩ := current_bound base resp nb
  set n := base.numF * base.numP with hn
  have hn0 : (0 : ℝ) ≤ n := Nat.cast_nonneg _
  refine ⟨min (1 / ((K + 1) * (6 * n + 2))) (1 / 10 ^ 10 / (2 * (B + 1))), by positivity, fun vt zt hzt => ?_⟩
  set ε := min (1 / ((K + 1) * (6 * n + 2))) (1 / 10 ^ 10 / (2 * (B + 1))) with hε
  have hε0 : 0 < ε := by positivity
  have hεK : ε * K * (6 * n + 2) ≤ 1 := by
    have h1 : ε ≤ 1 / ((K + 1) * (6 * n + 2)) := min_le_left _ _
    rw [le_div_iff₀ (by positivity)] at h1
    nlinarith [mul_nonneg hε0.le (show (0 : ℝ) ≤ 6 * n + 2 by positivity)]
  have hεB : ε * B < 1 / 10 ^ 10 := by
    have h1 : ε ≤ 1 / 10 ^ 10 / (2 * (B + 1)) := min_le_right _ _
    rw [le_div_iff₀ (by positivity)] at h1
    nlinarith [mul_nonneg hε0.le hB]
  set cct := embed base vt zt with hcct
  have hzk : ∀ k : Fin n, ‖zt (k / base.numP + 1) (k % base.numP + 1)‖ ≤ ε := by
    intro k
    obtain ⟨hk1, hk2⟩ := signal_range k
    exact hzt _ _ (Nat.le_add_left _ _) hk1 (Nat.le_add_left _ _) hk2
  let F : Fin N → (Fin n → ℂ) → Fin n → ℂ := fun i x => equations cct resp nb i x
  have happ : ∀ i x k, F i x k = Spec.source vt (k / base.numP + 1) (k % base.numP + 1)
      - zt (k / base.numP + 1) (k % base.numP + 1) * curPt cct resp nb i x k - x k :=
    fun i x k => equations_apply cct resp nb i x k
  have hlip : ∀ i (x y : Fin n → ℂ), ‖F i x - F i y + (x - y)‖
      ≤ ε * K * ‖x - y‖ := by
    intro i x y
    refine (pi_norm_le_iff_of_nonneg (by positivity)).2 fun k => ?_
    have e : (F i x - F i y + (x - y)) k
        = -(zt (k / base.numP + 1) (k % base.numP + 1) * (curPt cct resp nb i x k - curPt cct resp nb i y k)) := by
      simp only [Pi.add_apply, Pi.sub_apply]
      rw [happ, happ]
      ring
    rw [e, norm_neg, norm_mul, mul_assoc]
    exact mul_le_mul (hzk k) ((hcur vt zt i k).2 x y) (norm_nonneg _) hε0.le
  have hhalf : ε * K ≤ 1 / 2 := by nlinarith [mul_nonneg hε0.le hK]
  have hcon : ∀ i, ContractingWith (1 / 2) fun x : Fin n → ℂ => F i x + x := by
    intro i
    refine ⟨by rw [← NNReal.coe_lt_coe]; norm_num, LipschitzWith.of_dist_le_mul fun x y => ?_⟩
    rw [dist_eq_norm, dist_eq_norm]
    have e : F i x + x - (F i y + y)
        = F i x - F i y + (x - y) := by abel
    rw [e]
    refine (hlip i x y).trans (mul_le_mul_of_nonneg_right ?_ (norm_nonneg _))
    simpa using hhalf
  have hfix : ∀ i, ∃ xs : Fin n → ℂ, ∀ x, F i x = 0 ↔ x = xs := by
    intro i
    refine ⟨ContractingWith.fixedPoint _ (hcon i), fun x => ⟨fun hx => ?_, fun hx => ?_⟩⟩
    · refine (hcon i).fixedPoint_unique ?_
      show F i x + x = x
      rw [hx, zero_add]
    · have h1 : F i x + x = x := by
        rw [hx]
        exact (hcon i).fixedPoint_isFixedPt
      simpa using h1
  choose xs hxs using hfix
  have hx0 : ∀ i k, xs i k ≠ 0 := by
    intro i k hk
    have h1 := congrFun ((hxs i (xs i)).2 rfl) k
    have h2 := happ i (xs i) k
    rw [h1, hk, Pi.zero_apply, sub_zero, eq_comm, sub_eq_zero] at h2
    have h3 := source_ge vt (k / base.numP + 1) (k % base.numP + 1)
    rw [h2, norm_mul] at h3
    have h4 := mul_le_mul (hzk k) ((hcur vt zt i k).1 (xs i)) (norm_nonneg _) hε0.le
    have h5 := h3.trans h4
    linarith
  refine ⟨xs, hxs, hx0, ε * K, ?_, fun ρ i => ?_⟩
  · have h1 : ε ≤ 1 / ((K + 1) * (6 * n + 2)) := min_le_left _ _
    rw [le_div_iff₀ (by positivity)] at h1
    have h2 : 0 < ε * (6 * n + 2) := by positivity
    nlinarith
  refine ⟨(hxs i _).2 rfl, by positivity, zero_le_one, fun u => ?_, fun x y _ _ => ?_, by rw [one_mul]; exact hεK⟩
  · rw [LinearMap.neg_apply, LinearMap.id_apply, norm_neg, one_mul]
  · rw [LinearMap.neg_apply, LinearMap.id_apply, sub_neg_eq_add]
    exact hlip i x y

/-- C121. Below some embedding impedance (which depends on the tones, the bias points and the
response function, not on the sources) the circuit equations have exactly one solution at every bias
point, and the solution has no zero voltage. Harmonic balance converges to it from everywhere: for every
distance `ρ` a number of iterations suffices from all starts within `ρ` of the solution. -/
theorem C121_small_impedance {N : ℕ} (hN : 0 < N) (base : Cct (Fin N)) (resp : ℝ → ℂ) (nb : NumB)
    (h : Valid base nb) : ∃ ε : ℝ, 0 < ε ∧ ∀ vt zt : ℕ → ℕ → ℂ,
    (∀ f p, 1 ≤ f → f ≤ base.numF → 1 ≤ p → p ≤ base.numP → ‖zt f p‖ ≤ ε) →
    ∃ xs : Fin N → Fin (base.numF * base.numP) → ℂ,
      (∀ i x, equations (embed base vt zt) resp nb i x = 0 ↔ x = xs i) ∧ (∀ i k, xs i k ≠ 0) ∧
      ∀ ρ, 0 ≤ ρ → ∀ stop damp : ℝ, 0 < stop → 0 < damp → damp ≤ 1 → ¬ ztZero (embed base vt zt) →
      ∃ m : ℕ, ∀ (maxIt : ℤ) (vjInit : Option (ℕ → ℕ → Arr (Fin N))) (mode : Mode) (zj : ℂ)
        (start : ℕ → ℕ → Arr (Fin N)), (m : ℤ) ≤ maxIt → startVj (embed base vt zt) vjInit zj = .ok start →
        (∀ i f p, 1 ≤ f → f ≤ base.numF → 1 ≤ p → p ≤ base.numP → ‖start f p i - Spec.signal (xs i) f p‖ ≤ ρ) →
        ∃ run s, harmonicBalance (embed base vt zt) resp nb maxIt stop vjInit damp mode zj = .ok run ∧
          run.stopped = some s ∧ s.exit = .target ∧ s.updates ≤ m ∧
          ∀ v, voltage run.res = some v → ∀ i f p, 1 ≤ f → f ≤ base.numF → 1 ≤ p → p ≤ base.numP →
            ‖v f p i - Spec.signal (xs i) f p‖ ≤ (1 - damp / 2) ^ s.updates * ρ := by
  obtain ⟨ε, hε, hsm⟩ := small_near base resp nb
  refine ⟨ε, hε, fun vt zt hzt => ?_⟩
  obtain ⟨xs, hxs, hx0, κ, -, hκ⟩ := hsm vt zt hzt
  refine ⟨xs, hxs, hx0, fun ρ hρ stop damp hstop hd0 hd1 hz => ?_⟩
  exact C122_local hN (embed base vt zt) resp nb ⟨h.tones_pos, h.tones_le, h.harmonics, h.freq_pos, h.limits⟩ hz
    xs ρ hρ (fun _ => -LinearMap.id) (fun _ => 1) (fun _ => κ) (hκ ρ) hx0 stop damp hstop hd0 hd1

/-- C121, accuracy. Below some embedding impedance, every call that stops because the target is met, at
nonzero voltages, returns the solution to within `2 stop` of the largest voltage at the bias point. -/
theorem C121_accuracy {N : ℕ} (base : Cct (Fin N)) (resp : ℝ → ℂ) (nb : NumB)
    (h : Valid base nb) : ∃ ε : ℝ, 0 < ε ∧ ∀ vt zt : ℕ → ℕ → ℂ,
    (∀ f p, 1 ≤ f → f ≤ base.numF → 1 ≤ p → p ≤ base.numP → ‖zt f p‖ ≤ ε) →
    ∃ xs : Fin N → Fin (base.numF * base.numP) → ℂ,
      (∀ i x, equations (embed base vt zt) resp nb i x = 0 ↔ x = xs i) ∧
      ∀ (maxIt : ℤ) (stop : ℝ) (vjInit : Option (ℕ → ℕ → Arr (Fin N))) (damp : ℝ) (mode : Mode) (zj : ℂ) run s v,
        harmonicBalance (embed base vt zt) resp nb maxIt stop vjInit damp mode zj = .ok run →
        run.stopped = some s → s.exit = .target → voltage run.res = some v →
        (∀ f p i, 1 ≤ f → f ≤ base.numF → 1 ≤ p → p ≤ base.numP → v f p i ≠ 0) →
        ∀ i M, (∀ f p, 1 ≤ f → f ≤ base.numF → 1 ≤ p → p ≤ base.numP → ‖v f p i‖ ≤ M) →
        ∀ f p, 1 ≤ f → f ≤ base.numF → 1 ≤ p → p ≤ base.numP →
          ‖v f p i - Spec.signal (xs i) f p‖ ≤ 2 * (stop * M) := by
  obtain ⟨ε, hε, hsm⟩ := small_near base resp nb
  refine ⟨ε, hε, fun vt zt hzt => ?_⟩
  obtain ⟨xs, hxs, -, κ, -, hκ⟩ := hsm vt zt hzt
  refine ⟨xs, hxs, fun maxIt stop vjInit damp mode zj run s v hrun hs ht hv hne i M hM f p h1 h2 h3 h4 => ?_⟩
  obtain ⟨ρ, hρ, hρi⟩ := exists_common fun y : Fin base.numF × Fin base.numP =>
    ‖v (y.1 + 1) (y.2 + 1) i - Spec.signal (xs i) (y.1 + 1) (y.2 + 1)‖
  have := C122_accuracy (embed base vt zt) resp nb ⟨h.tones_pos, h.tones_le, h.harmonics, h.freq_pos, h.limits⟩
    maxIt stop vjInit damp mode zj run hrun s hs ht v hv hne i (xs i) ρ 1 κ hρ _ (hκ ρ i)
    (fun f p h1 h2 h3 h4 => ?_) M hM f p h1 h2 h3 h4
  · rw [mul_one] at this
    exact this
  · have h2' : f ≤ base.numF := h2
    have h4' : p ≤ base.numP := h4
    have := hρi (⟨f - 1, by omega⟩, ⟨p - 1, by omega⟩)
    simp only [Nat.sub_add_cancel h1, Nat.sub_add_cancel h3] at this
    exact this

/-- C121, default start. Below some embedding impedance, the call that leaves `vj_initial` to the
procedure converges if only `max_it` is large enough. -/
theorem C121_default {N : ℕ} (hN : 0 < N) (base : Cct (Fin N)) (resp : ℝ → ℂ) (nb : NumB)
    (h : Valid base nb) : ∃ ε : ℝ, 0 < ε ∧ ∀ (vt zt : ℕ → ℕ → ℂ) (zj : ℂ),
    (∀ f p, 1 ≤ f → f ≤ base.numF → 1 ≤ p → p ≤ base.numP → ‖zt f p‖ ≤ ε ∧ zj + zt f p ≠ 0) →
    ¬ ztZero (embed base vt zt) → ∀ stop damp : ℝ, 0 < stop → 0 < damp → damp ≤ 1 →
    ∃ m : ℕ, ∀ (maxIt : ℤ) (mode : Mode), (m : ℤ) ≤ maxIt →
      ∃ run s, harmonicBalance (embed base vt zt) resp nb maxIt stop none damp mode zj = .ok run ∧
        run.stopped = some s ∧ s.exit = .target ∧ s.updates ≤ m := by
  obtain ⟨ε, hε, hc⟩ := C121_small_impedance hN base resp nb h
  refine ⟨ε, hε, fun vt zt zj hzt hz stop damp hstop hd0 hd1 => ?_⟩
  obtain ⟨xs, -, -, hxs⟩ := hc vt zt fun f p h1 h2 h3 h4 => (hzt f p h1 h2 h3 h4).1
  have hst : startVj (embed base vt zt) none zj
      = .ok fun f p _ => clampVt vt f p * zj / (zj + zt f p) := by
    unfold startVj initialGuess
    classical
    exact raiseIf_neg (by
      rintro ⟨f, p, ⟨h1, h2⟩, ⟨h3, h4⟩, h0⟩
      exact (hzt f p h1 h2 h3 h4).2 h0) _
  obtain ⟨ρ, hρ, hρi⟩ := exists_common fun y : Fin N × Fin base.numF × Fin base.numP =>
    ‖clampVt vt (y.2.1 + 1) (y.2.2 + 1) * zj / (zj + zt (y.2.1 + 1) (y.2.2 + 1))
      - Spec.signal (xs y.1) (y.2.1 + 1) (y.2.2 + 1)‖
  obtain ⟨m, hm⟩ := hxs ρ hρ stop damp hstop hd0 hd1 hz
  refine ⟨m, fun maxIt mode hmax => ?_⟩
  obtain ⟨run, s, h1, h2, h3, h4, -⟩ := hm maxIt none mode zj _ hmax hst fun i f p h1 h2 h3 h4 => by
    have := hρi (i, ⟨f - 1, by omega⟩, ⟨p - 1, by omega⟩)
    simpa only [Nat.sub_add_cancel h1, Nat.sub_add_cancel h3] using this
  exact ⟨run, s, h1, h2, h3, h4⟩

/-! ### A concrete case -/

/-- A junction with a resistive and a reactive current behind a small impedance: C121 applies, and the
hypotheses of C122 hold. -/
example : ∃ ε : ℝ, 0 < ε ∧
    (¬ ztZero (embed (cct1 1).toCct (fun _ _ => 1) fun _ _ => (ε : ℂ)) ∧
      ∃ m : ℕ, ∀ maxIt : ℤ, (m : ℤ) ≤ maxIt → ∃ run s,
        harmonicBalance (embed (cct1 1).toCct (fun _ _ => 1) fun _ _ => (ε : ℂ)) (fun x => (x : ℂ) + I * |x|) (.int 1)
          maxIt (1 / 1000) none 1 .o 0.67 = .ok run ∧ run.stopped = some s ∧ s.exit = .target ∧ s.updates ≤ m) := by
  obtain ⟨ε, hε, hc⟩ := C121_default one_pos (cct1 1).toCct (fun x => (x : ℂ) + I * |x|) (.int 1) (cct1_valid 1)
  have hz : ¬ ztZero (embed (cct1 1).toCct (fun _ _ => 1) fun _ _ => (ε : ℂ)) := by
    intro h0
    have : (ε : ℂ) = 0 := h0 1 1 le_rfl le_rfl
    exact hε.ne' (by exact_mod_cast this)
  refine ⟨ε, hε, hz, ?_⟩
  have hne : ∀ f p : ℕ, 1 ≤ f → f ≤ (cct1 1).numF → 1 ≤ p → p ≤ (cct1 1).numP →
      ‖(ε : ℂ)‖ ≤ ε ∧ (0.67 : ℂ) + (ε : ℂ) ≠ 0 := by
    refine fun f p _ _ _ _ => ⟨by rw [norm_real, Real.norm_of_nonneg hε.le], fun h0 => ?_⟩
    have := congrArg Complex.re h0
    norm_num at this
    linarith
  obtain ⟨m, hm⟩ := hc (fun _ _ => 1) (fun _ _ => (ε : ℂ)) 0.67 hne hz (1 / 1000) 1 (by norm_num) one_pos le_rfl
  exact ⟨m, fun maxIt => hm maxIt .o⟩

example : ∃ (zt : ℂ) (xs : Fin 1 → Fin 1 → ℂ) (κ : ℝ), zt ≠ 0 ∧ (∀ i k, xs i k ≠ 0) ∧
    ∀ ρ i, Spec.NearLinear (n := 1) (equations (embed (cct1 1).toCct (fun _ _ => 1) fun _ _ => zt)
      (fun x => (x : ℂ) + I * |x|) (.int 1) i) (xs i) ρ (-LinearMap.id) 1 κ := by
  obtain ⟨ε, hε, hc⟩ := small_near (cct1 1).toCct (fun x => (x : ℂ) + I * |x|) (.int 1)
  obtain ⟨xs, -, hx, κ, -, hκ⟩ := hc (fun _ _ => 1) (fun _ _ => (ε : ℂ)) fun f p _ _ _ _ => by
    rw [norm_real, Real.norm_of_nonneg hε.le]
  exact ⟨ε, xs, κ, by exact_mod_cast hε.ne', hx, hκ⟩

end QMix.Props
