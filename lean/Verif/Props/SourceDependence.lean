import Verif.Lemmas.LocalInverse
import Verif.Props.Regular
import Verif.Props.SmoothCurrent

/-!
# How the solution depends on the source voltages (C151)

Near a regular solution the circuit equations determine the junction voltages as smooth functions of the source voltages, and the
derivative is the one of the linearised circuit: small-signal analysis is the first order of the large-signal solution.
-/

namespace QMix.Props

open Complex Metric QMix.Qt QMix.HB
open scoped ContDiff

/-- The source voltages of all signals as a vector. -/
def sources {F P : ℕ} (vt : ℕ → ℕ → ℂ) : Fin (F * P) → ℂ := fun k => vt (k / P + 1) (k % P + 1)

theorem contDiff_curB {N : ℕ} (base : Cct (Fin N)) (resp : ℝ → ℂ) (nb : NumB) (i : Fin N) (k : Fin (base.numF * base.numP)) :
    ContDiff ℝ ∞ fun x => curB base resp nb i x k := by
  unfold curB
  refine contDiff_qt resp (fun x => Spec.signal x) base.freq base.numF base.numP _ (fun g p _ _ _ _ => ?_) _ _
  simp only [← signalL_apply]
  exact (signalL g p).contDiff

/-- The source voltages that make given junction voltages a solution. -/
noncomputable def needed {N : ℕ} (base : Cct (Fin N)) (zt : ℕ → ℕ → ℂ) (resp : ℝ → ℂ) (nb : NumB) (i : Fin N)
    (x : Fin (base.numF * base.numP) → ℂ) : Fin (base.numF * base.numP) → ℂ :=
  fun k => zt (k / base.numP + 1) (k % base.numP + 1) * curB base resp nb i x k + x k

theorem contDiff_needed {N : ℕ} (base : Cct (Fin N)) (zt : ℕ → ℕ → ℂ) (resp : ℝ → ℂ) (nb : NumB) (i : Fin N) :
    ContDiff ℝ ∞ (needed base zt resp nb i) :=
  contDiff_pi.2 fun k => (contDiff_const.mul (contDiff_curB base resp nb i k)).add (contDiff_apply ℝ ℂ k)

theorem circuit_needed {N : ℕ} (base : Cct (Fin N)) (vt zt : ℕ → ℕ → ℂ) (resp : ℝ → ℂ) (nb : NumB) (i : Fin N)
    (x : Fin (base.numF * base.numP) → ℂ) :
    circuit base vt zt resp nb i x = sources (Spec.source vt) - needed base zt resp nb i x := by
  funext k
  rw [circuit_apply]
  simp only [Pi.sub_apply, needed, sources]
  ring

theorem sources_source {F P : ℕ} {vt : ℕ → ℕ → ℂ} (h : ∀ f p, 1 ≤ f → f ≤ F → 1 ≤ p → p ≤ P → 1 / 10 ^ 10 ≤ ‖vt f p‖) :
    (sources (Spec.source vt) : Fin (F * P) → ℂ) = sources vt := by
  funext k
  have hk := signal_range k
  unfold sources Spec.source
  rw [if_neg (not_lt.2 (h _ _ (Nat.le_add_left _ _) hk.1 (Nat.le_add_left _ _) hk.2))]

/-- C151. Let `xs` solve the circuit equations at a bias point, all source voltages being above `1e-10`, and let the derivative `A` of
the equations at `xs` be invertible. For all source voltages within some `ε` of the given ones there is exactly one solution within some
`δ` of `xs`. It depends smoothly on the source voltages, and its change with them is, to first order, the solution of the linearised
equations. -/
theorem C151_solution {N : ℕ} (base : Cct (Fin N)) (resp : ℝ → ℂ) (nb : NumB) (vt zt : ℕ → ℕ → ℂ) (i : Fin N)
    (hvt : ∀ f p, 1 ≤ f → f ≤ base.numF → 1 ≤ p → p ≤ base.numP → 1 / 10 ^ 10 < ‖vt f p‖)
    (xs : Fin (base.numF * base.numP) → ℂ) (hsol : circuit base vt zt resp nb i xs = 0)
    (A : (Fin (base.numF * base.numP) → ℂ) →L[ℝ] (Fin (base.numF * base.numP) → ℂ))
    (hA : HasFDerivAt (circuit base vt zt resp nb i) A xs) (hinj : ∀ u, A u = 0 → u = 0) :
    ∃ (ε δ : ℝ) (g : (Fin (base.numF * base.numP) → ℂ) → Fin (base.numF * base.numP) → ℂ), 0 < ε ∧ 0 < δ ∧
      (∀ vt' : ℕ → ℕ → ℂ, (∀ f p, 1 ≤ f → f ≤ base.numF → 1 ≤ p → p ≤ base.numP → ‖vt' f p - vt f p‖ < ε) →
        ‖g (sources vt') - xs‖ < δ ∧
        ∀ x, ‖x - xs‖ < δ → (circuit base vt' zt resp nb i x = 0 ↔ x = g (sources vt'))) ∧
      ContDiffOn ℝ ∞ g (ball (sources vt) ε) ∧
      ∃ D : (Fin (base.numF * base.numP) → ℂ) →L[ℝ] (Fin (base.numF * base.numP) → ℂ),
        HasFDerivAt g D (sources vt) ∧ ∀ u, A (D u) = -u := by
  have hn : HasFDerivAt (needed base zt resp nb i) (-A) xs := by
    have e : needed base zt resp nb i = fun x => sources (Spec.source vt) - circuit base vt zt resp nb i x := by
      funext x
      rw [circuit_needed]
      abel
    rw [e]
    exact hA.const_sub _
  have hs := sources_source (F := base.numF) (P := base.numP) fun f p a b c d => (hvt f p a b c d).le
  have h0 : needed base zt resp nb i xs = sources vt := by
    rw [circuit_needed, sub_eq_zero, hs] at hsol
    exact hsol.symm
  obtain ⟨g, ε, δ, hε, hδ, hg0, hg, huniq⟩ := exists_local_inverse (contDiff_needed base zt resp nb i) hn fun u hu => hinj u (by
    simpa using hu)
  rw [h0] at hg0 hg huniq
  -- the sources stay above the threshold
  obtain ⟨c, hc, hcv⟩ := exists_common_pos (fun y : Fin base.numF × Fin base.numP => ‖vt (y.1 + 1) (y.2 + 1)‖ - 1 / 10 ^ 10)
    fun y => by
      have := hvt (y.1 + 1) (y.2 + 1) (Nat.le_add_left _ _) (by omega) (Nat.le_add_left _ _) (by omega)
      linarith
  refine ⟨min ε c, δ, g, lt_min hε hc, hδ, fun vt' hv' => ?_, hg.mono (ball_subset_ball (min_le_left _ _)), ?_⟩
  · have hb : ∀ f p, 1 ≤ f → f ≤ base.numF → 1 ≤ p → p ≤ base.numP → 1 / 10 ^ 10 ≤ ‖vt' f p‖ := by
      intro f p h1 h2 h3 h4
      have h5 := hcv (⟨f - 1, by omega⟩, ⟨p - 1, by omega⟩)
      simp only [Nat.sub_add_cancel h1, Nat.sub_add_cancel h3] at h5
      have h6 := (hv' f p h1 h2 h3 h4).trans_le (min_le_right _ _)
      have h7 := norm_sub_norm_le (vt f p) (vt' f p)
      rw [norm_sub_rev] at h7
      linarith
    have hd : ‖(sources vt' : Fin (base.numF * base.numP) → ℂ) - sources vt‖ < ε := by
      refine (pi_norm_lt_iff hε).2 fun k => ?_
      have hk := signal_range k
      exact (hv' _ _ (Nat.le_add_left _ _) hk.1 (Nat.le_add_left _ _) hk.2).trans_le (min_le_left _ _)
    obtain ⟨h1, h2⟩ := huniq _ hd
    refine ⟨h1, fun x hx => ?_⟩
    rw [circuit_needed, sub_eq_zero, sources_source hb, eq_comm]
    exact h2 x hx
  · have hgd : DifferentiableAt ℝ g (sources vt) :=
      ((hg.contDiffAt (ball_mem_nhds _ hε)).differentiableAt (by simp))
    refine ⟨fderiv ℝ g (sources vt), hgd.hasFDerivAt, fun u => ?_⟩
    have hn' : HasFDerivAt (needed base zt resp nb i) (-A) (g (sources vt)) := by
      rw [hg0]; exact hn
    have h1 := hn'.comp _ hgd.hasFDerivAt
    have h2 : HasFDerivAt (needed base zt resp nb i ∘ g) (ContinuousLinearMap.id ℝ _) (sources vt) := by
      refine (hasFDerivAt_id _).congr_of_eventuallyEq ?_
      filter_upwards [ball_mem_nhds (sources vt) hε] with y hy
      rw [mem_ball, dist_eq_norm] at hy
      obtain ⟨h3, h4⟩ := huniq y hy
      exact (h4 _ h3).2 rfl
    have h5 := congrArg (fun L => L u) (h1.unique h2)
    simp only [ContinuousLinearMap.comp_apply, ContinuousLinearMap.neg_apply, ContinuousLinearMap.id_apply] at h5
    exact neg_eq_iff_eq_neg.1 h5

/-- C151, currents. With regular solutions at all bias points: for nearby source voltages, the current that `qtcurrent` gives for the
solution is, at every frequency and bias point, a smooth function of the source voltages. -/
theorem C151_current {N : ℕ} (base : Cct (Fin N)) (resp : ℝ → ℂ) (nb : NumB) (h : Valid base nb) (vt zt : ℕ → ℕ → ℂ)
    (hvt : ∀ f p, 1 ≤ f → f ≤ base.numF → 1 ≤ p → p ≤ base.numP → 1 / 10 ^ 10 < ‖vt f p‖)
    (xs : Fin N → Fin (base.numF * base.numP) → ℂ) (hsol : ∀ i, circuit base vt zt resp nb i (xs i) = 0)
    (A : Fin N → (Fin (base.numF * base.numP) → ℂ) →L[ℝ] (Fin (base.numF * base.numP) → ℂ))
    (hA : ∀ i, HasFDerivAt (circuit base vt zt resp nb i) (A i) (xs i)) (hinj : ∀ i u, A i u = 0 → u = 0) (fl : List ℝ) :
    ∃ (ε : ℝ) (δ : Fin N → ℝ) (cur : (Fin (base.numF * base.numP) → ℂ) → ℝ → Arr (Fin N)), 0 < ε ∧ (∀ i, 0 < δ i) ∧
      (∀ vt' : ℕ → ℕ → ℂ, (∀ f p, 1 ≤ f → f ≤ base.numF → 1 ≤ p → p ≤ base.numP → ‖vt' f p - vt f p‖ < ε) →
        ∃ v : ℕ → ℕ → Arr (Fin N), (∀ i, ∃ x, ‖x - xs i‖ < δ i ∧ circuit base vt' zt resp nb i x = 0 ∧ Spec.signal x = fun f p => v f p i) ∧
          qtcurrentList v base resp fl nb none = .ok (fl.map (cur (sources vt')))) ∧
      ∀ f i, ContDiffOn ℝ ∞ (fun s => cur s f i) (ball (sources vt) ε) := by
  choose ε δ g hε hδ hg hsm _ using fun i => C151_solution base resp nb vt zt i hvt (xs i) (hsol i) (A i) (hA i) (hinj i)
  obtain ⟨c, hc, hcε⟩ := exists_common_pos ε hε
  refine ⟨c, δ, fun s f i => Spec.qt resp (Spec.signal (g i s)) base.freq base.numF base.numP (nb.toTup base.numF) (base.vb i) f, hc, hδ,
    fun vt' hv' => ⟨fun f p i => Spec.signal (g i (sources vt')) f p, fun i => ?_, qtcurrentList_eq _ base resp fl nb h⟩, fun f i => ?_⟩
  · obtain ⟨h1, h2⟩ := hg i vt' fun f p a b d e => (hv' f p a b d e).trans_le (hcε i)
    exact ⟨_, h1, (h2 _ h1).2 rfl, rfl⟩
  · have h1 : ContDiff ℝ ∞ fun x : Fin (base.numF * base.numP) → ℂ => Spec.qt resp (Spec.signal x) base.freq base.numF base.numP (nb.toTup base.numF) (base.vb i) f := by
      refine contDiff_qt resp (fun x => Spec.signal x) base.freq base.numF base.numP _ (fun g p _ _ _ _ => ?_) _ _
      simp only [← signalL_apply]
      exact (signalL g p).contDiff
    exact h1.comp_contDiffOn ((hsm i).mono (ball_subset_ball (hcε i)))

/-- The hypotheses of C151 hold for the example circuit behind a small impedance. -/
example : ∃ (zt : ℂ) (xs : Fin 1 → Fin 1 → ℂ) (A : Fin 1 → (Fin 1 → ℂ) →L[ℝ] (Fin 1 → ℂ)), zt ≠ 0 ∧
    (∀ i, circuit (cct1 1).toCct (fun _ _ => 1) (fun _ _ => zt) (fun x => (x : ℂ) + I * |x|) (.int 1) i (xs i) = 0) ∧
    (∀ i, HasFDerivAt (circuit (cct1 1).toCct (fun _ _ => 1) (fun _ _ => zt) (fun x => (x : ℂ) + I * |x|) (.int 1) i) (A i) (xs i)) ∧
    ∀ i u, A i u = 0 → u = 0 := by
  obtain ⟨Z, hZ, hs⟩ := small_regular (cct1 1).toCct (fun x => (x : ℂ) + I * |x|) (.int 1) 1 1 zero_le_one zero_le_one
  obtain ⟨-, xs, A, h2, -, h4, h5⟩ := hs (fun _ _ => 1) (fun _ _ => (Z : ℂ)) fun _ _ _ _ _ _ => by
    rw [norm_real, Real.norm_of_nonneg hZ.le]
  refine ⟨Z, xs, A, by exact_mod_cast hZ.ne', h2, h4, fun i u hu => ?_⟩
  have := h5 i u
  have h6 : ‖A i u‖ = 0 := by rw [show A i u = 0 from hu]; exact norm_zero
  rw [h6, mul_zero] at this
  exact norm_le_zero_iff.1 this

end QMix.Props
