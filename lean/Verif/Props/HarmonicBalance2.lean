import Verif.Lemmas.HarmonicBalance3
import Verif.Props.HarmonicBalance

/-!
# Properties C33-C35 and C66-C69: harmonic balance, continued
-/

namespace QMix.Props

open Complex QMix.Qt QMix.HB

/-! ## C33 -/

/-- C33 (partial). If the relative error of the last signal (last tone, last harmonic) is NaN at some
bias point, for the voltage returned, the run did not stop because the target was met. Missing: NaN
in other signals, for which the claim is false (`C33_false_other_signal`). -/
theorem C33_last_signal_partial {N : ℕ} (cct : HCct N) (resp : ℝ → ℂ) (nb : NumB) (maxIt : ℤ)
    (stop : ℝ) (vjInit : Option (ℕ → ℕ → Arr (Fin N))) (damp : ℝ) (mode : Mode) (zj : ℂ)
    (h : Valid cct.toCct nb) (run : Run N (cct.numF * cct.numP))
    (hrun : harmonicBalance cct resp nb maxIt stop vjInit damp mode zj = .ok run)
    (s : Stopped (Sig (cct.numF * cct.numP) N) N) (hs : run.stopped = some s)
    (v : ℕ → ℕ → Arr (Fin N)) (hv : voltage run.res = some v) (i : Fin N)
    (hnan : v cct.numF cct.numP i = 0 ∧ resid run.cct resp nb v cct.numF cct.numP i = 0) :
    s.exit ≠ .target := fun ht =>
  (C27_last_signal cct resp nb maxIt stop vjInit damp mode zj h run hrun s hs ht v hv i).2 hnan.1

/-- C33 is false for the other signals: the witness of `C27_false_with_nan` reports convergence with a
NaN in signal (2, 1) of 3. -/
theorem C33_false_other_signal : ∃ (cct : HCct 1) (resp : ℝ → ℂ) (v0 : ℕ → ℕ → Arr (Fin 1))
    (run : Run 1 (cct.numF * cct.numP)) (s : Stopped (Sig (cct.numF * cct.numP) 1) 1)
    (v : ℕ → ℕ → Arr (Fin 1)), Valid cct.toCct (.int 1) ∧
    harmonicBalance cct resp (.int 1) 10 0.001 (some v0) 1 .x 0.67 = .ok run ∧
    run.stopped = some s ∧ s.exit = .target ∧ voltage run.res = some v ∧
    relDiv ‖resid run.cct resp (.int 1) v 2 1 0‖ ‖v 2 1 0‖ = .nan := by
  obtain ⟨cct, resp, v0, run, s, v, h1, h2, h3, h4, ⟨flag, h5, -⟩, -, h7⟩ := C27_false_with_nan
  exact ⟨cct, resp, v0, run, s, v, h1, h2, h3, h4, by rw [h5]; rfl, h7⟩

/-- C33. The mask of mode `m` never counts a NaN: unless the loop ran to its end, a point is reported
as finished exactly if every signal has a voltage different from 0 and an error below `stop` times that
voltage. -/
theorem C33_mask {N : ℕ} (cct : HCct N) (resp : ℝ → ℂ) (nb : NumB) (maxIt : ℤ)
    (stop : ℝ) (vjInit : Option (ℕ → ℕ → Arr (Fin N))) (damp : ℝ) (mode : Mode) (zj : ℂ)
    (h : Valid cct.toCct nb) (run : Run N (cct.numF * cct.numP))
    (hrun : harmonicBalance cct resp nb maxIt stop vjInit damp mode zj = .ok run)
    (s : Stopped (Sig (cct.numF * cct.numP) N) N) (hs : run.stopped = some s)
    (hex : s.exit ≠ .exhausted) (v : ℕ → ℕ → Arr (Fin N)) (fin : Fin N → Prop)
    (hv : run.res = .masked v fin) (i : Fin N) :
    fin i ↔ ∀ f p, 1 ≤ f → f ≤ cct.numF → 1 ≤ p → p ≤ cct.numP →
      v f p i ≠ 0 ∧ ‖resid run.cct resp nb v f p i‖ < stop * ‖v f p i‖ := by
  by_cases h0 : ztZero cct
  · rw [hb_zero _ _ _ _ _ _ _ _ h0] at hrun
    cases hrun; cases hs
  obtain ⟨start, m, s', hE⟩ := hb_entered h0 hrun
  rw [hE.stopped] at hs
  cases hs
  rw [hE.cct_eq]
  have hres := hE.res
  rw [hv] at hres
  have hr : ∃ r, Evaluated (currentForHb cct resp nb m) (relErr cct.sigVt cct.sigZt) stop s.vj r ∧
      s.mask = some r.2 := by
    obtain ⟨-, hc⟩ := iterate_post _ _ _ _ _ _ _ hE.loop
    rcases hc with hc | hc | hc
    · obtain ⟨-, -, -, -, r, hr, -, hm⟩ := hc
      exact ⟨r, hr, hm⟩
    · obtain ⟨-, -, -, -, -, r, hr, -, hm⟩ := hc
      exact ⟨r, hr, hm⟩
    · exact absurd hc.1 hex
  obtain ⟨r, hr, hm⟩ := hr
  have hvf : v = to3d cct.numF cct.numP s.vj ∧ fin = r.2 := by
    unfold result at hres
    cases mode with
    | o => cases hres
    | x => cases hres
    | m => dsimp only at hres; rw [hm] at hres; cases hres; exact ⟨rfl, rfl⟩
    | other => cases hres
  obtain ⟨rfl, rfl⟩ := hvf
  rw [evaluated_iff cct resp nb h hE.matrix] at hr
  rw [signalLoop_mask hr]
  simp only [relDiv_lt (norm_nonneg _), ne_eq, norm_eq_zero]
  constructor
  · intro hk f p h1 h2 h3 h4
    obtain ⟨k, -, hkf, hkp⟩ := signal_index h1 h2 h3 h4
    have := hk k
    rwa [hkf, hkp] at this
  · intro hk k
    obtain ⟨hf, hp⟩ := signal_range k
    exact hk _ _ (Nat.le_add_left 1 _) hf (Nat.le_add_left 1 _) hp

example : ∃ run v fin, harmonicBalance (cct1 1) (fun _ => 0) (.int 1) 10 0.001
    (some (volt1 1)) 1 .m 0.67 = .ok run ∧ run.res = .masked v fin ∧
    ∃ s, run.stopped = some s ∧ s.exit ≠ .exhausted := by
  obtain ⟨m, hm, -⟩ := matrix_same (cct1 1) (fun _ => 0) (.int 1) (cct1_valid 1)
  obtain ⟨r, hr, hle⟩ := cct1_evaluated 1 1 1 (cct1_clamp 1 (by simp)) one_ne_zero hm 0.001
  have := iterate_target _ _ (update (currentForHb (cct1 1) (fun _ => 0) (.int 1) m)
    (cct1 1).sigVt (cct1 1).sigZt 1) 0.001 10 (by norm_num) hr (hle.2 (by norm_num))
  exact ⟨_, _, _, hb_run (cct1_zt 1) hm this rfl, rfl, _, rfl, by simp⟩

/-! ## C34 -/

/-- C34 (partial). A voltage that `check_hb_error` accepts is accepted by `harmonic_balance` at once,
without an update, when it is given as the starting point. (The Thevenin voltages have to be at least
`1e-10`, below which `harmonic_balance` replaces them and `check_hb_error` does not.) -/
theorem C34_accepted_partial {N : ℕ} (cct : HCct N) (resp : ℝ → ℂ) (nb : NumB) (maxIt : ℤ)
    (stop : ℝ) (v : ℕ → ℕ → Arr (Fin N)) (damp : ℝ) (mode : Mode) (zj : ℂ)
    (h : Valid cct.toCct nb) (hz : ∃ f p, f ≤ cct.numF ∧ p ≤ cct.numP ∧ cct.zt f p ≠ 0)
    (hvt : ∀ f p, 1 ≤ f → f ≤ cct.numF → 1 ≤ p → p ≤ cct.numP → 1 / 10 ^ 10 ≤ ‖cct.vt f p‖)
    (hpos : 0 ≤ maxIt) (hc : checkHbError v cct resp nb stop = .ok ()) :
    ∃ run s, harmonicBalance cct resp nb maxIt stop (some v) damp mode zj = .ok run ∧
      run.stopped = some s ∧ s.exit = .target ∧ s.updates = 0 := by
  have h0 : ¬ ztZero cct := by
    intro hz'
    obtain ⟨f, p, hf, hp, hne⟩ := hz
    exact hne (hz' f p hf hp)
  rw [check_ok_iff cct resp nb h] at hc
  obtain ⟨hN, hc⟩ := hc
  obtain ⟨m, hm, -⟩ := matrix_same cct resp nb h
  have hlt : ∀ (k : Fin (cct.numF * cct.numP)) (i : Fin N),
      (relDiv ‖resid cct.clamp resp nb (to3d cct.numF cct.numP (to2d cct.numF cct.numP v))
        (k / cct.numP + 1) (k % cct.numP + 1) i‖
        ‖to3d cct.numF cct.numP (to2d cct.numF cct.numP v) (k / cct.numP + 1)
          (k % cct.numP + 1) i‖).lt (.fin stop) := by
    intro k i
    obtain ⟨hf, hp⟩ := signal_range k
    rw [resid_round cct _ _ v (Nat.le_add_left 1 _) hf (Nat.le_add_left 1 _) hp,
      to3d_to2d v (Nat.le_add_left 1 _) hf (Nat.le_add_left 1 _) hp, resid_clamp cct _ _ _
      (Nat.le_add_left 1 _) (Nat.le_add_left 1 _)
      (hvt _ _ (Nat.le_add_left 1 _) hf (Nat.le_add_left 1 _) hp)]
    exact hc _ _ (Nat.le_add_left 1 _) hf (Nat.le_add_left 1 _) hp i
  obtain ⟨r, hr⟩ := signalLoop_total (n := cct.numF * cct.numP) (N := N) (stop := stop)
    (rel := fun k i => relDiv ‖resid cct.clamp resp nb (to3d cct.numF cct.numP
      (to2d cct.numF cct.numP v)) (k / cct.numP + 1) (k % cct.numP + 1) i‖
        ‖to3d cct.numF cct.numP (to2d cct.numF cct.numP v) (k / cct.numP + 1)
          (k % cct.numP + 1) i‖) hN
  have hle : r.1.le (.fin stop) := by
    rw [(signalLoop_le_iff hr (fun k i hn => by
      have := hlt k i
      rw [hn] at this
      exact this) stop).2]
    refine ⟨?_, fun k i => lt_imp_le (hlt k i)⟩
    have := hc 1 1 le_rfl h.tones_pos le_rfl h.harmonics ⟨0, hN⟩
    exact (relDiv_lt_pos (norm_nonneg _) (norm_nonneg _) this).le
  have hev := (evaluated_iff cct resp nb h hm stop (to2d cct.numF cct.numP v) r).2 hr
  have hit := iterate_target _ _ (update (currentForHb cct resp nb m) cct.sigVt cct.sigZt damp)
    stop maxIt hpos hev hle
  obtain ⟨res, hres⟩ := result_total (F := cct.numF) (P := cct.numP) mode maxIt
    { vj := to2d cct.numF cct.numP v, iteration := 0, exit := .target, mask := some r.2, evals := 1,
      updates := 0 } rfl
  exact ⟨_, _, hb_run h0 hm hit hres, rfl, rfl, rfl⟩

/-- C34 (partial), the converse. A voltage at which `harmonic_balance` stops because the target is met
is accepted by `check_hb_error`, unless a relative error is NaN or exactly equal to `stop`. Missing:
those two cases; for the second see `C34_false_boundary`. -/
theorem C34_converse_partial {N : ℕ} (cct : HCct N) (resp : ℝ → ℂ) (nb : NumB) (maxIt : ℤ)
    (stop : ℝ) (vjInit : Option (ℕ → ℕ → Arr (Fin N))) (damp : ℝ) (mode : Mode) (zj : ℂ)
    (h : Valid cct.toCct nb)
    (hvt : ∀ f p, 1 ≤ f → f ≤ cct.numF → 1 ≤ p → p ≤ cct.numP → 1 / 10 ^ 10 ≤ ‖cct.vt f p‖)
    (run : Run N (cct.numF * cct.numP))
    (hrun : harmonicBalance cct resp nb maxIt stop vjInit damp mode zj = .ok run)
    (s : Stopped (Sig (cct.numF * cct.numP) N) N) (hs : run.stopped = some s)
    (ht : s.exit = .target) (v : ℕ → ℕ → Arr (Fin N)) (hv : voltage run.res = some v)
    (hN : 0 < N) (hne : ∀ f p i, 1 ≤ f → f ≤ cct.numF → 1 ≤ p → p ≤ cct.numP →
      v f p i ≠ 0 ∧ ‖resid cct resp nb v f p i‖ ≠ stop * ‖v f p i‖) :
    checkHbError v cct resp nb stop = .ok () := by
  rw [check_ok_iff cct resp nb h]
  refine ⟨hN, fun f p h1 h2 h3 h4 i => ?_⟩
  have hcl : run.cct = cct.clamp := by
    obtain ⟨start, m, r, hE, -⟩ := entered_target hs ht hrun
    exact hE.cct_eq
  have := C27_converged_partial cct resp nb maxIt stop vjInit damp mode zj h run hrun s hs ht v hv
    (fun f p i h1 h2 h3 h4 hh => (hne f p i h1 h2 h3 h4).1 hh.1) f p i h1 h2 h3 h4
  rw [hcl, resid_clamp cct resp nb v h1 h3 (hvt f p h1 h2 h3 h4)] at this
  rw [relDiv_lt (norm_nonneg _)]
  exact ⟨norm_ne_zero_iff.2 (hne f p i h1 h2 h3 h4).1,
    lt_of_le_of_ne this (hne f p i h1 h2 h3 h4).2⟩

/-- C34 is false at the boundary: with a relative error of exactly 1/2 and a tolerance of 1/2,
`harmonic_balance` stops because the target is met and `check_hb_error` raises `AssertionError`. -/
theorem C34_false_boundary : ∃ (cct : HCct 1) (resp : ℝ → ℂ) (v : ℕ → ℕ → Arr (Fin 1))
    (run : Run 1 (cct.numF * cct.numP)) (s : Stopped (Sig (cct.numF * cct.numP) 1) 1),
    Valid cct.toCct (.int 1) ∧
    harmonicBalance cct resp (.int 1) 10 (1 / 2) (some v) 1 .x 0.67 = .ok run ∧
    run.stopped = some s ∧ s.exit = .target ∧ s.updates = 0 ∧
    checkHbError v cct resp (.int 1) (1 / 2) ≠ .ok () := by
  obtain ⟨run, hr, -, -, s, hs, ht, hu⟩ := cct1_run_target 1 1 2 (cct1_clamp 1 (by simp)) (by norm_num)
    (1 / 2) 1 10 (by norm_num) (by norm_num) (by norm_num) 0.67
  refine ⟨cct1 1, _, volt1 2, run, s, cct1_valid 1, hr, hs, ht, hu, ?_⟩
  rw [Ne, check_ok_iff _ _ _ (cct1_valid 1)]
  rintro ⟨-, hc⟩
  have := hc 1 1 le_rfl le_rfl le_rfl le_rfl 0
  rw [relDiv_lt (norm_nonneg _), resid_zero] at this
  have := this.2
  norm_num [cct1, volt1] at this

/-- The hypotheses of C34 can be met. -/
example : checkHbError (volt1 1) (cct1 1) (fun _ => 0) (.int 1) 0.001 = .ok () := by
  rw [check_ok_iff _ _ _ (cct1_valid 1)]
  refine ⟨by norm_num, fun f p h1 h2 h3 h4 i => ?_⟩
  obtain rfl : f = 1 := le_antisymm h2 h1
  obtain rfl : p = 1 := le_antisymm h4 h3
  rw [relDiv_lt (norm_nonneg _), resid_zero]
  norm_num [cct1, volt1]

/-! ## C35 -/

/-- C35. Let the current be a real-affine function of the voltages, at each bias point separately. If
an update with damping `d` succeeds (the Jacobian is invertible at every point), what the circuit
equations leave over after it is `1 - d` times what they left over before. -/
theorem C35_newton_affine {n N : ℕ} (cur : Sig n N → Py (Sig n N)) (vt zt : Fin n → ℂ) (d : ℝ)
    (c : Sig n N) (L : Fin N → (Fin n → ℂ) →ₗ[ℝ] (Fin n → ℂ))
    (hcur : ∀ v, cur v = .ok fun k i => c k i + L i (fun k => v k i) k) (vj ij w : Sig n N)
    (hij : cur vj = .ok ij) (hw : update cur vt zt d vj ij = .ok w) (ij' : Sig n N)
    (hij' : cur w = .ok ij') (k : Fin n) (i : Fin N) :
    vt k - zt k * ij' k i - w k i = (1 - d) * (vt k - zt k * ij k i - vj k i) :=
  update_affine cur vt zt d c L hcur vj ij w hij hw ij' hij' k i

/-- C35. An undamped update solves the circuit equations of an affine current. -/
theorem C35_newton_exact {n N : ℕ} (cur : Sig n N → Py (Sig n N)) (vt zt : Fin n → ℂ)
    (c : Sig n N) (L : Fin N → (Fin n → ℂ) →ₗ[ℝ] (Fin n → ℂ))
    (hcur : ∀ v, cur v = .ok fun k i => c k i + L i (fun k => v k i) k) (vj ij w : Sig n N)
    (hij : cur vj = .ok ij) (hw : update cur vt zt 1 vj ij = .ok w) (ij' : Sig n N)
    (hij' : cur w = .ok ij') (k : Fin n) (i : Fin N) :
    vt k = zt k * ij' k i + w k i := by
  have := C35_newton_affine cur vt zt 1 c L hcur vj ij w hij hw ij' hij' k i
  rw [Complex.ofReal_one, sub_self, zero_mul, sub_sub, sub_eq_zero] at this
  exact this

/-- C35. The Jacobian is invertible at every point exactly if the linear part of the circuit equations
is, so the update succeeds. -/
theorem C35_update_succeeds {n N : ℕ} (cur : Sig n N → Py (Sig n N)) (vt zt : Fin n → ℂ) (d : ℝ)
    (c : Sig n N) (L : Fin N → (Fin n → ℂ) →ₗ[ℝ] (Fin n → ℂ))
    (hcur : ∀ v, cur v = .ok fun k i => c k i + L i (fun k => v k i) k) (vj ij : Sig n N)
    (hij : cur vj = .ok ij)
    (hinj : ∀ i x, (∀ k, zt k * L i x k + x k = 0) → x = 0) :
    ∃ w, update cur vt zt d vj ij = .ok w :=
  update_affine_ok cur vt zt d c L hcur vj ij hij hinj

/-- A current with a conjugated voltage, `3 + 2 conj v`, at two points. -/
example : ∃ (cur : Sig 1 2 → Py (Sig 1 2)) (c : Sig 1 2) (L : Fin 2 → (Fin 1 → ℂ) →ₗ[ℝ] (Fin 1 → ℂ))
    (w : Sig 1 2), (∀ v, cur v = .ok fun k i => c k i + L i (fun k => v k i) k) ∧
    update cur (fun _ => 7) (fun _ => 1) 1 (fun _ _ => 0) (fun _ _ => 3) = .ok w := by
  let L : (Fin 1 → ℂ) →ₗ[ℝ] (Fin 1 → ℂ) :=
    { toFun := fun x k => 2 * (starRingEnd ℂ) (x k)
      map_add' := by intro x y; funext k; simp; ring
      map_smul' := by intro r x; funext k; simp; ring }
  obtain ⟨w, hw⟩ := C35_update_succeeds
    (fun v => .ok fun k i => 3 + L (fun k => v k i) k) (fun _ => 7) (fun _ => 1) 1
    (fun _ _ => 3) (fun _ => L) (fun _ => rfl) (fun _ _ => 0) (fun _ _ => 3) (by
      congr 1
      funext k i
      show 3 + 2 * (starRingEnd ℂ) (0 : ℂ) = 3
      simp) (by
      intro i x hx
      funext k
      have hk : 1 * (2 * (starRingEnd ℂ) (x k)) + x k = 0 := hx k
      have hre := congrArg Complex.re hk
      have him := congrArg Complex.im hk
      simp at hre him
      apply Complex.ext
      · show (x k).re = 0
        linarith
      · show (x k).im = 0
        linarith)
  exact ⟨_, _, _, w, fun _ => rfl, hw⟩

/-! ## C66 -/

/-- C66. A run that met its target can be restarted: calling `harmonic_balance` with the voltage
returned and the circuit as it was left stops at once, without an update and with the same voltage,
whatever the damping, the iteration limit, the mode and the impedance guess. -/
theorem C66_restart {N : ℕ} (cct : HCct N) (resp : ℝ → ℂ) (nb : NumB) (maxIt : ℤ)
    (stop : ℝ) (vjInit : Option (ℕ → ℕ → Arr (Fin N))) (damp : ℝ) (mode : Mode) (zj : ℂ)
    (h : Valid cct.toCct nb) (run : Run N (cct.numF * cct.numP))
    (hrun : harmonicBalance cct resp nb maxIt stop vjInit damp mode zj = .ok run)
    (s : Stopped (Sig (cct.numF * cct.numP) N) N) (hs : run.stopped = some s)
    (ht : s.exit = .target) (v : ℕ → ℕ → Arr (Fin N)) (hv : voltage run.res = some v)
    (maxIt' : ℤ) (hpos : 0 ≤ maxIt') (damp' : ℝ) (mode' : Mode) (zj' : ℂ) :
    ∃ run' s', harmonicBalance run.cct resp nb maxIt' stop (some v) damp' mode' zj' = .ok run' ∧
      run'.stopped = some s' ∧ s'.exit = .target ∧ s'.updates = 0 ∧ run'.cct = run.cct ∧
      (mode' ≠ .other → voltage run'.res = some v) := by
  obtain ⟨start, m, r, hE, h0, hr, hle⟩ := entered_target hs ht hrun
  have hv' := voltage_result hE.res hv
  subst hv'
  obtain ⟨res, c, vi, st⟩ := run
  obtain rfl : c = cct.clamp := hE.cct_eq
  dsimp only
  have hev : Evaluated (currentForHb cct.clamp resp nb m) (relErr cct.clamp.sigVt cct.clamp.sigZt)
      stop (to2d cct.clamp.numF cct.clamp.numP (to3d cct.numF cct.numP s.vj)) r := by
    have e1 : cct.clamp.sigVt = cct.sigVt := by
      show to1d _ _ (clampVt (clampVt cct.vt)) = _
      rw [clampVt_clampVt]
      rfl
    have e2 : to2d cct.clamp.numF cct.clamp.numP (to3d cct.numF cct.numP s.vj) = s.vj :=
      to2d_to3d s.vj
    rw [e1, e2]
    exact hr
  have hit := iterate_target _ _ (update (currentForHb cct.clamp resp nb m) cct.clamp.sigVt
    cct.clamp.sigZt damp') stop maxIt' hpos hev hle
  obtain ⟨res', hres'⟩ := result_total (F := cct.clamp.numF) (P := cct.clamp.numP) mode' maxIt'
    { vj := to2d cct.clamp.numF cct.clamp.numP (to3d cct.numF cct.numP s.vj), iteration := 0,
      exit := .target, mask := some r.2, evals := 1, updates := 0 } rfl
  refine ⟨_, _, hb_run (cct := cct.clamp) h0 hE.matrix hit hres', rfl, rfl, rfl, clamp_clamp cct, ?_⟩
  intro hm
  have e : to3d cct.clamp.numF cct.clamp.numP (to2d cct.clamp.numF cct.clamp.numP
      (to3d cct.numF cct.numP s.vj)) = to3d cct.numF cct.numP s.vj :=
    congrArg (to3d cct.numF cct.numP) (to2d_to3d s.vj)
  dsimp only
  unfold result at hres'
  cases mode' with
  | o => cases hres'; exact congrArg some e
  | x => cases hres'; exact congrArg some e
  | m => cases hres'; exact congrArg some e
  | other => exact absurd rfl hm

example : ∃ run s v, harmonicBalance (cct1 1) (fun _ => 0) (.int 1) 10 0.001
    (some (volt1 1)) 1 .x 0.67 = .ok run ∧ run.stopped = some s ∧ s.exit = .target ∧
    voltage run.res = some v := by
  obtain ⟨run, h, -, hr, s, hs, ht, -⟩ := cct1_run_target 1 1 1 (cct1_clamp 1 (by simp)) one_ne_zero
    0.001 1 10 (by norm_num) (by norm_num) (by norm_num) 0.67
  exact ⟨run, s, _, h, hs, ht, by rw [hr]; rfl⟩

/-! ## C67 -/

/-- C67. Once the iteration is entered, the voltage returned is zero in row 0 (there is no tone 0) and
in column 0 (there is no harmonic 0), at every bias point, whatever the starting point contains
there. -/
theorem C67_zero_entries {N : ℕ} (cct : HCct N) (resp : ℝ → ℂ) (nb : NumB) (maxIt : ℤ)
    (stop : ℝ) (vjInit : Option (ℕ → ℕ → Arr (Fin N))) (damp : ℝ) (mode : Mode) (zj : ℂ)
    (run : Run N (cct.numF * cct.numP))
    (hrun : harmonicBalance cct resp nb maxIt stop vjInit damp mode zj = .ok run)
    (s : Stopped (Sig (cct.numF * cct.numP) N) N) (hs : run.stopped = some s)
    (v : ℕ → ℕ → Arr (Fin N)) (hv : voltage run.res = some v) (f p : ℕ) (i : Fin N)
    (hfp : f = 0 ∨ p = 0) : v f p i = 0 := by
  by_cases h0 : ztZero cct
  · rw [hb_zero _ _ _ _ _ _ _ _ h0] at hrun
    cases hrun; cases hs
  obtain ⟨start, m, s', hE⟩ := hb_entered h0 hrun
  have hv' := voltage_result hE.res hv
  subst hv'
  rw [to3d_out _ (by omega)]
  rfl

/-! ## C68 -/

/-- C68. A bias point at which the starting voltage satisfies the circuit equations exactly is left
there: the run returns the starting voltage at that point, whatever happens at the other points. -/
theorem C68_solved_point_stays {N : ℕ} (cct : HCct N) (resp : ℝ → ℂ) (nb : NumB) (maxIt : ℤ)
    (stop : ℝ) (v0 : ℕ → ℕ → Arr (Fin N)) (damp : ℝ) (mode : Mode) (zj : ℂ)
    (h : Valid cct.toCct nb) (run : Run N (cct.numF * cct.numP))
    (hrun : harmonicBalance cct resp nb maxIt stop (some v0) damp mode zj = .ok run)
    (s : Stopped (Sig (cct.numF * cct.numP) N) N) (hs : run.stopped = some s)
    (v : ℕ → ℕ → Arr (Fin N)) (hv : voltage run.res = some v) (i : Fin N)
    (hsol : ∀ f p, 1 ≤ f → f ≤ cct.numF → 1 ≤ p → p ≤ cct.numP → resid run.cct resp nb v0 f p i = 0)
    (f p : ℕ) (h1 : 1 ≤ f) (h2 : f ≤ cct.numF) (h3 : 1 ≤ p) (h4 : p ≤ cct.numP) :
    v f p i = v0 f p i := by
  by_cases h0 : ztZero cct
  · rw [hb_zero _ _ _ _ _ _ _ _ h0] at hrun
    cases hrun; cases hs
  obtain ⟨start, m, s', hE⟩ := hb_entered h0 hrun
  obtain rfl : start = v0 := (Except.ok.inj hE.start_eq).symm
  have hv' := voltage_result hE.res hv
  subst hv'
  rw [hE.cct_eq] at hsol
  obtain ⟨⟨t, -, hsteps⟩, -⟩ := iterate_post _ _ _ _ _ _ _ hE.loop
  have hfix : ∀ k, s'.vj k i = to2d cct.numF cct.numP start k i := by
    refine steps_fixed (current_local_self cct resp nb h hE.matrix i) _ _ damp t
      (currentForHb_eq cct resp nb h hE.matrix _) ?_ hsteps
    intro k
    obtain ⟨hf, hp⟩ := signal_range k
    rw [errVec_resid, resid_round cct _ _ start (Nat.le_add_left 1 _) hf (Nat.le_add_left 1 _) hp]
    exact hsol _ _ (Nat.le_add_left 1 _) hf (Nat.le_add_left 1 _) hp
  obtain ⟨k, -, hkf, hkp⟩ := signal_index h1 h2 h3 h4
  have e1 : to3d cct.numF cct.numP s'.vj f p i = s'.vj k i := by
    conv_rhs => rw [← to2d_to3d s'.vj]
    show _ = to3d cct.numF cct.numP s'.vj (k / cct.numP + 1) (k % cct.numP + 1) i
    rw [hkf, hkp]
  rw [e1, hfix]
  show start (k / cct.numP + 1) (k % cct.numP + 1) i = _
  rw [hkf, hkp]

/-- C68. With a damping coefficient of 0 the voltage returned is the starting voltage. -/
theorem C68_damping_zero {N : ℕ} (cct : HCct N) (resp : ℝ → ℂ) (nb : NumB) (maxIt : ℤ)
    (stop : ℝ) (v0 : ℕ → ℕ → Arr (Fin N)) (mode : Mode) (zj : ℂ) (run : Run N (cct.numF * cct.numP))
    (hrun : harmonicBalance cct resp nb maxIt stop (some v0) 0 mode zj = .ok run)
    (s : Stopped (Sig (cct.numF * cct.numP) N) N) (hs : run.stopped = some s)
    (v : ℕ → ℕ → Arr (Fin N)) (hv : voltage run.res = some v)
    (f p : ℕ) (h1 : 1 ≤ f) (h2 : f ≤ cct.numF) (h3 : 1 ≤ p) (h4 : p ≤ cct.numP) :
    v f p = v0 f p := by
  by_cases h0 : ztZero cct
  · rw [hb_zero _ _ _ _ _ _ _ _ h0] at hrun
    cases hrun; cases hs
  obtain ⟨start, m, s', hE⟩ := hb_entered h0 hrun
  obtain rfl : start = v0 := (Except.ok.inj hE.start_eq).symm
  have hv' := voltage_result hE.res hv
  subst hv'
  obtain ⟨⟨t, -, hsteps⟩, -⟩ := iterate_post _ _ _ _ _ _ _ hE.loop
  rw [steps_damp_zero _ _ t hsteps, to3d_to2d start h1 h2 h3 h4]

/-! ## C69 -/

/-- C69. Bias points do not influence each other: take two circuits that differ only in their bias
voltages (and their number), bias points of the two with the same bias voltage, and starting voltages
that agree there (`cct.withBias vb` is `cct` with the bias voltages `vb`). If both runs apply the same number of updates, the voltages returned agree
there. -/
theorem C69_points_independent {N M : ℕ} (cct : HCct N) (vb : Fin M → ℝ) (resp : ℝ → ℂ) (nb : NumB)
    (maxIt maxIt' : ℤ) (stop stop' : ℝ) (v0 : ℕ → ℕ → Arr (Fin N)) (v0' : ℕ → ℕ → Arr (Fin M))
    (damp : ℝ) (mode mode' : Mode) (zj zj' : ℂ) (h : Valid cct.toCct nb)
    (run : Run N (cct.numF * cct.numP)) (run' : Run M (cct.numF * cct.numP))
    (hrun : harmonicBalance cct resp nb maxIt stop (some v0) damp mode zj = .ok run)
    (hrun' : harmonicBalance (cct.withBias vb) resp nb maxIt' stop' (some v0') damp mode' zj'
      = .ok run')
    (s : Stopped (Sig (cct.numF * cct.numP) N) N) (hs : run.stopped = some s)
    (s' : Stopped (Sig (cct.numF * cct.numP) M) M) (hs' : run'.stopped = some s')
    (v : ℕ → ℕ → Arr (Fin N)) (hv : voltage run.res = some v)
    (v' : ℕ → ℕ → Arr (Fin M)) (hv' : voltage run'.res = some v')
    (i : Fin N) (j : Fin M) (hij : cct.vb i = vb j) (h0 : ∀ f p, v0 f p i = v0' f p j)
    (hup : s.updates = s'.updates) (f p : ℕ) : v f p i = v' f p j := by
  by_cases hz : ztZero cct
  · rw [hb_zero _ _ _ _ _ _ _ _ hz] at hrun
    cases hrun; cases hs
  obtain ⟨start, m, s1, hE⟩ := hb_entered hz hrun
  obtain ⟨start', m', s1', hE'⟩ := hb_entered (cct := cct.withBias vb) hz hrun'
  obtain rfl : start = v0 := (Except.ok.inj hE.start_eq).symm
  obtain rfl : start' = v0' := (Except.ok.inj hE'.start_eq).symm
  have e1 := hE.stopped
  have e2 := hE'.stopped
  rw [hs] at e1
  rw [hs'] at e2
  cases e1
  cases e2
  have hv1 := voltage_result hE.res hv
  have hv1' := voltage_result hE'.res hv'
  subst hv1
  subst hv1'
  obtain ⟨⟨t, ht, hsteps⟩, -⟩ := iterate_post _ _ _ _ _ _ _ hE.loop
  obtain ⟨⟨t', ht', hsteps'⟩, -⟩ := iterate_post _ _ _ _ _ _ _ hE'.loop
  obtain rfl : t = t' := by omega
  have key := steps_local (current_local cct vb resp nb h hE.matrix hE'.matrix hij) cct.sigVt
    cct.sigZt damp t (v := to2d cct.numF cct.numP start) (v' := to2d cct.numF cct.numP start')
    (fun k => h0 _ _) hsteps hsteps'
  by_cases hr : (1 ≤ f ∧ f ≤ cct.numF) ∧ 1 ≤ p ∧ p ≤ cct.numP
  · obtain ⟨k, -, hkf, hkp⟩ := signal_index hr.1.1 hr.1.2 hr.2.1 hr.2.2
    have e1 : to3d cct.numF cct.numP s.vj f p i = s.vj k i := by
      conv_rhs => rw [← to2d_to3d s.vj]
      show _ = to3d cct.numF cct.numP s.vj (k / cct.numP + 1) (k % cct.numP + 1) i
      rw [hkf, hkp]
    have e2 : to3d cct.numF cct.numP s'.vj f p j = s'.vj k j := by
      conv_rhs => rw [← to2d_to3d s'.vj]
      show _ = to3d cct.numF cct.numP s'.vj (k / cct.numP + 1) (k % cct.numP + 1) j
      rw [hkf, hkp]
    rw [e1]
    exact (key k).trans e2.symm
  · rw [to3d_out _ (by tauto)]
    exact (congrFun (to3d_out (F := cct.numF) (P := cct.numP) s'.vj hr) j).symm

/-- The hypotheses of C67, C68 and C69 can be met: two runs of `cct1` with one update each from the
voltage 2, which solves nothing, and a run from the voltage 1, which solves the equations. -/
example : (∃ run s, harmonicBalance (cct1 1) (fun _ => 0) (.int 1) 10 0.001 (some (volt1 2)) 1 .o 0.67
      = .ok run ∧ run.stopped = some s ∧ s.updates = 1 ∧ (voltage run.res).isSome) ∧
    ∃ run s, harmonicBalance (cct1 1) (fun _ => 0) (.int 1) 10 0.001 (some (volt1 1)) 1 .x 0.67
      = .ok run ∧ run.stopped = some s ∧ (voltage run.res).isSome ∧
        resid run.cct (fun _ => 0) (.int 1) (volt1 1) 1 1 0 = 0 := by
  constructor
  · obtain ⟨m, hm, hit⟩ := cct1_one_update
    exact ⟨_, _, hb_run (cct1_zt 1) hm hit.choose_spec rfl, rfl, rfl, rfl⟩
  · obtain ⟨run, h, hc, hr, s, hs, -⟩ := cct1_run_target 1 1 1 (cct1_clamp 1 (by simp)) one_ne_zero
      0.001 1 10 (by norm_num) (by norm_num) (by norm_num) 0.67
    refine ⟨run, s, h, hs, by rw [hr]; rfl, ?_⟩
    rw [hc, resid_zero]
    have : (cct1 1).clamp.vt 1 1 = 1 := cct1_clamp 1 (by simp)
    rw [this]
    simp [volt1]

end QMix.Props
