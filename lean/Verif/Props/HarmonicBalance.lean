import Verif.Lemmas.HarmonicBalance2
import Verif.Lemmas.Bessel
import Mathlib.Analysis.Real.Pi.Bounds

/-!
# Properties C27-C35, C66-C69: harmonic balance

`resid cct resp nb v f p i` is `Spec.residual` with the data of the circuit `cct` at bias point `i`;
`run.cct` is the circuit as the call leaves it.
-/

namespace QMix.Props

open Complex QMix.Qt QMix.HB

/-- The voltage array in the value returned. -/
def voltage {N : ℕ} : Res N → Option (ℕ → ℕ → Arr (Fin N))
  | .vj v => some v
  | .extra v _ _ => some v
  | .masked v _ => some v
  | .none => none

theorem voltage_result {N F P : ℕ} {mode : Mode} {maxIt : ℤ} {s : Stopped (Sig (F * P) N) N}
    {r : Res N} (h : result F P mode maxIt s = .ok r) {v : ℕ → ℕ → Arr (Fin N)}
    (hv : voltage r = some v) : v = to3d F P s.vj := by
  unfold result at h
  cases mode with
  | o => cases h; cases hv; rfl
  | x => cases h; cases hv; rfl
  | m => obtain ⟨f, -, h⟩ := bind_ok_iff.1 h; cases h; cases hv; rfl
  | other => cases h; cases hv

/-! ### Example circuits -/

/-- One tone, one harmonic, one bias point, impedance 1. -/
noncomputable def cct1 (vt : ℂ) : HCct 1 :=
  { numF := 1, numP := 1, freq := fun _ => 1, vb := fun _ => 0,
    vt := fun f p => if f = 1 ∧ p = 1 then vt else 0,
    zt := fun f p => if f = 1 ∧ p = 1 then 1 else 0 }

theorem cct1_valid (vt : ℂ) : Valid (cct1 vt).toCct (.int 1) :=
  ⟨le_rfl, by simp [cct1], le_rfl, by intro f _ _; simp [cct1], by simp [cct1, NumB.toTup]⟩

theorem cct1_zt (vt : ℂ) : ¬ ztZero (cct1 vt) := by
  intro h
  have := h 1 1 le_rfl le_rfl
  simp [cct1] at this

/-- A constant junction voltage for `cct1`. -/
def volt1 (x : ℂ) : ℕ → ℕ → Arr (Fin 1) := fun f p _ => if f = 1 ∧ p = 1 then x else 0

theorem cct1_cur (vt : ℂ) {m : RespMat (Fin 1)}
    (hm : interpolateRespfn (cct1 vt).toCct (fun _ => 0) (.int 1) = .ok m)
    (vj : Sig ((cct1 vt).numF * (cct1 vt).numP) 1) :
    currentForHb (cct1 vt) (fun _ => 0) (.int 1) m vj = .ok fun _ _ => 0 := by
  rw [currentForHb_eq _ _ _ (cct1_valid vt) hm]
  congr 1
  funext k i
  exact qt_zero _ _ _ _ _ _ _

theorem cct1_clamp (vt : ℂ) (hvt : 1 ≤ ‖vt‖) : clampVt (cct1 vt).vt 1 1 = vt := by
  have h : ¬ ‖vt‖ < 1 / 10 ^ 10 := by
    rw [not_lt]; exact le_trans (by norm_num) hvt
  simp only [clampVt, cct1]
  rw [if_neg (by norm_num)]
  simp only [and_self, if_true]
  rw [if_neg h]

/-- The error of `cct1` without current. -/
theorem cct1_evaluated (vt w x : ℂ) (hvt : clampVt (cct1 vt).vt 1 1 = w) (hx : x ≠ 0) {m : RespMat (Fin 1)}
    (hm : interpolateRespfn (cct1 vt).toCct (fun _ => 0) (.int 1) = .ok m) (stop : ℝ) :
    ∃ r, Evaluated (currentForHb (cct1 vt) (fun _ => 0) (.int 1) m)
      (relErr (cct1 vt).sigVt (cct1 vt).sigZt) stop (to2d (cct1 vt).numF (cct1 vt).numP (volt1 x)) r ∧
      (r.1.le (.fin stop) ↔ 0 ≤ stop ∧ ‖w - x‖ ≤ stop * ‖x‖) := by
  obtain ⟨r, hr⟩ := signalLoop_total (n := (cct1 vt).numF * (cct1 vt).numP) (N := 1) (stop := stop)
    (rel := fun (k : Fin ((cct1 vt).numF * (cct1 vt).numP)) i =>
        relDiv ‖resid (cct1 vt).clamp (fun _ => 0) (.int 1) (to3d (cct1 vt).numF (cct1 vt).numP
          (to2d (cct1 vt).numF (cct1 vt).numP (volt1 x))) (k / (cct1 vt).numP + 1)
          (k % (cct1 vt).numP + 1) i‖ ‖to3d (cct1 vt).numF (cct1 vt).numP
            (to2d (cct1 vt).numF (cct1 vt).numP (volt1 x)) (k / (cct1 vt).numP + 1)
              (k % (cct1 vt).numP + 1) i‖) (by norm_num)
  refine ⟨r, (evaluated_iff (cct1 vt) _ _ (cct1_valid vt) hm stop _ r).2 hr, ?_⟩
  have hval : ∀ k : Fin ((cct1 vt).numF * (cct1 vt).numP), ∀ i,
      relDiv ‖resid (cct1 vt).clamp (fun _ => 0) (.int 1) (to3d (cct1 vt).numF (cct1 vt).numP
          (to2d (cct1 vt).numF (cct1 vt).numP (volt1 x))) (k / (cct1 vt).numP + 1)
          (k % (cct1 vt).numP + 1) i‖ ‖to3d (cct1 vt).numF (cct1 vt).numP
            (to2d (cct1 vt).numF (cct1 vt).numP (volt1 x)) (k / (cct1 vt).numP + 1)
              (k % (cct1 vt).numP + 1) i‖ = relDiv ‖w - x‖ ‖x‖ := by
    intro k i
    obtain ⟨h1, h2⟩ := signal_range k
    rw [resid_zero, to3d_to2d _ (Nat.le_add_left 1 _) h1 (Nat.le_add_left 1 _) h2]
    have e1 : (k : ℕ) / (cct1 vt).numP + 1 = 1 := by
      exact le_antisymm h1 (Nat.le_add_left 1 _)
    have e2 : (k : ℕ) % (cct1 vt).numP + 1 = 1 := by
      exact le_antisymm h2 (Nat.le_add_left 1 _)
    rw [e1, e2]
    have : (cct1 vt).clamp.vt 1 1 = w := hvt
    rw [this]
    simp [volt1]
  have hx' : 0 < ‖x‖ := norm_pos_iff.2 hx
  rw [(signalLoop_le_iff hr (fun k i => by
    rw [hval, Ne, relDiv_nan]; exact fun h => hx'.ne' h.2) stop).2]
  refine and_congr_right fun _ => ?_
  rw [← relDiv_le_iff hx']
  constructor
  · intro h
    have := h ⟨0, by simp [cct1]⟩ 0
    rwa [hval] at this
  · intro h k i
    rw [hval]
    exact h

/-- A run of `cct1` that stops at once. -/
theorem cct1_run_target (vt w x : ℂ) (hvt : clampVt (cct1 vt).vt 1 1 = w) (hx : x ≠ 0) (stop damp : ℝ) (maxIt : ℤ)
    (h0 : 0 ≤ maxIt) (hs : 0 ≤ stop) (hle : ‖w - x‖ ≤ stop * ‖x‖) (zj : ℂ) :
    ∃ run, harmonicBalance (cct1 vt) (fun _ => 0) (.int 1) maxIt stop (some (volt1 x)) damp .x zj
        = .ok run ∧ run.cct = (cct1 vt).clamp ∧
      run.res = .extra (to3d 1 1 (to2d 1 1 (volt1 x))) 0 (((0 : ℕ) : ℤ) ≠ maxIt) ∧
      ∃ s, run.stopped = some s ∧ s.exit = .target ∧ s.updates = 0 := by
  obtain ⟨m, hm, -⟩ := matrix_same (cct1 vt) (fun _ => 0) (.int 1) (cct1_valid vt)
  obtain ⟨r, hr, hle'⟩ := cct1_evaluated vt w x hvt hx hm stop
  have := iterate_target _ _ (update (currentForHb (cct1 vt) (fun _ => 0) (.int 1) m)
    (cct1 vt).sigVt (cct1 vt).sigZt damp) stop maxIt h0 hr (hle'.2 ⟨hs, hle⟩)
  refine ⟨_, hb_run (cct1_zt vt) hm this rfl, rfl, rfl, _, rfl, rfl, rfl⟩

/-! ## C27 -/

/-- C27 (partial). If the call stops because the error target is met, the voltage returned satisfies
the circuit equation of every signal at every bias point to within `stop` times the voltage, provided
no signal has a voltage and a residual that are both exactly zero (a relative error `0/0`). Missing:
that case, for which the claim is false (`C27_false_with_nan`). -/
theorem C27_converged_partial {N : ℕ} (cct : HCct N) (resp : ℝ → ℂ) (nb : NumB) (maxIt : ℤ)
    (stop : ℝ) (vjInit : Option (ℕ → ℕ → Arr (Fin N))) (damp : ℝ) (mode : Mode) (zj : ℂ)
    (h : Valid cct.toCct nb) (run : Run N (cct.numF * cct.numP))
    (hrun : harmonicBalance cct resp nb maxIt stop vjInit damp mode zj = .ok run)
    (s : Stopped (Sig (cct.numF * cct.numP) N) N) (hs : run.stopped = some s)
    (ht : s.exit = .target) (v : ℕ → ℕ → Arr (Fin N)) (hv : voltage run.res = some v)
    (hnan : ∀ f p i, 1 ≤ f → f ≤ cct.numF → 1 ≤ p → p ≤ cct.numP →
      ¬ (v f p i = 0 ∧ resid run.cct resp nb v f p i = 0))
    (f p : ℕ) (i : Fin N) (h1 : 1 ≤ f) (h2 : f ≤ cct.numF) (h3 : 1 ≤ p) (h4 : p ≤ cct.numP) :
    ‖resid run.cct resp nb v f p i‖ ≤ stop * ‖v f p i‖ := by
  by_cases h0 : ztZero cct
  · rw [hb_zero _ _ _ _ _ _ _ _ h0] at hrun
    cases hrun; cases hs
  obtain ⟨start, m, s', hE⟩ := hb_entered h0 hrun
  rw [hE.stopped] at hs
  cases hs
  have hv' := voltage_result hE.res hv
  subst hv'
  rw [hE.cct_eq] at hnan ⊢
  obtain ⟨-, hc⟩ := iterate_post _ _ _ _ _ _ _ hE.loop
  rcases hc with hc | hc | hc
  · obtain ⟨-, -, -, -, r, hr, hle, -⟩ := hc
    rw [evaluated_iff cct resp nb h hE.matrix] at hr
    have := (signalLoop_le_iff hr (fun k i => by
      rw [Ne, relDiv_nan, norm_eq_zero, norm_eq_zero]
      obtain ⟨hf, hp⟩ := signal_range k
      exact fun hh => hnan _ _ i (Nat.le_add_left 1 _) hf (Nat.le_add_left 1 _) hp ⟨hh.2, hh.1⟩) stop).2.1 hle
    obtain ⟨k, -, hkf, hkp⟩ := signal_index h1 h2 h3 h4
    have := this.2 k i
    rw [hkf, hkp] at this
    exact relDiv_le (norm_nonneg _) this
  · rw [hc.1] at ht; cases ht
  · rw [hc.1] at ht; cases ht

/-- C27. The last signal (last tone, last harmonic) satisfies its equation without any proviso; in
particular a circuit with one tone and one harmonic does. -/
theorem C27_last_signal {N : ℕ} (cct : HCct N) (resp : ℝ → ℂ) (nb : NumB) (maxIt : ℤ)
    (stop : ℝ) (vjInit : Option (ℕ → ℕ → Arr (Fin N))) (damp : ℝ) (mode : Mode) (zj : ℂ)
    (h : Valid cct.toCct nb) (run : Run N (cct.numF * cct.numP))
    (hrun : harmonicBalance cct resp nb maxIt stop vjInit damp mode zj = .ok run)
    (s : Stopped (Sig (cct.numF * cct.numP) N) N) (hs : run.stopped = some s)
    (ht : s.exit = .target) (v : ℕ → ℕ → Arr (Fin N)) (hv : voltage run.res = some v) (i : Fin N) :
    ‖resid run.cct resp nb v cct.numF cct.numP i‖ ≤ stop * ‖v cct.numF cct.numP i‖ ∧
      v cct.numF cct.numP i ≠ 0 := by
  by_cases h0 : ztZero cct
  · rw [hb_zero _ _ _ _ _ _ _ _ h0] at hrun
    cases hrun; cases hs
  obtain ⟨start, m, s', hE⟩ := hb_entered h0 hrun
  rw [hE.stopped] at hs
  cases hs
  have hv' := voltage_result hE.res hv
  subst hv'
  rw [hE.cct_eq]
  obtain ⟨-, hc⟩ := iterate_post _ _ _ _ _ _ _ hE.loop
  rcases hc with hc | hc | hc
  · obtain ⟨-, -, -, -, r, hr, hle, -⟩ := hc
    rw [evaluated_iff cct resp nb h hE.matrix] at hr
    have h1 := h.tones_pos
    have h3 := h.harmonics
    obtain ⟨k, hk, hkf, hkp⟩ := signal_index h1 le_rfl h3 le_rfl
    have hkn : (k : ℕ) + 1 = cct.numF * cct.numP := by
      rw [hk]
      obtain ⟨a, ha⟩ : ∃ a, cct.numF = a + 1 := ⟨cct.numF - 1, by omega⟩
      obtain ⟨b, hb⟩ : ∃ b, cct.numP = b + 1 := ⟨cct.numP - 1, by omega⟩
      rw [ha, hb]
      simp
      ring
    have := signalLoop_le_last hr hle k hkn i
    rw [hkf, hkp] at this
    refine ⟨relDiv_le (norm_nonneg _) this, fun hz => ?_⟩
    rw [hz, norm_zero] at this
    unfold relDiv at this
    rw [if_pos rfl] at this
    split_ifs at this <;> exact this
  · rw [hc.1] at ht; cases ht
  · rw [hc.1] at ht; cases ht

/-! ### A run that is reported as converged although it is not -/

theorem bessel_zero_pos : 0 < besselJ 0 1 := by
  unfold besselJ
  apply mul_pos (by have := Real.pi_pos; positivity)
  apply intervalIntegral.intervalIntegral_pos_of_pos_on
  · exact (by fun_prop : Continuous fun τ => Real.cos (((0 : ℤ) : ℝ) * τ - 1 * Real.sin τ)).intervalIntegrable _ _
  · intro τ _
    apply Real.cos_pos_of_mem_Ioo
    have h1 := Real.neg_one_le_sin τ
    have h2 := Real.sin_le_one τ
    have h3 := Real.pi_gt_three
    constructor <;> simp <;> linarith
  · exact Real.pi_pos

/-- Three tones of the same frequency 1, one bias point. -/
noncomputable def cct3 : HCct 1 :=
  { numF := 3, numP := 1, freq := fun _ => 1, vb := fun _ => 0,
    vt := fun f p => if p = 1 then if f = 1 then 2 else 1 else 0,
    zt := fun f p => if p = 1 then if f = 3 then 0 else 1 else 0 }

theorem cct3_valid : Valid cct3.toCct (.int 1) :=
  ⟨by simp [cct3], by simp [cct3], by simp [cct3], by intro f _ _; simp [cct3],
    by simp [cct3, NumB.toTup]⟩

/-- Only the third tone has a junction voltage. -/
noncomputable def volt3 : ℕ → ℕ → Arr (Fin 1) := fun f p _ => if f = 3 ∧ p = 1 then 1 else 0

/-- Response function for which the current at frequency 1 is 1. -/
noncomputable def resp3 : ℝ → ℂ := fun x =>
  if x = 1 then I * ((1 / (besselJ 0 1 * besselJ 1 1) : ℝ) : ℂ) else 0

theorem round4_int (n : ℤ) : round4 (n : ℝ) = n := by
  unfold round4
  rw [show ((n : ℝ) * 10 ^ 4) = ((n * 10 ^ 4 : ℤ) : ℝ) by push_cast; ring, roundHalfEven_intCast]
  push_cast
  ring

theorem cct3_current : Spec.qt resp3 (fun f p => volt3 f p 0) (fun _ => 1) 3 1 [1, 1, 1] 0 1 = 1 := by
  unfold Spec.qt
  simp only [List.take, Spec.tonesFrom]
  have hu : ∀ f, f ≠ 3 → ∀ p, 1 ≤ p → p ≤ 1 → volt3 f p 0 = 0 := by
    intro f hf p _ _
    simp [volt3, hf]
  rw [Spec.current_undriven _ _ (Spec.undriven_of_zero _ _ _ _ _ (hu 1 (by norm_num))),
    Spec.current_undriven _ _ (Spec.undriven_of_zero _ _ _ _ _ (hu (1 + 1) (by norm_num)))]
  have hc : ∀ k : ℤ, |k| ≤ 1 → Spec.toneCoeff (fun p => volt3 (1 + 1 + 1) p 0) 1 1 1
      (List.foldr max 0 [1, 1, 1]) k = (besselJ k 1 : ℂ) := by
    intro k hk
    unfold Spec.toneCoeff
    rw [show List.foldr max 0 [1, 1, 1] = 1 by decide,
      Spec.harmonicConv_one (fun p => volt3 (1 + 1 + 1) p 0) 1 1 1 le_rfl k]
    unfold Spec.jacobiAnger
    rw [if_pos (by simpa using hk)]
    simp [volt3]
  generalize Spec.toneCoeff (fun p => volt3 (1 + 1 + 1) p 0) 1 1 1
      (List.foldr max 0 [1, 1, 1]) = C at hc
  have hI : Finset.Icc (-((1 : ℕ) : ℤ)) ((1 : ℕ) : ℤ) = {-1, 0, 1} := by decide
  have r1 : round4 1 = 1 := by simpa using round4_int 1
  have rm : round4 (-1) = -1 := by simpa using round4_int (-1)
  have b0 := bessel_zero_pos.ne'
  have b1 : besselJ 1 1 ≠ 0 := (besselJ_one_pos one_pos (by linarith [Real.pi_gt_three])).ne'
  have b0' : (besselJ 0 1 : ℂ) ≠ 0 := by exact_mod_cast b0
  have b1' : (besselJ 1 1 : ℂ) ≠ 0 := by exact_mod_cast b1
  have c0 := hc 0 (by norm_num)
  have c1 := hc 1 (by norm_num)
  have n1 : ¬ (-1 : ℝ) = 1 := by norm_num
  simp only [Spec.current, Spec.boxSum, hI, Spec.mixFreq, Spec.mixProduct, Spec.corr]
  simp [rm, r1, round4_zero, n1, resp3, c0, c1]
  rw [Spec.corr]
  simp only [hI]
  simp [c0, c1, Spec.corr, resp3]
  field_simp
  rw [Complex.I_sq]
  norm_num

theorem cct3_clamp (f : ℕ) (hf : 1 ≤ f) : cct3.clamp.vt f 1 = if f = 1 then 2 else 1 := by
  show clampVt cct3.vt f 1 = _
  unfold clampVt
  rw [if_neg (by omega)]
  simp only [cct3, if_true]
  by_cases h : f = 1
  · rw [if_pos h, if_neg]; norm_num
  · rw [if_neg h, if_neg]; norm_num

theorem cct3_resid (f : ℕ) (hf : 1 ≤ f) (h3 : f ≤ 3) (i : Fin 1) :
    resid cct3.clamp resp3 (.int 1) volt3 f 1 i
      = (if f = 1 then 2 else 1) - (if f = 3 then 0 else 1) - (if f = 3 then 1 else 0) := by
  obtain rfl : i = 0 := Subsingleton.elim _ _
  unfold resid Spec.residual
  have e : Spec.qt resp3 (fun f p => volt3 f p 0) cct3.clamp.freq cct3.clamp.numF cct3.clamp.numP
      ((NumB.int 1).toTup cct3.clamp.numF) (cct3.clamp.vb 0) (cct3.clamp.freq f * ((1 : ℕ) : ℝ)) = 1 := by
    have : cct3.clamp.freq f * ((1 : ℕ) : ℝ) = 1 := by
      show (1 : ℝ) * ((1 : ℕ) : ℝ) = 1
      norm_num
    rw [this]
    exact cct3_current
  rw [e, cct3_clamp f hf]
  simp [cct3, volt3, HCct.clamp]

/-- The relative errors of the three signals are `inf`, NaN and 0; the running maximum ends at 0. -/
theorem cct3_evaluated {m : RespMat (Fin 1)}
    (hm : interpolateRespfn cct3.toCct resp3 (.int 1) = .ok m) {stop : ℝ} (hs : 0 ≤ stop) :
    ∃ r, Evaluated (currentForHb cct3 resp3 (.int 1) m) (relErr cct3.sigVt cct3.sigZt) stop
      (to2d cct3.numF cct3.numP volt3) r ∧ r.1.le (.fin stop) := by
  let rel : Fin (cct3.numF * cct3.numP) → Fin 1 → Rel := fun k _ =>
    if (k : ℕ) = 0 then .inf else if (k : ℕ) = 1 then .nan else .fin 0
  have hrel : (fun (k : Fin (cct3.numF * cct3.numP)) i =>
        relDiv ‖resid cct3.clamp resp3 (.int 1) (to3d cct3.numF cct3.numP
          (to2d cct3.numF cct3.numP volt3)) (k / cct3.numP + 1) (k % cct3.numP + 1) i‖
          ‖to3d cct3.numF cct3.numP (to2d cct3.numF cct3.numP volt3) (k / cct3.numP + 1)
            (k % cct3.numP + 1) i‖) = rel := by
    funext k i
    obtain ⟨h1, h2⟩ := signal_range k
    rw [to3d_to2d _ (Nat.le_add_left 1 _) h1 (Nat.le_add_left 1 _) h2,
      resid_round _ _ _ _ (Nat.le_add_left 1 _) h1 (Nat.le_add_left 1 _) h2]
    have e2 : (k : ℕ) % cct3.numP + 1 = 1 := le_antisymm h2 (Nat.le_add_left 1 _)
    have e1 : (k : ℕ) / cct3.numP = k := Nat.div_one _
    have hk : (k : ℕ) < 3 := k.2
    rw [e1] at h1 ⊢
    rw [e2, cct3_resid _ (Nat.le_add_left 1 _) h1]
    simp only [rel, volt3]
    generalize (k : ℕ) = n at hk
    interval_cases n <;> norm_num [relDiv]
  have hmax : ∀ k, npMax (List.ofFn (rel k)) = .ok (rel k 0) := by
    intro k
    rw [List.ofFn_succ]
    rfl
  have hfin : List.finRange (cct3.numF * cct3.numP)
      = [⟨0, by decide⟩, ⟨1, by decide⟩, ⟨2, by decide⟩] := by decide
  obtain ⟨r, hr⟩ := signalLoop_total (stop := stop) (rel := rel) (by norm_num)
  refine ⟨r, (evaluated_iff cct3 _ _ cct3_valid hm stop _ _).2 (by rw [hrel]; exact hr), ?_⟩
  change sigFor stop rel (List.finRange (cct3.numF * cct3.numP)) _ = _ at hr
  rw [hfin, sigFor_step (hmax _), sigFor_step (hmax _), sigFor_step (hmax _)] at hr
  cases hr
  simpa [rel, pyMax2] using hs

/-- C27 and C33 are false: a run that is reported as converged (flag true, iteration 0, `max_it` 10)
although signal (1, 1) has an infinite relative error and signal (2, 1) a NaN. The circuit has three
tones of equal frequency of which only the third has a junction voltage. -/
theorem C27_false_with_nan : ∃ (cct : HCct 1) (resp : ℝ → ℂ) (v0 : ℕ → ℕ → Arr (Fin 1))
    (run : Run 1 (cct.numF * cct.numP)) (s : Stopped (Sig (cct.numF * cct.numP) 1) 1)
    (v : ℕ → ℕ → Arr (Fin 1)), Valid cct.toCct (.int 1) ∧
    harmonicBalance cct resp (.int 1) 10 0.001 (some v0) 1 .x 0.67 = .ok run ∧
    run.stopped = some s ∧ s.exit = .target ∧ (∃ flag, run.res = .extra v 0 flag ∧ flag) ∧
    ¬ ‖resid run.cct resp (.int 1) v 1 1 0‖ ≤ 0.001 * ‖v 1 1 0‖ ∧
    relDiv ‖resid run.cct resp (.int 1) v 2 1 0‖ ‖v 2 1 0‖ = .nan := by
  obtain ⟨m, hm, -⟩ := matrix_same cct3 resp3 (.int 1) cct3_valid
  obtain ⟨r, hr, hle⟩ := cct3_evaluated hm (stop := 0.001) (by norm_num)
  have := iterate_target _ _ (update (currentForHb cct3 resp3 (.int 1) m)
    cct3.sigVt cct3.sigZt 1) 0.001 10 (by norm_num) hr hle
  have hz : ¬ ztZero cct3 := by
    intro h
    have := h 1 1 (by simp [cct3]) (by simp [cct3])
    simp [cct3] at this
  refine ⟨cct3, resp3, volt3, _, _, _, cct3_valid, hb_run hz hm this rfl, rfl, rfl,
    ⟨_, rfl, by norm_num⟩, ?_, ?_⟩
  · dsimp only
    rw [resid_round cct3 _ _ volt3 (by norm_num) (by norm_num [cct3]) (by norm_num)
      (by norm_num [cct3]), to3d_to2d _ (by norm_num) (by norm_num [cct3]) (by norm_num)
      (by norm_num [cct3]), cct3_resid 1 (by norm_num) (by norm_num)]
    norm_num [volt3]
  · dsimp only
    rw [resid_round cct3 _ _ volt3 (by norm_num) (by norm_num [cct3]) (by norm_num)
      (by norm_num [cct3]), to3d_to2d _ (by norm_num) (by norm_num [cct3]) (by norm_num)
      (by norm_num [cct3]), cct3_resid 2 (by norm_num) (by norm_num)]
    norm_num [volt3, relDiv]

/-! ## C28 -/

theorem result_extra {N F P : ℕ} {mode : Mode} {maxIt : ℤ} {s : Stopped (Sig (F * P) N) N}
    {v : ℕ → ℕ → Arr (Fin N)} {it : ℕ} {flag : Prop}
    (h : result F P mode maxIt s = .ok (.extra v it flag)) :
    it = s.iteration ∧ flag = ((s.iteration : ℤ) ≠ maxIt) := by
  unfold result at h
  cases mode with
  | o => cases h
  | x => cases h; exact ⟨rfl, rfl⟩
  | m => obtain ⟨f, -, h⟩ := bind_ok_iff.1 h; cases h
  | other => cases h

/-- C28 (partial). For `max_it ≥ 0` a true flag means that the error target was met, and the flag is
true if the target was met before iteration `max_it`. Missing: the target met in iteration `max_it`
itself, where the flag is false (`C28_false_at_limit`), and negative `max_it`, where it is true
without any test (`C28_false_negative_limit`). -/
theorem C28_flag_partial {N : ℕ} (cct : HCct N) (resp : ℝ → ℂ) (nb : NumB) (maxIt : ℤ)
    (stop : ℝ) (vjInit : Option (ℕ → ℕ → Arr (Fin N))) (damp : ℝ) (mode : Mode) (zj : ℂ)
    (hpos : 0 ≤ maxIt) (run : Run N (cct.numF * cct.numP))
    (hrun : harmonicBalance cct resp nb maxIt stop vjInit damp mode zj = .ok run)
    (v : ℕ → ℕ → Arr (Fin N)) (it : ℕ) (flag : Prop) (hx : run.res = .extra v it flag) :
    ∃ s, run.stopped = some s ∧ (flag → s.exit = .target) ∧
      (s.exit = .target → (it : ℤ) < maxIt → flag) := by
  by_cases h0 : ztZero cct
  · rw [hb_zero _ _ _ _ _ _ _ _ h0] at hrun
    cases hrun; cases hx
  obtain ⟨start, m, s, hE⟩ := hb_entered h0 hrun
  have hres := hE.res
  rw [hx] at hres
  obtain ⟨rfl, rfl⟩ := result_extra hres
  refine ⟨s, hE.stopped, fun hf => ?_, fun _ hlt => hlt.ne⟩
  obtain ⟨-, hc⟩ := iterate_post _ _ _ _ _ _ _ hE.loop
  rcases hc with hc | hc | hc
  · exact hc.1
  · exact absurd hc.2.2.2.1 hf
  · have := (hc.2.2.2 (by omega)).1
    exact absurd (by omega) hf

example (zj : ℂ) : ∃ run, harmonicBalance (cct1 1) (fun _ => 0) (.int 1) 10 0.001
    (some (volt1 1)) 1 .x zj = .ok run ∧ ∃ v it flag, run.res = .extra v it flag ∧ flag := by
  obtain ⟨run, h, -, hr, -⟩ := cct1_run_target 1 1 1 (cct1_clamp 1 (by simp)) one_ne_zero 0.001 1 10 (by norm_num)
    (by norm_num) (by norm_num) zj
  exact ⟨run, h, _, _, _, hr, by norm_num⟩

/-- C28 is false when the target is met in iteration `max_it`: the call stops because the target is
met and yet the flag is false. -/
theorem C28_false_at_limit : ∃ (cct : HCct 1) (resp : ℝ → ℂ) (v0 : ℕ → ℕ → Arr (Fin 1))
    (run : Run 1 (cct.numF * cct.numP)) (s : Stopped (Sig (cct.numF * cct.numP) 1) 1),
    Valid cct.toCct (.int 1) ∧
    harmonicBalance cct resp (.int 1) 0 0.001 (some v0) 1 .x 0.67 = .ok run ∧
    run.stopped = some s ∧ s.exit = .target ∧ ∃ v flag, run.res = .extra v 0 flag ∧ ¬ flag := by
  obtain ⟨run, h, -, hr, s, hs, ht, -⟩ := cct1_run_target 1 1 1 (cct1_clamp 1 (by simp)) one_ne_zero 0.001 1 0
    le_rfl (by norm_num) (by norm_num) 0.67
  exact ⟨cct1 1, _, _, run, s, cct1_valid 1, h, hs, ht, _, _, hr, by simp⟩

/-- C28 is false for a negative `max_it`: nothing is evaluated, the starting point is returned, the flag
is true, and the circuit equation is violated. -/
theorem C28_false_negative_limit : ∃ (cct : HCct 1) (resp : ℝ → ℂ) (v0 : ℕ → ℕ → Arr (Fin 1))
    (run : Run 1 (cct.numF * cct.numP)), Valid cct.toCct (.int 1) ∧
    harmonicBalance cct resp (.int 1) (-1) 0.001 (some v0) 1 .x 0.67 = .ok run ∧
    ∃ v flag, run.res = .extra v 0 flag ∧ flag ∧
      ¬ ‖resid run.cct resp (.int 1) v 1 1 0‖ ≤ 0.001 * ‖v 1 1 0‖ := by
  obtain ⟨m, hm, -⟩ := matrix_same (cct1 1) (fun _ => 0) (.int 1) (cct1_valid 1)
  refine ⟨cct1 1, _, volt1 5, _, cct1_valid 1, hb_run (cct1_zt 1) hm rfl rfl, _, _, rfl,
    by norm_num, ?_⟩
  dsimp only
  rw [resid_round (cct1 1) _ _ _ (by norm_num) (by norm_num [cct1]) (by norm_num)
      (by norm_num [cct1]), to3d_to2d _ (by norm_num) (by norm_num [cct1]) (by norm_num)
      (by norm_num [cct1]), resid_zero]
  have : (cct1 1).clamp.vt 1 1 = 1 := cct1_clamp 1 (by simp)
  rw [this]
  norm_num [volt1]

/-- C28, for every negative `max_it`, valid circuit and start: nothing is evaluated. Mode `x` returns the
starting point with a true flag, mode `o` returns the starting point, and mode `m` raises
`UnboundLocalError`, since `finished_points` was never assigned. -/
theorem C28_negative_limit {N : ℕ} (cct : HCct N) (resp : ℝ → ℂ) (nb : NumB)
    (hV : Valid cct.toCct nb) (hz : ¬ ∀ f p, f ≤ cct.numF → p ≤ cct.numP → cct.zt f p = 0)
    (maxIt : ℤ) (hneg : maxIt < 0) (stop damp : ℝ) (v0 : ℕ → ℕ → Arr (Fin N)) (zj : ℂ) :
    harmonicBalance cct resp nb maxIt stop (some v0) damp .m zj = .error .name ∧
    (∃ run v, harmonicBalance cct resp nb maxIt stop (some v0) damp .x zj = .ok run ∧
      run.res = .extra v 0 True ∧
      ∀ f p, 1 ≤ f → f ≤ cct.numF → 1 ≤ p → p ≤ cct.numP → v f p = v0 f p) ∧
    (∃ run v, harmonicBalance cct resp nb maxIt stop (some v0) damp .o zj = .ok run ∧
      run.res = .vj v ∧
      ∀ f p, 1 ≤ f → f ≤ cct.numF → 1 ≤ p → p ≤ cct.numP → v f p = v0 f p) := by
  obtain ⟨m, hm, -⟩ := matrix_same cct resp nb hV
  replace hz : ¬ ztZero cct := hz
  have hn : (maxIt + 1).toNat = 0 := by omega
  have hit : ∀ w, iterate (currentForHb cct resp nb m) (relErr cct.sigVt cct.sigZt)
      (update (currentForHb cct resp nb m) cct.sigVt cct.sigZt damp) stop maxIt w = .ok
        { vj := w, iteration := 0, exit := .exhausted, mask := none, evals := 0, updates := 0 } := by
    intro w
    unfold iterate
    rw [hn]
    rfl
  refine ⟨?_, ?_, ?_⟩
  · unfold harmonicBalance
    rw [if_neg hz]
    simp only [startVj, hm, py_bind]
    erw [hit]
    rfl
  · refine ⟨_, to3d cct.numF cct.numP (to2d cct.numF cct.numP v0), hb_run hz hm (hit _) rfl, ?_,
      fun f p h1 h2 h3 h4 => to3d_to2d v0 h1 h2 h3 h4⟩
    have : (((0 : ℕ) : ℤ) ≠ maxIt) = True := eq_true (by push_cast; omega)
    dsimp only
    rw [this]
  · exact ⟨_, _, hb_run hz hm (hit _) rfl, rfl, fun f p h1 h2 h3 h4 => to3d_to2d v0 h1 h2 h3 h4⟩

example : harmonicBalance (cct1 1) (fun _ => 0) (.int 1) (-1) 0.001 (some (volt1 5)) 1 .m 0.67 =
    .error .name :=
  (C28_negative_limit (cct1 1) _ _ (cct1_valid 1) (cct1_zt 1) (-1) (by norm_num) _ _ _ _).1

/-! ## C29 -/

/-- C29. The error is evaluated at most `max_it + 1` times; the final voltage is reached from the
starting point by exactly `updates` Newton updates, at most `max_it + 1` of them. If at none of the
voltages passed through a relative error is NaN, there are at most `max_it` updates and the iteration
number is the number of updates. -/
theorem C29_iteration_count {N : ℕ} (cct : HCct N) (resp : ℝ → ℂ) (nb : NumB) (maxIt : ℤ)
    (stop : ℝ) (vjInit : Option (ℕ → ℕ → Arr (Fin N))) (damp : ℝ) (mode : Mode) (zj : ℂ)
    (run : Run N (cct.numF * cct.numP))
    (hrun : harmonicBalance cct resp nb maxIt stop vjInit damp mode zj = .ok run)
    (s : Stopped (Sig (cct.numF * cct.numP) N) N) (hs : run.stopped = some s) :
    s.evals ≤ (maxIt + 1).toNat ∧ s.updates ≤ (maxIt + 1).toNat ∧
    ∃ start m, startVj cct vjInit zj = .ok start ∧ interpolateRespfn cct.toCct resp nb = .ok m ∧
      let next := fun v w => ∃ ij, currentForHb cct resp nb m v = .ok ij ∧
        update (currentForHb cct resp nb m) cct.sigVt cct.sigZt damp v ij = .ok w
      let v0 := to2d cct.numF cct.numP start
      Spec.Steps next s.updates v0 s.vj ∧
      ((∀ j w ij k i, Spec.Steps next j v0 w → currentForHb cct resp nb m w = .ok ij →
          relErr cct.sigVt cct.sigZt w ij k i ≠ .nan) →
        s.updates ≤ maxIt.toNat ∧ s.iteration = s.updates) := by
  by_cases h0 : ztZero cct
  · rw [hb_zero _ _ _ _ _ _ _ _ h0] at hrun
    cases hrun; cases hs
  obtain ⟨start, m, s', hE⟩ := hb_entered h0 hrun
  rw [hE.stopped] at hs
  cases hs
  obtain ⟨⟨j, hj, hsteps⟩, hc⟩ := iterate_post _ _ _ _ _ _ _ hE.loop
  obtain rfl : s.updates = j := by omega
  refine ⟨?_, ?_, start, m, hE.start_eq, hE.matrix, hsteps, fun hn => ?_⟩
  · rcases hc with hc | hc | hc <;> omega
  · rcases hc with hc | hc | hc <;> omega
  · rcases hc with hc | hc | hc
    · exact ⟨by omega, hc.2.1⟩
    · exact ⟨by omega, hc.2.1⟩
    · obtain ⟨-, hu, he, hl⟩ := hc
      by_cases hneg : (maxIt + 1).toNat = 0
      · have hz : s.updates = 0 := by omega
        refine ⟨by omega, ?_⟩
        have hloop := hE.loop
        unfold iterate at hloop
        rw [hneg] at hloop
        cases hloop
        rfl
      · exfalso
        obtain ⟨hit, v, r, ⟨j, hj⟩, ⟨ij, hij, hr⟩, hnext, -, hnan, -⟩ := hl (by omega)
        have hm : (s.iteration : ℤ) = maxIt := by omega
        exact (signalLoop_le_iff hr (fun k i => hn j v ij k i hj hij) stop).1 (hnan hm)

example (zj : ℂ) : ∃ run s, harmonicBalance (cct1 1) (fun _ => 0) (.int 1) 10 0.001
    (some (volt1 1)) 1 .x zj = .ok run ∧ run.stopped = some s ∧ s.evals ≤ 11 := by
  obtain ⟨run, h, -, hr, s, hs, -⟩ := cct1_run_target 1 1 1 (cct1_clamp 1 (by simp)) one_ne_zero 0.001 1 10
    (by norm_num) (by norm_num) (by norm_num) zj
  exact ⟨run, s, h, hs, (C29_iteration_count _ _ _ _ _ _ _ _ _ run h s hs).1⟩

/-! ## C30 -/

/-- C30. Flattening to `[k, i]` and back to `[f, p, i]` are inverse to each other, and the tone and
harmonic printed for signal `k` are those whose data is at position `k`; distinct signals have
distinct labels. -/
theorem C30_signal_numbering {ι : Type} (F P : ℕ) :
    (∀ v : Fin (F * P) → Arr ι, to2d F P (to3d F P v) = v) ∧
    (∀ (a : ℕ → ℕ → Arr ι) (f p : ℕ), 1 ≤ f → f ≤ F → 1 ≤ p → p ≤ P →
      to3d F P (to2d F P a) f p = a f p) ∧
    (∀ k : Fin (F * P), ∃ f p : ℕ, kToFp k P = .ok ((f : ℝ), p) ∧ (1 ≤ f ∧ f ≤ F) ∧ (1 ≤ p ∧ p ≤ P) ∧
      (k : ℕ) = (f - 1) * P + (p - 1) ∧
      ∀ (v : Fin (F * P) → Arr ι), to3d F P v f p = v k) := by
  refine ⟨to2d_to3d, fun a f p h1 h2 h3 h4 => to3d_to2d a h1 h2 h3 h4, fun k => ?_⟩
  obtain ⟨h1, h2⟩ := signal_range k
  have hP : P ≠ 0 := by omega
  have hdm : (k : ℕ) / P * P + (k : ℕ) % P = k := Nat.div_add_mod' _ _
  refine ⟨(k : ℕ) / P + 1, (k : ℕ) % P + 1, ?_, ⟨Nat.le_add_left 1 _, h1⟩,
    ⟨Nat.le_add_left 1 _, h2⟩, by simpa using hdm.symm, fun v => ?_⟩
  · unfold kToFp
    rw [raiseIf_neg hP]
    dsimp only
    congr 2
    have hPr : (P : ℝ) ≠ 0 := by exact_mod_cast hP
    rw [div_eq_iff hPr]
    have : (((k : ℕ) / P * P + (k : ℕ) % P : ℕ) : ℝ) = (k : ℕ) := by rw [hdm]
    push_cast at this ⊢
    linarith
  · conv_rhs => rw [← to2d_to3d v]
    rfl

example : kToFp 5 2 = .ok (3, 2) := by
  unfold kToFp
  rw [raiseIf_neg (by norm_num)]
  norm_num
  rfl

/-! ## C31 -/

/-- C31 (partial). If every impedance is zero the result in mode `'o'` is the Thevenin voltage at
every bias point, whatever the other arguments, and nothing is modified. Missing: the other modes, for
which the result has the wrong shape (`C31_mode_ignored`). -/
theorem C31_zero_impedance_partial {N : ℕ} (cct : HCct N) (resp : ℝ → ℂ) (nb : NumB) (maxIt : ℤ)
    (stop : ℝ) (vjInit : Option (ℕ → ℕ → Arr (Fin N))) (damp : ℝ) (zj : ℂ)
    (h0 : ∀ f p, f ≤ cct.numF → p ≤ cct.numP → cct.zt f p = 0) :
    ∃ run, harmonicBalance cct resp nb maxIt stop vjInit damp .o zj = .ok run ∧
      run.res = .vj (fun f p _ => cct.vt f p) ∧ run.cct = cct ∧ run.vjInit = vjInit ∧
      ∀ f p i, f ≤ cct.numF → p ≤ cct.numP →
        resid cct resp nb (fun f p _ => cct.vt f p) f p i = 0 := by
  refine ⟨_, hb_zero _ _ _ _ _ _ _ _ h0, rfl, rfl, rfl, fun f p i hf hp => ?_⟩
  unfold resid Spec.residual
  rw [h0 f p hf hp]
  ring

/-- The mode is ignored in that case: the bare voltage array is returned in every mode. -/
theorem C31_mode_ignored {N : ℕ} (cct : HCct N) (resp : ℝ → ℂ) (nb : NumB) (maxIt : ℤ)
    (stop : ℝ) (vjInit : Option (ℕ → ℕ → Arr (Fin N))) (damp : ℝ) (zj : ℂ)
    (h0 : ∀ f p, f ≤ cct.numF → p ≤ cct.numP → cct.zt f p = 0) :
    ∃ run, harmonicBalance cct resp nb maxIt stop vjInit damp .x zj = .ok run ∧
      (∀ v it flag, run.res ≠ .extra v it flag) ∧
      ∃ run', harmonicBalance cct resp nb maxIt stop vjInit damp .m zj = .ok run' ∧
        ∀ v f, run'.res ≠ .masked v f := by
  refine ⟨_, hb_zero _ _ _ _ _ _ _ _ h0, ?_, _, hb_zero _ _ _ _ _ _ _ _ h0, ?_⟩
  · rintro v it flag ⟨⟩
  · rintro v f ⟨⟩

example : ∃ run, harmonicBalance { cct1 3 with zt := fun _ _ => 0 } (fun _ => 0) (.int 1) 10 0.001
    none 1 .o 0.67 = .ok run ∧ run.res = .vj fun f p _ => (cct1 3).vt f p := by
  obtain ⟨run, h, hr, -⟩ := C31_zero_impedance_partial { cct1 3 with zt := fun _ _ => 0 }
    (fun _ => 0) (.int 1) 10 0.001 none 1 0.67 (fun _ _ _ _ => rfl)
  exact ⟨run, h, hr⟩

/-! ## C32 -/

theorem steps_zero {S : Type} {next : S → S → Prop} {x y : S} (h : Spec.Steps next 0 x y) : y = x := by
  cases h; rfl

/-- C32 (partial). The circuit is unchanged if every Thevenin voltage in range is at least `1e-10` in
magnitude and the entries with index 0 are zero; `vj_initial` is unchanged if there are at least two
tones and two harmonics, or if no update was made. Missing: the other cases, in which the arguments
are modified (`C32_false_circuit`, `C32_false_vj_initial`). -/
theorem C32_inputs_unchanged_partial {N : ℕ} (cct : HCct N) (resp : ℝ → ℂ) (nb : NumB) (maxIt : ℤ)
    (stop : ℝ) (vjInit : Option (ℕ → ℕ → Arr (Fin N))) (damp : ℝ) (mode : Mode) (zj : ℂ)
    (run : Run N (cct.numF * cct.numP))
    (hrun : harmonicBalance cct resp nb maxIt stop vjInit damp mode zj = .ok run) :
    ((∀ f p, f ≤ cct.numF → p ≤ cct.numP → (f = 0 ∨ p = 0 → cct.vt f p = 0) ∧
        (1 ≤ f → 1 ≤ p → 1 / 10 ^ 10 ≤ ‖cct.vt f p‖)) →
      ∀ f p, f ≤ cct.numF → p ≤ cct.numP → run.cct.vt f p = cct.vt f p) ∧
    (run.cct.toCct = cct.toCct ∧ run.cct.zt = cct.zt) ∧
    (2 ≤ cct.numF → 2 ≤ cct.numP → run.vjInit = vjInit) ∧
    ((∀ s, run.stopped = some s → s.updates = 0) → run.vjInit = vjInit) := by
  by_cases h0 : ztZero cct
  · rw [hb_zero _ _ _ _ _ _ _ _ h0] at hrun
    cases hrun
    exact ⟨fun _ _ _ _ _ => rfl, ⟨rfl, rfl⟩, fun _ _ => rfl, fun _ => rfl⟩
  obtain ⟨start, m, s, hE⟩ := hb_entered h0 hrun
  refine ⟨fun hv f p hf hp => ?_, by rw [hE.cct_eq]; exact ⟨rfl, rfl⟩, fun hF hP => ?_, fun hu => ?_⟩
  · rw [hE.cct_eq]
    show clampVt cct.vt f p = cct.vt f p
    unfold clampVt
    by_cases hfp : f = 0 ∨ p = 0
    · rw [if_pos hfp, (hv f p hf hp).1 hfp]
    · rw [if_neg hfp, if_neg]
      exact not_lt.2 ((hv f p hf hp).2 (by omega) (by omega))
  · rw [hE.vjInit_eq]
    cases vjInit with
    | none => rfl
    | some v => simp only [Option.map, writeBack]; rw [if_neg (by omega)]
  · have hu := hu s hE.stopped
    rw [hE.vjInit_eq]
    cases vjInit with
    | none => rfl
    | some v =>
      have hst : start = v := (Except.ok.inj hE.start_eq).symm
      subst hst
      obtain ⟨⟨j, hj, hsteps⟩, -⟩ := iterate_post _ _ _ _ _ _ _ hE.loop
      obtain rfl : j = 0 := by omega
      have hvj : s.vj = to2d cct.numF cct.numP start := steps_zero hsteps
      simp only [Option.map, writeBack]
      split_ifs with hc
      · congr 1
        funext f p
        split_ifs with h
        · rw [hvj, to3d_to2d start h.1.1 h.1.2 h.2.1 h.2.2]
        · rfl
      · rfl

/-- C32 is false for the circuit: a zero Thevenin voltage comes out as `1e-10`. -/
theorem C32_false_circuit : ∃ (cct : HCct 1) (resp : ℝ → ℂ) (v0 : ℕ → ℕ → Arr (Fin 1))
    (run : Run 1 (cct.numF * cct.numP)), Valid cct.toCct (.int 1) ∧
    harmonicBalance cct resp (.int 1) 10 0.001 (some v0) 1 .x 0.67 = .ok run ∧
    cct.vt 1 1 = 0 ∧ run.cct.vt 1 1 = 1 / 10 ^ 10 := by
  have hc : clampVt (cct1 0).vt 1 1 = 1 / 10 ^ 10 := by
    simp only [clampVt, cct1]
    rw [if_neg (by norm_num)]
    norm_num
  obtain ⟨run, h, hr, -⟩ := cct1_run_target 0 (1 / 10 ^ 10) (1 / 10 ^ 10) hc (by norm_num) 0.001 1 10
    (by norm_num) (by norm_num) (by rw [sub_self, norm_zero]; positivity) 0.67
  refine ⟨cct1 0, _, _, run, cct1_valid 0, h, by simp [cct1], ?_⟩
  rw [hr]
  exact hc

/-- A run of `cct1` with one update, from the voltage 2 to the voltage 1. -/
theorem cct1_one_update : ∃ m, interpolateRespfn (cct1 1).toCct (fun _ => 0) (.int 1) = .ok m ∧
    ∃ mask, iterate (currentForHb (cct1 1) (fun _ => 0) (.int 1) m)
      (relErr (cct1 1).sigVt (cct1 1).sigZt)
      (update (currentForHb (cct1 1) (fun _ => 0) (.int 1) m) (cct1 1).sigVt (cct1 1).sigZt 1) 0.001 10
      (to2d (cct1 1).numF (cct1 1).numP (volt1 2)) = .ok
      { vj := to2d (cct1 1).numF (cct1 1).numP (volt1 1), iteration := 1, exit := .target,
        mask := some mask, evals := 2, updates := 1 } := by
  obtain ⟨m, hm, -⟩ := matrix_same (cct1 1) (fun _ => 0) (.int 1) (cct1_valid 1)
  have hcl := cct1_clamp 1 (by simp)
  obtain ⟨r, ⟨e, he, hr⟩, hle⟩ := cct1_evaluated 1 1 2 hcl (by norm_num) hm 0.001
  obtain ⟨r', hr', hle'⟩ := cct1_evaluated 1 1 1 hcl (by norm_num) hm 0.001
  have hw := update_no_current (currentForHb (cct1 1) (fun _ => 0) (.int 1) m) (cct1 1).sigVt
    (cct1 1).sigZt 1 (cct1_cur 1 hm) _ e he
  have heq : (fun k i => to2d (cct1 1).numF (cct1 1).numP (volt1 2) k i + ((cct1 1).sigVt k
      - to2d (cct1 1).numF (cct1 1).numP (volt1 2) k i) * ((1 : ℝ) : ℂ))
      = to2d (cct1 1).numF (cct1 1).numP (volt1 1) := by
    funext k i
    obtain ⟨h1, h2⟩ := signal_range k
    have e1 : (k : ℕ) / (cct1 1).numP + 1 = 1 := le_antisymm h1 (Nat.le_add_left 1 _)
    have e2 : (k : ℕ) % (cct1 1).numP + 1 = 1 := le_antisymm h2 (Nat.le_add_left 1 _)
    simp only [to2d, to1d, e1, e2, hcl]
    simp [volt1]
  rw [heq] at hw
  refine ⟨m, hm, r'.2, ?_⟩
  exact iterate_one _ _ _ (0.001 : ℝ) 10 (by norm_num) he hr (by
    rw [hle]; norm_num) hw hr' (hle'.2 (by norm_num))

/-- C32 is false for `vj_initial`: with one tone and one harmonic the caller's array holds the result
of the iteration afterwards. -/
theorem C32_false_vj_initial : ∃ (cct : HCct 1) (resp : ℝ → ℂ) (v0 v1 : ℕ → ℕ → Arr (Fin 1))
    (run : Run 1 (cct.numF * cct.numP)), Valid cct.toCct (.int 1) ∧
    harmonicBalance cct resp (.int 1) 10 0.001 (some v0) 1 .o 0.67 = .ok run ∧
    run.vjInit = some v1 ∧ v0 1 1 0 = 2 ∧ v1 1 1 0 = 1 := by
  obtain ⟨m, hm, mask, hit⟩ := cct1_one_update
  refine ⟨cct1 1, _, volt1 2, _, _, cct1_valid 1, hb_run (cct1_zt 1) hm hit rfl, rfl,
    by simp [volt1], ?_⟩
  dsimp only
  unfold writeBack
  rw [if_pos (.inl rfl)]
  rw [if_pos (by simp [cct1]), to3d_to2d _ (by norm_num) (by norm_num [cct1]) (by norm_num)
      (by norm_num [cct1])]
  simp [volt1]

end QMix.Props
