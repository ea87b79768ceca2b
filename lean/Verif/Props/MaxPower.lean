import Verif.Props.HarmonicBalance
import Verif.Props.Circuit

/-! # No signal delivers more than its available power (C141)

`circuit.py` (available power) and `harmonic_balance.py` together. -/

namespace QMix.Props

open Complex QMix.Qt QMix.HB QMix.Spec QMix.Cct

/-- The power in watts that a signal with voltage `v` and current `i` (normalised peak values) delivers to the junction, with the gap
voltage `vg` and the normal resistance `rn`. -/
noncomputable def delivered (vg rn : ℝ) (v i : ℂ) : ℝ := (((starRingEnd ℂ) (v * vg)) * (i * (vg / rn))).re / 2

theorem power_le {a z i : ℂ} (hz : 0 < z.re) : ((starRingEnd ℂ) (a - z * i) * i).re ≤ ‖a‖ ^ 2 / (4 * z.re) := by
  rw [le_div_iff₀ (by positivity), ← normSq_eq_norm_sq, normSq_apply]
  simp only [mul_re, sub_re, sub_im, conj_re, conj_im, mul_im]
  nlinarith [sq_nonneg (a.re - 2 * z.re * i.re), sq_nonneg (a.im - 2 * z.re * i.im)]

theorem power_eq {a z i : ℂ} (hz : 0 < z.re) :
    ((starRingEnd ℂ) (a - z * i) * i).re = ‖a‖ ^ 2 / (4 * z.re) ↔ a - z * i = (starRingEnd ℂ) z * i := by
  rw [eq_div_iff (by positivity), ← normSq_eq_norm_sq, normSq_apply, Complex.ext_iff]
  simp only [mul_re, sub_re, sub_im, conj_re, conj_im, mul_im]
  constructor
  · intro h
    have h1 : (a.re - 2 * z.re * i.re) ^ 2 + (a.im - 2 * z.re * i.im) ^ 2 = 0 := by nlinarith
    have h2 : a.re - 2 * z.re * i.re = 0 := by nlinarith [sq_nonneg (a.re - 2 * z.re * i.re), sq_nonneg (a.im - 2 * z.re * i.im)]
    have h3 : a.im - 2 * z.re * i.im = 0 := by nlinarith [sq_nonneg (a.re - 2 * z.re * i.re), sq_nonneg (a.im - 2 * z.re * i.im)]
    constructor <;> nlinarith
  · rintro ⟨h1, h2⟩
    have e1 : a.re = 2 * z.re * i.re := by linarith
    have e2 : a.im = 2 * z.re * i.im := by linarith
    rw [e1, e2]
    ring

theorem delivered_eq (vg rn : ℝ) (v i : ℂ) : delivered vg rn v i = ((starRingEnd ℂ) v * i).re * (vg ^ 2 / rn) / 2 := by
  unfold delivered
  have : (starRingEnd ℂ) (v * vg) * (i * (vg / rn)) = ((vg ^ 2 / rn : ℝ) : ℂ) * ((starRingEnd ℂ) v * i) := by
    rw [map_mul, conj_ofReal]
    push_cast
    ring
  rw [this, re_ofReal_mul]
  ring

/-- C141. At an exact solution of the circuit equations no signal delivers more power to the junction than `available_power` reports
for it, in any unit, and it delivers this power if and only if it is matched (`v = conj(z) i`). -/
theorem C141_exact {N : ℕ} (cct : HCct N) (resp : ℝ → ℂ) (nb : NumB) (v : ℕ → ℕ → Arr (Fin N)) (f p : ℕ) (i : Fin N)
    (h0 : resid cct resp nb v f p i = 0) {c : Circuit} {vg rn : ℝ} (hv : c.vgap = some vg) (hr : c.rn = some rn) (hvg : vg ≠ 0) (hrn : 0 < rn)
    (h1 : get2 c.vt f p = .ok (cct.vt f p)) (h2 : get2 c.zt f p = .ok (cct.zt f p)) (hz : 0 < (cct.zt f p).re)
    (hne : cct.vt f p ≠ 0) {s : String} {u : PowerUnit} (hs : s.toLower = u.spelling) :
    ∃ x, availablePower c f p s = .ok x ∧
      delivered vg rn (v f p i) (specCur cct resp nb v f p i) ≤ u.watts x ∧
      (delivered vg rn (v f p i) (specCur cct resp nb v f p i) = u.watts x ↔
        v f p i = (starRingEnd ℂ) (cct.zt f p) * specCur cct resp nb v f p i) := by
  have hR : 0 < (cct.zt f p).re * rn := by positivity
  have hpos : 0 < sourcePower (cct.vt f p * vg) ((cct.zt f p).re * rn) := by
    unfold sourcePower
    have : (0 : ℝ) < ‖cct.vt f p * (vg : ℂ)‖ := norm_pos_iff.2 (mul_ne_zero hne (ofReal_ne_zero.2 hvg))
    positivity
  obtain ⟨x, hx, ex⟩ := availablePower_eq hv hr h1 h2 hs hR fun _ => hpos
  refine ⟨x, hx, ?_⟩
  have hveq : v f p i = cct.vt f p - cct.zt f p * specCur cct resp nb v f p i := by
    have : cct.vt f p - cct.zt f p * specCur cct resp nb v f p i - v f p i = 0 := h0
    rw [sub_eq_zero] at this
    exact this.symm
  rw [ex, delivered_eq]
  have e : sourcePower (cct.vt f p * vg) ((cct.zt f p).re * rn) = ‖cct.vt f p‖ ^ 2 / (4 * (cct.zt f p).re) * (vg ^ 2 / rn) / 2 := by
    unfold sourcePower
    rw [norm_mul, norm_real, mul_pow, Real.norm_eq_abs, sq_abs]
    field_simp
    ring
  have hk : 0 < vg ^ 2 / rn := by positivity
  rw [e]
  generalize specCur cct resp nb v f p i = j at *
  rw [hveq]
  constructor
  · have := power_le (a := cct.vt f p) (i := j) hz
    have := mul_le_mul_of_nonneg_right this hk.le
    linarith
  · rw [← power_eq hz]
    constructor
    · intro h
      exact mul_right_cancel₀ hk.ne' (by linarith)
    · intro h
      rw [h]

/-- Every junction voltage solves the circuit equations of the circuit whose source voltage is the sum of the junction voltage and the
voltage over the impedance. -/
theorem cct1_solution (resp : ℝ → ℂ) (v0 : ℂ) :
    resid (cct1 (v0 + specCur (cct1 0) resp (.int 1) (volt1 v0) 1 1 0)) resp (.int 1) (volt1 v0) 1 1 0 = 0 := by
  have e : specCur (cct1 (v0 + specCur (cct1 0) resp (.int 1) (volt1 v0) 1 1 0)) resp (.int 1) (volt1 v0) 1 1 0
      = specCur (cct1 0) resp (.int 1) (volt1 v0) 1 1 0 := rfl
  have : ∀ t : ℂ, resid (cct1 t) resp (.int 1) (volt1 v0) 1 1 0
      = t - 1 * specCur (cct1 t) resp (.int 1) (volt1 v0) 1 1 0 - v0 := by
    intro t
    show (cct1 t).vt 1 1 - (cct1 t).zt 1 1 * _ - volt1 v0 1 1 0 = _
    simp only [cct1, volt1, and_self, if_true]
    rfl
  rw [this, e]
  ring

/-- A signal with normalised source voltage 1 and impedance 1 into a junction that draws no current: gap voltage 2.7 mV, 14 ohm. -/
example : ∃ x, availablePower { demoCct with vgap := some 2.7e-3, rn := some 14, vt := [[0, 0], [0, 1]], zt := [[0, 0], [0, 1]] } 1 1 "nW" = .ok x ∧
    delivered 2.7e-3 14 1 (specCur (cct1 1) (fun _ => 0) (.int 1) (volt1 1) 1 1 0) ≤ PowerUnit.nW.watts x := by
  have h0 := cct1_solution (fun _ => 0) 1
  have hz : specCur (cct1 0) (fun _ => 0) (.int 1) (volt1 1) 1 1 0 = 0 := qt_zero _ _ _ _ _ _ _
  rw [hz, add_zero] at h0
  obtain ⟨x, hx, hle, _⟩ := C141_exact (cct1 1) (fun _ => 0) (.int 1) (volt1 1) 1 1 0 h0
    (c := { demoCct with vgap := some 2.7e-3, rn := some 14, vt := [[0, 0], [0, 1]], zt := [[0, 0], [0, 1]] }) (vg := 2.7e-3) (rn := 14)
    (s := "nW") (u := .nW) rfl rfl (by norm_num) (by norm_num) (by simp only [cct1, and_self, if_true]; rfl)
    (by simp only [cct1, and_self, if_true]; rfl) (by simp [cct1]) (by simp [cct1])
    (by rw [← String.toList_inj]; simp [String.toLower, PowerUnit.spelling])
  refine ⟨x, hx, ?_⟩
  simpa [volt1] using hle

/-- C141. If `harmonic_balance` stops at its error target, no signal delivers more power than the available power of a source whose
voltage is larger by the remaining error, `stop_rerror |v|`. -/
theorem C141_converged {N : ℕ} (cct : HCct N) (resp : ℝ → ℂ) (nb : NumB) (maxIt : ℤ) (stop : ℝ)
    (vjInit : Option (ℕ → ℕ → Arr (Fin N))) (damp : ℝ) (mode : Mode) (zj : ℂ) (h : Valid cct.toCct nb)
    (run : Run N (cct.numF * cct.numP)) (hrun : harmonicBalance cct resp nb maxIt stop vjInit damp mode zj = .ok run)
    (s : Stopped (Sig (cct.numF * cct.numP) N) N) (hs : run.stopped = some s) (ht : s.exit = .target) (v : ℕ → ℕ → Arr (Fin N))
    (hv : voltage run.res = some v)
    (hnan : ∀ f p i, 1 ≤ f → f ≤ cct.numF → 1 ≤ p → p ≤ cct.numP → ¬ (v f p i = 0 ∧ resid run.cct resp nb v f p i = 0))
    (f p : ℕ) (i : Fin N) (h1 : 1 ≤ f) (h2 : f ≤ cct.numF) (h3 : 1 ≤ p) (h4 : p ≤ cct.numP) (hz : 0 < (run.cct.zt f p).re)
    {vg rn : ℝ} (hrn : 0 < rn) :
    delivered vg rn (v f p i) (specCur run.cct resp nb v f p i)
      ≤ sourcePower (((‖run.cct.vt f p‖ + stop * ‖v f p i‖ : ℝ) : ℂ) * vg) ((run.cct.zt f p).re * rn) := by
  have hres := C27_converged_partial cct resp nb maxIt stop vjInit damp mode zj h run hrun s hs ht v hv hnan f p i h1 h2 h3 h4
  have hdef : resid run.cct resp nb v f p i = run.cct.vt f p - run.cct.zt f p * specCur run.cct resp nb v f p i - v f p i := rfl
  set e := resid run.cct resp nb v f p i
  have hveq : v f p i = (run.cct.vt f p - e) - run.cct.zt f p * specCur run.cct resp nb v f p i := by
    rw [hdef]
    ring
  rw [delivered_eq]
  have hk : 0 ≤ vg ^ 2 / rn := by positivity
  have hb := power_le (a := run.cct.vt f p - e) (i := specCur run.cct resp nb v f p i) hz
  rw [← hveq] at hb
  have hb2 : ‖run.cct.vt f p - e‖ ^ 2 ≤ (‖run.cct.vt f p‖ + stop * ‖v f p i‖) ^ 2 :=
    pow_le_pow_left₀ (norm_nonneg _) ((norm_sub_le _ _).trans (by linarith)) 2
  have es : sourcePower (((‖run.cct.vt f p‖ + stop * ‖v f p i‖ : ℝ) : ℂ) * vg) ((run.cct.zt f p).re * rn)
      = (‖run.cct.vt f p‖ + stop * ‖v f p i‖) ^ 2 / (4 * (run.cct.zt f p).re) * (vg ^ 2 / rn) / 2 := by
    unfold sourcePower
    rw [norm_mul, norm_real, norm_real, mul_pow, Real.norm_eq_abs, sq_abs, Real.norm_eq_abs, sq_abs]
    field_simp
    ring
  rw [es]
  have h5 : ((starRingEnd ℂ) (v f p i) * specCur run.cct resp nb v f p i).re
      ≤ (‖run.cct.vt f p‖ + stop * ‖v f p i‖) ^ 2 / (4 * (run.cct.zt f p).re) :=
    hb.trans (div_le_div_of_nonneg_right hb2 (by positivity))
  have := mul_le_mul_of_nonneg_right h5 hk
  linarith

end QMix.Props
