import Verif.Lemmas.Scale
import Verif.Props.Classical

/-! # The normalisation is immaterial as far as frequencies match alike (C144)

`qmix/qtcurrent.py` works with voltages and frequencies divided by the gap voltage and gap frequency and currents divided by the gap
current. -/

namespace QMix.Props
open Complex QMix.Qt

variable {ι : Type}

/-- The circuit with all frequencies and bias voltages multiplied by `s`. -/
noncomputable def rescaled (s : ℝ) (cct : Cct ι) : Cct ι := { cct with freq := fun f => s * cct.freq f, vb := fun i => s * cct.vb i }

theorem rescaled_valid {s : ℝ} (hs : 0 < s) {cct : Cct ι} {nb : NumB} (h : Valid cct nb) : Valid (rescaled s cct) nb :=
  ⟨h.1, h.2, h.3, fun f h1 h2 => mul_pos hs (h.4 f h1 h2), h.5⟩

/-- C144, the part that holds: measuring all voltages and frequencies in a unit that is `s` times smaller and all currents in a unit that
is `c` times smaller multiplies the calculated currents by `c`, provided that the same mixing products match the requested frequencies
after rounding to 4 decimals. What is missing is that this proviso can fail, see `C144_false`. -/
theorem C144_scale_partial (vj : ℕ → ℕ → Arr ι) (cct : Cct ι) (resp : ℝ → ℂ) (fl : List ℝ) (nb : NumB) (h : Valid cct nb) {s : ℝ} (hs : 0 < s)
    (c : ℝ) (hm : ∀ x ∈ fl, ∀ ks : List ℤ, ks.length = cct.numF → (∀ k ∈ ks, |k| ≤ cct.numP) →
      (round4 (s * Spec.photonShift cct.freq 1 ks) = round4 (s * x) ↔ round4 (Spec.photonShift cct.freq 1 ks) = round4 x)) :
    ∃ cur : ℝ → Arr ι, qtcurrentList vj cct resp fl nb none = .ok (fl.map cur) ∧
      qtcurrentList (fun f p i => s * vj f p i) (rescaled s cct) (fun u => c * resp (u / s)) (fl.map fun x => s * x) nb none
        = .ok (fl.map fun x i => c * cur x i) := by
  refine ⟨_, qtcurrentList_eq _ _ _ _ _ h, ?_⟩
  rw [qtcurrentList_eq _ _ _ _ _ (rescaled_valid hs h), List.map_map]
  congr 1
  refine List.map_congr_left fun x hx => ?_
  funext i
  exact Spec.qt_scale hs c resp (fun f p => vj f p i) cct.freq cct.numF cct.numP (nb.toTup cct.numF) (cct.vb i) x h.5 (hm x hx)

/-- A signal of frequency 1 and amplitude 25000 on a unit resistor biased at 50000. -/
noncomputable def fast : Cct (Fin 1) := { numF := 1, numP := 1, freq := fun _ => 1, vb := fun _ => 50000 }

theorem fast_valid (N : ℕ) : Valid fast (.tup [N]) :=
  ⟨by simp [fast], by simp [fast], by simp [fast], fun _ _ _ => by simp [fast], by simp [fast, NumB.toTup]⟩

/-- C144 is false: measured in units that are 10^5 times larger the same junction has twice the dc current, because all frequencies
then round to 0. -/
theorem C144_false : ∃ (M : ℕ) (cur cur' : Arr (Fin 1)),
    qtcurrentList (fun _ _ _ => 25000) fast (fun v => I * v) [0] (.tup [M]) none = .ok [cur] ∧
    qtcurrentList (fun _ _ _ => ((1 / 10 ^ 5 : ℝ) : ℂ) * 25000) (rescaled (1 / 10 ^ 5) fast)
      (fun u => ((1 / 10 ^ 5 : ℝ) : ℂ) * (I * ((u / (1 / 10 ^ 5) : ℝ) : ℂ))) [1 / 10 ^ 5 * 0] (.tup [M]) none = .ok [cur'] ∧
    ‖((1 / 10 ^ 5 : ℝ) : ℂ) * cur 0 - 1 / 2‖ < 1 / 100 ∧ ‖cur' 0 - 1‖ < 1 / 100 := by
  obtain ⟨N, hN⟩ := C127_false
  obtain ⟨N', hN'⟩ := C127_dc_partial (fun _ _ _ => 25000) fast (by simp [fast]) (fun f _ _ => by simp only [fast]; norm_num)
    (by norm_num : (0 : ℝ) < 1 / 100)
  obtain ⟨cur', h1, _, h2⟩ := hN (max N N') (le_max_left _ _)
  obtain ⟨cur, h3, h4⟩ := hN' (.tup [max N N']) (fast_valid _) (fun f hf => by
    have : f = 0 := by simpa [fast] using hf
    simp [this, NumB.toTup])
  refine ⟨max N N', cur, cur', h3, ?_, ?_, h2⟩
  · rw [← h1]
    have e1 : rescaled (1 / 10 ^ 5) fast = slow := by
      unfold rescaled fast slow
      congr 1
      · funext f
        norm_num
      · funext i
        norm_num
    have e2 : (fun u : ℝ => ((1 / 10 ^ 5 : ℝ) : ℂ) * (I * ((u / (1 / 10 ^ 5) : ℝ) : ℂ))) = fun u : ℝ => I * (u : ℂ) := by
      funext u
      push_cast
      field_simp
    rw [e1, e2]
    congr 2
    · funext f p i
      push_cast
      norm_num
    · simp
  · have h5 := h4 0
    have e : ((1 / 10 ^ 5 : ℝ) : ℂ) * cur 0 - 1 / 2 = ((1 / 10 ^ 5 : ℝ) : ℂ) * (cur 0 - fast.vb 0) := by
      simp only [fast]
      push_cast
      ring
    rw [e, norm_mul, norm_real]
    calc ‖(1 / 10 ^ 5 : ℝ)‖ * ‖cur 0 - fast.vb 0‖ ≤ 1 * ‖cur 0 - fast.vb 0‖ :=
          mul_le_mul_of_nonneg_right (by norm_num) (norm_nonneg _)
      _ < 1 / 100 := by rw [one_mul]; exact h5

/-- Voltages of the demo circuit in millivolts for a gap voltage of 2.8 mV: the IF 0.02 and the tone 0.3 are matched alike. -/
example (resp : ℝ → ℂ) (vj : ℕ → ℕ → Arr (Fin 2)) : ∃ cur : ℝ → Arr (Fin 2),
    qtcurrentList vj demo resp [0.02] (.tup [3, 2]) none = .ok ([0.02].map cur) ∧
    qtcurrentList (fun f p i => (2.8 : ℝ) * vj f p i) (rescaled 2.8 demo) (fun u => (7 : ℝ) * resp (u / 2.8)) ([0.02].map fun x => 2.8 * x)
      (.tup [3, 2]) none = .ok ([0.02].map fun x i => (7 : ℝ) * cur x i) := by
  refine C144_scale_partial vj demo resp [0.02] (.tup [3, 2]) demo_valid (by norm_num) 7 ?_
  have hr : ∀ (m : ℤ) (x : ℝ), x * 10 ^ 4 = m → round4 x = x := by
    intro m x hx
    have := abs_roundHalfEven_sub_le (x * 10 ^ 4)
    rw [hx] at this
    have h2 : |((roundHalfEven (m : ℝ) - m : ℤ) : ℝ)| < 1 := by push_cast; linarith
    have h3 : |roundHalfEven (m : ℝ) - m| < 1 := by exact_mod_cast h2
    have h4 : roundHalfEven (m : ℝ) = m := by
      have := Int.abs_lt_one_iff.1 h3
      omega
    rw [round4, hx, h4, ← hx]
    field_simp
  intro x hx ks hk _
  obtain rfl : x = 0.02 := by simpa using hx
  obtain ⟨a, b, rfl⟩ := List.length_eq_two.1 hk
  have e : Spec.photonShift demo.freq 1 [a, b] = 0.3 * a + 0.32 * b := by
    simp only [Spec.photonShift, demo]
    norm_num
    ring
  rw [e, hr (3000 * a + 3200 * b) (0.3 * a + 0.32 * b) (by push_cast; ring), hr 200 0.02 (by norm_num),
    hr (8400 * a + 8960 * b) (2.8 * (0.3 * a + 0.32 * b)) (by push_cast; ring), hr 560 (2.8 * 0.02) (by norm_num)]
  exact mul_right_inj' (by norm_num)

end QMix.Props
