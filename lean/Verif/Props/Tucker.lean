import Verif.Props.ZembRec
import Verif.Props.QtCurrent

/-!
# Property C26: two implementations of Tucker theory

`qmix/qtcurrent.py` and `qmix/exp/exp_data.py` both calculate the currents of a junction with one
applied tone. The response function of the former is `resp = i_kk + i i_dc`.
-/

namespace QMix.Props

open Complex Finset QMix.Qt QMix.Zemb

variable {ι : Type}

/-! ## Lemmas -/

theorem single_tone (resp : ℝ → ℂ) (v : ℕ → ℕ → ℂ) (freq : ℕ → ℝ) {tup : List ℕ} {n : ℕ}
    (hn : tup.head? = some n) (vb f : ℝ) :
    Spec.qt resp v freq 1 1 tup vb f
      = Spec.current resp 1 [⟨Spec.jacobiAnger (v 1 1) (freq 1) 1 n, n, freq 1⟩] vb f := by
  obtain ⟨l, rfl⟩ : ∃ l, tup = n :: l := by
    cases tup with
    | nil => cases hn
    | cons a l => cases hn; exact ⟨l, rfl⟩
  unfold Spec.qt
  simp only [List.take_succ_cons, List.take_zero, Spec.tonesFrom]
  congr 3
  funext k
  exact Spec.harmonicConv_one (v 1) (freq 1) n _ (le_foldr_max List.mem_cons_self) k

theorem norm_jacobiAnger {v : ℂ} {w α : ℝ} (hw : 0 < w) (hv : ‖v‖ = α * w) {n : ℕ} {k : ℤ}
    (hk : |k| ≤ n) : ‖Spec.jacobiAnger v w 1 n k‖ ^ 2 = besselJ k α ^ 2 := by
  unfold Spec.jacobiAnger
  rw [if_pos hk, norm_mul, hv, Nat.cast_one, one_mul, mul_div_cancel_right₀ _ hw.ne']
  have : ‖exp (-I * (k : ℂ) * (arg v : ℂ))‖ = 1 := by
    rw [norm_exp]
    simp
  rw [this, mul_one, norm_real, Real.norm_eq_abs, sq_abs]

theorem jacobiAnger_prod {v : ℂ} {w α : ℝ} (hw : 0 < w) (hv : ‖v‖ = α * w) {n : ℕ} {k a : ℤ}
    (hk : |k| ≤ n) (hka : |k + a| ≤ n) :
    Spec.jacobiAnger v w 1 n k * (starRingEnd ℂ) (Spec.jacobiAnger v w 1 n (k + a))
      = exp (I * a * arg v) * ((besselJ k α * besselJ (k + a) α : ℝ) : ℂ) := by
  unfold Spec.jacobiAnger
  rw [if_pos hk, if_pos hka, hv, Nat.cast_one, one_mul, mul_div_cancel_right₀ _ hw.ne', map_mul,
    conj_ofReal, ← exp_conj]
  have e : exp (I * a * arg v) = exp (-I * (k : ℂ) * (arg v : ℂ))
      * exp ((starRingEnd ℂ) (-I * ((k + a : ℤ) : ℂ) * (arg v : ℂ))) := by
    rw [← exp_add]
    congr 1
    simp only [map_mul, map_neg, conj_I, conj_ofReal, map_intCast]
    push_cast
    ring
  rw [e]
  push_cast
  ring

theorem round4_pos {w : ℝ} (hw : 1 / 20000 < w) : round4 w ≠ 0 := by
  intro h
  have := abs_le.1 (abs_round4_sub_le w)
  rw [h] at this
  norm_num at this
  linarith [this.1]

theorem current_single_ac (resp : ℝ → ℂ) (t : Spec.Tone) (hw : 1 / 20000 < t.w) (vb : ℝ) :
    Spec.current resp 1 [t] vb t.w = Spec.mixProduct resp [(t, 1)] vb := by
  unfold Spec.current
  simp only [Spec.boxSum]
  rw [sum_eq_single 1]
  · simp [Spec.mixFreq]
  · intro a ha h1
    rw [mem_Icc] at ha
    rw [if_neg]
    have h0 := round4_pos hw
    obtain rfl | rfl : a = 0 ∨ a = -1 := by push_cast at ha; omega
    · simp only [Spec.mixFreq, List.map_cons, List.map_nil, List.sum_cons, List.sum_nil, Int.cast_zero,
        zero_mul, add_zero, round4_zero]
      exact h0.symm
    · simp only [Spec.mixFreq, List.map_cons, List.map_nil, List.sum_cons, List.sum_nil, Int.cast_neg,
        Int.cast_one, neg_one_mul, add_zero, round4_neg]
      intro h
      apply h0
      linarith
  · intro h
    exact absurd (by simp) h

theorem acCurrent_eq (idc ikk : ℝ → ℝ) (vb vph : ℝ) (n : ℤ) (α : ℝ) :
    acCurrent idc ikk vb vph n α = ∑ k ∈ Icc (-n) n,
      (((besselJ k α * (besselJ (k - 1) α + besselJ (k + 1) α) * idc (vb + k * vph) : ℝ) : ℂ)
      + I * ((besselJ k α * (besselJ (k - 1) α - besselJ (k + 1) α) * ikk (vb + k * vph) : ℝ) : ℂ)) := by
  rw [← foldl_pyRange]
  unfold acCurrent
  simp only [add_assoc]

/-! ## C26 -/

/-- C26. The dc current of `qtcurrent` for one tone and one harmonic is the pumped I-V curve of the
experimental analysis, for every phase of the drive. -/
theorem C26_dc (vj : ℕ → ℕ → Arr ι) (cct : Cct ι) (resp : ℝ → ℂ) (nb : NumB) (n : ℕ) (α : ι → ℝ)
    (h : Valid cct nb) (hF : cct.numF = 1) (hP : cct.numP = 1) (hn : (nb.toTup 1).head? = some n)
    (hw : 1 / 20000 < cct.freq 1) (hv : ∀ i, ‖vj 1 1 i‖ = α i * cct.freq 1) :
    qtcurrentList vj cct resp [0] nb none = .ok [fun i =>
      ((pumpedIv (fun x => (resp x).im) (cct.vb i) (cct.freq 1) n (α i) : ℝ) : ℂ)] := by
  rw [C14_mtsda vj cct resp [0] nb h]
  simp only [List.map_cons, List.map_nil, hF, hP]
  congr 2
  funext i
  rw [single_tone resp _ cct.freq hn, Spec.current_single_dc resp 1 _ hw, pumpedIv_eq]
  unfold tuckerDc
  push_cast
  refine sum_congr rfl fun k hk => ?_
  rw [mem_Icc, ← abs_le] at hk
  have := norm_jacobiAnger (by linarith) (hv i) hk
  rw [← ofReal_pow, this]
  push_cast
  rfl

/-- C26. The ac current of `qtcurrent` for one tone and one harmonic is the ac current of the
experimental analysis, turned by the phase of the drive, except for one term: the two outermost Bessel
functions, which the analysis keeps and `qtcurrent` drops. -/
theorem C26_ac (vj : ℕ → ℕ → Arr ι) (cct : Cct ι) (resp : ℝ → ℂ) (nb : NumB) (n : ℕ) (α : ι → ℝ)
    (h : Valid cct nb) (hF : cct.numF = 1) (hP : cct.numP = 1) (hn : (nb.toTup 1).head? = some n)
    (hw : 1 / 20000 < cct.freq 1) (hv : ∀ i, ‖vj 1 1 i‖ = α i * cct.freq 1) :
    qtcurrentList vj cct resp [cct.freq 1] nb none = .ok [fun i => exp (I * arg (vj 1 1 i)) *
      (acCurrent (fun x => (resp x).im) (fun x => (resp x).re) (cct.vb i) (cct.freq 1) n (α i)
        + I * (besselJ n (α i) * besselJ (n + 1) (α i) : ℝ) *
          (resp (cct.vb i + n * cct.freq 1)
            + (starRingEnd ℂ) (resp (cct.vb i - n * cct.freq 1))))] := by
  rw [C14_mtsda vj cct resp [cct.freq 1] nb h]
  simp only [List.map_cons, List.map_nil, hF, hP]
  congr 2
  funext i
  rw [single_tone resp _ cct.freq hn]
  have hc := current_single_ac resp ⟨Spec.jacobiAnger (vj 1 1 i) (cct.freq 1) 1 n, n, cct.freq 1⟩ hw
    (cct.vb i)
  simp only at hc
  rw [hc]
  have hw0 : 0 < cct.freq 1 := by linarith
  set w := cct.freq 1
  set vb := cct.vb i
  set a := α i
  set φ := arg (vj 1 1 i)
  set E := exp (I * φ)
  -- the two correlations, with the missing end added
  have h1 : Spec.corr resp [(⟨Spec.jacobiAnger (vj 1 1 i) w 1 n, n, w⟩, 1)] vb
      = E * (∑ k ∈ Icc (-(n : ℤ)) n, ((besselJ k a * besselJ (k + 1) a : ℝ) : ℂ) * resp (vb + k * w)
        - ((besselJ n a * besselJ (n + 1) a : ℝ) : ℂ) * resp (vb + n * w)) := by
    have e : ∑ k ∈ Icc (-(n : ℤ)) n, (if k = n then ((besselJ k a * besselJ (k + 1) a : ℝ) : ℂ) * resp (vb + k * w)
        else 0) = ((besselJ n a * besselJ (n + 1) a : ℝ) : ℂ) * resp (vb + n * w) := by
      rw [sum_ite_eq_of_mem']
      · simp
      · simp
    rw [← e, ← sum_sub_distrib, mul_sum]
    simp only [Spec.corr]
    refine sum_congr rfl fun k hk => ?_
    rw [mem_Icc] at hk
    by_cases hkn : k = n
    · rw [if_neg (by rw [abs_le]; omega), if_pos hkn]
      simp
    · have hk1 : |k + 1| ≤ n := by rw [abs_le]; omega
      rw [if_pos hk1, if_neg hkn, jacobiAnger_prod hw0 (hv i) (abs_le.2 hk) hk1]
      simp only [Int.cast_one, mul_one, sub_zero]
      ring
  have h2 : Spec.corr resp [(⟨Spec.jacobiAnger (vj 1 1 i) w 1 n, n, w⟩, -1)] vb
      = (starRingEnd ℂ) E * (∑ k ∈ Icc (-(n : ℤ)) n,
          ((besselJ k a * besselJ (k - 1) a : ℝ) : ℂ) * resp (vb + k * w)
        + ((besselJ n a * besselJ (n + 1) a : ℝ) : ℂ) * resp (vb - n * w)) := by
    have e : ∑ k ∈ Icc (-(n : ℤ)) n, (if k = -n then ((besselJ k a * besselJ (k - 1) a : ℝ) : ℂ) * resp (vb + k * w)
        else 0) = -(((besselJ n a * besselJ (n + 1) a : ℝ) : ℂ) * resp (vb - n * w)) := by
      rw [sum_ite_eq_of_mem']
      · have hb : besselJ (-(n : ℤ)) a * besselJ (-n - 1) a = -(besselJ n a * besselJ (n + 1) a) := by
          rw [show -(n : ℤ) - 1 = -(n + 1) by ring, besselJ_neg, besselJ_neg, zpow_add_one₀ (by norm_num)]
          have : ((-1 : ℝ) ^ (n : ℤ)) * (-1) ^ (n : ℤ) = 1 := by
            rw [← mul_zpow]; norm_num
          linear_combination (-besselJ n a * besselJ (n + 1) a) * this
        rw [hb]
        push_cast
        rw [neg_mul, neg_mul, ← sub_eq_add_neg]
      · simp
    rw [← sub_neg_eq_add, ← e, ← sum_sub_distrib, mul_sum]
    simp only [Spec.corr]
    refine sum_congr rfl fun k hk => ?_
    rw [mem_Icc] at hk
    by_cases hkn : k = -n
    · rw [if_neg (by rw [abs_le]; omega), if_pos hkn]
      simp
    · have hk1 : |k + -1| ≤ n := by rw [abs_le]; omega
      rw [if_pos hk1, if_neg hkn, jacobiAnger_prod hw0 (hv i) (abs_le.2 hk) hk1]
      have hE : (starRingEnd ℂ) E = exp (I * ((-1 : ℤ) : ℂ) * φ) := by
        rw [← exp_conj]
        congr 1
        simp
      rw [hE, sub_zero, ← sub_eq_add_neg k 1]
      ring
  have hm : Spec.mixProduct resp [(⟨Spec.jacobiAnger (vj 1 1 i) w 1 n, n, w⟩, 1)] vb
      = -I * (Spec.corr resp [(⟨Spec.jacobiAnger (vj 1 1 i) w 1 n, n, w⟩, 1)] vb
        - (starRingEnd ℂ) (Spec.corr resp [(⟨Spec.jacobiAnger (vj 1 1 i) w 1 n, n, w⟩, -1)] vb)) := by
    unfold Spec.mixProduct
    rw [if_neg (by simp)]
    rfl
  rw [hm, h1, h2, acCurrent_eq]
  simp only [map_mul, map_add, map_sum, conj_conj, conj_ofReal]
  have key : ∑ k ∈ Icc (-(n : ℤ)) n,
      (((besselJ k a * (besselJ (k - 1) a + besselJ (k + 1) a) * (resp (vb + k * w)).im : ℝ) : ℂ)
      + I * ((besselJ k a * (besselJ (k - 1) a - besselJ (k + 1) a) * (resp (vb + k * w)).re : ℝ) : ℂ))
      = -I * (∑ k ∈ Icc (-(n : ℤ)) n, ((besselJ k a * besselJ (k + 1) a : ℝ) : ℂ) * resp (vb + k * w)
        - ∑ k ∈ Icc (-(n : ℤ)) n, ((besselJ k a * besselJ (k - 1) a : ℝ) : ℂ)
          * (starRingEnd ℂ) (resp (vb + k * w))) := by
    rw [← sum_sub_distrib, mul_sum]
    refine sum_congr rfl fun k _ => ?_
    apply Complex.ext
    · simp
      ring
    · simp
      ring
  rw [key]
  ring

/-- C26. So the two ac currents differ by at most `|J_n(α) J_{n+1}(α)|` times the response function at
the two ends of the sum. -/
theorem C26_ac_bound (vj : ℕ → ℕ → Arr ι) (cct : Cct ι) (resp : ℝ → ℂ) (nb : NumB) (n : ℕ) (α : ι → ℝ)
    (h : Valid cct nb) (hF : cct.numF = 1) (hP : cct.numP = 1) (hn : (nb.toTup 1).head? = some n)
    (hw : 1 / 20000 < cct.freq 1) (hv : ∀ i, vj 1 1 i = ((α i * cct.freq 1 : ℝ) : ℂ))
    (hα : ∀ i, 0 ≤ α i) :
    ∃ r, qtcurrentList vj cct resp [cct.freq 1] nb none = .ok [r] ∧ ∀ i,
      ‖r i - acCurrent (fun x => (resp x).im) (fun x => (resp x).re) (cct.vb i) (cct.freq 1) n (α i)‖
        ≤ |besselJ n (α i) * besselJ (n + 1) (α i)| *
          (‖resp (cct.vb i + n * cct.freq 1)‖ + ‖resp (cct.vb i - n * cct.freq 1)‖) := by
  have hnn : ∀ i, 0 ≤ α i * cct.freq 1 := fun i => mul_nonneg (hα i) (by linarith)
  refine ⟨_, C26_ac vj cct resp nb n α h hF hP hn hw (fun i => ?_), fun i => ?_⟩
  · rw [hv i, norm_real, Real.norm_of_nonneg (hnn i)]
  · have ha : arg (vj 1 1 i) = 0 := by rw [hv i, arg_ofReal_of_nonneg (hnn i)]
    rw [ha]
    simp only [ofReal_zero, mul_zero, exp_zero, one_mul, add_sub_cancel_left]
    rw [norm_mul, norm_mul, norm_I, one_mul, norm_real, Real.norm_eq_abs]
    apply mul_le_mul_of_nonneg_left _ (abs_nonneg _)
    refine (norm_add_le _ _).trans ?_
    rw [norm_conj]

/-! ## C91 -/

/-- C91. The drive level of a simulation is recovered from the simulated dc current: if the current
increases with the drive level up to `α + alpha_max / 2`, and the linear estimate is within
`alpha_max / 2` of `α`, the analysis finds it to within `alpha_max / 2^16`. -/
theorem C91_drive_level (vj : ℕ → ℕ → Arr ι) (cct : Cct ι) (resp : ℝ → ℂ) (nb : NumB) (n : ℕ) (α : ι → ℝ)
    (h : Valid cct nb) (hF : cct.numF = 1) (hP : cct.numP = 1) (hn : (nb.toTup 1).head? = some n)
    (hw : 1 / 20000 < cct.freq 1) (hv : ∀ i, ‖vj 1 1 i‖ = α i * cct.freq 1) (r : Arr ι)
    (hr : qtcurrentList vj cct resp [0] nb none = .ok [r]) (alphaMax : ℝ) (hmax : 0 < alphaMax) (i : ι)
    (hmono : StrictMonoOn (tuckerDc (fun x => (resp x).im) (cct.vb i) (cct.freq 1) n)
      (Set.Icc 0 (α i + alphaMax / 2)))
    (hstart : |start (fun x => (resp x).im) (cct.freq 1) alphaMax n (cct.vb i) (r i).re - α i|
      ≤ alphaMax / 2)
    (hne : tuckerDc (fun x => (resp x).im) (cct.vb i) (cct.freq 1) n alphaMax ≠ (resp (cct.vb i)).im) :
    ∃ x, findAlpha (fun x => (resp x).im) (cct.freq 1) alphaMax n (cct.vb i) (r i).re = Fl.num x ∧
      |x - α i| ≤ alphaMax / 2 ^ 16 := by
  rw [C26_dc vj cct resp nb n α h hF hP hn hw hv] at hr
  cases hr
  have hα : 0 ≤ α i := by
    have := norm_nonneg (vj 1 1 i)
    rw [hv i] at this
    exact nonneg_of_mul_nonneg_left this (by linarith)
  apply C61_increasing _ _ _ _ _ _ _ hmax hα hne hmono _ hstart
  simp [pumpedIv_eq]

theorem demo_one_valid (n : ℕ) : Valid { demo with numF := 1, numP := 1 } (.int n) where
  tones_pos := le_rfl
  tones_le := by norm_num
  harmonics := le_rfl
  freq_pos := by intro f _ _; simp only [demo]; split_ifs <;> norm_num
  limits := by simp [NumB.toTup]

example (resp : ℝ → ℂ) :
    qtcurrentList (fun _ _ _ => ((2 * 0.3 : ℝ) : ℂ) * I) { demo with numF := 1, numP := 1 } resp [0] (.int 5) none
      = .ok [fun i => ((pumpedIv (fun x => (resp x).im) (demo.vb i) 0.3 5 2 : ℝ) : ℂ)] := by
  refine C26_dc _ { demo with numF := 1, numP := 1 } resp (.int 5) 5 (fun _ => 2) (demo_one_valid 5) rfl rfl
    rfl (by norm_num [demo]) (fun i => ?_)
  rw [norm_mul, norm_I, mul_one, norm_real, Real.norm_of_nonneg (by norm_num)]
  simp [demo]

example (resp : ℝ → ℂ) : ∃ r,
    qtcurrentList (fun _ _ _ => ((2 * 0.3 : ℝ) : ℂ)) { demo with numF := 1, numP := 1 } resp [0.3] (.int 5) none
      = .ok [r] ∧ ∀ i,
      ‖r i - acCurrent (fun x => (resp x).im) (fun x => (resp x).re) (demo.vb i) 0.3 5 2‖
        ≤ |besselJ 5 2 * besselJ 6 2| *
          (‖resp (demo.vb i + 5 * 0.3)‖ + ‖resp (demo.vb i - 5 * 0.3)‖) := by
  have h := C26_ac_bound (fun _ _ _ => ((2 * 0.3 : ℝ) : ℂ)) { demo with numF := 1, numP := 1 } resp (.int 5) 5
    (fun _ => 2) (demo_one_valid 5) rfl rfl rfl (by norm_num [demo]) (fun i => by simp [demo])
    (fun _ => by norm_num)
  simpa [demo] using h

/-- The junction with constant dc current `-1`, driven with level `1/2`, with the zeroth photon step
only. -/
example (r : Arr Unit)
    (hr : qtcurrentList (fun _ _ _ => ((1 / 2 : ℝ) : ℂ)) (one 1) (fun _ => -I) [0] (.int 0) none = .ok [r]) :
    ∃ x, findAlpha (fun _ => -1) 1 1 0 0 (r ()).re = Fl.num x ∧ |x - 1 / 2| ≤ 1 / 2 ^ 16 := by
  have hval := one_valid 1 le_rfl (.int 0) (by simp [NumB.toTup])
  have hv : ∀ i : Unit, ‖((1 / 2 : ℝ) : ℂ)‖ = (fun _ => (1 / 2 : ℝ)) i * (one 1).freq 1 := by
    intro i
    rw [norm_real, Real.norm_of_nonneg (by norm_num)]
    simp [one]
  have hre : (r ()).re = -besselJ 0 (1 / 2) ^ 2 := by
    rw [C26_dc _ (one 1) (fun _ => -I) (.int 0) 0 (fun _ => 1 / 2) hval rfl rfl rfl (by norm_num [one]) hv] at hr
    cases hr
    rw [ofReal_re, pumpedIv_eq, ← demo_current 0 1]
    simp [one]
  have h := C91_drive_level (fun _ _ _ => ((1 / 2 : ℝ) : ℂ)) (one 1) (fun _ => -I) (.int 0) 0 (fun _ => 1 / 2)
    hval rfl rfl rfl (by norm_num [one]) hv r hr 1 one_pos ()
  simp only [neg_im, I_im, hre] at h ⊢
  refine h ?_ (demo_start 0 1) (demo_ne 0 1)
  have e : (1 / 2 : ℝ) + 1 / 2 = 1 := by norm_num
  rw [e]
  exact demo_mono 0 1

end QMix.Props
