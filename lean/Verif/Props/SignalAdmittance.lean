import Verif.Props.Conversion

/-!
# Property C152: the admittance that a pumped junction presents to a weak signal

Two tones, one harmonic. Tone 1 is the local oscillator, of any strength; tone 2 is the signal, weak
compared with its photon voltage. The current at the signal frequency is then the signal phasor times
an admittance that depends on the junction and the local oscillator only: the diagonal element of
Tucker's admittance matrix.
-/

namespace QMix.Props

open Complex Finset QMix.Qt QMix.Zemb

variable {ι : Type}

/-- The admittance of quantum mixer theory at a frequency `w₂`, for a local oscillator of frequency
`w₁` and level `α`: the small-signal admittance of the unpumped junction (first difference of the dc
I-V curve, second difference of its Kramers-Kronig transform), averaged over the bias voltages
`vb + k w₁` with the weights `J_k(α)²`. -/
noncomputable def signalAdmittance (resp : ℝ → ℂ) (α w₁ w₂ : ℝ) (n : ℕ) (vb : ℝ) : ℂ :=
  ∑ k ∈ Icc (-(n : ℤ)) n, ((besselJ k α ^ 2 : ℝ) : ℂ) *
    ((((resp (vb + k * w₁ + w₂)).im - (resp (vb + k * w₁ - w₂)).im) / (2 * w₂) : ℝ)
      + I * (((resp (vb + k * w₁ + w₂)).re - 2 * (resp (vb + k * w₁)).re + (resp (vb + k * w₁ - w₂)).re) / (2 * w₂) : ℝ))

/-! ## Lemmas -/

/-- The mixing product of order 1 of a weak tone. -/
theorem weak_single (resp : ℝ → ℂ) (v : ℂ) {w a : ℝ} (hw0 : 0 < w) (hv : ‖v‖ = a * w) (ha : a ≤ 1) (n : ℕ) (hn : 1 ≤ n)
    (vb : ℝ) :
    ‖Spec.mixProduct resp [(⟨Spec.jacobiAnger v w 1 n, n, w⟩, 1)] vb
      - v * ((((resp (vb + w)).im - (resp (vb - w)).im) / (2 * w) : ℝ)
          + I * (((resp (vb + w)).re - 2 * (resp vb).re + (resp (vb - w)).re) / (2 * w) : ℝ))‖
      ≤ 5 / 4 * a ^ 3 * stepSum (fun x => ‖resp x‖) vb w n := by
  have h1 := weak_corr resp v hw0 hv ha n hn vb
  have h2 := weak_corr_neg resp v hw0 hv ha n hn vb
  have hvv := norm_mul_exp_arg_mul_I v
  rw [hv] at hvv
  set φ := arg v
  set R1 := Spec.corr resp [(⟨Spec.jacobiAnger v w 1 n, n, w⟩, 1)] vb
  set R2 := Spec.corr resp [(⟨Spec.jacobiAnger v w 1 n, n, w⟩, -1)] vb
  have hm : Spec.mixProduct resp [(⟨Spec.jacobiAnger v w 1 n, n, w⟩, 1)] vb
      = -I * (R1 - (starRingEnd ℂ) R2) := by
    unfold Spec.mixProduct
    rw [if_neg (by simp)]
    rfl
  have hw' : (w : ℂ) ≠ 0 := ofReal_ne_zero.2 hw0.ne'
  have hconj : (starRingEnd ℂ) (exp (-(I * φ)) * ((a / 2 : ℝ) * (resp (vb + w) - resp vb)))
      = exp (I * φ) * ((a / 2 : ℝ) * ((starRingEnd ℂ) (resp (vb + w)) - (starRingEnd ℂ) (resp vb))) := by
    rw [map_mul, map_mul, map_sub, conj_ofReal, ← exp_conj]
    congr 2
    simp
  have hlead : v * ((((resp (vb + w)).im - (resp (vb - w)).im) / (2 * w) : ℝ)
          + I * (((resp (vb + w)).re - 2 * (resp vb).re + (resp (vb - w)).re) / (2 * w) : ℝ))
      = -I * (exp (I * φ) * ((a / 2 : ℝ) * (resp vb - resp (vb - w)))
        - (starRingEnd ℂ) (exp (-(I * φ)) * ((a / 2 : ℝ) * (resp (vb + w) - resp vb)))) := by
    rw [hconj, ← hvv, mul_comm (φ : ℂ) I]
    have e : ((((resp (vb + w)).im - (resp (vb - w)).im : ℝ) : ℂ)
        + I * (((resp (vb + w)).re - 2 * (resp vb).re + (resp (vb - w)).re : ℝ) : ℂ))
        = -I * (resp vb - resp (vb - w) - ((starRingEnd ℂ) (resp (vb + w)) - (starRingEnd ℂ) (resp vb))) := by
      apply Complex.ext
      · simp; ring
      · simp; ring
    calc _ = exp (I * φ) * ((a / 2 : ℝ) : ℂ) * ((((resp (vb + w)).im - (resp (vb - w)).im : ℝ) : ℂ)
        + I * (((resp (vb + w)).re - 2 * (resp vb).re + (resp (vb - w)).re : ℝ) : ℂ)) := by
          push_cast
          field_simp
      _ = _ := by rw [e]; ring
  rw [hm, hlead, ← mul_sub, norm_mul, norm_neg, norm_I, one_mul, sub_sub_sub_comm, ← map_sub]
  refine (norm_sub_le _ _).trans ?_
  rw [norm_conj]
  linarith

/-- A local oscillator that gives and takes no net photon only averages over the bias. -/
theorem mixing_averaged (resp : ℝ → ℂ) (v₁ : ℂ) {w₁ α : ℝ} (hw1 : 0 < w₁) (hv₁ : ‖v₁‖ = α * w₁) (n₁ : ℕ) (t : Spec.Tone)
    (vb : ℝ) :
    Spec.mixProduct resp [(⟨Spec.jacobiAnger v₁ w₁ 1 n₁, n₁, w₁⟩, 0), (t, 1)] vb
      = ∑ k ∈ Icc (-(n₁ : ℤ)) n₁, ((besselJ k α ^ 2 : ℝ) : ℂ) * Spec.mixProduct resp [(t, 1)] (vb + k * w₁) := by
  have hfil : (Icc (-(n₁ : ℤ)) n₁).filter (fun k : ℤ => |k + 0| ≤ (n₁ : ℤ)) = Icc (-(n₁ : ℤ)) n₁ := by
    apply Finset.ext
    intro k
    simp only [mem_filter, mem_Icc, abs_le]
    omega
  have c1 := corr_first resp v₁ hw1 hv₁ n₁ 0 [(t, 1)] vb
  have c2 := corr_first resp v₁ hw1 hv₁ n₁ 0 [(t, -1)] vb
  rw [hfil] at c1 c2
  simp only [add_zero, Int.cast_zero, mul_zero, zero_mul, exp_zero, one_mul, ← pow_two] at c1 c2
  unfold Spec.mixProduct
  rw [if_neg (by simp)]
  simp only [List.map_cons, List.map_nil, neg_zero]
  rw [c1, c2, map_sum, ← sum_sub_distrib, mul_sum]
  refine sum_congr rfl fun k _ => ?_
  rw [if_neg (by simp), map_mul, conj_ofReal]
  ring

/-! ## C152 -/

/-- C152. With a local oscillator of any strength (tone 1) and a weak signal (tone 2), the current at
the signal frequency is the phasor of the signal times the admittance of the pumped junction, up to the
third power of the signal. -/
theorem C152_signal (vj : ℕ → ℕ → Arr ι) (cct : Cct ι) (resp : ℝ → ℂ) (nb : NumB) (n₁ n₂ : ℕ) (α β : ι → ℝ)
    (h : Valid cct nb) (hF : cct.numF = 2) (hP : cct.numP = 1) (hn : (nb.toTup 2).take 2 = [n₁, n₂])
    (hn2 : 1 ≤ n₂) (hv₁ : ∀ i, ‖vj 1 1 i‖ = α i * cct.freq 1) (hv₂ : ∀ i, ‖vj 2 1 i‖ = β i * cct.freq 2)
    (hβ : ∀ i, β i ≤ 1)
    (hf : ∀ c d : ℤ, |c| ≤ 1 → |d| ≤ 1 →
      (round4 (c * cct.freq 1 + d * cct.freq 2) = round4 (cct.freq 2) ↔ c = 0 ∧ d = 1)) :
    ∃ r, qtcurrentList vj cct resp [cct.freq 2] nb none = .ok [r] ∧ ∀ i,
      ‖r i - vj 2 1 i * signalAdmittance resp (α i) (cct.freq 1) (cct.freq 2) n₁ (cct.vb i)‖
        ≤ 5 / 4 * β i ^ 3 * stepSum₂ resp (cct.vb i) (cct.freq 1) (cct.freq 2) n₁ n₂ := by
  refine ⟨_, C14_mtsda vj cct resp [cct.freq 2] nb h, fun i => ?_⟩
  have hw1 : 0 < cct.freq 1 := h.freq_pos 1 le_rfl (by omega)
  have hw2 : 0 < cct.freq 2 := h.freq_pos 2 (by norm_num) (by omega)
  simp only [hF, hP]
  have hc := current_two resp ⟨Spec.jacobiAnger (vj 1 1 i) (cct.freq 1) 1 n₁, n₁, cct.freq 1⟩
    ⟨Spec.jacobiAnger (vj 2 1 i) (cct.freq 2) 1 n₂, n₂, cct.freq 2⟩ (cct.vb i) (cct.freq 2) 0 1 (by norm_num)
    (by norm_num) hf
  rw [two_tones resp _ cct.freq hn, hc, mixing_averaged resp _ hw1 (hv₁ i), signalAdmittance, mul_sum]
  have hs := sum_approx (s := Icc (-(n₁ : ℤ)) n₁) (c := fun k => ((besselJ k (α i) ^ 2 : ℝ) : ℂ))
    (fun k _ => by
      rw [norm_real, pow_two]
      exact abs_besselJ_mul_le_one k k (α i))
    (fun k _ => weak_single resp (vj 2 1 i) hw2 (hv₂ i) (hβ i) n₂ hn2 (cct.vb i + k * cct.freq 1))
  rw [← mul_sum] at hs
  simp only [mul_left_comm (vj 2 1 i)]
  exact hs

/-- C152. A junction whose dc curve does not fall anywhere never gives power to a weak signal: the
conductance it presents is not negative, whatever the local oscillator. -/
theorem C152_passive {resp : ℝ → ℂ} (hm : Monotone fun v => (resp v).im) (α w₁ : ℝ) {w₂ : ℝ} (hw : 0 < w₂) (n : ℕ) (vb : ℝ) :
    0 ≤ (signalAdmittance resp α w₁ w₂ n vb).re := by
  unfold signalAdmittance
  rw [re_sum]
  refine sum_nonneg fun k _ => ?_
  rw [re_ofReal_mul, add_re, ofReal_re, mul_comm I, re_ofReal_mul, I_re, mul_zero, add_zero]
  have := hm (show vb + k * w₁ - w₂ ≤ vb + k * w₁ + w₂ by linarith)
  have h : (resp (vb + k * w₁ - w₂)).im ≤ (resp (vb + k * w₁ + w₂)).im := this
  exact mul_nonneg (by positivity) (div_nonneg (by linarith) (by positivity))

/-- Local oscillator at 0.32, signal at 0.3: no other product lies at the signal frequency. -/
theorem mixer_signal (c d : ℤ) (hc : |c| ≤ 1) (hd : |d| ≤ 1) :
    round4 (c * mixer.freq 1 + d * mixer.freq 2) = round4 (mixer.freq 2) ↔ c = 0 ∧ d = 1 := by
  have h1 : mixer.freq 1 = 0.32 := by simp [mixer]
  have h2 : mixer.freq 2 = 0.3 := by simp [mixer]
  rw [h1, h2]
  have far : ∀ x y : ℝ, 1 / 1000 < |x - y| → round4 x ≠ round4 y := by
    intro x y h he
    have a := abs_le.1 (abs_round4_sub_le x)
    have b := abs_le.1 (abs_round4_sub_le y)
    rw [he] at a
    rw [lt_abs] at h
    rcases h with h | h <;> linarith [a.1, a.2, b.1, b.2]
  have hc' := abs_le.1 hc
  have hd' := abs_le.1 hd
  obtain rfl | rfl | rfl : c = -1 ∨ c = 0 ∨ c = 1 := by omega
  all_goals obtain rfl | rfl | rfl : d = -1 ∨ d = 0 ∨ d = 1 := by omega
  all_goals first
    | (refine iff_of_true ?_ (by norm_num); norm_num; done)
    | (refine iff_of_false (far _ _ ?_) (by norm_num); norm_num [abs_of_pos, abs_of_neg])

/-- A strong local oscillator, a weak signal. -/
example (resp : ℝ → ℂ) : ∃ r,
    qtcurrentList (fun k _ _ => if k = 1 then ((1.2 * 0.32 : ℝ) : ℂ) else ((0.01 * 0.3 : ℝ) : ℂ)) mixer resp
      [mixer.freq 2] (.tup [5, 2]) none = .ok [r] ∧ ∀ i,
      ‖r i - ((0.01 * 0.3 : ℝ) : ℂ) * signalAdmittance resp 1.2 (mixer.freq 1) (mixer.freq 2) 5 (mixer.vb i)‖
        ≤ 5 / 4 * 0.01 ^ 3 * stepSum₂ resp (mixer.vb i) (mixer.freq 1) (mixer.freq 2) 5 2 :=
  C152_signal (fun k _ _ => if k = 1 then ((1.2 * 0.32 : ℝ) : ℂ) else ((0.01 * 0.3 : ℝ) : ℂ)) mixer resp (.tup [5, 2])
    5 2 (fun _ => 1.2) (fun _ => 0.01) mixer_valid rfl rfl rfl (by norm_num)
    (fun i => by simp only [if_true]; rw [norm_real, Real.norm_of_nonneg (by norm_num)]; simp [mixer])
    (fun i => by
      simp only [show ¬ (2 = 1) by norm_num, if_false]
      rw [norm_real, Real.norm_of_nonneg (by norm_num)]; simp [mixer])
    (fun _ => by norm_num) mixer_signal

/-- The admittance is not always zero: an ohmic junction without local oscillator has conductance 1. -/
example : signalAdmittance (fun v => I * v) 0 1 1 0 0 = 1 := by
  simp [signalAdmittance, besselJ]

end QMix.Props
