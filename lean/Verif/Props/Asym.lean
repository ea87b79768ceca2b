import Verif.Lemmas.Asym
import Verif.Props.Absorb

/-! # Far above the gap the drive does not change the dc current (C137) -/

namespace QMix.Props

open Complex Finset Filter Topology QMix.Qt QMix.Zemb

variable {ι : Type}

/-- The dc current without truncation is the photon average of the unpumped curve. -/
theorem qtFull_dc (v : ℕ → ℕ → ℂ) (cct : Cct ι) {resp : ℝ → ℂ} {m : ℕ} (hr : Growth m resp) (hd : DcAlone cct) (x : ℝ) :
    Spec.qtFull resp v cct.freq cct.numF cct.numP x 0
      = (Spec.photonAverage (fun v => (resp v).im) (Spec.tonesFull v cct.freq cct.numP 1 cct.numF) x : ℂ) := by
  have hL := length_tonesFull v cct.freq cct.numP 1 cct.numF
  rw [qtFull_single resp v cct.freq cct.numF cct.numP x 0 (List.replicate cct.numF 0) (by simp)
    (fun b hb => by rw [List.eq_of_mem_replicate hb]; simp) (by rw [photonShift_zero]) hd]
  unfold Spec.mixFull
  rw [if_pos]
  · rw [← im_corrFull_zero hr (tonesFull_small v cct.freq cct.numP 1 cct.numF), hL]
  · rw [zip_zero_iff (by simp [hL])]
    exact fun a ha => List.eq_of_mem_replicate ha

/-- C137, the part that holds. The unpumped curve approaches the line `v + d` (`d`: excess current) at large voltages and stays at
a bounded distance from the line through the origin. Then, for any drive with any number of tones and harmonics, the pumped curve
approaches the same line: far enough up, and with a `num_b` large enough *for the bias voltage considered*, the dc current is as
near to `v + d` as one likes. -/
theorem C137_asymptote_partial (vj : ℕ → ℕ → Arr ι) (cct : Cct ι) {resp : ℝ → ℂ} {m : ℕ} (hr : Growth m resp) (hF : 1 ≤ cct.numF)
    (hf : ∀ f, 1 ≤ f → f ≤ cct.numF → cct.freq f ≠ 0) (hd : DcAlone cct) {B d : ℝ} (hB : ∀ v, |(resp v).im - v| ≤ B)
    (hlim : Tendsto (fun v => (resp v).im - v) atTop (𝓝 d)) (i : ι) {ε : ℝ} (hε : 0 < ε) :
    ∃ V : ℝ, ∀ vb : ι → ℝ, V ≤ vb i →
      ∃ N, ∀ nb, Valid { cct with vb := vb } nb → AtLeast { cct with vb := vb } nb N → ∃ cur : Arr ι,
        qtcurrentList vj { cct with vb := vb } resp [0] nb none = .ok [cur] ∧ ‖cur i - (vb i + d : ℝ)‖ < ε := by
  set v : ℕ → ℕ → ℂ := fun f p => vj f p i with hv
  set Ls := Spec.tonesFull v cct.freq cct.numP 1 cct.numF with hLs
  have hE := tonesFull_exact v cct.freq cct.numP 1 cct.numF fun g h1 h2 => hf g h1 (by omega)
  have hS := tonesFull_small v cct.freq cct.numP 1 cct.numF
  have hB0 : 0 ≤ B := (abs_nonneg _).trans (hB 0)
  have g1 : GrowthR 0 fun x => (resp x).im - x - d := ⟨B + |d|, by positivity, fun x => by
    simpa using (abs_sub _ d).trans (add_le_add_left (hB x) _)⟩
  have g1' : GrowthR 1 fun x => (resp x).im - x - d := by
    obtain ⟨K, hK, h⟩ := g1
    refine ⟨K, hK, fun x => (h x).trans ?_⟩
    rw [pow_zero, pow_one]
    exact mul_le_mul_of_nonneg_left (by linarith [abs_nonneg x]) hK
  have g2 : GrowthR 1 fun x => x := ⟨1, zero_le_one, fun x => by simp⟩
  have g3 : GrowthR 1 fun _ => d := ⟨|d|, abs_nonneg _, fun x => by
    rw [pow_one]
    nlinarith [abs_nonneg x, abs_nonneg d]⟩
  have g4 : GrowthR 1 fun x => x + d := by
    refine ⟨1 + |d|, by positivity, fun x => (abs_add_le x d).trans ?_⟩
    rw [pow_one]
    nlinarith [abs_nonneg x, abs_nonneg d]
  have havg : ∀ x, Spec.photonAverage (fun v => (resp v).im) Ls x
      = Spec.photonAverage (fun x => (resp x).im - x - d) Ls x + (x + d) := by
    intro x
    have e : (fun v => (resp v).im) = fun x => ((resp x).im - x - d) + (x + d) := by funext x; ring
    rw [e, avg_add g1' g4 hS, avg_add g2 g3 hS, avg_id hE, avg_const d hE]
  have ht := avg_tendsto g1 (by simpa using hlim.sub_const d) hS
  obtain ⟨V, hV⟩ := eventually_atTop.1 (ht.eventually (Metric.ball_mem_nhds 0 (half_pos hε)))
  refine ⟨V, fun vb hvb => ?_⟩
  have h1 := hV _ hvb
  rw [dist_zero_right, Real.norm_eq_abs] at h1
  have h2 := tendsto_growing_qt vj { cct with vb := vb } hr hF 0 i
  obtain ⟨N, hN⟩ := growing_extract (h2.eventually (Metric.ball_mem_nhds _ (half_pos hε)))
  refine ⟨N, fun nb hv' hl => ⟨_, qtcurrentList_eq vj _ resp [0] nb hv', ?_⟩⟩
  have h3 := hN nb hv' hl
  rw [dist_eq_norm] at h3
  dsimp only at h3 ⊢
  rw [qtFull_dc (fun f p => vj f p i) cct hr hd (vb i), ← hv, ← hLs, havg] at h3
  have h4 : ‖((Spec.photonAverage (fun x => (resp x).im - x - d) Ls (vb i) + (vb i + d) : ℝ) : ℂ) - (vb i + d : ℝ)‖ < ε / 2 := by
    rw [← ofReal_sub, add_sub_cancel_right, norm_real]
    exact h1
  refine (norm_sub_le_norm_sub_add_norm_sub _ _ _).trans_lt ((add_lt_add h3 h4).trans_eq (by ring))

/-- Σ J_k² over a finite range is less than 1. -/
theorem sum_besselJ_sq_lt {x : ℝ} (h0 : 0 < x) (n : ℕ) (hx : x ^ 2 < 4 * (n + 2)) : ∑ k ∈ Icc (-(n : ℤ)) n, besselJ k x ^ 2 < 1 := by
  have h1 := sum_le_hasSum (insert ((n + 1 : ℕ) : ℤ) (Icc (-(n : ℤ)) n)) (fun k _ => sq_nonneg (besselJ k x)) (hasSum_besselJ_sq x h0.le)
  rw [sum_insert (by simp)] at h1
  have h2 : 0 < besselJ ((n + 1 : ℕ) : ℤ) x := besselJ_pos h0 (by push_cast; linarith)
  nlinarith [sq_pos_of_pos h2]

/-- One tone at 0.3, biased at `x`. -/
noncomputable def biased (x : ℝ) : Cct (Fin 1) := { numF := 1, numP := 1, freq := fun _ => 3 / 10, vb := fun _ => x }

/-- C137 is false for a fixed `num_b`: whatever `num_b` is, a tone of drive level 1 on a unit resistor makes the simulated dc current
differ from the bias voltage by more than any given amount, if only the bias voltage is large enough. (The terms that are left out
are multiplied by the bias voltage.) -/
theorem C137_false_fixed (n : ℕ) (E : ℝ) : ∃ x : ℝ, 0 < x ∧ ∃ cur : Arr (Fin 1),
    qtcurrentList (fun _ _ _ => 3 / 10) (biased x) (fun v => I * v) [0] (.int n) none = .ok [cur] ∧
    (cur 0).im = 0 ∧ (cur 0).re < x - E := by
  have hS := sum_besselJ_sq_lt (x := 1) one_pos n (by nlinarith [(n.cast_nonneg : (0 : ℝ) ≤ n)])
  set S := ∑ k ∈ Icc (-(n : ℤ)) n, besselJ k 1 ^ 2 with hSd
  have hpos : 0 < (|E| + 1) / (1 - S) := by
    have : 0 < 1 - S := by linarith
    positivity
  refine ⟨(|E| + 1) / (1 - S), hpos, _, C65_tien_gordon _ _ _ n rfl rfl (by simp only [biased]; norm_num), ofReal_im _, ?_⟩
  rw [ofReal_re]
  have e : ∀ k : ℤ, besselJ k (‖(3 / 10 : ℂ)‖ / (biased ((|E| + 1) / (1 - S))).freq 1) ^ 2
      * (I * ((((biased ((|E| + 1) / (1 - S))).vb 0 + k * (biased ((|E| + 1) / (1 - S))).freq 1 : ℝ)) : ℂ)).im
      = besselJ k 1 ^ 2 * ((|E| + 1) / (1 - S)) + besselJ k 1 ^ 2 * (k * (3 / 10)) := by
    intro k
    have h1 : ‖(3 / 10 : ℂ)‖ / (3 / 10 : ℝ) = 1 := by
      rw [show (3 / 10 : ℂ) = ((3 / 10 : ℝ) : ℂ) by push_cast; ring, norm_real, Real.norm_eq_abs, abs_of_pos (by norm_num),
        div_self (by norm_num)]
    simp only [biased, h1, I_mul_im, ofReal_re]
    ring
  rw [sum_congr rfl fun k _ => e k, sum_add_distrib, ← sum_mul, ← hSd]
  have hz : ∑ k ∈ Icc (-(n : ℤ)) n, besselJ k 1 ^ 2 * (k * (3 / 10 : ℝ)) = 0 := by
    rw [sum_sym (fun k : ℤ => besselJ k 1 ^ 2 * (k * (3 / 10 : ℝ))) n, sum_eq_zero]
    · simp
    · intro k _
      have : besselJ (-(k : ℤ)) 1 ^ 2 = besselJ (k : ℤ) 1 ^ 2 := by
        rw [besselJ_neg, mul_pow, zpow_natCast, ← pow_mul, mul_comm k 2, pow_mul]
        norm_num
      rw [this]
      push_cast
      ring
  rw [hz, add_zero]
  have h3 : S * ((|E| + 1) / (1 - S)) = (|E| + 1) / (1 - S) - (|E| + 1) := by
    have : 1 - S ≠ 0 := by linarith
    field_simp
    ring
  rw [h3]
  linarith [le_abs_self E]

/-- The hypotheses of `C137_asymptote_partial` can be met: an ideal curve with a gap, no excess current, two tones. -/
example (vj : ℕ → ℕ → Arr (Fin 2)) : ∃ V : ℝ, ∀ vb : Fin 2 → ℝ, V ≤ vb 0 →
    ∃ N, ∀ nb, Valid { demo with vb := vb } nb → AtLeast { demo with vb := vb } nb N → ∃ cur : Arr (Fin 2),
      qtcurrentList vj { demo with vb := vb } (fun v => I * (if 1 ≤ |v| then v else 0 : ℝ)) [0] nb none = .ok [cur] ∧
        ‖cur 0 - (vb 0 + 0 : ℝ)‖ < 1 / 1000 := by
  refine C137_asymptote_partial (m := 1) vj demo ⟨1, zero_le_one, fun v => ?_⟩ (by simp [demo])
    (fun f h1 h2 => (demo_valid.freq_pos f h1 h2).ne') demo_noCoincidence.2 (B := 1) (fun v => ?_) ?_ 0 (by norm_num)
  · rw [norm_mul, norm_I, norm_real, Real.norm_eq_abs, one_mul, pow_one, one_mul]
    split_ifs
    · linarith
    · rw [abs_zero]; positivity
  · rw [I_mul_im, ofReal_re]
    split_ifs with h
    · simp
    · rw [zero_sub, abs_neg]; linarith
  · refine tendsto_const_nhds.congr' ?_
    filter_upwards [eventually_ge_atTop 1] with v hv
    rw [I_mul_im, ofReal_re, if_pos (hv.trans (le_abs_self v)), sub_self]

end QMix.Props
