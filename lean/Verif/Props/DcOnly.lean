import Verif.Props.Asym
import Verif.Props.Classical

/-! # The dc current does not depend on the Kramers-Kronig transform (C138)

A consequence is that limit theorems apply to the dc current of the ideal junction although its Kramers-Kronig transform has
no bound near the gap. -/

namespace QMix.Props

open Complex Finset Filter Topology QMix.Qt QMix.Zemb MathFn RespFn

variable {ι : Type}

theorem corr_zero_im {r r' : ℝ → ℂ} (hr : ∀ v, (r v).im = (r' v).im) (ts : List Spec.Tone) (v : ℝ) :
    (Spec.corr r (ts.zip (List.replicate ts.length 0)) v).im = (Spec.corr r' (ts.zip (List.replicate ts.length 0)) v).im := by
  induction ts generalizing v with
  | nil => exact hr v
  | cons t ts ih =>
    simp only [List.length_cons, List.replicate_succ, List.zip_cons_cons, Spec.corr, add_zero]
    rw [im_sum, im_sum]
    refine sum_congr rfl fun k hk => ?_
    rw [mem_Icc, ← abs_le] at hk
    rw [if_pos hk, if_pos hk, mul_conj, im_ofReal_mul, im_ofReal_mul, ih]

/-- C138, the part that holds: if only the dc current is at frequency 0, it is the same for any two response functions with the same
dc I-V curve, whatever their Kramers-Kronig transforms are; for any number of tones and harmonics, any voltages and any `num_b`. -/
theorem C138_dc_partial (vj : ℕ → ℕ → Arr ι) (cct : Cct ι) {r r' : ℝ → ℂ} (hr : ∀ v, (r v).im = (r' v).im) {nb : NumB}
    (h : Valid cct nb) (hd : DcAlone cct) : ∃ cur : Arr ι, qtcurrentList vj cct r [0] nb none = .ok [cur] ∧
      qtcurrentList vj cct r' [0] nb none = .ok [cur] := by
  refine ⟨_, C14_mtsda vj cct r [0] nb h, ?_⟩
  rw [C14_mtsda vj cct r' [0] nb h]
  simp only [List.map_cons, List.map_nil]
  congr 2
  funext i
  rw [qt_dc cct r h hd, qt_dc cct r' h hd]
  have := corr_zero_im hr (Spec.tonesFrom (fun f p => vj f p i) cct.freq cct.numP ((nb.toTup cct.numF).foldr max 0) 1
    ((nb.toTup cct.numF).take cct.numF)) (cct.vb i)
  rw [Spec.length_tonesFrom, List.length_take, min_eq_left h.limits] at this
  rw [this]

/-- The ideal curve is at most as far from 0 as the voltage, and within 1 of the line `v`. -/
theorem perfectElem_bounds (v : ℝ) : |perfectElem v| ≤ |v| ∧ |perfectElem v - v| ≤ 1 := by
  unfold perfectElem
  dsimp only
  split_ifs with h1 h2 h3
  · rw [abs_zero, zero_sub, abs_neg]
    exact ⟨abs_nonneg _, h1.le⟩
  · rw [h2, abs_neg, abs_neg]
    norm_num [abs_le]
  · rw [h3]
    norm_num [abs_le]
  · rw [sub_self, abs_zero]
    exact ⟨le_rfl, zero_le_one⟩

theorem perfectElem_above {v : ℝ} (h : 1 < v) : perfectElem v = v := by
  unfold perfectElem
  dsimp only
  rw [if_neg (by rw [abs_of_pos (by linarith)]; linarith), if_neg (by linarith), if_neg h.ne']

/-- Only the dc curve of the ideal junction. -/
noncomputable def idealDc : ℝ → ℂ := fun v => I * (perfectElem v : ℝ)

theorem growth_idealDc : Growth 1 idealDc := ⟨1, zero_le_one, fun v => by
  rw [idealDc, norm_mul, norm_I, norm_real, Real.norm_eq_abs, one_mul, one_mul, pow_one]
  linarith [(perfectElem_bounds v).1]⟩

theorem idealDc_im (v : ℝ) : (idealDc v).im = perfectElem v := by rw [idealDc, I_mul_im, ofReal_re]

theorem resp_perfect_im {S : Splines} {p : Params} (hs : p.vSmear = none) {r : Obj} (hr : respPerfect S p = .ok r) (v : ℝ) :
    (r.resp v).im = (idealDc v).im := by
  unfold respPerfect at hr
  rw [hs] at hr
  have e : r.fIdc = perfectElem := by rw [← Except.ok.inj hr]
  unfold Obj.resp
  rw [e, idealDc_im]
  simp

/-- C99 for the ideal junction: the dc current returned with `RespFnPerfect` converges as `num_b` grows, for any number of tones and
harmonics and any drive, to the average of the ideal curve over the voltages reached by photon exchange. -/
theorem C99_perfect_dc [Finite ι] (vj : ℕ → ℕ → Arr ι) (cct : Cct ι) {S : Splines} {p : Params} (hs : p.vSmear = none) {r : Obj}
    (hr : respPerfect S p = .ok r) (hF : 1 ≤ cct.numF) (hd : DcAlone cct) {ε : ℝ} (hε : 0 < ε) :
    ∃ N, ∀ nb, Valid cct nb → AtLeast cct nb N → ∃ cur : Arr ι, qtcurrentList vj cct r.resp [0] nb none = .ok [cur] ∧
      ∀ i, ‖cur i - (Spec.photonAverage perfectElem
        (Spec.tonesFull (fun f p => vj f p i) cct.freq cct.numP 1 cct.numF) (cct.vb i) : ℝ)‖ < ε := by
  obtain ⟨N, hN⟩ := C99_converges vj cct growth_idealDc hF [0] hε
  refine ⟨N, fun nb hv hl => ?_⟩
  obtain ⟨cur, h1, h2⟩ := hN nb hv hl
  obtain ⟨cur', h3, h4⟩ := C138_dc_partial vj cct (resp_perfect_im hs hr) hv hd
  refine ⟨cur', h3, fun i => ?_⟩
  rw [List.map_cons, List.map_nil, h4] at h1
  have e : cur' = cur 0 := by simpa using h1
  have := h2 0 (by simp) i
  rw [qtFull_dc (fun f p => vj f p i) cct growth_idealDc hd] at this
  rw [e]
  simpa only [idealDc_im] using this

/-- C137 for the ideal junction: far above the gap and with a large enough `num_b` the dc current returned with `RespFnPerfect` is as
near to the bias voltage as one likes, whatever the drive is. -/
theorem C137_perfect_partial (vj : ℕ → ℕ → Arr ι) (cct : Cct ι) {S : Splines} {p : Params} (hs : p.vSmear = none) {r : Obj}
    (hr : respPerfect S p = .ok r) (hF : 1 ≤ cct.numF) (hf : ∀ f, 1 ≤ f → f ≤ cct.numF → cct.freq f ≠ 0) (hd : DcAlone cct)
    (i : ι) {ε : ℝ} (hε : 0 < ε) :
    ∃ V : ℝ, ∀ vb : ι → ℝ, V ≤ vb i →
      ∃ N, ∀ nb, Valid { cct with vb := vb } nb → AtLeast { cct with vb := vb } nb N → ∃ cur : Arr ι,
        qtcurrentList vj { cct with vb := vb } r.resp [0] nb none = .ok [cur] ∧ ‖cur i - (vb i : ℝ)‖ < ε := by
  obtain ⟨V, hV⟩ := C137_asymptote_partial vj cct growth_idealDc hF hf hd (B := 1) (d := 0)
    (fun v => by rw [idealDc_im]; exact (perfectElem_bounds v).2)
    (tendsto_const_nhds.congr' (by
      filter_upwards [eventually_gt_atTop 1] with v hv
      rw [idealDc_im, perfectElem_above hv, sub_self])) i hε
  refine ⟨V, fun vb hvb => ?_⟩
  obtain ⟨N, hN⟩ := hV vb hvb
  refine ⟨N, fun nb hv hl => ?_⟩
  obtain ⟨cur, h1, h2⟩ := hN nb hv hl
  obtain ⟨cur', h3, h4⟩ := C138_dc_partial vj { cct with vb := vb } (resp_perfect_im hs hr) hv hd
  rw [h4] at h1
  have e : cur' = cur := by simpa using h1
  refine ⟨cur', h3, ?_⟩
  rw [e]
  simpa using h2

/-- The demo circuit with two tones; one of the response functions has no Kramers-Kronig transform. -/
example (S : Splines) (vj : ℕ → ℕ → Arr (Fin 2)) : ∃ o, respPerfect S {} = .ok o ∧
    ∃ cur, qtcurrentList vj demo o.resp [0] (.tup [3, 2]) none = .ok [cur] ∧
      qtcurrentList vj demo idealDc [0] (.tup [3, 2]) none = .ok [cur] :=
  ⟨_, rfl, C138_dc_partial vj demo (resp_perfect_im (S := S) (p := {}) rfl rfl) demo_valid demo_noCoincidence.2⟩

/-- C138 is false in general: a signal so slow that its frequency rounds to 0 adds a current to the "dc" one that depends on the
Kramers-Kronig transform. Here the dc I-V curve is 0 everywhere, and yet the current reported for frequency 0 is not. -/
theorem C138_false : ∃ cur : Arr (Fin 1), (∀ v : ℝ, ((v : ℂ) ^ 2).im = (0 : ℂ).im) ∧
    qtcurrentList (fun _ _ _ => I * (1 / 10 ^ 5 : ℝ)) slow (fun v => (v : ℂ) ^ 2) [0] (.tup [1]) none = .ok [cur] ∧ (cur 0).re < 0 ∧
    qtcurrentList (fun _ _ _ => I * (1 / 10 ^ 5 : ℝ)) slow (fun _ => 0) [0] (.tup [1]) none = .ok [fun _ => 0] := by
  have h0 : ∀ v : ℝ, ((v : ℂ) ^ 2).im = (0 : ℂ).im := fun v => by rw [← ofReal_pow, ofReal_im, zero_im]
  have hj0 : 0 < besselJ 0 1 := besselJ_pos (n := 0) one_pos (by norm_num)
  have hj1 : 0 < besselJ 1 1 := besselJ_pos (n := 1) one_pos (by norm_num)
  have hjm : besselJ (-1) 1 = -besselJ 1 1 := by rw [besselJ_neg]; simp
  obtain ⟨r1, r2, r3⟩ := round4_slow
  set w : ℝ := 1 / 10 ^ 5 with hw
  have hwp : 0 < w := by norm_num [hw]
  have harg : arg (I * (w : ℂ)) = Real.pi / 2 := by rw [mul_comm, arg_real_mul I hwp, arg_I]
  have hnorm : ‖I * (w : ℂ)‖ / ((1 : ℕ) * w) = 1 := by
    rw [norm_mul, norm_I, norm_real, Real.norm_eq_abs, abs_of_pos hwp, Nat.cast_one, one_mul, div_self hwp.ne']
  have c0 : Spec.jacobiAnger (I * (w : ℂ)) w 1 1 0 = besselJ 0 1 := by
    rw [Spec.jacobiAnger, if_pos (by norm_num), hnorm]
    simp
  have c1 : Spec.jacobiAnger (I * (w : ℂ)) w 1 1 1 = -(I * besselJ 1 1) := by
    rw [Spec.jacobiAnger, if_pos (by norm_num), hnorm, harg]
    rw [show -I * ((1 : ℤ) : ℂ) * ((Real.pi / 2 : ℝ) : ℂ) = -(Real.pi / 2 * I) by push_cast; ring, exp_neg, exp_pi_div_two_mul_I, inv_I]
    ring
  have cm : Spec.jacobiAnger (I * (w : ℂ)) w 1 1 (-1) = -(I * besselJ 1 1) := by
    rw [Spec.jacobiAnger, if_pos (by norm_num), hnorm, harg, hjm]
    rw [show -I * ((-1 : ℤ) : ℂ) * ((Real.pi / 2 : ℝ) : ℂ) = Real.pi / 2 * I by push_cast; ring, exp_pi_div_two_mul_I]
    push_cast
    ring
  have s3 : ∀ g : ℤ → ℂ, ∑ k ∈ Icc (-((1 : ℕ) : ℤ)) ((1 : ℕ) : ℤ), g k = g (-1) + g 0 + g 1 := by
    intro g
    rw [show Icc (-((1 : ℕ) : ℤ)) ((1 : ℕ) : ℤ) = {-1, 0, 1} by decide]
    simp
    ring
  have key : ∀ resp : ℝ → ℂ, Spec.qt resp (fun _ _ => I * (w : ℂ)) slow.freq slow.numF slow.numP ((NumB.tup [1]).toTup slow.numF) (slow.vb 0) 0
      = ((besselJ 0 1 ^ 2 * (resp (1 / 2)).im + besselJ 1 1 ^ 2 * ((resp (1 / 2 + w)).im + (resp (1 / 2 - w)).im) : ℝ) : ℂ)
        + 2 * (besselJ 0 1 * besselJ 1 1 * (2 * (resp (1 / 2)).re - (resp (1 / 2 + w)).re - (resp (1 / 2 - w)).re) : ℝ) := by
    intro resp
    refine (single_tone resp (fun _ _ => I * (w : ℂ)) slow.freq (tup := [1]) rfl (slow.vb 0) 0).trans ?_
    rw [show slow.freq 1 = w from rfl, show slow.vb 0 = 1 / 2 from rfl]
    have hx : ∀ a : ℤ, |a| ≤ 1 → round4 ((a : ℝ) * w) = round4 0 := by
      intro a ha
      rw [r3]
      apply round4_small
      rw [abs_mul, abs_of_pos hwp]
      have : |(a : ℝ)| ≤ 1 := by exact_mod_cast ha
      have h5 : w < 1 / 20000 := by norm_num [hw]
      nlinarith
    unfold Spec.current
    simp only [Spec.boxSum]
    rw [s3]
    simp only [Spec.mixFreq, List.map_cons, List.map_nil, List.sum_cons, List.sum_nil, add_zero]
    rw [if_pos (hx (-1) (by norm_num)), if_pos (hx 0 (by norm_num)), if_pos (hx 1 (by norm_num))]
    unfold Spec.mixProduct
    simp only [List.mem_singleton, forall_eq, List.map_cons, List.map_nil, Spec.corr]
    rw [if_neg (by norm_num), if_pos trivial, if_neg (by norm_num)]
    simp only [s3]
    clear_value w
    norm_num [c0, c1, cm]
    apply Complex.ext <;> simp [sq] <;> ring
  refine ⟨_, h0, C14_mtsda _ slow _ [0] _ (slow_valid 1), ?_, ?_⟩
  · beta_reduce
    rw [key]
    simp only [← ofReal_pow, ofReal_im, ofReal_re]
    have : (0:ℝ) < besselJ 0 1 * besselJ 1 1 := mul_pos hj0 hj1
    rw [← ofReal_ofNat, ← ofReal_mul, ← ofReal_add, ofReal_re]
    nlinarith [mul_pos this (mul_pos hwp hwp)]
  · rw [C14_mtsda _ slow _ [0] _ (slow_valid 1)]
    simp only [List.map_cons, List.map_nil]
    congr 2
    funext i
    obtain rfl : i = 0 := Subsingleton.elim _ _
    rw [key]
    simp

end QMix.Props
