import Verif.Lemmas.Energy2
import Verif.Props.Limit

/-!
# Property C153: the photon balance of every tone

C101 says that the powers of all signals together are conserved. Here the power of one tone alone: what
`qtcurrent` returns at the harmonics of a tone carries exactly the energy of the photons that this
tone has given to the tunnelling electrons.
-/

namespace QMix.Props

open Complex Finset Filter Topology QMix.Qt

variable {ι : Type}

theorem tonesFull_getElem (v : ℕ → ℕ → ℂ) (freq : ℕ → ℝ) (P f n j : ℕ) (hj : j < (Spec.tonesFull v freq P f n).length) :
    (Spec.tonesFull v freq P f n)[j] = ⟨Spec.phaseCoeff (v (f + j)) (freq (f + j)) P, 0, freq (f + j)⟩ := by
  induction n generalizing f j with
  | zero => simp [Spec.tonesFull] at hj
  | succ n ih =>
    rcases j with _ | j
    · simp [Spec.tonesFull]
    · simp only [Spec.tonesFull, List.getElem_cons_succ]
      rw [ih (f + 1) j, show f + 1 + j = f + (j + 1) by omega]

/-- The power of the full currents of tone `f`. -/
theorem qtFull_tone_power (vj : ℕ → ℕ → Arr ι) (cct : Cct ι) {resp : ℝ → ℂ} {m : ℕ} (hr : Growth m resp)
    (hf : ∀ f, 1 ≤ f → f ≤ cct.numF → cct.freq f ≠ 0) (hn : NoCoincidence cct) {f : ℕ} (hf1 : 1 ≤ f) (hfF : f ≤ cct.numF)
    (i : ι) :
    ∑ p ∈ Icc 1 cct.numP, ((starRingEnd ℂ) (vj f p i) *
        Spec.qtFull resp (fun f p => vj f p i) cct.freq cct.numF cct.numP (cct.vb i) (p * cct.freq f)).re / 2
    = Spec.photonWork (fun v => (resp v).im) (f - 1)
        (Spec.tonesFull (fun f p => vj f p i) cct.freq cct.numP 1 cct.numF) (cct.vb i) := by
  obtain ⟨j, rfl⟩ : ∃ j, f = 1 + j := ⟨f - 1, by omega⟩
  set v : ℕ → ℕ → ℂ := fun f p => vj f p i with hv
  have hE := tonesFull_exact v cct.freq cct.numP 1 cct.numF fun g h1 h2 => hf g h1 (by omega)
  have hL := length_tonesFull v cct.freq cct.numP 1 cct.numF
  have hj : j < cct.numF := by omega
  rw [show 1 + j - 1 = j by omega, ← tone_power hr hE j (by omega)]
  refine Finset.sum_congr rfl fun p hp => ?_
  rw [Finset.mem_Icc] at hp
  have hs := qtFull_single resp v cct.freq cct.numF cct.numP (cct.vb i) (p * cct.freq (1 + j))
    ((List.replicate cct.numF 0).set j (p : ℤ)) (by simp)
    (unit_box (by rw [Int.abs_eq_natAbs]; simpa using hp.2))
    (by rw [photonShift_unit cct.freq 1 cct.numF j hj]; simp)
    (fun as h1 h2 h3 => by
      have := hn.1 (1 + j) p (by omega) (by omega) hp.1 hp.2 as h1 h2 h3
      rwa [show 1 + j - 1 = j by omega] at this)
  rw [hs, getD_map_range' v cct.numF j hj, hL]

/-- C153. When no other mixing product coincides with a signal, the power `Re(V* I) / 2` of the
harmonics of tone `f` tends to the mean energy of the photons of this tone that the tunnelling electrons
have absorbed: each photon counts `freq[f]`, whichever harmonic or mixing product is involved. -/
theorem C153_balance (vj : ℕ → ℕ → Arr ι) (cct : Cct ι) {resp : ℝ → ℂ} {m : ℕ} (hr : Growth m resp)
    (hf : ∀ f, 1 ≤ f → f ≤ cct.numF → cct.freq f ≠ 0) (hn : NoCoincidence cct) {f : ℕ} (hf1 : 1 ≤ f) (hfF : f ≤ cct.numF)
    (i : ι) {ε : ℝ} (hε : 0 < ε) :
    ∃ N, ∀ nb, Valid cct nb → AtLeast cct nb N → ∃ cur : ℝ → Arr ι,
      (∀ fl, qtcurrentList vj cct resp fl nb none = .ok (fl.map cur)) ∧
      |∑ p ∈ Icc 1 cct.numP, ((starRingEnd ℂ) (vj f p i) * cur (p * cct.freq f) i).re / 2
        - Spec.photonWork (fun v => (resp v).im) (f - 1)
            (Spec.tonesFull (fun f p => vj f p i) cct.freq cct.numP 1 cct.numF) (cct.vb i)| < ε := by
  have ht := fun f => tendsto_growing_qt vj cct hr (hf1.trans hfF) f i
  have h := tendsto_finsetSum (Icc 1 cct.numP) fun p _ =>
      (((continuous_re.tendsto _).comp ((ht (p * cct.freq f)).const_mul ((starRingEnd ℂ) (vj f p i)))).div_const 2)
  rw [qtFull_tone_power vj cct hr hf hn hf1 hfF i] at h
  obtain ⟨N, hN⟩ := growing_extract (h.eventually (Metric.ball_mem_nhds _ hε))
  refine ⟨N, fun nb hv hl => ⟨_, fun fl => C14_mtsda vj cct resp fl nb hv, ?_⟩⟩
  have := hN nb hv hl
  rw [Real.dist_eq] at this
  exact this

/-- C153. A purely reactive junction (no dc current at any voltage) cannot move power from one tone to
another: every tone on its own gives as much as it takes. -/
theorem C153_reactive (vj : ℕ → ℕ → Arr ι) (cct : Cct ι) {resp : ℝ → ℂ} {m : ℕ} (hr : Growth m resp)
    (hf : ∀ f, 1 ≤ f → f ≤ cct.numF → cct.freq f ≠ 0) (hn : NoCoincidence cct) (h0 : ∀ v, (resp v).im = 0)
    {f : ℕ} (hf1 : 1 ≤ f) (hfF : f ≤ cct.numF) (i : ι) {ε : ℝ} (hε : 0 < ε) :
    ∃ N, ∀ nb, Valid cct nb → AtLeast cct nb N → ∃ cur : ℝ → Arr ι,
      (∀ fl, qtcurrentList vj cct resp fl nb none = .ok (fl.map cur)) ∧
      |∑ p ∈ Icc 1 cct.numP, ((starRingEnd ℂ) (vj f p i) * cur (p * cct.freq f) i).re / 2| < ε := by
  obtain ⟨N, hN⟩ := C153_balance vj cct hr hf hn hf1 hfF i hε
  refine ⟨N, fun nb hv hl => ?_⟩
  obtain ⟨cur, h1, h2⟩ := hN nb hv hl
  refine ⟨cur, h1, ?_⟩
  simp only [h0] at h2
  rwa [work_zero, sub_zero] at h2

/-- C153. A junction whose dc curve does not fall anywhere never gives power to a tone that drives it at
its fundamental only, whatever the other tones do: no other tone, however strong, makes it amplify. -/
theorem C153_absorbs (vj : ℕ → ℕ → Arr ι) (cct : Cct ι) {resp : ℝ → ℂ} {m : ℕ} (hr : Growth m resp)
    (hf : ∀ f, 1 ≤ f → f ≤ cct.numF → 0 < cct.freq f) (hn : NoCoincidence cct) (hm : Monotone fun v => (resp v).im)
    {f : ℕ} (hf1 : 1 ≤ f) (hfF : f ≤ cct.numF) (hP : 1 ≤ cct.numP) (i : ι)
    (hone : ∀ p, 2 ≤ p → p ≤ cct.numP → vj f p i = 0) {ε : ℝ} (hε : 0 < ε) :
    ∃ N, ∀ nb, Valid cct nb → AtLeast cct nb N → ∃ cur : ℝ → Arr ι,
      (∀ fl, qtcurrentList vj cct resp fl nb none = .ok (fl.map cur)) ∧
      -ε < ((starRingEnd ℂ) (vj f 1 i) * cur (cct.freq f) i).re / 2 := by
  obtain ⟨N, hN⟩ := C153_balance vj cct hr (fun f h1 h2 => (hf f h1 h2).ne') hn hf1 hfF i hε
  refine ⟨N, fun nb hv hl => ?_⟩
  obtain ⟨cur, h1, h2⟩ := hN nb hv hl
  refine ⟨cur, h1, ?_⟩
  have hsum : ∑ p ∈ Icc 1 cct.numP, ((starRingEnd ℂ) (vj f p i) * cur (p * cct.freq f) i).re / 2
      = ((starRingEnd ℂ) (vj f 1 i) * cur (cct.freq f) i).re / 2 := by
    rw [sum_eq_single 1]
    · simp
    · intro p hp hne
      rw [mem_Icc] at hp
      rw [hone p (by omega) hp.2]
      simp
    · intro h
      exact absurd (mem_Icc.2 ⟨le_rfl, hP⟩) h
  rw [hsum] at h2
  have hL := length_tonesFull (fun f p => vj f p i) cct.freq cct.numP 1 cct.numF
  have hj : f - 1 < (Spec.tonesFull (fun f p => vj f p i) cct.freq cct.numP 1 cct.numF).length := by omega
  have h3 := work_nonneg hr.im hm (tonesFull_small (fun f p => vj f p i) cct.freq cct.numP 1 cct.numF) (f - 1) hj
    (by rw [tonesFull_getElem, show 1 + (f - 1) = f by omega]; exact (hf f hf1 hfF).le)
    (by
      intro k
      rw [tonesFull_getElem, show 1 + (f - 1) = f by omega]
      exact phaseCoeff_sym hP hone _ k) (cct.vb i)
  have := (abs_lt.1 h2).1
  linarith

/-- C153. The books balance: the dc power and the energies of all tones add up to the energy that the
junction takes (the right-hand side of C101). -/
theorem C153_books (vj : ℕ → ℕ → Arr ι) (cct : Cct ι) {resp : ℝ → ℂ} {m : ℕ} (hr : Growth m resp)
    (hf : ∀ f, 1 ≤ f → f ≤ cct.numF → cct.freq f ≠ 0) (i : ι) :
    let tones := Spec.tonesFull (fun f p => vj f p i) cct.freq cct.numP 1 cct.numF
    cct.vb i * Spec.photonAverage (fun v => (resp v).im) tones (cct.vb i)
        + ∑ f ∈ Icc 1 cct.numF, Spec.photonWork (fun v => (resp v).im) (f - 1) tones (cct.vb i)
      = Spec.photonAverage (fun v => v * (resp v).im) tones (cct.vb i) := by
  intro tones
  have hE := tonesFull_exact (fun f p => vj f p i) cct.freq cct.numP 1 cct.numF fun g h1 h2 => hf g h1 (by omega)
  have hL := length_tonesFull (fun f p => vj f p i) cct.freq cct.numP 1 cct.numF
  rw [← work_sum hr hE, hL, ← sum_range_Icc]
  simp only [Nat.add_sub_cancel_left]
  rfl

/-- A resistor pumped by two tones of two harmonics each. -/
example (vj : ℕ → ℕ → Arr (Fin 2)) (i : Fin 2) (h2 : vj 2 2 i = 0) :
    ∃ N, ∀ nb, Valid demo nb → AtLeast demo nb N → ∃ cur : ℝ → Arr (Fin 2),
      (∀ fl, qtcurrentList vj demo (fun v => I * v) fl nb none = .ok (fl.map cur)) ∧
      -(1 / 100) < ((starRingEnd ℂ) (vj 2 1 i) * cur (demo.freq 2) i).re / 2 :=
  C153_absorbs vj demo growth_resistor (fun f h1 h2 => demo_valid.freq_pos f h1 h2) demo_noCoincidence
    (fun a b h => by simpa using h) (by norm_num) (by simp [demo]) (by simp [demo]) i
    (fun p h h' => by
      have : p = 2 := le_antisymm (by simpa [demo] using h') h
      rw [this, h2]) (by norm_num)

end QMix.Props
