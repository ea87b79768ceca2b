import Verif.Lemmas.Continuous
import Verif.Props.Tol
import Verif.Lemmas.HarmonicBalance2

/-! # Small changes of the inputs make small changes of the current (C142)

`qmix/qtcurrent.py`, `qtcurrent`. -/

namespace QMix.Props
open Complex Finset Filter Topology QMix.Qt

variable {ι T : Type}

/-- C142. If the applied voltages and the bias voltages converge, the current converges. The response function has to be continuous only
at the bias voltage shifted by whole photon energies. The phases of the voltages are irrelevant where the limit is 0. -/
theorem C142_voltages (vj : ℕ → ℕ → Arr ι) (cct : Cct ι) (resp : ℝ → ℂ) (nb : NumB) (h : Valid cct nb) (x : ℝ) (L : Filter T)
    (vjs : T → ℕ → ℕ → Arr ι) (ccts : T → Cct ι)
    (hc : ∀ t, (ccts t).numF = cct.numF ∧ (ccts t).numP = cct.numP ∧ ∀ f, 1 ≤ f → f ≤ cct.numF → (ccts t).freq f = cct.freq f)
    (hv : ∀ f p i, 1 ≤ f → f ≤ cct.numF → 1 ≤ p → p ≤ cct.numP → Tendsto (fun t => vjs t f p i) L (𝓝 (vj f p i)))
    (hb : ∀ i, Tendsto (fun t => (ccts t).vb i) L (𝓝 (cct.vb i)))
    (hr : ∀ i, ∀ ks : List ℤ, ks.length = cct.numF → ContinuousAt resp (cct.vb i + Spec.photonShift cct.freq 1 ks)) :
    ∃ (curs : T → Arr ι) (cur : Arr ι), (∀ t, qtcurrentScalar (vjs t) (ccts t) resp x nb none = .ok (curs t)) ∧
      qtcurrentScalar vj cct resp x nb none = .ok cur ∧ ∀ i, Tendsto (fun t => curs t i) L (𝓝 (cur i)) := by
  have hval : ∀ t, Valid (ccts t) nb := fun t => by
    obtain ⟨e1, e2, e3⟩ := hc t
    refine ⟨by rw [e1]; exact h.1, by rw [e1]; exact h.2, by rw [e2]; exact h.3, ?_, by rw [e1]; exact h.5⟩
    intro f h1 h2
    rw [e1] at h2
    rw [e3 f h1 h2]
    exact h.4 f h1 h2
  refine ⟨_, _, fun t => qtcurrentScalar_eq (vjs t) (ccts t) resp x nb (hval t), qtcurrentScalar_eq vj cct resp x nb h, fun i => ?_⟩
  have e : ∀ t, (ccts t).numF = cct.numF ∧ (ccts t).numP = cct.numP := fun t => ⟨(hc t).1, (hc t).2.1⟩
  simp only [(e _).1, (e _).2]
  refine Spec.tendsto_qt h.5 (fun f p h1 h2 h3 h4 => hv f p i h1 h2 h3 h4) (fun f h1 h2 => ⟨?_, (h.4 f h1 h2).ne'⟩) (hb i) (hr i)
    fun as h1 h2 => Eventually.of_forall fun t => ?_
  · simp only [(hc _).2.2 f h1 h2]
    exact tendsto_const_nhds
  · have : ∀ (ks : List ℤ) (f : ℕ), 1 ≤ f → f + ks.length ≤ cct.numF + 1 →
        Spec.photonShift (ccts t).freq f ks = Spec.photonShift cct.freq f ks := by
      intro ks
      induction ks with
      | nil => intros; rfl
      | cons k ks ih =>
        intro f hf1 hf2
        simp only [List.length_cons] at hf2
        simp only [Spec.photonShift]
        rw [(hc t).2.2 f hf1 (by omega), ih (f + 1) (by omega) (by omega)]
    rw [this as 1 le_rfl (by omega)]

/-- Not half way between two numbers with four decimals. -/
def OffTie (x : ℝ) : Prop := ∀ n : ℤ, x * 10 ^ 4 ≠ n + 1 / 2

theorem offTie_near {x : ℝ} (h : OffTie x) : ∃ n : ℤ, |x - n / 10 ^ 4| < 1 / 20000 := by
  refine ⟨round (x * 10 ^ 4), ?_⟩
  have h1 := abs_sub_round (x * 10 ^ 4)
  have h2 : |x * 10 ^ 4 - round (x * 10 ^ 4)| ≠ 1 / 2 := by
    intro he
    rcases (abs_eq (by norm_num : (0 : ℝ) ≤ 1 / 2)).1 he with he | he
    · exact h (round (x * 10 ^ 4)) (by linarith)
    · exact h (round (x * 10 ^ 4) - 1) (by push_cast; linarith)
  have h3 := abs_lt.1 (lt_of_le_of_ne h1 h2)
  rw [abs_lt]
  constructor <;> linarith [h3.1, h3.2]

theorem eventually_round4 {L : Filter T} {x : T → ℝ} {x0 : ℝ} (h : Tendsto x L (𝓝 x0)) (h0 : OffTie x0) :
    ∀ᶠ t in L, round4 (x t) = round4 x0 := by
  obtain ⟨n, hn⟩ := offTie_near h0
  have : ∀ᶠ t in L, |x t - n / 10 ^ 4| < 1 / 20000 :=
    ((h.sub_const ((n : ℝ) / 10 ^ 4)).abs).eventually_lt_const hn
  filter_upwards [this] with t ht
  rw [round4_near n ht, round4_near n hn]

theorem tendsto_photonShift {L : Filter T} {freq : T → ℕ → ℝ} {freq0 : ℕ → ℝ} (ks : List ℤ) (f : ℕ)
    (h : ∀ g, f ≤ g → g < f + ks.length → Tendsto (fun t => freq t g) L (𝓝 (freq0 g))) :
    Tendsto (fun t => Spec.photonShift (freq t) f ks) L (𝓝 (Spec.photonShift freq0 f ks)) := by
  induction ks generalizing f with
  | nil => exact tendsto_const_nhds
  | cons k ks ih =>
    simp only [Spec.photonShift]
    exact ((h f le_rfl (by simp)).const_mul _).add (ih (f + 1) fun g h1 h2 => h g (by omega) (by simp; omega))

/-- C142. If moreover the frequencies of the tones and the requested frequency converge, the current still converges, provided that
neither the limit of the requested frequency nor a mixing product lies on a rounding tie. Without this condition it does not (`C135_false`). -/
theorem C142_frequencies (vj : ℕ → ℕ → Arr ι) (cct : Cct ι) (resp : ℝ → ℂ) (nb : NumB) (h : Valid cct nb) (x : ℝ) (L : Filter T)
    (vjs : T → ℕ → ℕ → Arr ι) (ccts : T → Cct ι) (xs : T → ℝ)
    (hc : ∀ t, Valid (ccts t) nb ∧ (ccts t).numF = cct.numF ∧ (ccts t).numP = cct.numP)
    (hf : ∀ f, 1 ≤ f → f ≤ cct.numF → Tendsto (fun t => (ccts t).freq f) L (𝓝 (cct.freq f)))
    (hv : ∀ f p i, 1 ≤ f → f ≤ cct.numF → 1 ≤ p → p ≤ cct.numP → Tendsto (fun t => vjs t f p i) L (𝓝 (vj f p i)))
    (hb : ∀ i, Tendsto (fun t => (ccts t).vb i) L (𝓝 (cct.vb i))) (hx : Tendsto xs L (𝓝 x))
    (hr : ∀ i, ∀ ks : List ℤ, ks.length = cct.numF → ContinuousAt resp (cct.vb i + Spec.photonShift cct.freq 1 ks))
    (h0 : OffTie x)
    (ht : ∀ ks : List ℤ, ks.length = cct.numF → (∀ k ∈ ks, |k| ≤ cct.numP) → OffTie (Spec.photonShift cct.freq 1 ks)) :
    ∃ (curs : T → Arr ι) (cur : Arr ι), (∀ t, qtcurrentScalar (vjs t) (ccts t) resp (xs t) nb none = .ok (curs t)) ∧
      qtcurrentScalar vj cct resp x nb none = .ok cur ∧ ∀ i, Tendsto (fun t => curs t i) L (𝓝 (cur i)) := by
  refine ⟨_, _, fun t => qtcurrentScalar_eq (vjs t) (ccts t) resp (xs t) nb (hc t).1, qtcurrentScalar_eq vj cct resp x nb h, fun i => ?_⟩
  have e : ∀ t, (ccts t).numF = cct.numF ∧ (ccts t).numP = cct.numP := fun t => (hc t).2
  simp only [(e _).1, (e _).2]
  refine Spec.tendsto_qt h.5 (fun f p h1 h2 h3 h4 => hv f p i h1 h2 h3 h4) (fun f h1 h2 => ⟨hf f h1 h2, (h.4 f h1 h2).ne'⟩) (hb i) (hr i)
    fun as h1 h2 => ?_
  have hs : Tendsto (fun t => Spec.photonShift (ccts t).freq 1 as) L (𝓝 (Spec.photonShift cct.freq 1 as)) :=
    tendsto_photonShift as 1 fun g h3 h4 => hf g h3 (by omega)
  filter_upwards [eventually_round4 hx h0, eventually_round4 hs (ht as h1 h2)] with t e1 e2
  rw [e1, e2]

/-- Voltages whose phase turns without end while their amplitude and the deviation of the frequencies tend to 0. -/
example (resp : ℝ → ℂ) (hr : Continuous resp) : ∃ (curs : ℕ → Arr (Fin 2)) (cur : Arr (Fin 2)),
    (∀ n : ℕ, qtcurrentScalar (fun _ _ _ => exp (I * n) / (n + 1)) { demo with freq := fun f => demo.freq f + 1 / ((n : ℝ) + 1) } resp
      (0.02 + 1 / ((n : ℝ) + 1)) (.tup [3, 2]) none = .ok (curs n)) ∧
    qtcurrentScalar (fun _ _ _ => 0) demo resp 0.02 (.tup [3, 2]) none = .ok cur ∧ ∀ i, Tendsto (fun n => curs n i) atTop (𝓝 (cur i)) := by
  have hone : Tendsto (fun n : ℕ => 1 / ((n : ℝ) + 1)) atTop (𝓝 0) := tendsto_one_div_add_atTop_nhds_zero_nat
  have hoff : ∀ m : ℤ, ∀ y : ℝ, y * 10 ^ 4 = m → OffTie y := by
    intro m y hy n hn
    rw [hy] at hn
    have : (2 * m : ℝ) = 2 * n + 1 := by linarith
    have : 2 * m = 2 * n + 1 := by exact_mod_cast this
    omega
  refine C142_frequencies (fun _ _ _ => 0) demo resp (.tup [3, 2]) demo_valid 0.02 atTop _ _ _ ?_ ?_ ?_ ?_ ?_ ?_ ?_ ?_
  · intro n
    refine ⟨⟨demo_valid.1, demo_valid.2, demo_valid.3, fun f h1 h2 => ?_, demo_valid.5⟩, rfl, rfl⟩
    have := demo_valid.4 f h1 h2
    show 0 < demo.freq f + 1 / ((n : ℝ) + 1)
    positivity
  · intro f _ _
    simpa using hone.const_add (demo.freq f)
  · intro f p i _ _ _ _
    rw [tendsto_zero_iff_norm_tendsto_zero]
    refine hone.congr fun n => ?_
    have h1 : ‖exp (I * n)‖ = 1 := by rw [norm_exp]; simp
    have h2 : ‖(n : ℂ) + 1‖ = (n : ℝ) + 1 := by
      rw [show (n : ℂ) + 1 = ((n + 1 : ℕ) : ℂ) by push_cast; ring, norm_natCast]
      push_cast
      ring
    rw [norm_div, h1, h2]
  · intro i
    exact tendsto_const_nhds
  · simpa using hone.const_add (0.02 : ℝ)
  · intro i ks _
    exact hr.continuousAt
  · exact hoff 200 _ (by norm_num)
  · intro ks hk _
    obtain ⟨a, b, rfl⟩ := List.length_eq_two.1 hk
    refine hoff (3000 * a + 3200 * b) _ ?_
    simp only [Spec.photonShift, demo]
    push_cast
    norm_num
    ring

/-- The voltages of the signals in range as an element of a finite-dimensional space, and back. -/
def unpackV {F P : ℕ} (y : Fin F → Fin P → ℂ) : ℕ → ℕ → ℂ := fun f p =>
  if h : (1 ≤ f ∧ f ≤ F) ∧ 1 ≤ p ∧ p ≤ P then y ⟨f - 1, by omega⟩ ⟨p - 1, by omega⟩ else 0

/-- C142. For a given circuit, response function, `num_b`, bias voltage and frequency there is a bound for the currents of all applied
voltages, and a factor by which a change of the applied voltages is amplified at most. -/
theorem C142_lipschitz (cct : Cct ι) (resp : ℝ → ℂ) (nb : NumB) (h : Valid cct nb) (x : ℝ) (i : ι) :
    ∃ B K : ℝ, ∀ vj vj' : ℕ → ℕ → Arr ι, ∃ cur cur' : Arr ι, qtcurrentScalar vj cct resp x nb none = .ok cur ∧
      qtcurrentScalar vj' cct resp x nb none = .ok cur' ∧ ‖cur i‖ ≤ B ∧
      ∀ d, (∀ f p, 1 ≤ f → f ≤ cct.numF → 1 ≤ p → p ≤ cct.numP → ‖vj f p i - vj' f p i‖ ≤ d) → ‖cur i - cur' i‖ ≤ K * d := by
  obtain ⟨B, K, -, hK, h1, h2⟩ := bl_qt (X := Fin cct.numF → Fin cct.numP → ℂ) resp (v := unpackV) (by
    intro f p y z
    unfold unpackV
    split_ifs with hfp
    · rw [← dist_eq_norm]
      exact (dist_le_pi_dist _ _ _).trans (dist_le_pi_dist y z _)
    · simp) cct.freq cct.numF cct.numP (nb.toTup cct.numF) (cct.vb i) x
  refine ⟨B, K, fun vj vj' => ⟨_, _, qtcurrentScalar_eq vj cct resp x nb h, qtcurrentScalar_eq vj' cct resp x nb h, ?_, fun d hd => ?_⟩⟩
  all_goals
    have e : ∀ u : ℕ → ℕ → Arr ι, Spec.qt resp (fun f p => u f p i) cct.freq cct.numF cct.numP (nb.toTup cct.numF) (cct.vb i) x
        = Spec.qt resp (unpackV (F := cct.numF) (P := cct.numP) fun a b => u (a + 1) (b + 1) i) cct.freq cct.numF cct.numP
          (nb.toTup cct.numF) (cct.vb i) x := by
      intro u
      apply HB.qt_congr
      intro f p h1 h2 h3 h4
      rw [unpackV, dif_pos ⟨⟨h1, h2⟩, h3, h4⟩]
      simp only [Nat.sub_add_cancel h1, Nat.sub_add_cancel h3]
  · rw [e]
    exact h1 _
  · rw [e vj, e vj']
    refine (h2 _ _).trans (mul_le_mul_of_nonneg_left ?_ hK)
    have hd0 : 0 ≤ d := (norm_nonneg _).trans (hd 1 1 le_rfl h.1 le_rfl h.3)
    refine (dist_pi_le_iff hd0).2 fun a => (dist_pi_le_iff hd0).2 fun b => ?_
    rw [dist_eq_norm]
    exact hd _ _ (by omega) (by omega) (by omega) (by omega)

/-- The factor exists for the demo circuit with two tones and two harmonics. -/
example (resp : ℝ → ℂ) := C142_lipschitz demo resp (.tup [3, 2]) demo_valid 0.02 1

end QMix.Props
