import Verif.Lemmas.Reversal
import Verif.Lemmas.HarmonicBalance2
import Verif.Props.QtCurrent

/-! # The dc I-V curve makes the in-phase currents, its Kramers-Kronig transform the quadrature currents (C143)

`qmix/qtcurrent.py`, `qtcurrent`. The response function is `I_kk + i I_dc` (`qmix/respfn.py`). -/

namespace QMix.Props
open Complex QMix.Qt

variable {ι : Type}

/-- C143. Conjugating all applied voltages and changing the sign of the Kramers-Kronig part conjugates all currents. -/
theorem C143_reversal (vj : ℕ → ℕ → Arr ι) (cct : Cct ι) (idc ikk : ℝ → ℝ) (fl : List ℝ) (nb : NumB) (h : Valid cct nb) :
    ∃ rows, qtcurrentList vj cct (fun x => ikk x + I * idc x) fl nb none = .ok rows ∧
      qtcurrentList (fun f p i => (starRingEnd ℂ) (vj f p i)) cct (fun x => ((-ikk x : ℝ) : ℂ) + I * idc x) fl nb none
        = .ok (rows.map fun r i => (starRingEnd ℂ) (r i)) := by
  refine ⟨_, qtcurrentList_eq _ _ _ _ _ h, ?_⟩
  rw [qtcurrentList_eq _ _ _ _ _ h, List.map_map]
  congr 1
  refine List.map_congr_left fun f _ => ?_
  funext i
  have := Spec.qt_conj (fun x => (ikk x : ℂ) + I * idc x) (fun f p => vj f p i) cct.freq cct.numF cct.numP (nb.toTup cct.numF) (cct.vb i) f
  rw [show (fun x => -(starRingEnd ℂ) ((ikk x : ℂ) + I * idc x)) = fun x => ((-ikk x : ℝ) : ℂ) + I * idc x by
    funext x
    simp only [map_add, map_mul, conj_I, conj_ofReal, ofReal_neg]
    ring] at this
  exact this

theorem qt_real {d : ℝ → ℂ} (hd : ∀ x, (d x).im = 0) {v : ℕ → ℕ → ℂ} (freq : ℕ → ℝ) (numF P : ℕ) (tup : List ℕ) (vb f : ℝ)
    (hv : ∀ f p, 1 ≤ f → f ≤ numF → 1 ≤ p → p ≤ P → (v f p).im = 0) : (Spec.qt d v freq numF P tup vb f).re = 0 := by
  have h := Spec.qt_conj d v freq numF P tup vb f
  rw [HB.qt_congr (w := v) _ _ _ _ _ _ _ fun f p h1 h2 h3 h4 => conj_eq_iff_im.2 (hv f p h1 h2 h3 h4)] at h
  rw [show (fun x => -(starRingEnd ℂ) (d x)) = fun x => (0 : ℂ) + ((-1 : ℝ) : ℂ) * d x by
    funext x
    rw [conj_eq_iff_im.2 (hd x)]
    push_cast
    ring] at h
  have h2 := Spec.current_linear (fun _ => 0) d (-1) P (Spec.tonesFrom v freq P (tup.foldr max 0) 1 (tup.take numF)) vb f
  have h3 := HB.qt_zero v freq numF P tup vb f
  unfold Spec.qt at h h3 ⊢
  rw [h2, h3] at h
  have := congrArg re h
  simp at this
  linarith

theorem qt_imag {d : ℝ → ℂ} (hd : ∀ x, (d x).re = 0) {v : ℕ → ℕ → ℂ} (freq : ℕ → ℝ) (numF P : ℕ) (tup : List ℕ) (vb f : ℝ)
    (hv : ∀ f p, 1 ≤ f → f ≤ numF → 1 ≤ p → p ≤ P → (v f p).im = 0) : (Spec.qt d v freq numF P tup vb f).im = 0 := by
  have h := Spec.qt_conj d v freq numF P tup vb f
  rw [HB.qt_congr (w := v) _ _ _ _ _ _ _ fun f p h1 h2 h3 h4 => conj_eq_iff_im.2 (hv f p h1 h2 h3 h4)] at h
  rw [show (fun x => -(starRingEnd ℂ) (d x)) = d by
    funext x
    apply Complex.ext
    · simp [hd x]
    · simp] at h
  exact conj_eq_iff_im.1 h.symm

/-- C143. When all applied voltages are in phase (real), the in-phase part of every current only depends on the dc I-V curve, and the
quadrature part only on its Kramers-Kronig transform. -/
theorem C143_parts (vj : ℕ → ℕ → Arr ι) (cct : Cct ι) (idc ikk idc' ikk' : ℝ → ℝ) (fl : List ℝ) (nb : NumB) (h : Valid cct nb)
    (hv : ∀ f p i, 1 ≤ f → f ≤ cct.numF → 1 ≤ p → p ≤ cct.numP → (vj f p i).im = 0) :
    ∃ cur curDc curKk : ℝ → Arr ι, qtcurrentList vj cct (fun x => ikk x + I * idc x) fl nb none = .ok (fl.map cur) ∧
      qtcurrentList vj cct (fun x => ikk' x + I * idc x) fl nb none = .ok (fl.map curDc) ∧
      qtcurrentList vj cct (fun x => ikk x + I * idc' x) fl nb none = .ok (fl.map curKk) ∧
      ∀ f ∈ fl, ∀ i, (cur f i).re = (curDc f i).re ∧ (cur f i).im = (curKk f i).im := by
  refine ⟨_, _, _, qtcurrentList_eq _ _ _ _ _ h, qtcurrentList_eq _ _ _ _ _ h, qtcurrentList_eq _ _ _ _ _ h, fun f _ i => ?_⟩
  beta_reduce
  have key : ∀ (r d : ℝ → ℂ), Spec.qt (fun x => r x + ((1 : ℝ) : ℂ) * d x) (fun f p => vj f p i) cct.freq cct.numF cct.numP (nb.toTup cct.numF) (cct.vb i) f
      = Spec.qt r (fun f p => vj f p i) cct.freq cct.numF cct.numP (nb.toTup cct.numF) (cct.vb i) f
        + ((1 : ℝ) : ℂ) * Spec.qt d (fun f p => vj f p i) cct.freq cct.numF cct.numP (nb.toTup cct.numF) (cct.vb i) f :=
    fun r d => Spec.current_linear r d 1 _ _ _ _
  constructor
  · have := key (fun x => ikk' x + I * idc x) (fun x => ((ikk x - ikk' x : ℝ) : ℂ))
    rw [show (fun x => (ikk' x : ℂ) + I * idc x + ((1 : ℝ) : ℂ) * ((ikk x - ikk' x : ℝ) : ℂ)) = fun x => (ikk x : ℂ) + I * idc x by
      funext x
      push_cast
      ring] at this
    rw [this, ofReal_one, one_mul, add_re, qt_real (fun x => ofReal_im _) _ _ _ _ _ _ fun f p h1 h2 h3 h4 => hv f p i h1 h2 h3 h4, add_zero]
  · have := key (fun x => ikk x + I * idc' x) (fun x => I * ((idc x - idc' x : ℝ) : ℂ))
    rw [show (fun x => (ikk x : ℂ) + I * idc' x + ((1 : ℝ) : ℂ) * (I * ((idc x - idc' x : ℝ) : ℂ))) = fun x => (ikk x : ℂ) + I * idc x by
      funext x
      push_cast
      ring] at this
    rw [this, ofReal_one, one_mul, add_im, qt_imag (d := fun x => I * ((idc x - idc' x : ℝ) : ℂ)) (fun x => by simp) _ _ _ _ _ _ fun f p h1 h2 h3 h4 => hv f p i h1 h2 h3 h4, add_zero]

/-- C143. Without Kramers-Kronig part, in-phase voltages make in-phase currents only. -/
theorem C143_in_phase (vj : ℕ → ℕ → Arr ι) (cct : Cct ι) (idc : ℝ → ℝ) (fl : List ℝ) (nb : NumB) (h : Valid cct nb)
    (hv : ∀ f p i, 1 ≤ f → f ≤ cct.numF → 1 ≤ p → p ≤ cct.numP → (vj f p i).im = 0) :
    ∃ rows, qtcurrentList vj cct (fun x => I * idc x) fl nb none = .ok rows ∧ ∀ r ∈ rows, ∀ i, (r i).im = 0 := by
  refine ⟨_, qtcurrentList_eq _ _ _ _ _ h, fun r hr i => ?_⟩
  obtain ⟨f, _, rfl⟩ := List.mem_map.1 hr
  exact qt_imag (fun x => by simp) _ _ _ _ _ _ fun f p h1 h2 h3 h4 => hv f p i h1 h2 h3 h4

/-- Two tones with two harmonics each, all in phase. -/
example (idc : ℝ → ℝ) : ∃ rows, qtcurrentList (fun _ _ _ => 1 / 4) demo (fun x => I * idc x) [0, 0.3, 0.02] (.tup [3, 2]) none = .ok rows ∧
    ∀ r ∈ rows, ∀ i, (r i).im = 0 :=
  C143_in_phase _ _ _ _ _ demo_valid fun _ _ _ _ _ _ _ => by norm_num

end QMix.Props
