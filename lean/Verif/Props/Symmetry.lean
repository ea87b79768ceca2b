import Verif.Lemmas.Reversal
import Verif.Lemmas.HarmonicBalance2
import Verif.Lemmas.HarmonicBalance3
import Verif.Props.Limit
import Verif.Props.HarmonicBalance
import Verif.Props.Tol

/-! # Equivalent harmonic balance problems have the same solutions (C145)

`qmix/harmonic_balance.py`, `check_hb_error`. -/

namespace QMix.Props
open Complex Finset QMix.Qt QMix.HB

/-- The embedding circuit with the phase of every tone advanced by `θ f` (harmonic `p` by `p θ f`). -/
noncomputable def advanced {N : ℕ} (θ : ℕ → ℝ) (cct : HCct N) : HCct N :=
  { cct with vt := fun f p => cct.vt f p * exp (I * (p * θ f : ℝ)) }

/-- Voltages with the phase of every tone advanced by `θ f`. -/
noncomputable def advance {N : ℕ} (θ : ℕ → ℝ) (v : ℕ → ℕ → Arr (Fin N)) : ℕ → ℕ → Arr (Fin N) :=
  fun f p i => v f p i * exp (I * (p * θ f : ℝ))

/-- Two rows of relative errors give the same verdict. -/
theorem check_congr {N : ℕ} (cct cct' : HCct N) (resp resp' : ℝ → ℂ) (nb nb' : NumB) (h : Valid cct.toCct nb)
    (h' : Valid cct'.toCct nb') (v v' : ℕ → ℕ → Arr (Fin N)) (stop : ℝ) (hF : cct'.numF = cct.numF) (hP : cct'.numP = cct.numP)
    (s : ℕ → ℕ) (hs : ∀ f, 1 ≤ f → f ≤ cct.numF → 1 ≤ s f ∧ s f ≤ cct.numF)
    (hs' : ∀ g, 1 ≤ g → g ≤ cct.numF → ∃ f, 1 ≤ f ∧ f ≤ cct.numF ∧ s f = g)
    (hr : ∀ f p, 1 ≤ f → f ≤ cct.numF → 1 ≤ p → p ≤ cct.numP → ∀ i,
      ‖resid cct' resp' nb' v' f p i‖ = ‖resid cct resp nb v (s f) p i‖ ∧ ‖v' f p i‖ = ‖v (s f) p i‖) :
    checkHbError v' cct' resp' nb' stop = .ok () ↔ checkHbError v cct resp nb stop = .ok () := by
  rw [check_ok_iff _ _ _ h, check_ok_iff _ _ _ h', hF, hP]
  refine and_congr_right fun _ => ⟨fun H g p h1 h2 h3 h4 i => ?_, fun H f p h1 h2 h3 h4 i => ?_⟩
  · obtain ⟨f, f1, f2, rfl⟩ := hs' g h1 h2
    have := H f p f1 f2 h3 h4 i
    rwa [(hr f p f1 f2 h3 h4 i).1, (hr f p f1 f2 h3 h4 i).2] at this
  · rw [(hr f p h1 h2 h3 h4 i).1, (hr f p h1 h2 h3 h4 i).2]
    exact H _ p (hs f h1 h2).1 (hs f h1 h2).2 h3 h4 i

theorem delayPhase_zip (θ : ℕ → ℝ) (f : ℕ) (ts : List Spec.Tone) (as : List ℤ) (h : as.length = ts.length) :
    Spec.delayPhase θ f (ts.zip as) = Spec.photonShift θ f as := by
  induction as generalizing f ts with
  | nil => simp [Spec.delayPhase, Spec.photonShift]
  | cons a as ih =>
    cases ts with
    | nil => simp at h
    | cons t ts =>
      simp only [List.zip_cons_cons, Spec.delayPhase, Spec.photonShift]
      rw [ih _ _ (by simpa using h)]

theorem photonShift_single (θ : ℕ → ℝ) (n g f : ℕ) (a : ℤ) (h : g < n) :
    Spec.photonShift θ f ((List.replicate n 0).set g a) = a * θ (f + g) := by
  induction n generalizing g f with
  | zero => omega
  | succ n ih =>
    have hz : ∀ m f, Spec.photonShift θ f (List.replicate m 0) = 0 := by
      intro m
      induction m with
      | zero => intro f; rfl
      | succ m ih => intro f; simp [List.replicate_succ, Spec.photonShift, ih]
    cases g with
    | zero => simp [List.replicate_succ, Spec.photonShift, hz]
    | succ g =>
      simp only [List.replicate_succ, List.set_cons_succ, Spec.photonShift]
      rw [ih g (f + 1) (by omega), show f + 1 + g = f + (g + 1) by omega]
      simp

/-- The residual of the advanced problem. -/
theorem resid_advance {N : ℕ} (θ : ℕ → ℝ) (cct : HCct N) (resp : ℝ → ℂ) (nb : NumB) (h : Valid cct.toCct nb)
    (v : ℕ → ℕ → Arr (Fin N)) (f p : ℕ) (i : Fin N)
    (hθ : ∀ as : List ℤ, as.length = cct.numF → (∀ a ∈ as, |a| ≤ (cct.numP : ℤ)) →
      round4 (Spec.photonShift cct.freq 1 as) = round4 (cct.freq f * p) →
      exp (I * Spec.photonShift θ 1 as) = exp (I * (p * θ f : ℝ))) :
    resid (advanced θ cct) resp nb (advance θ v) f p i = resid cct resp nb v f p i * exp (I * (p * θ f : ℝ)) := by
  unfold resid Spec.residual
  have key : Spec.qt resp (fun f p => v f p i * exp (I * (p * θ f : ℝ))) cct.freq cct.numF cct.numP (nb.toTup cct.numF) (cct.vb i)
      (cct.freq f * p) = exp (I * (p * θ f : ℝ)) * Spec.qt resp (fun f p => v f p i) cct.freq cct.numF cct.numP (nb.toTup cct.numF)
      (cct.vb i) (cct.freq f * p) := by
    unfold Spec.qt
    rw [Spec.current_shift]
    unfold Spec.current
    rw [← Spec.boxSum_mul]
    refine boxSum_congr' fun as h1 h2 => ?_
    have hl : ((nb.toTup cct.numF).take cct.numF).length = cct.numF := by
      rw [List.length_take]; have := h.limits; omega
    rw [Spec.length_tonesFrom, hl] at h1
    rw [Spec.mixFreq_zip _ _ _ _ _ _ _ (by rw [hl, h1]), delayPhase_zip _ _ _ _ (by rw [Spec.length_tonesFrom, hl, h1])]
    split_ifs with hm
    · rw [hθ as h1 h2 hm]
    · rw [mul_zero]
  show cct.vt f p * exp (I * (p * θ f : ℝ)) - cct.zt f p * Spec.qt resp (fun f p => v f p i * exp (I * (p * θ f : ℝ))) cct.freq
    cct.numF cct.numP (nb.toTup cct.numF) (cct.vb i) (cct.freq f * p) - v f p i * exp (I * (p * θ f : ℝ)) = _
  rw [key]
  ring

theorem norm_phase (x : ℝ) : ‖exp (I * (x : ℂ))‖ = 1 := by
  rw [mul_comm, norm_exp_ofReal_mul_I]

theorem check_advance {N : ℕ} (θ : ℕ → ℝ) (cct : HCct N) (resp : ℝ → ℂ) (nb : NumB) (h : Valid cct.toCct nb)
    (v : ℕ → ℕ → Arr (Fin N)) (stop : ℝ)
    (hθ : ∀ f p, 1 ≤ f → f ≤ cct.numF → 1 ≤ p → p ≤ cct.numP → ∀ as : List ℤ, as.length = cct.numF →
      (∀ a ∈ as, |a| ≤ (cct.numP : ℤ)) → round4 (Spec.photonShift cct.freq 1 as) = round4 (cct.freq f * p) →
      exp (I * Spec.photonShift θ 1 as) = exp (I * (p * θ f : ℝ))) :
    checkHbError (advance θ v) (advanced θ cct) resp nb stop = .ok () ↔ checkHbError v cct resp nb stop = .ok () := by
  refine check_congr cct (advanced θ cct) resp resp nb nb h h v _ stop rfl rfl id (fun f h1 h2 => ⟨h1, h2⟩)
    (fun g h1 h2 => ⟨g, h1, h2, rfl⟩) fun f p h1 h2 h3 h4 i => ?_
  rw [resid_advance θ cct resp nb h v f p i (hθ f p h1 h2 h3 h4), norm_mul, norm_phase, mul_one]
  refine ⟨rfl, ?_⟩
  show ‖v f p i * _‖ = _
  rw [norm_mul, norm_phase, mul_one]
  rfl

/-- C145. When no mixing product coincides with a driven frequency, the phases of the tones are free: advancing the sources of
tone `f` by `θ f` (harmonic `p` by `p θ f`) and the voltages by the same phases does not change the verdict of `check_hb_error`. -/
theorem C145_phases {N : ℕ} (θ : ℕ → ℝ) (cct : HCct N) (resp : ℝ → ℂ) (nb : NumB) (h : Valid cct.toCct nb)
    (hn : NoCoincidence cct.toCct) (v : ℕ → ℕ → Arr (Fin N)) (stop : ℝ) :
    checkHbError (advance θ v) (advanced θ cct) resp nb stop = .ok () ↔ checkHbError v cct resp nb stop = .ok () := by
  refine check_advance θ cct resp nb h v stop fun f p h1 h2 h3 h4 as ha hb hm => ?_
  rw [hn.1 f p h1 h2 h3 h4 as ha hb (by rw [hm, mul_comm]), photonShift_single _ _ _ _ _ (by omega)]
  rw [show 1 + (f - 1) = f by omega]
  push_cast
  rfl

/-- Mixing products whose rounded frequency is that of a driven signal have exactly this frequency. -/
def ExactMatches {N : ℕ} (cct : HCct N) : Prop :=
  ∀ f p, 1 ≤ f → f ≤ cct.numF → 1 ≤ p → p ≤ cct.numP → ∀ as : List ℤ, as.length = cct.numF → (∀ a ∈ as, |a| ≤ (cct.numP : ℤ)) →
    round4 (Spec.photonShift cct.freq 1 as) = round4 (cct.freq f * p) → Spec.photonShift cct.freq 1 as = cct.freq f * p

theorem photonShift_mul (t : ℝ) (freq : ℕ → ℝ) (f : ℕ) (as : List ℤ) :
    Spec.photonShift (fun f => t * freq f) f as = t * Spec.photonShift freq f as := by
  induction as generalizing f with
  | nil => simp [Spec.photonShift]
  | cons a as ih => simp only [Spec.photonShift, ih]; ring

/-- C145. The origin of time is free, also when harmonics and intermodulation products coincide exactly: switching all sources on
`t` earlier moves the solution by the same time. -/
theorem C145_origin {N : ℕ} (t : ℝ) (cct : HCct N) (resp : ℝ → ℂ) (nb : NumB) (h : Valid cct.toCct nb)
    (hn : ExactMatches cct) (v : ℕ → ℕ → Arr (Fin N)) (stop : ℝ) :
    checkHbError (advance (fun f => t * cct.freq f) v) (advanced (fun f => t * cct.freq f) cct) resp nb stop = .ok ()
      ↔ checkHbError v cct resp nb stop = .ok () := by
  refine check_advance _ cct resp nb h v stop fun f p h1 h2 h3 h4 as ha hb hm => ?_
  rw [photonShift_mul, hn f p h1 h2 h3 h4 as ha hb hm]
  congr 3
  ring

/-- The embedding circuit with conjugated sources and impedances. -/
noncomputable def mirrored {N : ℕ} (cct : HCct N) : HCct N :=
  { cct with vt := fun f p => (starRingEnd ℂ) (cct.vt f p), zt := fun f p => (starRingEnd ℂ) (cct.zt f p) }

/-- C145. Time reversal: conjugated sources, conjugated impedances and the negative Kramers-Kronig part have the conjugated solution. -/
theorem C145_reversal {N : ℕ} (cct : HCct N) (idc ikk : ℝ → ℝ) (nb : NumB) (h : Valid cct.toCct nb)
    (v : ℕ → ℕ → Arr (Fin N)) (stop : ℝ) :
    checkHbError (fun f p i => (starRingEnd ℂ) (v f p i)) (mirrored cct) (fun x => ((-ikk x : ℝ) : ℂ) + I * idc x) nb stop = .ok ()
      ↔ checkHbError v cct (fun x => ikk x + I * idc x) nb stop = .ok () := by
  refine check_congr cct (mirrored cct) _ _ nb nb h h v _ stop rfl rfl id (fun f h1 h2 => ⟨h1, h2⟩)
    (fun g h1 h2 => ⟨g, h1, h2, rfl⟩) fun f p h1 h2 h3 h4 i => ⟨?_, norm_conj _⟩
  have := Spec.qt_conj (fun x => (ikk x : ℂ) + I * idc x) (fun f p => v f p i) cct.freq cct.numF cct.numP (nb.toTup cct.numF) (cct.vb i)
    (cct.freq f * p)
  rw [show (fun x => -(starRingEnd ℂ) ((ikk x : ℂ) + I * idc x)) = fun x => ((-ikk x : ℝ) : ℂ) + I * idc x by
    funext x
    simp only [map_add, map_mul, conj_I, conj_ofReal, ofReal_neg]
    ring] at this
  unfold resid Spec.residual
  show ‖(starRingEnd ℂ) (cct.vt f p) - (starRingEnd ℂ) (cct.zt f p) * Spec.qt (fun x => ((-ikk x : ℝ) : ℂ) + I * idc x)
    (fun f p => (starRingEnd ℂ) (v f p i)) cct.freq cct.numF cct.numP (nb.toTup cct.numF) (cct.vb i) (cct.freq f * p)
    - (starRingEnd ℂ) (v f p i)‖ = _
  rw [this, ← map_mul, ← map_sub, ← map_sub, norm_conj]
  rfl

/-- C145. Only the product of impedance and current matters: a junction with `c` times the current in an embedding circuit with
`1/c` times the impedance has the same solution. -/
theorem C145_impedance {N : ℕ} (c : ℝ) (hc : c ≠ 0) (cct : HCct N) (resp : ℝ → ℂ) (nb : NumB) (h : Valid cct.toCct nb)
    (v : ℕ → ℕ → Arr (Fin N)) (stop : ℝ) :
    checkHbError v { cct with zt := fun f p => cct.zt f p / c } (fun x => c * resp x) nb stop = .ok ()
      ↔ checkHbError v cct resp nb stop = .ok () := by
  refine check_congr cct { cct with zt := fun f p => cct.zt f p / c } _ _ nb nb h h v _ stop rfl rfl id (fun f h1 h2 => ⟨h1, h2⟩)
    (fun g h1 h2 => ⟨g, h1, h2, rfl⟩) fun f p h1 h2 h3 h4 i => ⟨?_, rfl⟩
  have h2 := Spec.current_linear (fun _ => 0) resp c cct.numP
    (Spec.tonesFrom (fun f p => v f p i) cct.freq cct.numP ((nb.toTup cct.numF).foldr max 0) 1 ((nb.toTup cct.numF).take cct.numF))
    (cct.vb i) (cct.freq f * p)
  have h3 := HB.qt_zero (fun f p => v f p i) cct.freq cct.numF cct.numP (nb.toTup cct.numF) (cct.vb i) (cct.freq f * p)
  simp only [zero_add] at h2
  unfold resid Spec.residual
  unfold Spec.qt at h3 ⊢
  simp only [id]
  rw [h2, h3, zero_add]
  congr 3
  have : (c : ℂ) ≠ 0 := by exact_mod_cast hc
  field_simp

/-- C145. The numbering of the tones is free. -/
theorem C145_renumber {N : ℕ} (v v' : ℕ → ℕ → Arr (Fin N)) (cct cct' : HCct N) (resp : ℝ → ℂ) (stop : ℝ)
    (l l' : List ℕ) (h : Valid cct.toCct (.tup l)) (hl : l.length = cct.numF)
    (hl' : l'.length = cct.numF) (hF : cct'.numF = cct.numF) (hP : cct'.numP = cct.numP)
    (hvb : cct'.vb = cct.vb) (σ : Equiv.Perm (Fin cct.numF))
    (hfreq : ∀ j : Fin cct.numF, cct'.freq (1 + j) = cct.freq (1 + σ j))
    (hvt : ∀ (j : Fin cct.numF) (p : ℕ), cct'.vt (1 + j) p = cct.vt (1 + σ j) p)
    (hzt : ∀ (j : Fin cct.numF) (p : ℕ), cct'.zt (1 + j) p = cct.zt (1 + σ j) p)
    (hv : ∀ (j : Fin cct.numF) (p : ℕ), v' (1 + j) p = v (1 + σ j) p)
    (hnb : ∀ j : Fin cct.numF, l'[j]'(by rw [hl']; exact j.2) = l[σ j]'(by rw [hl]; exact (σ j).2)) :
    checkHbError v' cct' resp (.tup l') stop = .ok () ↔ checkHbError v cct resp (.tup l) stop = .ok () := by
  have h' : Valid cct'.toCct (.tup l') := by
    refine ⟨by rw [hF]; exact h.tones_pos, by rw [hF]; exact h.tones_le, by rw [hP]; exact h.harmonics,
      ?_, by simp [NumB.toTup, hl', hF]⟩
    intro f h1 h2
    have := hfreq ⟨f - 1, by omega⟩
    simp only [show 1 + (f - 1) = f by omega] at this
    rw [this]
    exact h.freq_pos _ (by omega) (by have := (σ ⟨f - 1, by omega⟩).2; omega)
  refine check_congr cct cct' resp resp (.tup l) (.tup l') h h' v v' stop hF hP
    (fun f => if hf : f - 1 < cct.numF then 1 + (σ ⟨f - 1, hf⟩ : ℕ) else 0) ?_ ?_ ?_
  · intro f h1 h2
    have hf : f - 1 < cct.numF := by omega
    simp only [hf, dif_pos]
    have := (σ ⟨f - 1, hf⟩).2
    omega
  · intro g h1 h2
    have hg : g - 1 < cct.numF := by omega
    refine ⟨1 + (σ.symm ⟨g - 1, hg⟩ : ℕ), by omega, by have := (σ.symm ⟨g - 1, hg⟩).2; omega, ?_⟩
    have e : 1 + (σ.symm ⟨g - 1, hg⟩ : ℕ) - 1 = (σ.symm ⟨g - 1, hg⟩ : ℕ) := by omega
    simp only [e, Fin.is_lt, dif_pos, Fin.eta, Equiv.apply_symm_apply]
    omega
  · intro f p h1 h2 h3 h4 i
    have hf : f - 1 < cct.numF := by omega
    simp only [hf, dif_pos]
    have e : 1 + (f - 1) = f := by omega
    have a1 := hfreq ⟨f - 1, hf⟩
    have a2 := hvt ⟨f - 1, hf⟩ p
    have a3 := hzt ⟨f - 1, hf⟩ p
    have a4 := hv ⟨f - 1, hf⟩ p
    simp only [e] at a1 a2 a3 a4
    have hq := C19_permute_tones v v' cct.toCct cct'.toCct resp [cct'.freq f * p] l l' h hl hl' hF hP hvb σ hfreq hv hnb
    rw [qtcurrentList_eq _ _ _ _ _ h, qtcurrentList_eq _ _ _ _ _ h'] at hq
    have hq2 := congrFun (List.head_eq_of_cons_eq (Except.ok.inj hq)) i
    simp only at hq2
    unfold resid Spec.residual
    beta_reduce
    rw [hq2, a4, a2, a3, a1]
    exact ⟨rfl, rfl⟩

/-! ### Examples -/

/-- `demo` in an embedding circuit of impedance `0.5 - 0.2 i`. -/
noncomputable def demoHb : HCct 2 := { toCct := demo, vt := fun _ _ => 1, zt := fun _ _ => 0.5 - 0.2 * I }

example (θ : ℕ → ℝ) (resp : ℝ → ℂ) (v : ℕ → ℕ → Arr (Fin 2)) (stop : ℝ) :
    checkHbError (advance θ v) (advanced θ demoHb) resp (.tup [3, 2]) stop = .ok () ↔ checkHbError v demoHb resp (.tup [3, 2]) stop = .ok () :=
  C145_phases θ demoHb resp _ demo_valid demo_noCoincidence v stop

example (idc ikk : ℝ → ℝ) (v : ℕ → ℕ → Arr (Fin 2)) (stop : ℝ) :
    checkHbError (fun f p i => (starRingEnd ℂ) (v f p i)) (mirrored demoHb) (fun x => ((-ikk x : ℝ) : ℂ) + I * idc x) (.tup [3, 2]) stop = .ok ()
      ↔ checkHbError v demoHb (fun x => ikk x + I * idc x) (.tup [3, 2]) stop = .ok () :=
  C145_reversal demoHb idc ikk _ demo_valid v stop

example (resp : ℝ → ℂ) (v : ℕ → ℕ → Arr (Fin 2)) (stop : ℝ) :
    checkHbError v { demoHb with zt := fun f p => demoHb.zt f p / (2 : ℝ) } (fun x => (2 : ℝ) * resp x) (.tup [3, 2]) stop = .ok ()
      ↔ checkHbError v demoHb resp (.tup [3, 2]) stop = .ok () :=
  C145_impedance 2 (by norm_num) demoHb resp _ demo_valid v stop

example (resp : ℝ → ℂ) (v : ℕ → ℕ → Arr (Fin 2)) (stop : ℝ) :
    checkHbError (fun f => v (3 - f)) { demoHb with freq := fun f => demo.freq (3 - f) } resp (.tup [2, 3]) stop = .ok ()
      ↔ checkHbError v demoHb resp (.tup [3, 2]) stop = .ok () := by
  refine C145_renumber v _ demoHb _ resp stop [3, 2] [2, 3] demo_valid rfl rfl rfl rfl rfl
    (show Equiv.Perm (Fin 2) from Equiv.swap 0 1) ?_ ?_ ?_ ?_ ?_
  · intro j; change Fin 2 at j; fin_cases j <;> rfl
  · intro j p; rfl
  · intro j p; rfl
  · intro j p; change Fin 2 at j; fin_cases j <;> rfl
  · intro j; change Fin 2 at j; fin_cases j <;> rfl

/-- Two tones, the second at the second harmonic of the first, with two harmonics: many products coincide. -/
noncomputable def octave : HCct 1 :=
  { numF := 2, numP := 2, freq := fun f => 0.3 * f, vb := fun _ => 0.5, vt := fun _ _ => 1, zt := fun _ _ => 1 }

theorem octave_exact : ExactMatches octave := by
  intro f p _ _ _ _ as ha _ hm
  obtain ⟨a, b, rfl⟩ := List.length_eq_two.1 ha
  simp only [octave, Spec.photonShift, add_zero] at hm ⊢
  have e1 : (a : ℝ) * (0.3 * ((1 : ℕ) : ℝ)) + b * (0.3 * ((1 + 1 : ℕ) : ℝ)) = 0.3 * ((a + 2 * b : ℤ) : ℝ) := by push_cast; ring
  have e2 : (0.3 : ℝ) * f * p = 0.3 * ((f * p : ℤ) : ℝ) := by push_cast; ring
  rw [e1, e2] at hm ⊢
  have h := abs_le.1 (round4_close hm)
  have h1 : (((a + 2 * b - f * p : ℤ)) : ℝ) < 1 := by push_cast at h ⊢; linarith [h.2]
  have h2 : (-1 : ℝ) < ((a + 2 * b - f * p : ℤ) : ℝ) := by push_cast at h ⊢; linarith [h.1]
  have h3 : a + 2 * b - f * p < 1 := by exact_mod_cast h1
  have h4 : -1 < a + 2 * b - f * p := by exact_mod_cast h2
  rw [show a + 2 * b = (f * p : ℤ) by omega]

example (t : ℝ) (resp : ℝ → ℂ) (v : ℕ → ℕ → Arr (Fin 1)) (stop : ℝ) :
    checkHbError (advance (fun f => t * octave.freq f) v) (advanced (fun f => t * octave.freq f) octave) resp (.int 4) stop = .ok ()
      ↔ checkHbError v octave resp (.int 4) stop = .ok () :=
  C145_origin t octave resp (.int 4) ⟨by simp [octave], by simp [octave], by simp [octave], fun f h _ => by
    have : (1 : ℝ) ≤ f := by exact_mod_cast h
    show (0 : ℝ) < 0.3 * f
    positivity, by simp [octave, NumB.toTup]⟩ octave_exact v stop

/-! ### Coinciding frequencies -/

/-- Two tones of the same frequency. -/
noncomputable def twins : HCct 1 :=
  { numF := 2, numP := 1, freq := fun _ => 0.3, vb := fun _ => 0, vt := fun _ _ => 3, zt := fun _ _ => 1 }

theorem twins_valid (N : ℕ) : Valid twins.toCct (.int N) :=
  ⟨by simp [twins], by simp [twins], by simp [twins], fun _ _ _ => by simp only [twins]; norm_num, by simp [twins, NumB.toTup]⟩

theorem twins_current (v : ℕ → ℕ → Arr (Fin 1)) {ε : ℝ} (hε : 0 < ε) : ∃ N, ∀ M, N ≤ M →
    ‖Spec.qt (fun v => I * v) (fun f p => v f p 0) twins.freq 2 1 ((NumB.int M).toTup 2) 0 0.3 - (v 1 1 0 + v 2 1 0)‖ < ε := by
  obtain ⟨N, hN⟩ := C100_resistor v twins.toCct (by simp [twins]) (fun f _ _ => by simp only [twins]; norm_num) [0.3] hε
  refine ⟨N, fun M hM => ?_⟩
  obtain ⟨cur, h1, h2⟩ := hN (.int M) (twins_valid M) (by
    intro n hn
    have hn' : n < 2 := hn
    interval_cases n <;> simpa [NumB.toTup, twins] using hM)
  rw [qtcurrentList_eq _ _ _ _ _ (twins_valid M)] at h1
  have e := congrFun (List.head_eq_of_cons_eq (Except.ok.inj h1)) 0
  have h3 := h2 0.3 (by simp) 0
  rw [← e] at h3
  have r0 : round4 (0 : ℝ) = (0 : ℤ) / 10 ^ 4 := round4_near 0 (by norm_num)
  have r1 : round4 (0.3 : ℝ) = (3000 : ℤ) / 10 ^ 4 := round4_near 3000 (by norm_num)
  have r2 : round4 (-0.3 : ℝ) = (-3000 : ℤ) / 10 ^ 4 := round4_near (-3000) (by norm_num)
  have i1 : Icc 1 twins.numF = {1, 2} := rfl
  have i2 : Icc 1 twins.numP = {1} := rfl
  rw [i1, i2] at h3
  simp only [Finset.sum_singleton, Nat.cast_one, one_mul, twins] at h3
  have n0 : ((0 : ℤ) : ℝ) / 10 ^ 4 ≠ (3000 : ℤ) / 10 ^ 4 := by push_cast; norm_num
  have n1 : ((-3000 : ℤ) : ℝ) / 10 ^ 4 ≠ (3000 : ℤ) / 10 ^ 4 := by push_cast; norm_num
  rw [Finset.sum_pair (by norm_num), r0, r1, r2, if_neg n0, if_neg n1, if_neg n1] at h3
  simp only [if_true, add_zero, zero_add] at h3
  exact h3

/-- With coinciding frequencies the phases of the tones are not free: for the two tones of `twins` the voltages 1 and 1 solve the
circuit, but after a half turn of the first tone, of both its source and its voltage, `check_hb_error` rejects them. -/
theorem C145_false : ∃ N, ∀ M, N ≤ M →
    checkHbError (fun _ _ _ => 1) twins (fun v => I * v) (.int M) (1 / 2) = .ok () ∧
    checkHbError (advance (fun f => if f = 1 then Real.pi else 0) fun _ _ _ => 1) (advanced (fun f => if f = 1 then Real.pi else 0) twins)
      (fun v => I * v) (.int M) (1 / 2) ≠ .ok () := by
  obtain ⟨N1, h1⟩ := twins_current (fun _ _ _ => 1) (show (0 : ℝ) < 1 / 2 by norm_num)
  obtain ⟨N2, h2⟩ := twins_current (advance (fun f => if f = 1 then Real.pi else 0) fun _ _ _ => 1) (show (0 : ℝ) < 1 / 2 by norm_num)
  refine ⟨max N1 N2, fun M hM => ⟨?_, fun hc => ?_⟩⟩
  · rw [check_ok_iff _ _ _ (twins_valid M)]
    refine ⟨one_pos, fun f p f1 f2 p1 p2 i => ?_⟩
    obtain rfl : p = 1 := le_antisymm p2 p1
    obtain rfl : i = 0 := Subsingleton.elim _ _
    rw [relDiv_lt_iff (by simp)]
    have := h1 M (le_trans (le_max_left _ _) hM)
    unfold resid Spec.residual
    show ‖(3 : ℂ) - 1 * Spec.qt (fun v => I * v) (fun f p => (1 : ℂ)) twins.freq 2 1 ((NumB.int M).toTup 2) 0 (0.3 * ((1 : ℕ) : ℝ)) - 1‖
      < 1 / 2 * ‖(1 : ℂ)‖
    rw [Nat.cast_one, mul_one, norm_one, mul_one]
    rw [show ∀ x : ℂ, 3 - 1 * x - 1 = -(x - (1 + 1)) from fun x => by ring, norm_neg]
    exact this
  · rw [check_ok_iff _ _ _ (show Valid (advanced _ twins).toCct (.int M) from twins_valid M)] at hc
    have h3 := hc.2 2 1 (by norm_num) (le_refl 2) le_rfl (le_refl 1) 0
    have hv : ‖advance (N := 1) (fun f => if f = 1 then Real.pi else 0) (fun _ _ _ => 1) 2 1 0‖ = 1 := by
      simp [advance]
    rw [relDiv_lt_iff (by rw [hv]; norm_num), hv] at h3
    have h4 := h2 M (le_trans (le_max_right _ _) hM)
    have e1 : advance (N := 1) (fun f => if f = 1 then Real.pi else 0) (fun _ _ _ => 1) 1 1 0 = -1 := by
      simp [advance, mul_comm I, exp_pi_mul_I]
    have e2 : advance (N := 1) (fun f => if f = 1 then Real.pi else 0) (fun _ _ _ => 1) 2 1 0 = 1 := by
      simp [advance]
    rw [e1, e2] at h4
    set q := Spec.qt (fun v => I * v) (fun f p => advance (N := 1) (fun f => if f = 1 then Real.pi else 0) (fun _ _ _ => 1) f p 0) twins.freq
      2 1 ((NumB.int M).toTup 2) 0 0.3 with hq
    have h5 : ‖(3 : ℂ) - q - 1‖ < 1 / 2 := by
      have e3 : resid (advanced (fun f => if f = 1 then Real.pi else 0) twins) (fun v => I * v) (.int M)
          (advance (fun f => if f = 1 then Real.pi else 0) fun _ _ _ => 1) 2 1 0 = 3 - q - 1 := by
        unfold resid Spec.residual
        beta_reduce
        rw [e2]
        show (3 : ℂ) * exp (I * (((1 : ℕ) : ℝ) * (if (2 : ℕ) = 1 then Real.pi else 0) : ℝ)) - 1 * Spec.qt (fun v => I * v)
          (fun f p => advance (N := 1) (fun f => if f = 1 then Real.pi else 0) (fun _ _ _ => 1) f p 0) twins.freq 2 1 ((NumB.int M).toTup 2) 0
          (0.3 * ((1 : ℕ) : ℝ)) - 1 = _
        rw [Nat.cast_one, mul_one, ← hq]
        simp
      rw [e3] at h3
      linarith
    have h6 : (2 : ℝ) ≤ ‖(3 : ℂ) - q - 1‖ + ‖q - (-1 + 1)‖ := by
      have := norm_add_le ((3 : ℂ) - q - 1) (q - (-1 + 1))
      rw [show (3 : ℂ) - q - 1 + (q - (-1 + 1)) = 2 by ring] at this
      simpa using this
    have h7 := lt_of_le_of_lt h6 (add_lt_add h5 h4)
    norm_num at h7

end QMix.Props
