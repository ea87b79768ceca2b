import Verif.Lemmas.MtsdaExtra
import Mathlib.Tactic.FinCases
import Mathlib.Tactic.NormNum

/-!
# Properties C11-C25: the tunnelling current
-/

namespace QMix.Props

open Complex Finset QMix.Qt

variable {ι : Type}

/-- The circuit used by the examples: 2 tones, 2 harmonics, two bias points. -/
noncomputable def demo : Cct (Fin 2) :=
  { numF := 2, numP := 2, freq := fun f => if f = 1 then 0.3 else 0.32, vb := fun i => 0.5 * i }

theorem demo_valid : Valid demo (.tup [3, 2]) where
  tones_pos := by simp [demo]
  tones_le := by simp [demo]
  harmonics := by simp [demo]
  freq_pos := by intro f _ _; simp only [demo]; split_ifs <;> norm_num
  limits := by simp [demo, NumB.toTup]

/-! ## C11 -/

/-- C11. A valid request never runs into an out-of-range index (or any other error): the matrix, the
coefficients and the currents are all produced, with one row per requested frequency. Every array
access of the model is a `pyGet`/`pySet`, which would return `IndexError`. -/
theorem C11_no_stray_access (vj : ℕ → ℕ → Arr ι) (cct : Cct ι) (resp : ℝ → ℂ) (fl : List ℝ)
    (nb : NumB) (h : Valid cct nb) :
    (∃ ccc, phaseFactorCoeff vj cct.freq cct.numF cct.numP nb = .ok ccc) ∧
    (∃ m, interpolateRespfn cct resp nb = .ok m) ∧
    ∃ rows, qtcurrentList vj cct resp fl nb none = .ok rows ∧ rows.length = fl.length := by
  refine ⟨?_, ?_, _, qtcurrentList_eq vj cct resp fl nb h, by simp⟩
  · obtain ⟨ccc, e, _⟩ := phaseTones_rep vj cct.freq cct.numP h.harmonics h.pyMax cct.numF h.limits
    exact ⟨ccc, e⟩
  · obtain ⟨m, e, _⟩ := interpolate_adequate cct resp nb h.unpack h.tones_pos h.tones_le
      (nbl := (nb.toTup cct.numF).take cct.numF) (List.forall₂_same.2 fun x _ => le_refl x)
    exact ⟨m, e⟩

/-- C11, requests that are not valid are refused before any array is touched. -/
theorem C11_rejects (vj : ℕ → ℕ → Arr ι) (cct : Cct ι) (resp : ℝ → ℂ) (fl : List ℝ)
    (nb : NumB) (rm : Option (RespMat ι))
    (h : (∃ f, 1 ≤ f ∧ f ≤ cct.numF ∧ cct.freq f ≤ 0) ∨ (nb.toTup cct.numF).length < cct.numF) :
    qtcurrentList vj cct resp fl nb rm = .error .assertion := by
  unfold qtcurrentList
  by_cases hf : freqPos cct.numF cct.freq
  · rw [if_neg (not_not.2 hf)]
    rcases h with ⟨f, h1, h2, h3⟩ | h
    · exact absurd (hf f h1 h2) (not_lt.2 h3)
    · cases nb with
      | int n => simp [NumB.toTup] at h
      | tup l =>
        have : ¬ l.length ≥ cct.numF := not_le.2 h
        simp only [unpackNumB, this, if_false]
        rfl
  · rw [if_pos hf]; rfl

example (vj : ℕ → ℕ → Arr (Fin 2)) (resp : ℝ → ℂ) : ∃ rows,
    qtcurrentList vj demo resp [0, 0.02, 0.62] (.tup [3, 2]) none = .ok rows ∧ rows.length = 3 :=
  (C11_no_stray_access vj demo resp _ _ demo_valid).2.2

example (vj : ℕ → ℕ → Arr (Fin 2)) (resp : ℝ → ℂ) :
    qtcurrentList vj demo resp [0] (.tup [3]) none = .error .assertion :=
  C11_rejects vj demo resp _ _ _ (.inr (by simp [demo, NumB.toTup]))

/-! ## C12 -/

/-- C12. Entry `(k, l, ...)` (negative indices included) of the interpolated matrix is the response
function at `vb + k freq[1] + l freq[2] + ...`. -/
theorem C12_matrix_layout (cct : Cct ι) (resp : ℝ → ℂ) (nb : NumB) (h : Valid cct nb) :
    ∃ m, interpolateRespfn cct resp nb = .ok m ∧ m.ndim = cct.numF + 1 ∧
      ∀ ks : List ℤ,
        List.Forall₂ (fun (k : ℤ) (n : ℕ) => |k| ≤ n) ks ((nb.toTup cct.numF).take cct.numF) →
        m.entry ks = .ok fun i => resp (cct.vb i + Spec.photonShift cct.freq 1 ks) := by
  obtain ⟨m, e, hd, ha⟩ := interpolate_adequate cct resp nb h.unpack h.tones_pos h.tones_le
      (nbl := (nb.toTup cct.numF).take cct.numF) (List.forall₂_same.2 fun x _ => le_refl x)
  exact ⟨m, e, hd, fun ks hk => adequate_entry ha ks hk⟩

example (resp : ℝ → ℂ) : ∃ m, interpolateRespfn demo resp (.tup [3, 2]) = .ok m ∧
    m.entry [-3, 2] = .ok fun i => resp (demo.vb i + ((-3 : ℤ) * demo.freq 1
      + ((2 : ℤ) * demo.freq 2 + 0))) := by
  obtain ⟨m, e, _, h⟩ := C12_matrix_layout demo resp _ demo_valid
  exact ⟨m, e, h [-3, 2] (by simp [demo, NumB.toTup])⟩

/-! ## C13 -/

/-- C13. Entry `k` of tone `f`'s coefficients is the harmonic convolution of the Jacobi-Anger
coefficients, for every `k` in the summation limit (and up to the largest limit). -/
theorem C13_phase_factors (vj : ℕ → ℕ → Arr ι) (cct : Cct ι) (nb : NumB) (h : Valid cct nb) :
    ∃ ccc, phaseFactorCoeff vj cct.freq cct.numF cct.numP nb = .ok ccc ∧
      ∀ f nbf, 1 ≤ f → f ≤ cct.numF → (nb.toTup cct.numF)[f - 1]? = some nbf →
        ∀ k : ℤ, |k| ≤ (nb.toTup cct.numF).foldr max 0 →
          pyGet (ccc f) k = .ok fun i => Spec.toneCoeff (fun p => vj f p i) (cct.freq f) cct.numP nbf
            ((nb.toTup cct.numF).foldr max 0) k := by
  obtain ⟨ccc, e, r⟩ := phaseTones_rep vj cct.freq cct.numP h.harmonics h.pyMax cct.numF h.limits
  exact ⟨ccc, e, fun f nbf h1 h2 h3 k hk => (r f nbf h1 h2 h3).get hk⟩

example (vj : ℕ → ℕ → Arr (Fin 2)) : ∃ ccc,
    phaseFactorCoeff vj demo.freq 2 2 (.tup [3, 2]) = .ok ccc ∧
    pyGet (ccc 2) (-2) = .ok fun i =>
      Spec.toneCoeff (fun p => vj 2 p i) (demo.freq 2) 2 2 3 (-2) := by
  obtain ⟨ccc, e, h⟩ := C13_phase_factors vj demo _ demo_valid
  exact ⟨ccc, e, h 2 2 (by norm_num) (by simp [demo]) (by simp [demo, NumB.toTup]) (-2)
    (by simp [demo, NumB.toTup])⟩

/-! ## C14 -/

/-- C14. `qtcurrent` returns the multi-tone sum of the specification at every requested frequency. -/
theorem C14_mtsda (vj : ℕ → ℕ → Arr ι) (cct : Cct ι) (resp : ℝ → ℂ) (fl : List ℝ) (nb : NumB)
    (h : Valid cct nb) :
    qtcurrentList vj cct resp fl nb none = .ok (fl.map fun f i =>
      Spec.qt resp (fun f p => vj f p i) cct.freq cct.numF cct.numP (nb.toTup cct.numF)
        (cct.vb i) f) :=
  qtcurrentList_eq vj cct resp fl nb h

example (vj : ℕ → ℕ → Arr (Fin 2)) (resp : ℝ → ℂ) :
    qtcurrentList vj demo resp [0.02] (.tup [3, 2]) none = .ok [fun i =>
      Spec.qt resp (fun f p => vj f p i) demo.freq 2 2 [3, 2] (demo.vb i) 0.02] :=
  C14_mtsda vj demo resp _ _ demo_valid

/-! ## C15, C16 -/

/-- C15. The currents at the negated frequencies are the complex conjugates. -/
theorem C15_negative_frequency (vj : ℕ → ℕ → Arr ι) (cct : Cct ι) (resp : ℝ → ℂ) (fl : List ℝ)
    (nb : NumB) (h : Valid cct nb) (rows : List (Arr ι))
    (hrows : qtcurrentList vj cct resp fl nb none = .ok rows) :
    qtcurrentList vj cct resp (fl.map fun f => -f) nb none
      = .ok (rows.map fun r i => (starRingEnd ℂ) (r i)) := by
  rw [qtcurrentList_eq vj cct resp _ nb h] at *
  cases hrows
  simp only [List.map_map]
  congr 1
  refine List.map_congr_left fun f _ => ?_
  funext i
  exact Spec.current_neg _ _ _ _ _

/-- C16. Every current at frequency 0 (that is, rounding to 0) is real. -/
theorem C16_dc_real (vj : ℕ → ℕ → Arr ι) (cct : Cct ι) (resp : ℝ → ℂ) (fl : List ℝ)
    (nb : NumB) (h : Valid cct nb) (rows : List (Arr ι))
    (hrows : qtcurrentList vj cct resp fl nb none = .ok rows) (j : ℕ) (hj : j < fl.length)
    (h0 : round4 fl[j] = 0) (r : Arr ι) (hr : rows[j]? = some r) (i : ι) : (r i).im = 0 := by
  rw [qtcurrentList_eq vj cct resp _ nb h] at hrows
  cases hrows
  rw [List.getElem?_map, List.getElem?_eq_getElem hj] at hr
  cases hr
  apply conj_eq_iff_im.1
  beta_reduce
  unfold Spec.qt
  rw [← Spec.current_neg, ← current_round _ _ _ _ (-fl[j]), round4_neg, h0, neg_zero,
    ← current_round _ _ _ _ fl[j], h0]

example (vj : ℕ → ℕ → Arr (Fin 2)) (resp : ℝ → ℂ) (rows : List (Arr (Fin 2)))
    (hrows : qtcurrentList vj demo resp [0.3, 0.62] (.tup [3, 2]) none = .ok rows) :
    qtcurrentList vj demo resp [-0.3, -0.62] (.tup [3, 2]) none
      = .ok (rows.map fun r i => (starRingEnd ℂ) (r i)) := by
  have := C15_negative_frequency vj demo resp _ _ demo_valid rows hrows
  rwa [List.map_cons, List.map_cons, List.map_nil] at this

example (vj : ℕ → ℕ → Arr (Fin 2)) (resp : ℝ → ℂ) (a b : Arr (Fin 2))
    (hrows : qtcurrentList vj demo resp [0.3, 0] (.tup [3, 2]) none = .ok [a, b]) (i : Fin 2) :
    (b i).im = 0 :=
  C16_dc_real vj demo resp _ _ demo_valid _ hrows 1 (by simp) (by simp [round4_zero]) b rfl i

/-! ## C17 -/

/-- C17 (partial). Adding a tone with zero junction voltage as the last tone changes nothing,
provided there are at most two harmonics or the new tone's summation limit does not exceed the
largest present one. Missing: more harmonics together with a larger limit, where the claim is false
(`C17_false_for_larger_limit`). -/
theorem C17_undriven_tone_partial (vj : ℕ → ℕ → Arr ι) (cct cct' : Cct ι) (resp : ℝ → ℂ)
    (fl : List ℝ) (nb nb' : NumB) (x : ℕ) (h : Valid cct nb) (h' : Valid cct' nb')
    (hF : cct'.numF = cct.numF + 1) (hP : cct'.numP = cct.numP) (hvb : cct'.vb = cct.vb)
    (hfreq : ∀ f, f ≤ cct.numF → cct'.freq f = cct.freq f)
    (hlen : (nb.toTup cct.numF).length = cct.numF)
    (hnb : nb'.toTup cct'.numF = nb.toTup cct.numF ++ [x])
    (hv : ∀ p, 1 ≤ p → p ≤ cct.numP → vj (cct.numF + 1) p = 0)
    (hx : cct.numP ≤ 2 ∨ x ≤ (nb.toTup cct.numF).foldr max 0) :
    qtcurrentList vj cct' resp fl nb' none = qtcurrentList vj cct resp fl nb none := by
  rw [qtcurrentList_eq _ _ _ _ _ h, qtcurrentList_eq _ _ _ _ _ h']
  congr 1
  refine List.map_congr_left fun f _ => ?_
  funext i
  unfold Spec.qt
  rw [hnb, hF, hP, hvb]
  set l := nb.toTup cct.numF with hl
  have e1 : (l ++ [x]).take (cct.numF + 1) = l ++ [x] := List.take_of_length_le (by simp [hlen])
  have e2 : l.take cct.numF = l := List.take_of_length_le (by omega)
  rw [e1, e2, Spec.tonesFrom_append, Spec.current_perm resp cct.numP List.perm_append_comm]
  simp only [Spec.tonesFrom, List.cons_append, List.nil_append]
  rw [Spec.current_undriven]
  · rw [Spec.tonesFrom_congr (v' := fun f p => vj f p i) (freq' := cct.freq) _ _ _ _
      (fun _ _ _ _ => rfl) (fun g h1 h2 => hfreq g (by omega))]
    rcases hx with hx | hx
    · rw [Spec.tonesFrom_size _ _ _ _ (l.foldr max 0) _ hx]
      · intro n hn; exact le_foldr_max (by simp [hn])
      · intro n hn; exact le_foldr_max hn
    · have : (l ++ [x]).foldr max 0 = l.foldr max 0 := by
        rw [foldr_max_perm List.perm_append_comm]
        simp only [List.cons_append, List.nil_append, List.foldr_cons]; omega
      rw [this]
  · apply Spec.undriven_of_zero
    intro p h1 h2
    rw [show 1 + l.length = cct.numF + 1 by omega]
    exact congrFun (hv p h1 h2) i

example (vj : ℕ → ℕ → Arr (Fin 2)) (resp : ℝ → ℂ) (fl : List ℝ)
    (hv : ∀ p, 1 ≤ p → p ≤ 2 → vj 3 p = 0) :
    qtcurrentList vj { demo with numF := 3 } resp fl (.tup [3, 2, 7]) none
      = qtcurrentList vj demo resp fl (.tup [3, 2]) none :=
  C17_undriven_tone_partial vj demo { demo with numF := 3 } resp fl _ _ 7 demo_valid
    ⟨by simp, by simp, by simp [demo], by intro f _ _; simp only [demo]; split_ifs <;> norm_num,
      by simp [NumB.toTup]⟩ rfl rfl rfl (fun _ _ => rfl) rfl rfl hv (.inl le_rfl)

/-! ## C18 -/

/-- C18. Declaring one more harmonic and giving it zero voltage leaves every phase-factor coefficient
unchanged. -/
theorem C18_undriven_harmonic (vj : ℕ → ℕ → Arr ι) (cct : Cct ι) (nb : NumB) (h : Valid cct nb)
    (hv : ∀ f, 1 ≤ f → f ≤ cct.numF → vj f (cct.numP + 1) = 0) :
    ∃ ccc ccc', phaseFactorCoeff vj cct.freq cct.numF cct.numP nb = .ok ccc ∧
      phaseFactorCoeff vj cct.freq cct.numF (cct.numP + 1) nb = .ok ccc' ∧
      ∀ f, 1 ≤ f → f ≤ cct.numF → ∀ k : ℤ, |k| ≤ (nb.toTup cct.numF).foldr max 0 →
        (∃ x, pyGet (ccc f) k = .ok x) ∧ pyGet (ccc' f) k = pyGet (ccc f) k := by
  obtain ⟨ccc, e, r⟩ := phaseTones_rep vj cct.freq cct.numP h.harmonics h.pyMax cct.numF h.limits
  obtain ⟨ccc', e', r'⟩ := phaseTones_rep vj cct.freq (cct.numP + 1) (by omega) h.pyMax cct.numF
    h.limits
  refine ⟨ccc, ccc', e, e', fun f h1 h2 k hk => ?_⟩
  have hlt : f - 1 < (nb.toTup cct.numF).length := by have := h.limits; omega
  have hn := List.getElem?_eq_getElem hlt
  refine ⟨⟨_, (r f _ h1 h2 hn).get hk⟩, ?_⟩
  rw [(r f _ h1 h2 hn).get hk, (r' f _ h1 h2 hn).get hk]
  congr 1
  funext i
  unfold Spec.toneCoeff
  rw [Spec.harmonicConv_undriven, if_pos hk]
  intro n
  have : vj f (cct.numP + 1) i = 0 := congrFun (hv f h1 h2) i
  simp only [this]
  rw [Spec.jacobiAnger_zero]

/-- C18. The current at a frequency on which no mixing product of the newly admitted order
`num_p + 1` falls is unchanged as well. -/
theorem C18_current (vj : ℕ → ℕ → Arr ι) (cct : Cct ι) (resp : ℝ → ℂ) (fl : List ℝ) (nb : NumB)
    (h : Valid cct nb) (hv : ∀ f, 1 ≤ f → f ≤ cct.numF → vj f (cct.numP + 1) = 0)
    (hf : ∀ f ∈ fl, ∀ ks : List ℤ, ks.length = cct.numF → (∃ k ∈ ks, |k| = cct.numP + 1) →
      (∀ k ∈ ks, |k| ≤ cct.numP + 1) → round4 (Spec.photonShift cct.freq 1 ks) ≠ round4 f) :
    qtcurrentList vj { cct with numP := cct.numP + 1 } resp fl nb none
      = qtcurrentList vj cct resp fl nb none := by
  have h' : Valid { cct with numP := cct.numP + 1 } nb :=
    ⟨h.tones_pos, h.tones_le, Nat.le_add_left 1 _, h.freq_pos, h.limits⟩
  rw [qtcurrentList_eq _ _ _ _ _ h, qtcurrentList_eq _ _ _ _ _ h']
  congr 1
  refine List.map_congr_left fun f hfl => ?_
  funext i
  have hlen : ((nb.toTup cct.numF).take cct.numF).length = cct.numF := by
    have := h.limits; rw [List.length_take]; omega
  apply Spec.current_extra_harmonic
  · intro n hn; exact le_foldr_max (List.mem_of_mem_take hn)
  · intro g h1 h2
    exact congrFun (hv g h1 (by simp only [hlen] at h2; omega)) i
  · intro ks h1 h2 h3
    exact hf f hfl ks (h1.trans hlen) (by simpa using h2) (by simpa using h3)

example (vj : ℕ → ℕ → Arr (Fin 2)) (hv : ∀ f, 1 ≤ f → f ≤ 2 → vj f 3 = 0) :
    ∃ ccc ccc', phaseFactorCoeff vj demo.freq 2 2 (.tup [3, 2]) = .ok ccc ∧
      phaseFactorCoeff vj demo.freq 2 3 (.tup [3, 2]) = .ok ccc' ∧
      pyGet (ccc' 2) (-2) = pyGet (ccc 2) (-2) := by
  obtain ⟨c, c', e, e', h⟩ := C18_undriven_harmonic vj demo _ demo_valid hv
  exact ⟨c, c', e, e', (h 2 (by norm_num) le_rfl (-2) (by simp [demo, NumB.toTup])).2⟩

/-! ## C19 -/

/-- C19. Renumbering the tones (frequencies, junction voltages and limits together) leaves all
currents unchanged. -/
theorem C19_permute_tones (vj vj' : ℕ → ℕ → Arr ι) (cct cct' : Cct ι) (resp : ℝ → ℂ)
    (fl : List ℝ) (l l' : List ℕ) (h : Valid cct (.tup l)) (hl : l.length = cct.numF)
    (hl' : l'.length = cct.numF) (hF : cct'.numF = cct.numF) (hP : cct'.numP = cct.numP)
    (hvb : cct'.vb = cct.vb) (σ : Equiv.Perm (Fin cct.numF))
    (hfreq : ∀ j : Fin cct.numF, cct'.freq (1 + j) = cct.freq (1 + σ j))
    (hv : ∀ (j : Fin cct.numF) (p : ℕ), vj' (1 + j) p = vj (1 + σ j) p)
    (hnb : ∀ j : Fin cct.numF, l'[j]'(by rw [hl']; exact j.2) = l[σ j]'(by rw [hl]; exact (σ j).2)) :
    qtcurrentList vj' cct' resp fl (.tup l') none = qtcurrentList vj cct resp fl (.tup l) none := by
  have h' : Valid cct' (.tup l') := by
    refine ⟨by rw [hF]; exact h.tones_pos, by rw [hF]; exact h.tones_le, by rw [hP]; exact h.harmonics,
      ?_, by simp [NumB.toTup, hl', hF]⟩
    intro f h1 h2
    have := hfreq ⟨f - 1, by omega⟩
    simp only [show 1 + (f - 1) = f by omega] at this
    rw [this]
    exact h.freq_pos _ (by omega) (by have := (σ ⟨f - 1, by omega⟩).2; omega)
  rw [qtcurrentList_eq _ _ _ _ _ h, qtcurrentList_eq _ _ _ _ _ h']
  congr 1
  refine List.map_congr_left fun f _ => ?_
  funext i
  unfold Spec.qt
  simp only [NumB.toTup]
  have eL : l.Perm l' := by
    have e1 : l = List.ofFn fun j : Fin cct.numF => l[j]'(by rw [hl]; exact j.2) := by
      apply List.ext_getElem <;> simp [hl]
    have e2 : l' = List.ofFn fun j : Fin cct.numF => l'[j]'(by rw [hl']; exact j.2) := by
      apply List.ext_getElem <;> simp [hl']
    rw [e1, e2]
    simp only [hnb]
    exact (σ.ofFn_comp_perm _).symm
  rw [hF, hP, hvb, List.take_of_length_le (by omega), List.take_of_length_le (by omega),
    foldr_max_perm eL]
  apply Spec.current_perm
  set M := l'.foldr max 0
  rw [tonesFrom_eq_ofFn, tonesFrom_eq_ofFn]
  let g : Fin cct.numF → Spec.Tone := fun j =>
    ⟨Spec.toneCoeff (fun p => vj (1 + j) p i) (cct.freq (1 + j)) cct.numP
      (l[j]'(by rw [hl]; exact j.2)) M, l[j]'(by rw [hl]; exact j.2), cct.freq (1 + j)⟩
  have e1 : (List.ofFn fun j : Fin l.length =>
      (⟨Spec.toneCoeff (fun p => vj (1 + j) p i) (cct.freq (1 + j)) cct.numP l[j] M, l[j],
        cct.freq (1 + j)⟩ : Spec.Tone)) = List.ofFn g := by
    apply List.ext_getElem <;> simp [hl, g]
  have e2 : (List.ofFn fun j : Fin l'.length =>
      (⟨Spec.toneCoeff (fun p => vj' (1 + j) p i) (cct'.freq (1 + j)) cct.numP l'[j] M, l'[j],
        cct'.freq (1 + j)⟩ : Spec.Tone)) = List.ofFn (g ∘ σ) := by
    apply List.ext_getElem
    · simp [hl']
    · intro n h1 h2
      have hn : n < cct.numF := by simpa using h2
      have a1 := hfreq ⟨n, hn⟩
      have a2 := fun p => hv ⟨n, hn⟩ p
      have a3 := hnb ⟨n, hn⟩
      simp only [Fin.getElem_fin] at a1 a2 a3
      simp only [List.getElem_ofFn, Function.comp, g, Fin.getElem_fin]
      rw [a1, a3]
      simp only [a2]
  rw [e1, e2]
  exact σ.ofFn_comp_perm g

example (vj : ℕ → ℕ → Arr (Fin 2)) (resp : ℝ → ℂ) (fl : List ℝ) :
    qtcurrentList (fun f => vj (3 - f)) { demo with freq := fun f => demo.freq (3 - f) } resp fl
      (.tup [2, 3]) none = qtcurrentList vj demo resp fl (.tup [3, 2]) none := by
  refine C19_permute_tones vj _ demo _ resp fl [3, 2] [2, 3] demo_valid rfl rfl rfl rfl rfl
    (show Equiv.Perm (Fin 2) from Equiv.swap 0 1) ?_ ?_ ?_
  · intro j; change Fin 2 at j; fin_cases j <;> rfl
  · intro j p; change Fin 2 at j; fin_cases j <;> rfl
  · intro j; change Fin 2 at j; fin_cases j <;> rfl

/-! ## C20 -/

/-- C20. If every signal of tone `f`, harmonic `p` is advanced by the phase `p θ_f`, each mixing
product `(a, b, ...)` is multiplied by `exp (i (a θ_1 + b θ_2 + ...))`; the current is the sum of the
products so modified. Exact at every finite truncation. -/
theorem C20_time_shift (vj : ℕ → ℕ → Arr ι) (θ : ℕ → ℝ) (cct : Cct ι) (resp : ℝ → ℂ) (fl : List ℝ)
    (nb : NumB) (h : Valid cct nb) :
    qtcurrentList (fun f p i => vj f p i * exp (I * (p * θ f : ℝ))) cct resp fl nb none
      = .ok (fl.map fun fout i =>
        Spec.boxSum cct.numP
          (Spec.tonesFrom (fun f p => vj f p i) cct.freq cct.numP ((nb.toTup cct.numF).foldr max 0) 1
            ((nb.toTup cct.numF).take cct.numF)) fun l =>
          if round4 (Spec.mixFreq l) = round4 fout then
            exp (I * Spec.delayPhase θ 1 l) * Spec.mixProduct resp l (cct.vb i) else 0) := by
  rw [qtcurrentList_eq _ _ _ _ _ h]
  congr 1
  refine List.map_congr_left fun f _ => ?_
  funext i
  exact Spec.current_shift _ _ _ _ _ _ _ _ _ _

/-- C20. The single-tone dc current does not depend on the phase of the pump (the frequency must not
be so small that it rounds to dc itself). -/
theorem C20_dc_phase_independent (vj : ℕ → ℕ → Arr ι) (θ : ℝ) (cct : Cct ι) (resp : ℝ → ℂ)
    (nb : NumB) (h : Valid cct nb) (hF : cct.numF = 1) (hw : 1 / 20000 < cct.freq 1) (f : ℝ)
    (hf : round4 f = 0) :
    qtcurrentList (fun g p i => vj g p i * exp (I * (p * θ : ℝ))) cct resp [f] nb none
      = qtcurrentList vj cct resp [f] nb none := by
  rw [C20_time_shift vj (fun _ => θ) cct resp [f] nb h, qtcurrentList_eq _ _ _ _ _ h]
  congr 1
  refine List.map_congr_left fun f' hf' => ?_
  rw [List.mem_singleton.1 hf']
  funext i
  unfold Spec.qt Spec.current
  have hlen : ((nb.toTup cct.numF).take cct.numF).length = 1 := by
    rw [List.length_take]; have := h.limits; omega
  obtain ⟨n, hn⟩ := List.length_eq_one_iff.1 hlen
  rw [hn]
  simp only [Spec.tonesFrom, Spec.boxSum]
  refine sum_congr rfl fun a _ => ?_
  by_cases ha : a = 0
  · subst ha; simp [Spec.delayPhase]
  · have hr : round4 (Spec.mixFreq [((⟨Spec.toneCoeff (fun p => vj 1 p i) (cct.freq 1) cct.numP n
        ((nb.toTup cct.numF).foldr max 0), n, cct.freq 1⟩ : Spec.Tone), a)]) ≠ round4 f := by
      intro he
      simp only [Spec.mixFreq, List.map_cons, List.map_nil, List.sum_cons, List.sum_nil,
        add_zero] at he
      have hb := abs_round4_sub_le (a * cct.freq 1)
      rw [he, hf, zero_sub, abs_neg, abs_mul] at hb
      have h1 : (1 : ℝ) ≤ |(a : ℝ)| := by
        rw [← Int.cast_abs]; exact_mod_cast Int.one_le_abs ha
      have h2 : |cct.freq 1| = cct.freq 1 := abs_of_pos (by linarith)
      rw [h2] at hb
      nlinarith
    rw [if_neg hr, if_neg hr]

example (vj : ℕ → ℕ → Arr (Fin 2)) (resp : ℝ → ℂ) :
    qtcurrentList (fun g p i => vj g p i * exp (I * (p * (1.2 : ℝ) : ℝ))) { demo with numF := 1 } resp
      [0] (.int 4) none = qtcurrentList vj { demo with numF := 1 } resp [0] (.int 4) none :=
  C20_dc_phase_independent vj 1.2 _ resp _
    ⟨le_rfl, by norm_num, by simp [demo], by intro f _ _; simp only [demo]; split_ifs <;> norm_num,
      by simp [NumB.toTup]⟩ rfl (by simp [demo]; norm_num) 0 round4_zero

/-! ## C21 -/

/-- C21. With no drive the dc current is the dc I-V curve (the imaginary part of the response
function at the bias voltage) and all other currents vanish. -/
theorem C21_no_drive (vj : ℕ → ℕ → Arr ι) (cct : Cct ι) (resp : ℝ → ℂ) (fl : List ℝ)
    (nb : NumB) (h : Valid cct nb)
    (hv : ∀ f p, 1 ≤ f → f ≤ cct.numF → 1 ≤ p → p ≤ cct.numP → vj f p = 0) :
    qtcurrentList vj cct resp fl nb none = .ok (fl.map fun f i =>
      if round4 f = 0 then ((resp (cct.vb i)).im : ℂ) else 0) := by
  rw [qtcurrentList_eq _ _ _ _ _ h]
  congr 1
  refine List.map_congr_left fun f _ => ?_
  funext i
  refine Spec.current_all_undriven _ _ _ ?_ _ _
  rw [tonesFrom_eq_ofFn]
  intro t ht
  rw [List.mem_ofFn] at ht
  obtain ⟨j, rfl⟩ := ht
  apply Spec.undriven_of_zero
  intro p h1 h2
  have hj : (j : ℕ) < min cct.numF (nb.toTup cct.numF).length := List.length_take ▸ j.2
  exact congrFun (hv (1 + j) p (by omega) (by omega) h1 h2) i

example (resp : ℝ → ℂ) : qtcurrentList (fun _ _ => 0) demo resp [0, 0.3] (.tup [3, 2]) none
    = .ok [fun i => ((resp (demo.vb i)).im : ℂ), fun _ => 0] := by
  rw [C21_no_drive _ demo resp _ _ demo_valid (fun _ _ _ _ _ _ => rfl)]
  have h3 : round4 0.3 ≠ 0 := by
    intro h
    have := abs_round4_sub_le 0.3
    rw [h] at this; norm_num [abs_le] at this
  simp [round4_zero, h3]

/-! ## C22 -/

/-- C22. The current is linear (over ℝ) in the response function. -/
theorem C22_linear (vj : ℕ → ℕ → Arr ι) (cct : Cct ι) (r1 r2 : ℝ → ℂ) (c : ℝ) (fl : List ℝ)
    (nb : NumB) (h : Valid cct nb) (rows1 rows2 : List (Arr ι))
    (h1 : qtcurrentList vj cct r1 fl nb none = .ok rows1)
    (h2 : qtcurrentList vj cct r2 fl nb none = .ok rows2) :
    qtcurrentList vj cct (fun x => r1 x + c * r2 x) fl nb none
      = .ok (List.zipWith (fun a b i => a i + c * b i) rows1 rows2) := by
  rw [qtcurrentList_eq _ _ _ _ _ h] at *
  cases h1; cases h2
  rw [List.zipWith_map, List.zipWith_self]
  congr 1
  refine List.map_congr_left fun f _ => ?_
  funext i
  exact Spec.current_linear _ _ _ _ _ _ _

example (vj : ℕ → ℕ → Arr (Fin 2)) (r1 r2 : ℝ → ℂ) (a b : Arr (Fin 2))
    (h1 : qtcurrentList vj demo r1 [0.02] (.tup [3, 2]) none = .ok [a])
    (h2 : qtcurrentList vj demo r2 [0.02] (.tup [3, 2]) none = .ok [b]) :
    qtcurrentList vj demo (fun x => r1 x + (-2 : ℝ) * r2 x) [0.02] (.tup [3, 2]) none
      = .ok [fun i => a i + (-2 : ℝ) * b i] :=
  C22_linear vj demo r1 r2 (-2) _ _ demo_valid _ _ h1 h2

/-! ## C23 -/

/-- C23. A list request returns one row per frequency, in order, each equal to the scalar request. -/
theorem C23_list_is_scalars (vj : ℕ → ℕ → Arr ι) (cct : Cct ι) (resp : ℝ → ℂ) (fl : List ℝ)
    (nb : NumB) (h : Valid cct nb) :
    ∃ rows, qtcurrentList vj cct resp fl nb none = .ok rows ∧ rows.length = fl.length ∧
      ∀ (j : ℕ) (f : ℝ) (r : Arr ι), fl[j]? = some f → rows[j]? = some r →
        qtcurrentScalar vj cct resp f nb none = .ok r := by
  refine ⟨_, qtcurrentList_eq vj cct resp fl nb h, by simp, ?_⟩
  intro j f r hf hr
  rw [List.getElem?_map, hf] at hr
  cases hr
  exact qtcurrentScalar_eq vj cct resp f nb h

/-- C23. A frequency that is further than half a unit of the fourth decimal from every mixing product
of order up to `num_p` carries no current at all. -/
theorem C23_unmatched_zero (vj : ℕ → ℕ → Arr ι) (cct : Cct ι) (resp : ℝ → ℂ) (f : ℝ)
    (nb : NumB) (h : Valid cct nb)
    (hf : ∀ ks : List ℤ, ks.length = cct.numF → (∀ k ∈ ks, |k| ≤ cct.numP) →
      1 / 2 * (1 / 10 ^ 4) < |Spec.photonShift cct.freq 1 ks - round4 f|) :
    qtcurrentList vj cct resp [f] nb none = .ok [fun _ => 0] := by
  rw [qtcurrentList_eq _ _ _ _ _ h]
  simp only [List.map_cons, List.map_nil]
  congr 2
  funext i
  apply Spec.current_unmatched
  intro l h1 h2 he
  have hm := Spec.mixFreq_tonesFrom _ _ _ _ _ _ l h1
  have hl : l.length = cct.numF := by
    have := congrArg List.length h1
    rw [List.length_map, Spec.length_tonesFrom, List.length_take] at this
    have := h.limits; omega
  have h3 := hf (l.map Prod.snd) (by simp [hl]) (by
    intro k hk
    obtain ⟨x, hx, rfl⟩ := List.mem_map.1 hk
    exact h2 x hx)
  rw [← hm, ← he, abs_sub_comm] at h3
  exact absurd (abs_round4_sub_le (Spec.mixFreq l)) (not_le.2 h3)

example (vj : ℕ → ℕ → Arr (Fin 2)) (resp : ℝ → ℂ) :
    qtcurrentList vj { demo with numF := 1 } resp [0.1] (.int 2) none = .ok [fun _ => 0] := by
  apply C23_unmatched_zero
  · exact ⟨le_rfl, by norm_num, by simp [demo],
      by intro f _ _; simp only [demo]; split_ifs <;> norm_num, by simp [NumB.toTup]⟩
  · intro ks hl hk
    obtain ⟨k, rfl⟩ := List.length_eq_one_iff.1 hl
    have hk' := hk k (by simp)
    simp only [demo, Spec.photonShift, if_true, add_zero] at *
    have hr := abs_le.1 (abs_round4_sub_le 0.1)
    have hk2 := abs_le.1 hk'
    norm_num at hk2 hr ⊢
    rw [lt_abs]
    by_cases h1 : 1 ≤ k
    · left
      have : (1 : ℝ) ≤ k := by exact_mod_cast h1
      norm_num
      linarith
    · right
      have : (k : ℝ) ≤ 0 := by exact_mod_cast (by omega : k ≤ 0)
      norm_num
      linarith

example (vj : ℕ → ℕ → Arr (Fin 2)) (resp : ℝ → ℂ) (a b : Arr (Fin 2))
    (h : qtcurrentList vj demo resp [0.02, 0] (.tup [3, 2]) none = .ok [a, b]) :
    qtcurrentScalar vj demo resp 0 (.tup [3, 2]) none = .ok b := by
  obtain ⟨rows, e, _, hs⟩ := C23_list_is_scalars vj demo resp [0.02, 0] _ demo_valid
  rw [h] at e; cases e
  exact hs 1 0 b rfl rfl

/-! ## C24 -/

/-- C24. A matrix interpolated for the same circuit with the same or larger limits gives the same
currents as no matrix. -/
theorem C24_matrix_reuse (vj : ℕ → ℕ → Arr ι) (cct : Cct ι) (resp : ℝ → ℂ) (fl : List ℝ)
    (nb nb' : NumB) (h : Valid cct nb) (h' : Valid cct nb')
    (hle : ∀ j n n', j < cct.numF → (nb.toTup cct.numF)[j]? = some n →
      (nb'.toTup cct.numF)[j]? = some n' → n ≤ n') (m : RespMat ι)
    (hm : interpolateRespfn cct resp nb' = .ok m) :
    qtcurrentList vj cct resp fl nb (some m) = qtcurrentList vj cct resp fl nb none := by
  have hl := h.limits
  have hl' := h'.limits
  obtain ⟨m', e, hd, ha⟩ := interpolate_adequate cct resp nb' h'.unpack h.tones_pos h.tones_le
    (nbl := (nb.toTup cct.numF).take cct.numF) (by
      rw [List.forall₂_iff_get]
      refine ⟨by simp; omega, fun j h1 h2 => ?_⟩
      simp only [List.length_take] at h1 h2
      apply hle j _ _ (by omega)
      · rw [List.getElem?_eq_getElem (by omega)]; simp
      · rw [List.getElem?_eq_getElem (by omega)]; simp)
  rw [hm] at e
  cases e
  rw [qtcurrentList_eq _ _ _ _ _ h]
  exact qtcurrentList_spec vj cct resp fl nb (some m) h.freq_pos h.unpack h.pyMax h.tones_pos
    h.tones_le h.harmonics (by
      intro r hr
      cases hr
      exact ⟨hd, ha⟩)

example (vj : ℕ → ℕ → Arr (Fin 2)) (resp : ℝ → ℂ) (m : RespMat (Fin 2))
    (hm : interpolateRespfn demo resp (.int 5) = .ok m) :
    qtcurrentList vj demo resp [0.02] (.tup [3, 2]) (some m)
      = qtcurrentList vj demo resp [0.02] (.tup [3, 2]) none := by
  refine C24_matrix_reuse vj demo resp _ _ (.int 5) demo_valid ?_ ?_ m hm
  · exact ⟨by simp [demo], by simp [demo], by simp [demo],
      by intro f _ _; simp only [demo]; split_ifs <;> norm_num, by simp [NumB.toTup]⟩
  · intro j n n' hj h1 h2
    simp only [demo] at hj
    interval_cases j <;> simp [NumB.toTup, demo] at h1 h2 <;> omega

/-- The circuit of the counterexamples: one tone of frequency 1, bias 0. -/
def one (P : ℕ) : Cct Unit := { numF := 1, numP := P, freq := fun _ => 1, vb := fun _ => 0 }

theorem one_valid (P : ℕ) (hP : 1 ≤ P) (nb : NumB) (hn : 1 ≤ (nb.toTup 1).length) :
    Valid (one P) nb :=
  ⟨le_rfl, by simp [one], hP, by intro f _ _; simp [one], by simpa [one] using hn⟩

theorem bessel_one_ne : besselJ 1 1 ≠ 0 :=
  (besselJ_one_pos one_pos (by linarith [Real.two_le_pi])).ne'

/-- C24. A matrix interpolated with smaller limits is not detected: with limit 2 and a matrix made for
limit 1 the call succeeds (no index error, thanks to wrap-around), and the dc current differs from the
correct one. Second harmonic driven only, response function concentrated at `v = 1`. -/
theorem C24_smaller_matrix_wrong : ∃ (vj : ℕ → ℕ → Arr Unit) (cct : Cct Unit) (resp : ℝ → ℂ)
    (m : RespMat Unit) (bad good : Arr Unit), Valid cct (.int 2) ∧ Valid cct (.int 1) ∧
    interpolateRespfn cct resp (.int 1) = .ok m ∧
    qtcurrentList vj cct resp [0] (.int 2) (some m) = .ok [bad] ∧
    qtcurrentList vj cct resp [0] (.int 2) none = .ok [good] ∧ bad ≠ good := by
  let vj : ℕ → ℕ → Arr Unit := fun _ p _ => if p = 2 then 2 else 0
  let resp : ℝ → ℂ := fun x => if x = 1 then I else 0
  let resp' : ℝ → ℂ := fun x => if x = 1 then I else if x = -2 then I else 0
  have v2 := one_valid 2 (by norm_num) (.int 2) (by simp [NumB.toTup])
  have v1 := one_valid 2 (by norm_num) (.int 1) (by simp [NumB.toTup])
  let m : RespMat Unit := .m1 [fun _ => resp 0, fun _ => resp 1, fun _ => resp (-1)]
  have em : interpolateRespfn (one 2) resp (.int 1) = .ok m := by
    simp [interpolateRespfn, unpackNumB, one, interp1, indArr, pyRange, m, ok_bind, pure_ok,
      List.range_succ]
  have hbad := qtcurrentList_spec vj (one 2) resp' [0] (.int 2) (some m) v2.freq_pos v2.unpack
    v2.pyMax v2.tones_pos v2.tones_le v2.harmonics (by
      intro r hr
      cases hr
      refine ⟨rfl, 2, le_rfl, fun k hk => ?_⟩
      have hk' := abs_le.1 hk
      have h1 : -2 ≤ k := hk'.1
      have h2 : k ≤ 2 := hk'.2
      interval_cases k <;> simp [pyGet, pyIndex, resp, resp', one, m] <;> norm_num)
  have hgood := qtcurrentList_eq vj (one 2) resp [0] (.int 2) v2
  refine ⟨vj, one 2, resp, m, _, _, v2, v1, em, hbad, hgood, fun h => ?_⟩
  have h0 : Spec.current resp' 2 (Spec.tonesFrom (fun f p => vj f p ()) (fun _ => 1) 2 2 1 [2]) 0 0
      = Spec.current resp 2 (Spec.tonesFrom (fun f p => vj f p ()) (fun _ => 1) 2 2 1 [2]) 0 0 :=
    congrFun h ()
  have hI : Icc (-((2 : ℕ) : ℤ)) ((2 : ℕ) : ℤ) = {-2, -1, 0, 1, 2} := by decide
  simp only [Spec.tonesFrom] at h0
  rw [Spec.current_single_dc _ _ _ (by norm_num), Spec.current_single_dc _ _ _ (by norm_num)] at h0
  simp only [hI, resp, resp'] at h0
  norm_num at h0
  unfold Spec.toneCoeff at h0
  rw [Spec.harmonicConv_two_two (fun p => Spec.jacobiAnger (vj 1 p ()) 1 p 2) (fun k => by
    simp only [vj]; rw [if_neg (by norm_num), Spec.jacobiAnger_zero])] at h0
  have b := bessel_one_ne
  have b' : besselJ (-1) 1 ≠ 0 := by rw [besselJ_neg]; simpa using b
  simp [Spec.jacobiAnger, vj, b'] at h0

/-! ## C25 -/

/-- C25 (partial). With at most two harmonics the coefficients of a tone inside the arrays depend only
on that tone's voltages, frequency and summation limit, not on the other limits of the tuple. Missing:
three or more harmonics, where the claim is false (`C25_false_for_three_harmonics`). -/
theorem C25_own_limit_partial (vj : ℕ → ℕ → Arr ι) (cct : Cct ι) (nb nb' : NumB) (h : Valid cct nb)
    (h' : Valid cct nb') (hP : cct.numP ≤ 2) (f n : ℕ) (h1 : 1 ≤ f) (h2 : f ≤ cct.numF)
    (hn : (nb.toTup cct.numF)[f - 1]? = some n) (hn' : (nb'.toTup cct.numF)[f - 1]? = some n) :
    ∃ ccc ccc', phaseFactorCoeff vj cct.freq cct.numF cct.numP nb = .ok ccc ∧
      phaseFactorCoeff vj cct.freq cct.numF cct.numP nb' = .ok ccc' ∧
      ∀ k : ℤ, |k| ≤ n → (∃ x, pyGet (ccc f) k = .ok x) ∧ pyGet (ccc' f) k = pyGet (ccc f) k := by
  obtain ⟨ccc, e, r⟩ := phaseTones_rep vj cct.freq cct.numP h.harmonics h.pyMax cct.numF h.limits
  obtain ⟨ccc', e', r'⟩ := phaseTones_rep vj cct.freq cct.numP h.harmonics h'.pyMax cct.numF
    h'.limits
  refine ⟨ccc, ccc', e, e', fun k hk => ?_⟩
  have m1 : n ≤ (nb.toTup cct.numF).foldr max 0 := le_foldr_max (List.mem_of_getElem? hn)
  have m2 : n ≤ (nb'.toTup cct.numF).foldr max 0 := le_foldr_max (List.mem_of_getElem? hn')
  have g1 := (r f n h1 h2 hn).get (k := k) (by omega)
  have g2 := (r' f n h1 h2 hn').get (k := k) (by omega)
  refine ⟨⟨_, g1⟩, ?_⟩
  rw [g1, g2]
  congr 1
  funext i
  rw [Spec.toneCoeff_size _ _ _ _ _ _ hP m1 m2]

/-- C25 (partial). With at most two harmonics, or when they do not exceed the largest limit in use,
the entries of the tuple beyond the last tone have no effect on the current. -/
theorem C25_extra_entries_partial (vj : ℕ → ℕ → Arr ι) (cct : Cct ι) (resp : ℝ → ℂ) (fl : List ℝ)
    (l extra : List ℕ) (h : Valid cct (.tup l)) (hl : l.length = cct.numF)
    (hx : cct.numP ≤ 2 ∨ ∀ x ∈ extra, x ≤ l.foldr max 0) :
    qtcurrentList vj cct resp fl (.tup (l ++ extra)) none
      = qtcurrentList vj cct resp fl (.tup l) none := by
  have h' : Valid cct (.tup (l ++ extra)) :=
    ⟨h.tones_pos, h.tones_le, h.harmonics, h.freq_pos, by simp [NumB.toTup, hl]⟩
  rw [qtcurrentList_eq _ _ _ _ _ h, qtcurrentList_eq _ _ _ _ _ h']
  congr 1
  refine List.map_congr_left fun f _ => ?_
  funext i
  unfold Spec.qt
  simp only [NumB.toTup]
  rw [List.take_left' hl, List.take_of_length_le hl.le]
  rcases hx with hx | hx
  · rw [Spec.tonesFrom_size _ _ _ _ (l.foldr max 0) _ hx]
    · intro n hn; exact le_foldr_max (by simp [hn])
    · intro n hn; exact le_foldr_max hn
  · have : (l ++ extra).foldr max 0 = l.foldr max 0 := by
      rw [foldr_max_perm List.perm_append_comm]
      clear h'
      induction extra with
      | nil => rfl
      | cons x extra ih =>
        simp only [List.cons_append, List.foldr_cons]
        rw [ih (fun y hy => hx y (by simp [hy]))]
        have := hx x (by simp)
        omega
    rw [this]

/-- Drive of the counterexamples with three harmonics: second and third harmonic only. -/
noncomputable def drive23 : ℕ → ℕ → Arr Unit := fun f p _ =>
  if f = 1 then if p = 2 then 2 else if p = 3 then 3 else 0 else 0

/-- Response function of the counterexamples. -/
noncomputable def spike : ℝ → ℂ := fun x => if x = 1 then I else 0

theorem spike_current (M : ℕ) :
    Spec.current spike 3 (Spec.tonesFrom (fun f p => drive23 f p ()) (fun _ => 1) 3 M 1 [1]) 0 0
      = ((‖Spec.toneCoeff (fun p => drive23 1 p ()) 1 3 1 M 1‖ ^ 2 : ℝ) : ℂ) := by
  simp only [Spec.tonesFrom]
  rw [Spec.current_single_dc _ _ _ (by norm_num)]
  have hI : Icc (-((1 : ℕ) : ℤ)) ((1 : ℕ) : ℤ) = {-1, 0, 1} := by decide
  simp only [hI]
  simp [spike]

theorem drive23_one (k : ℤ) : Spec.jacobiAnger (drive23 1 1 ()) 1 1 1 k = if k = 0 then 1 else 0 := by
  rw [show drive23 1 1 () = 0 by simp [drive23], Spec.jacobiAnger_zero]

/-- The dc current is zero if the arrays have the size of the tone's own limit 1 ... -/
theorem spike_current_one :
    Spec.current spike 3 (Spec.tonesFrom (fun f p => drive23 f p ()) (fun _ => 1) 3 1 1 [1]) 0 0
      = 0 := by
  rw [spike_current]
  unfold Spec.toneCoeff
  rw [Spec.harmonicConv_three_one (fun p => Spec.jacobiAnger (drive23 1 p ()) 1 p 1) drive23_one]
  simp

/-- ... and different from zero if they are larger. -/
theorem spike_current_two :
    Spec.current spike 3 (Spec.tonesFrom (fun f p => drive23 f p ()) (fun _ => 1) 3 2 1 [1]) 0 0
      ≠ 0 := by
  rw [spike_current]
  unfold Spec.toneCoeff
  rw [Spec.harmonicConv_three_two (fun p => Spec.jacobiAnger (drive23 1 p ()) 1 p 1) drive23_one]
  have b := bessel_one_ne
  have b' : besselJ (-1) 1 ≠ 0 := by rw [besselJ_neg]; simpa using b
  simp [Spec.jacobiAnger, drive23, b, b']

/-- C25 is false for three harmonics: an unused entry of the `num_b` tuple changes the dc current. -/
theorem C25_false_for_three_harmonics : ∃ (vj : ℕ → ℕ → Arr Unit) (cct : Cct Unit) (resp : ℝ → ℂ)
    (a b : Arr Unit), Valid cct (.tup [1]) ∧ Valid cct (.tup [1, 2]) ∧ cct.numF = 1 ∧
    qtcurrentList vj cct resp [0] (.tup [1]) none = .ok [a] ∧
    qtcurrentList vj cct resp [0] (.tup [1, 2]) none = .ok [b] ∧ a ≠ b := by
  have v1 := one_valid 3 (by norm_num) (.tup [1]) (by simp [NumB.toTup])
  have v2 := one_valid 3 (by norm_num) (.tup [1, 2]) (by simp [NumB.toTup])
  refine ⟨drive23, one 3, spike, _, _, v1, v2, rfl, qtcurrentList_eq _ _ _ _ _ v1,
    qtcurrentList_eq _ _ _ _ _ v2, fun h => ?_⟩
  have h0 := congrFun h ()
  exact spike_current_two (h0.symm.trans spike_current_one)

/-- C17 is false with three harmonics when the undriven tone has the largest summation limit. -/
theorem C17_false_for_larger_limit : ∃ (vj : ℕ → ℕ → Arr Unit) (cct cct' : Cct Unit)
    (resp : ℝ → ℂ) (a b : Arr Unit), Valid cct (.tup [1]) ∧ Valid cct' (.tup [1, 2]) ∧
    cct'.numF = cct.numF + 1 ∧ cct'.numP = cct.numP ∧ cct'.vb = cct.vb ∧
    cct'.freq 1 = cct.freq 1 ∧ cct.numF = 1 ∧ (∀ p, vj 2 p = 0) ∧
    qtcurrentList vj cct resp [0] (.tup [1]) none = .ok [a] ∧
    qtcurrentList vj cct' resp [0] (.tup [1, 2]) none = .ok [b] ∧ a ≠ b := by
  have v1 := one_valid 3 (by norm_num) (.tup [1]) (by simp [NumB.toTup])
  have v2 : Valid { one 3 with numF := 2 } (.tup [1, 2]) :=
    ⟨by norm_num, by norm_num, by simp [one], by intro f _ _; simp [one], by simp [NumB.toTup]⟩
  refine ⟨drive23, one 3, { one 3 with numF := 2 }, spike, _, _, v1, v2, rfl, rfl, rfl, rfl, rfl,
    fun p => by funext i; simp [drive23], qtcurrentList_eq _ _ _ _ _ v1,
    qtcurrentList_eq _ _ _ _ _ v2, fun h => ?_⟩
  have h0 : Spec.current spike 3 (Spec.tonesFrom (fun f p => drive23 f p ()) (fun _ => 1) 3 1 1 [1])
        0 0
      = Spec.current spike 3 (Spec.tonesFrom (fun f p => drive23 f p ()) (fun _ => 1) 3 2 1 [1, 2])
        0 0 := congrFun h ()
  rw [spike_current_one, show ([1, 2] : List ℕ) = [1] ++ [2] from rfl, Spec.tonesFrom_append,
    Spec.current_perm _ _ List.perm_append_comm] at h0
  simp only [Spec.tonesFrom, List.cons_append, List.nil_append] at h0
  rw [Spec.current_undriven] at h0
  · exact spike_current_two h0.symm
  · apply Spec.undriven_of_zero
    intro p _ _
    simp [drive23]

example (vj : ℕ → ℕ → Arr (Fin 2)) : ∃ ccc ccc',
    phaseFactorCoeff vj demo.freq 2 2 (.tup [3, 2]) = .ok ccc ∧
    phaseFactorCoeff vj demo.freq 2 2 (.tup [9, 2]) = .ok ccc' ∧
    pyGet (ccc' 2) (-1) = pyGet (ccc 2) (-1) := by
  obtain ⟨c, c', e, e', h⟩ := C25_own_limit_partial vj demo (.tup [3, 2]) (.tup [9, 2]) demo_valid
    ⟨by simp [demo], by simp [demo], by simp [demo],
      by intro f _ _; simp only [demo]; split_ifs <;> norm_num, by simp [NumB.toTup, demo]⟩
    (by simp [demo]) 2 2 (by norm_num) (by simp [demo]) rfl rfl
  exact ⟨c, c', e, e', (h (-1) (by norm_num)).2⟩

example (vj : ℕ → ℕ → Arr (Fin 2)) (resp : ℝ → ℂ) :
    qtcurrentList vj demo resp [0.02] (.tup ([3, 2] ++ [8])) none
      = qtcurrentList vj demo resp [0.02] (.tup [3, 2]) none :=
  C25_extra_entries_partial vj demo resp _ [3, 2] [8] demo_valid rfl (.inl le_rfl)

/-! ## C65 -/

/-- C65 (Tien-Gordon). With one tone and one harmonic the dc current is
`Σ_{|k| ≤ num_b} J_k(α)² Idc(vb + k freq)` with `α = |v| / freq` and `Idc` the imaginary part of the
response function. -/
theorem C65_tien_gordon (vj : ℕ → ℕ → Arr ι) (cct : Cct ι) (resp : ℝ → ℂ) (n : ℕ)
    (hF : cct.numF = 1) (hP : cct.numP = 1) (hw : 1 / 20000 < cct.freq 1) :
    qtcurrentList vj cct resp [0] (.int n) none = .ok [fun i =>
      ((∑ k ∈ Icc (-(n : ℤ)) n, besselJ k (‖vj 1 1 i‖ / cct.freq 1) ^ 2
        * (resp (cct.vb i + k * cct.freq 1)).im : ℝ) : ℂ)] := by
  have h : Valid cct (.int n) := ⟨by omega, by omega, by omega, by
    intro f h1 h2; rw [show f = 1 by omega]; linarith, by simp [NumB.toTup]⟩
  rw [qtcurrentList_eq _ _ _ _ _ h]
  simp only [List.map_cons, List.map_nil]
  congr 2
  funext i
  unfold Spec.qt
  rw [hF, hP]
  simp only [NumB.toTup, List.replicate, List.take, Spec.tonesFrom, List.foldr_cons, List.foldr_nil]
  rw [Spec.current_single_dc _ _ _ hw]
  push_cast
  refine sum_congr rfl fun k hk => ?_
  rw [mem_Icc, ← abs_le] at hk
  congr 1
  have e : Spec.toneCoeff (fun p => vj 1 p i) (cct.freq 1) 1 n (max n 0) k
      = Spec.jacobiAnger (vj 1 1 i) (cct.freq 1) 1 n k :=
    Spec.harmonicConv_one _ _ _ _ (by simp) _
  rw [e]
  unfold Spec.jacobiAnger
  rw [if_pos hk, norm_mul, Complex.norm_real, Real.norm_eq_abs]
  rw [show -I * (k : ℂ) * (arg (vj 1 1 i) : ℂ) = ((-(k * arg (vj 1 1 i)) : ℝ) : ℂ) * I by
    push_cast; ring, Complex.norm_exp_ofReal_mul_I, mul_one]
  push_cast
  rw [one_mul, ← Complex.ofReal_pow, sq_abs]
  push_cast
  rfl

example (vj : ℕ → ℕ → Arr Unit) (resp : ℝ → ℂ) :
    qtcurrentList vj (one 1) resp [0] (.int 20) none = .ok [fun i =>
      ((∑ k ∈ Icc (-((20 : ℕ) : ℤ)) (20 : ℕ), besselJ k (‖vj 1 1 i‖ / 1) ^ 2
        * (resp (0 + k * 1)).im : ℝ) : ℂ)] :=
  C65_tien_gordon vj (one 1) resp 20 rfl rfl (by simp [one]; norm_num)

end QMix.Props
