import Verif.Props.HarmonicBalance2

/-!
# Property C154: exactly when harmonic balance stops

C27 and C33 are false because of a NaN: `max(np.max(rel_error), max_rel_error)` forgets everything
before a signal that has one. Here is what the stopping test accepts, with NaN and all.
-/

namespace QMix.Props

open Complex Finset QMix.Qt QMix.HB

/-- At some bias point the relative error of the signal is `0/0`: no voltage, no residual. -/
def Blind {N : ℕ} (cct : HCct N) (resp : ℝ → ℂ) (nb : NumB) (v : ℕ → ℕ → Arr (Fin N)) (f p : ℕ) : Prop :=
  ∃ i, v f p i = 0 ∧ resid cct resp nb v f p i = 0

/-- The signal satisfies its circuit equation at every bias point to within the tolerance. -/
def Within {N : ℕ} (cct : HCct N) (resp : ℝ → ℂ) (nb : NumB) (stop : ℝ) (v : ℕ → ℕ → Arr (Fin N)) (f p : ℕ) : Prop :=
  ∀ i, v f p i ≠ 0 ∧ ‖resid cct resp nb v f p i‖ ≤ stop * ‖v f p i‖

/-- What the stopping test accepts: either all signals satisfy their equations, or there is a blind
signal, not the last one, and all signals after it (higher tone, or same tone and higher harmonic)
satisfy their equations. -/
def Accepted {N : ℕ} (cct : HCct N) (resp : ℝ → ℂ) (nb : NumB) (stop : ℝ) (v : ℕ → ℕ → Arr (Fin N)) : Prop :=
  (∀ f p, 1 ≤ f → f ≤ cct.numF → 1 ≤ p → p ≤ cct.numP → Within cct resp nb stop v f p) ∨
  ∃ f₀ p₀, (1 ≤ f₀ ∧ f₀ ≤ cct.numF) ∧ (1 ≤ p₀ ∧ p₀ ≤ cct.numP) ∧ Blind cct resp nb v f₀ p₀ ∧
    (f₀ < cct.numF ∨ p₀ < cct.numP) ∧
    ∀ f p, 1 ≤ f → f ≤ cct.numF → 1 ≤ p → p ≤ cct.numP → (f₀ < f ∨ f₀ = f ∧ p₀ < p) → Within cct resp nb stop v f p

/-! ## Lemmas -/

section

variable {n N : ℕ} {rel : Fin n → Fin N → Rel} {stop : ℝ}

theorem le_ne_nan {r : Rel} {c : ℝ} (h : r.le (.fin c)) : r ≠ .nan := by
  rintro rfl
  exact h

theorem finRange_drop_mem (k0 : ℕ) (k : Fin n) : k ∈ (List.finRange n).drop k0 ↔ k0 ≤ k := by
  rw [List.mem_iff_getElem]
  constructor
  · rintro ⟨j, hj, rfl⟩
    simp
  · intro hk
    refine ⟨k - k0, by simp; omega, ?_⟩
    ext
    simp [hk]

/-- After a NaN only the signals that follow count. -/
theorem sigFor_after_nan {l : List (Fin n)} {s r : Rel × (Fin N → Prop)} (h : sigFor stop rel l s = .ok r)
    (hs : s.1 = .nan) (hl : l ≠ []) {c : ℝ} (hle : ∀ k ∈ l, ∀ i, (rel k i).le (.fin c)) : r.1.le (.fin c) := by
  cases l with
  | nil => exact absurd rfl hl
  | cons k l =>
    obtain ⟨m, hm, h⟩ := sigFor_cons h
    have hmn : m ≠ .nan := by
      rw [Ne, npMax_nan hm, List.mem_ofFn]
      rintro ⟨i, hi⟩
      exact le_ne_nan (hle k (by simp) i) hi
    rw [hs, pyMax2_nan_right] at h
    have h2 := (sigFor_le_iff h (fun k' hk' i => le_ne_nan (hle k' (by simp [hk']) i)) hmn c).2
    refine h2.2 ⟨(npMax_le hm c).2 ?_, fun k' hk' i => hle k' (by simp [hk']) i⟩
    intro x hx
    obtain ⟨i, rfl⟩ := List.mem_ofFn.1 hx
    exact hle k (by simp) i

/-- A signal with a NaN makes the running maximum NaN. -/
theorem sigFor_nan {l : List (Fin n)} {k : Fin n} {s r : Rel × (Fin N → Prop)} (h : sigFor stop rel (l ++ [k]) s = .ok r) :
    r.1 = .nan ↔ ∃ i, rel k i = .nan := by
  obtain ⟨s', -, h2⟩ := sigFor_append h
  obtain ⟨m, hm, h2⟩ := sigFor_cons h2
  cases h2
  have hm' : m = .nan ↔ ∃ i, rel k i = .nan := by
    rw [npMax_nan hm, List.mem_ofFn]
  rw [← hm']
  constructor
  · intro h
    by_contra hn
    exact pyMax2_ne_nan hn _ h
  · rintro rfl
    exact pyMax2_nan_left _

/-- The running maximum is within the tolerance. -/
theorem signalLoop_accepts {r : Rel × (Fin N → Prop)} (h : signalLoop stop rel = .ok r) (c : ℝ) :
    r.1.le (.fin c) ↔ (0 ≤ c ∧ ∀ k i, (rel k i).le (.fin c)) ∨
      ∃ k₀ : Fin n, (∃ i, rel k₀ i = .nan) ∧ (k₀ : ℕ) + 1 < n ∧ ∀ k, k₀ < k → ∀ i, (rel k i).le (.fin c) := by
  classical
  constructor
  · intro hr
    by_cases hnan : ∃ k : Fin n, ∃ i, rel k i = .nan
    · right
      obtain ⟨k₀, hk₀, hmax⟩ := Finset.exists_max_image (univ.filter fun k : Fin n => ∃ i, rel k i = .nan) id
        (by obtain ⟨k, hk⟩ := hnan; exact ⟨k, by simpa using hk⟩)
      have hk₀' : ∃ i, rel k₀ i = .nan := by simpa using hk₀
      have hfrom := signalLoop_le_from h (k₀ + 1) (fun k hk i hi => by
        have := hmax k (by simpa using ⟨i, hi⟩)
        have : k ≤ k₀ := this
        have : (k : ℕ) ≤ k₀ := this
        omega) hr
      refine ⟨k₀, hk₀', ?_, fun k hk i => hfrom k hk i⟩
      by_contra hlt
      obtain ⟨i, hi⟩ := hk₀'
      have := signalLoop_le_last h hr k₀ (by have := k₀.2; omega) i
      rw [hi] at this
      exact this
    · left
      push Not at hnan
      exact (signalLoop_le_iff h hnan c).2.1 hr
  · rintro (⟨h0, hk⟩ | ⟨k₀, hk₀, hlt, hk⟩)
    · exact (signalLoop_le_iff h (fun k i => le_ne_nan (hk k i)) c).2.2 ⟨h0, hk⟩
    · have hsplit : List.finRange n = (List.finRange n).take (k₀ + 1) ++ (List.finRange n).drop (k₀ + 1) :=
        (List.take_append_drop _ _).symm
      have h' : sigFor stop rel (List.finRange n) (Rel.fin 0, fun _ => True) = .ok r := h
      rw [hsplit] at h'
      obtain ⟨s', h1, h2⟩ := sigFor_append h'
      have htake : (List.finRange n).take (k₀ + 1) = (List.finRange n).take k₀ ++ [k₀] := by
        rw [List.take_succ_eq_append_getElem (by simp)]
        simp
      rw [htake] at h1
      refine sigFor_after_nan h2 ((sigFor_nan h1).2 hk₀) ?_ (fun k hk' i => hk k ?_ i)
      · intro he
        have := congrArg List.length he
        simp at this
        omega
      · have := (finRange_drop_mem (k₀ + 1) k).1 hk'
        exact Fin.lt_def.2 (by omega)

/-- The running maximum is NaN exactly if the last signal has a NaN. -/
theorem signalLoop_nan {r : Rel × (Fin N → Prop)} (h : signalLoop stop rel = .ok r) (k : Fin n) (hk : (k : ℕ) + 1 = n) :
    r.1 = .nan ↔ ∃ i, rel k i = .nan := by
  obtain ⟨m, rfl⟩ : ∃ m, n = m + 1 := ⟨k, hk.symm⟩
  have h' : sigFor stop rel (List.finRange (m + 1)) (Rel.fin 0, fun _ => True) = .ok r := h
  rw [List.finRange_succ_last] at h'
  have hk' : k = Fin.last m := by ext; simp; omega
  subst hk'
  exact sigFor_nan h'

end

theorem relDiv_within {a b c : ℝ} (hb : 0 ≤ b) : (relDiv a b).le (.fin c) ↔ b ≠ 0 ∧ a ≤ c * b := by
  by_cases h : b = 0
  · simp only [h, ne_eq, not_true, false_and, iff_false]
    unfold relDiv
    rw [if_pos rfl]
    split_ifs <;> exact id
  · rw [relDiv_le_iff (lt_of_le_of_ne hb (Ne.symm h))]
    simp [h]

/-- The running maximum of the code, in terms of the circuit equations. -/
theorem evaluated_accepts {N : ℕ} (cct : HCct N) (resp : ℝ → ℂ) (nb : NumB) (h : Valid cct.toCct nb)
    {m : RespMat (Fin N)} (hm : interpolateRespfn cct.toCct resp nb = .ok m) (stop : ℝ)
    (vj : Sig (cct.numF * cct.numP) N) (r : Rel × (Fin N → Prop))
    (he : Evaluated (currentForHb cct resp nb m) (relErr cct.sigVt cct.sigZt) stop vj r) :
    (r.1.le (.fin stop) ↔ Accepted cct.clamp resp nb stop (to3d cct.numF cct.numP vj)) ∧
    (r.1 = .nan ↔ Blind cct.clamp resp nb (to3d cct.numF cct.numP vj) cct.numF cct.numP) := by
  rw [evaluated_iff cct resp nb h hm] at he
  have hF := h.tones_pos
  have hP := h.harmonics
  set v := to3d cct.numF cct.numP vj with hv
  have hn : ∀ f p i, relDiv ‖resid cct.clamp resp nb v f p i‖ ‖v f p i‖ = .nan ↔
      v f p i = 0 ∧ resid cct.clamp resp nb v f p i = 0 := by
    intro f p i
    rw [relDiv_nan, norm_eq_zero, norm_eq_zero, and_comm]
  have hw : ∀ f p i, (relDiv ‖resid cct.clamp resp nb v f p i‖ ‖v f p i‖).le (.fin stop) ↔
      v f p i ≠ 0 ∧ ‖resid cct.clamp resp nb v f p i‖ ≤ stop * ‖v f p i‖ := by
    intro f p i
    rw [relDiv_within (norm_nonneg _), norm_ne_zero_iff]
  have hlater : ∀ {f₀ p₀ f p : ℕ}, 1 ≤ f₀ → 1 ≤ p₀ → p₀ ≤ cct.numP → 1 ≤ f → 1 ≤ p → p ≤ cct.numP →
      ((f₀ - 1) * cct.numP + (p₀ - 1) < (f - 1) * cct.numP + (p - 1) ↔ f₀ < f ∨ f₀ = f ∧ p₀ < p) := by
    intro f₀ p₀ f p h1 h2 h3 h4 h5 h6
    obtain ⟨a, rfl⟩ : ∃ a, f₀ = a + 1 := ⟨f₀ - 1, by omega⟩
    obtain ⟨b, rfl⟩ : ∃ b, f = b + 1 := ⟨f - 1, by omega⟩
    simp only [Nat.add_sub_cancel]
    rcases lt_trichotomy a b with hab | hab | hab
    · have : (a + 1) * cct.numP ≤ b * cct.numP := Nat.mul_le_mul_right _ hab
      rw [Nat.add_mul] at this
      constructor
      · intro _; left; omega
      · intro _; omega
    · subst hab
      constructor
      · intro _; right; omega
      · intro _; omega
    · have : (b + 1) * cct.numP ≤ a * cct.numP := Nat.mul_le_mul_right _ hab
      rw [Nat.add_mul] at this
      constructor
      · intro _; omega
      · intro _; omega
  have hlast : (cct.numF - 1) * cct.numP + (cct.numP - 1) + 1 = cct.numF * cct.numP := by
    obtain ⟨a, ha⟩ : ∃ a, cct.numF = a + 1 := ⟨cct.numF - 1, by omega⟩
    have hP1 : 1 ≤ cct.numP := hP
    rw [ha, Nat.add_mul, Nat.add_sub_cancel]
    omega
  constructor
  · rw [signalLoop_accepts he]
    constructor
    · rintro (⟨-, hk⟩ | ⟨k₀, ⟨i, hi⟩, hlt, hk⟩)
      · left
        intro f p h1 h2 h3 h4 i
        obtain ⟨k, -, hkf, hkp⟩ := signal_index (F := cct.numF) (P := cct.numP) h1 h2 h3 h4
        have := hk k i
        rw [hkf, hkp, hw] at this
        exact this
      · right
        obtain ⟨hf, hp⟩ := signal_range k₀
        have hdm := Nat.div_add_mod' (k₀ : ℕ) cct.numP
        refine ⟨k₀ / cct.numP + 1, k₀ % cct.numP + 1, ⟨Nat.le_add_left 1 _, hf⟩, ⟨Nat.le_add_left 1 _, hp⟩, ⟨i, (hn _ _ i).1 hi⟩, ?_, ?_⟩
        · have := (hlater (f₀ := k₀ / cct.numP + 1) (p₀ := k₀ % cct.numP + 1) (f := cct.numF) (p := cct.numP)
            (Nat.le_add_left 1 _) (Nat.le_add_left 1 _) hp hF hP le_rfl).1 (by simp only [Nat.add_sub_cancel]; omega)
          exact this.imp_right And.right
        · intro f p h1 h2 h3 h4 hl i
          obtain ⟨k, hk1, hkf, hkp⟩ := signal_index (F := cct.numF) (P := cct.numP) h1 h2 h3 h4
          have := hk k (Fin.lt_def.2 (by
            rw [hk1]
            have := (hlater (f₀ := k₀ / cct.numP + 1) (p₀ := k₀ % cct.numP + 1) (f := f) (p := p)
              (Nat.le_add_left 1 _) (Nat.le_add_left 1 _) hp h1 h3 h4).2 hl
            simp only [Nat.add_sub_cancel] at this
            omega)) i
          rw [hkf, hkp, hw] at this
          exact this
    · rintro (hk | ⟨f₀, p₀, ⟨h1, h2⟩, ⟨h3, h4⟩, ⟨i, hi⟩, hl, hk⟩)
      · left
        refine ⟨?_, fun k i => ?_⟩
        · rcases Nat.eq_zero_or_pos N with hN | hN
          · exfalso
            subst hN
            have h' : sigFor stop _ (List.finRange (cct.numF * cct.numP)) (Rel.fin 0, fun _ => True) = .ok r := he
            have hpos : 0 < cct.numF * cct.numP := Nat.mul_pos hF hP
            obtain ⟨k, l, hkl⟩ : ∃ k l, List.finRange (cct.numF * cct.numP) = k :: l := by
              cases hc : List.finRange (cct.numF * cct.numP) with
              | nil =>
                have := congrArg List.length hc
                simp at this
                omega
              | cons k l => exact ⟨k, l, rfl⟩
            rw [hkl] at h'
            obtain ⟨x, hx, -⟩ := sigFor_cons h'
            simp [npMax] at hx
          · have h5 := hk 1 1 le_rfl hF le_rfl hP ⟨0, hN⟩
            have h6 : 0 < ‖v 1 1 ⟨0, hN⟩‖ := norm_pos_iff.2 h5.1
            exact nonneg_of_mul_nonneg_left ((norm_nonneg _).trans h5.2) h6
        · rw [hw]
          obtain ⟨hf, hp⟩ := signal_range k
          exact hk _ _ (Nat.le_add_left 1 _) hf (Nat.le_add_left 1 _) hp i
      · right
        obtain ⟨k₀, hk0, hkf, hkp⟩ := signal_index (F := cct.numF) (P := cct.numP) h1 h2 h3 h4
        refine ⟨k₀, ⟨i, ?_⟩, ?_, fun k hlt i => ?_⟩
        · rw [hkf, hkp, hn]
          exact hi
        · have := (hlater (f₀ := f₀) (p₀ := p₀) (f := cct.numF) (p := cct.numP) h1 h3 h4 hF hP le_rfl).2 (by
            rcases hl with hl | hl
            · exact .inl hl
            · rcases Nat.lt_or_eq_of_le h2 with h2 | h2
              · exact .inl h2
              · exact .inr ⟨h2, hl⟩)
          omega
        · rw [hw]
          obtain ⟨hf, hp⟩ := signal_range k
          have hdm := Nat.div_add_mod' (k : ℕ) cct.numP
          refine hk _ _ (Nat.le_add_left 1 _) hf (Nat.le_add_left 1 _) hp
            ((hlater h1 h3 h4 (Nat.le_add_left 1 _) (Nat.le_add_left 1 _) hp).1 ?_) i
          have := Fin.lt_def.1 hlt
          simp only [Nat.add_sub_cancel]
          omega
  · obtain ⟨k, hk, hkf, hkp⟩ := signal_index hF le_rfl hP le_rfl
    rw [signalLoop_nan he k (by omega)]
    simp only [hkf, hkp, hn]
    rfl

/-! ## C154 -/

/-- C154. Unless the loop runs out, harmonic balance stops because the target is met exactly if the
voltage is `Accepted`: all signals satisfy their circuit equations, or those after a signal that is `0/0`
somewhere. If it stops because of the iteration limit, the voltage is not accepted and the last signal
is not `0/0`. -/
theorem C154_target {N : ℕ} (cct : HCct N) (resp : ℝ → ℂ) (nb : NumB) (maxIt : ℤ)
    (stop : ℝ) (vjInit : Option (ℕ → ℕ → Arr (Fin N))) (damp : ℝ) (mode : Mode) (zj : ℂ)
    (h : Valid cct.toCct nb) (run : Run N (cct.numF * cct.numP))
    (hrun : harmonicBalance cct resp nb maxIt stop vjInit damp mode zj = .ok run)
    (s : Stopped (Sig (cct.numF * cct.numP) N) N) (hs : run.stopped = some s)
    (v : ℕ → ℕ → Arr (Fin N)) (hv : voltage run.res = some v) (hex : s.exit ≠ .exhausted) :
    (s.exit = .target ↔ Accepted run.cct resp nb stop v) ∧
    (s.exit = .limit ↔ ¬ Accepted run.cct resp nb stop v) ∧
    (s.exit = .limit → (s.iteration : ℤ) = maxIt ∧ ¬ Blind run.cct resp nb v cct.numF cct.numP) := by
  by_cases h0 : ztZero cct
  · rw [hb_zero _ _ _ _ _ _ _ _ h0] at hrun
    cases hrun; cases hs
  obtain ⟨start, m, s', hE⟩ := hb_entered h0 hrun
  rw [hE.stopped] at hs
  cases hs
  have hv' := voltage_result hE.res hv
  subst hv'
  rw [hE.cct_eq]
  obtain ⟨-, hc⟩ := iterate_post _ _ _ _ _ _ _ hE.loop
  rcases hc with hc | hc | hc
  · obtain ⟨he, -, -, -, r, hr, hle, -⟩ := hc
    have := (evaluated_accepts cct resp nb h hE.matrix stop _ r hr).1.1 hle
    rw [he]
    simp [this]
  · obtain ⟨he, -, -, hit, -, r, hr, hlt, -⟩ := hc
    obtain ⟨h1, h2⟩ := evaluated_accepts cct resp nb h hE.matrix stop _ r hr
    have hna : ¬ r.1.le (.fin stop) := by
      intro hle
      cases hx : r.1 with
      | nan => rw [hx] at hle; exact hle
      | inf => rw [hx] at hle; exact hle
      | fin x =>
        rw [hx] at hle hlt
        exact absurd (show x ≤ stop from hle) (not_le.2 (show stop < x from hlt))
    have hnn : r.1 ≠ .nan := by
      intro hx
      rw [hx] at hlt
      exact hlt
    rw [h1] at hna
    rw [Ne, h2] at hnn
    rw [he]
    simp [hna, hnn, hit]
  · exact absurd hc.1 hex

/-- C154. The loop runs out (for `max_it ≥ 0`) only with a `0/0` in the last signal in the last pass. A
further update is then applied, `max_it + 1` in all, and the voltage returned was never tested. -/
theorem C154_exhausted {N : ℕ} (cct : HCct N) (resp : ℝ → ℂ) (nb : NumB) (maxIt : ℤ) (hmax : 0 ≤ maxIt)
    (stop : ℝ) (vjInit : Option (ℕ → ℕ → Arr (Fin N))) (damp : ℝ) (mode : Mode) (zj : ℂ)
    (h : Valid cct.toCct nb) (run : Run N (cct.numF * cct.numP))
    (hrun : harmonicBalance cct resp nb maxIt stop vjInit damp mode zj = .ok run)
    (s : Stopped (Sig (cct.numF * cct.numP) N) N) (hs : run.stopped = some s) (hex : s.exit = .exhausted) :
    (s.updates : ℤ) = maxIt + 1 ∧ (s.iteration : ℤ) = maxIt ∧
      ∃ w : ℕ → ℕ → Arr (Fin N), Blind run.cct resp nb w cct.numF cct.numP ∧ ¬ Accepted run.cct resp nb stop w := by
  by_cases h0 : ztZero cct
  · rw [hb_zero _ _ _ _ _ _ _ _ h0] at hrun
    cases hrun; cases hs
  obtain ⟨start, m, s', hE⟩ := hb_entered h0 hrun
  rw [hE.stopped] at hs
  cases hs
  rw [hE.cct_eq]
  obtain ⟨-, hc⟩ := iterate_post _ _ _ _ _ _ _ hE.loop
  rcases hc with hc | hc | hc
  · rw [hc.1] at hex; cases hex
  · rw [hc.1] at hex; cases hex
  · obtain ⟨-, hu, -, hc⟩ := hc
    obtain ⟨hit, w, r, -, hr, -, hnl, hnan, -⟩ := hc (by omega)
    obtain ⟨h1, h2⟩ := evaluated_accepts cct resp nb h hE.matrix stop _ r hr
    have hit' : (s.iteration : ℤ) = maxIt := by omega
    exact ⟨by omega, hit', _, h2.1 (hnan hit'), fun ha => hnl (h1.2 ha)⟩

/-- C154. For `max_it ≥ 0` the flag of mode `x` is true exactly if the voltage returned is accepted and
fewer than `max_it` updates were needed. The iteration number never exceeds `max_it`. -/
theorem C154_flag {N : ℕ} (cct : HCct N) (resp : ℝ → ℂ) (nb : NumB) (maxIt : ℤ) (hmax : 0 ≤ maxIt)
    (stop : ℝ) (vjInit : Option (ℕ → ℕ → Arr (Fin N))) (damp : ℝ) (mode : Mode) (zj : ℂ)
    (h : Valid cct.toCct nb) (run : Run N (cct.numF * cct.numP))
    (hrun : harmonicBalance cct resp nb maxIt stop vjInit damp mode zj = .ok run)
    (v : ℕ → ℕ → Arr (Fin N)) (it : ℕ) (flag : Prop) (hx : run.res = .extra v it flag) :
    (it : ℤ) ≤ maxIt ∧ (flag ↔ Accepted run.cct resp nb stop v ∧ (it : ℤ) < maxIt) := by
  by_cases h0 : ztZero cct
  · rw [hb_zero _ _ _ _ _ _ _ _ h0] at hrun
    cases hrun; cases hx
  obtain ⟨start, m, s, hE⟩ := hb_entered h0 hrun
  have hv' := voltage_result hE.res (v := v) (by rw [hx]; rfl)
  have hres := hE.res
  rw [hx] at hres
  obtain ⟨rfl, rfl⟩ := result_extra hres
  subst hv'
  rw [hE.cct_eq]
  obtain ⟨-, hc⟩ := iterate_post _ _ _ _ _ _ _ hE.loop
  rcases hc with hc | hc | hc
  · obtain ⟨he, hit, -, hlt, r, hr, hle, -⟩ := hc
    have ha := (evaluated_accepts cct resp nb h hE.matrix stop _ r hr).1.1 hle
    have hle' : (s.iteration : ℤ) ≤ maxIt := by omega
    exact ⟨hle', fun hf => ⟨ha, lt_of_le_of_ne hle' hf⟩, fun hh => hh.2.ne⟩
  · have hit := hc.2.2.2.1
    exact ⟨hit.le, fun hf => absurd hit hf, fun hh => absurd hit hh.2.ne⟩
  · have := (hc.2.2.2 (by omega)).1
    have hit : (s.iteration : ℤ) = maxIt := by omega
    exact ⟨hit.le, fun hf => absurd hit hf, fun hh => absurd hit hh.2.ne⟩

/-- The witness of C27: a run whose voltage is accepted because of a blind signal, although signal (1, 1)
violates its equation. -/
example : ∃ (cct : HCct 1) (resp : ℝ → ℂ) (v : ℕ → ℕ → Arr (Fin 1)), Accepted cct resp (.int 1) 0.001 v ∧
    ¬ Within cct resp (.int 1) 0.001 v 1 1 := by
  obtain ⟨cct, resp, v0, run, s, v, hV, hrun, hs, ht, ⟨flag, hres, -⟩, hbad, -⟩ := C27_false_with_nan
  refine ⟨run.cct, resp, v, ?_, fun h => hbad (h 0).2⟩
  exact (C154_target cct resp (.int 1) 10 0.001 (some v0) 1 .x 0.67 hV run hrun s hs v (by rw [hres]; rfl)
    (by rw [ht]; decide)).1.1 ht

end QMix.Props
