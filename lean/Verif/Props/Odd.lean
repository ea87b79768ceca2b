import Verif.Props.Limit
import Verif.Lemmas.HarmonicBalance2

/-! # An unbiased junction makes only odd mixing products (C136) -/

namespace QMix.Props

open Complex Finset QMix.Qt

variable {ι : Type}

theorem delayPhase_pi (f : ℕ) (l : List (Spec.Tone × ℤ)) :
    Spec.delayPhase (fun _ => Real.pi) f l = ((l.map Prod.snd).sum : ℤ) * Real.pi := by
  induction l generalizing f with
  | nil => simp [Spec.delayPhase]
  | cons x l ih => rw [Spec.delayPhase, ih, List.map_cons, List.sum_cons]; push_cast; ring

theorem exp_even (n : ℤ) (h : Even n) : exp (I * ((n : ℝ) * Real.pi : ℝ)) = 1 := by
  obtain ⟨m, rfl⟩ := h
  rw [show I * (((m + m : ℤ) : ℝ) * Real.pi : ℝ) = m * (2 * Real.pi * I) by push_cast; ring]
  exact exp_int_mul_two_pi_mul_I m

theorem exp_odd (n : ℤ) (h : Odd n) : exp (I * ((n : ℝ) * Real.pi : ℝ)) = -1 := by
  obtain ⟨m, rfl⟩ := h
  rw [show I * (((2 * m + 1 : ℤ) : ℝ) * Real.pi : ℝ) = m * (2 * Real.pi * I) + Real.pi * I by push_cast; ring, exp_add,
    exp_int_mul_two_pi_mul_I, exp_pi_mul_I, one_mul]

/-- C136. A symmetric junction (`I_dc` odd, `I_kk` even) at zero bias, driven by odd harmonics only: there is no
current at a frequency to which only mixing products of even order `a + b + ...` contribute. This holds for every
`num_b`. -/
theorem C136_even_products (vj : ℕ → ℕ → Arr ι) (cct : Cct ι) (resp : ℝ → ℂ) (hr : ∀ v, resp (-v) = (starRingEnd ℂ) (resp v))
    (nb : NumB) (h : Valid cct nb) (i : ι) (hb : cct.vb i = 0)
    (hv : ∀ f p, 1 ≤ f → f ≤ cct.numF → 1 ≤ p → p ≤ cct.numP → Even p → vj f p i = 0) (x : ℝ)
    (hx : ∀ as : List ℤ, as.length = cct.numF → (∀ a ∈ as, |a| ≤ (cct.numP : ℤ)) →
      round4 (Spec.photonShift cct.freq 1 as) = round4 x → Even as.sum) :
    ∃ cur, qtcurrentList vj cct resp [x] nb none = .ok [cur] ∧ cur i = 0 := by
  refine ⟨_, qtcurrentList_eq vj cct resp [x] nb h, ?_⟩
  have hlen : ((nb.toTup cct.numF).take cct.numF).length = cct.numF := by
    rw [List.length_take]; have := h.limits; omega
  have h1 := Spec.current_shift (fun _ => Real.pi) resp (fun f p => vj f p i) cct.freq cct.numP
    ((nb.toTup cct.numF).foldr max 0) 1 ((nb.toTup cct.numF).take cct.numF) (cct.vb i) x
  have h2 := current_rev hr cct.numP (Spec.tonesFrom (fun f p => vj f p i) cct.freq cct.numP
    ((nb.toTup cct.numF).foldr max 0) 1 ((nb.toTup cct.numF).take cct.numF)) (cct.vb i) x
  rw [← tonesFrom_neg, hb, neg_zero] at h2
  rw [HB.tonesFrom_congr_range (w := fun f p => -vj f p i) cct.freq cct.numP _ 1 _ (fun g p g1 g2 p1 p2 => by
    rw [hlen] at g2
    rcases Nat.even_or_odd p with hp | hp
    · rw [hv g p g1 (by omega) p1 p2 hp]
      simp
    · have := exp_odd p (by exact_mod_cast hp)
      simp only [Int.cast_natCast] at this
      rw [this, mul_neg_one]), hb, h2] at h1
  have h3 : Spec.boxSum cct.numP (Spec.tonesFrom (fun f p => vj f p i) cct.freq cct.numP
      ((nb.toTup cct.numF).foldr max 0) 1 ((nb.toTup cct.numF).take cct.numF)) (fun l =>
        if round4 (Spec.mixFreq l) = round4 x then
          exp (I * Spec.delayPhase (fun _ => Real.pi) 1 l) * Spec.mixProduct resp l 0 else 0)
      = Spec.current resp cct.numP (Spec.tonesFrom (fun f p => vj f p i) cct.freq cct.numP
      ((nb.toTup cct.numF).foldr max 0) 1 ((nb.toTup cct.numF).take cct.numF)) 0 x := by
    unfold Spec.current
    refine boxSum_congr' fun as has hbox => ?_
    have hm := Spec.mixFreq_tonesFrom _ _ _ _ _ _ ((Spec.tonesFrom (fun f p => vj f p i) cct.freq cct.numP
      ((nb.toTup cct.numF).foldr max 0) 1 ((nb.toTup cct.numF).take cct.numF)).zip as)
      (List.map_fst_zip (by rw [has]))
    rw [List.map_snd_zip (by rw [has])] at hm
    rw [Spec.length_tonesFrom, hlen] at has
    split_ifs with hc
    · rw [delayPhase_pi, List.map_snd_zip (by rw [has, Spec.length_tonesFrom, hlen]), exp_even _
        (hx as has hbox (by rw [← hm]; exact hc)), one_mul]
    · rfl
  rw [h3] at h1
  show Spec.qt _ _ _ _ _ _ _ _ = 0
  unfold Spec.qt
  rw [hb]
  have h4 := h1
  generalize Spec.current resp cct.numP _ 0 x = c at h4 ⊢
  exact self_eq_neg.1 h4.symm

/-- C136, one tone: an unbiased symmetric junction driven by odd harmonics gives no dc current and no even harmonics. -/
theorem C136_single (vj : ℕ → ℕ → Arr ι) (cct : Cct ι) (resp : ℝ → ℂ) (hr : ∀ v, resp (-v) = (starRingEnd ℂ) (resp v))
    (nb : NumB) (h : Valid cct nb) (hF : cct.numF = 1) (hw : 1 / 10 ^ 4 < cct.freq 1) (i : ι) (hb : cct.vb i = 0)
    (hv : ∀ p, 1 ≤ p → p ≤ cct.numP → Even p → vj 1 p i = 0) (q : ℤ) (hq : Even q) :
    ∃ cur, qtcurrentList vj cct resp [q * cct.freq 1] nb none = .ok [cur] ∧ cur i = 0 := by
  refine C136_even_products vj cct resp hr nb h i hb (fun f p f1 f2 p1 p2 hp => ?_) _ fun as has _ hc => ?_
  · obtain rfl : f = 1 := by omega
    exact hv p p1 p2 hp
  · rw [hF] at has
    obtain ⟨a, rfl⟩ := List.length_eq_one_iff.1 has
    have h1 := round4_close hc
    simp only [Spec.photonShift, add_zero, ← sub_mul, abs_mul] at h1
    rw [abs_of_pos (lt_trans (by norm_num) hw : 0 < cct.freq 1)] at h1
    have h2 : a = q := by
      by_contra hne
      have h3 : (1 : ℝ) ≤ |(a : ℝ) - q| := by
        rw [← Int.cast_sub, ← Int.cast_abs]
        exact_mod_cast Int.one_le_abs (sub_ne_zero.2 hne)
      nlinarith
    simpa [h2] using hq

/-- An unbiased circuit with one tone and three harmonics. -/
noncomputable def unbiased : Cct (Fin 1) := { numF := 1, numP := 3, freq := fun _ => 3 / 10, vb := fun _ => 0 }

theorem unbiased_valid (N : ℕ) : Valid unbiased (.tup [N]) :=
  ⟨by simp [unbiased], by simp [unbiased], by simp [unbiased], fun _ _ _ => by simp only [unbiased]; norm_num,
    by simp [unbiased, NumB.toTup]⟩

/-- The first and third harmonic are driven; the response function is a cubic. -/
example : ∃ cur, qtcurrentList (fun _ p _ => if p = 1 then 1 / 2 else if p = 3 then I else 0) unbiased
    (fun v => I * v ^ 3 + v ^ 2) [((2 : ℤ) : ℝ) * unbiased.freq 1] (.tup [7]) none = .ok [cur] ∧ cur 0 = 0 :=
  C136_single _ unbiased _ (fun v => by simp; ring) _ (unbiased_valid 7) rfl (by simp only [unbiased]; norm_num) 0 rfl
    (fun p p1 p2 hp => by
      have h1 : p ≠ 1 := by rintro rfl; exact absurd hp (by decide)
      have h3 : p ≠ 3 := by rintro rfl; exact absurd hp (by decide)
      simp [h1, h3]) 2 (by decide)

end QMix.Props
