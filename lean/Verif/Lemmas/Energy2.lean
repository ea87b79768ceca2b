import Verif.Lemmas.Energy
import Verif.Lemmas.PhaseMean
import Verif.Lemmas.Truncation2
import Verif.Lemmas.Bessel3
import Verif.Spec.PhotonWork

/-! The power of a single tone. -/

namespace QMix

open Complex Filter Topology Finset Spec

theorem forall₂_small {P : ℕ} {us : List (ℕ → ℂ)} {Ls : List Tone} (h : List.Forall₂ (Exact P) us Ls) :
    ∀ L ∈ Ls, Small fun k => ‖L.C k‖ := by
  induction h with
  | nil => simp
  | cons h _ ih =>
    intro L' hL'
    rcases List.mem_cons.1 hL' with rfl | hm
    · exact h.small
    · exact ih L' hm

/-- The power of tone `j`. -/
theorem tone_power {resp : ℝ → ℂ} {m : ℕ} (hr : Growth m resp) {P : ℕ} {us : List (ℕ → ℂ)} {Ls : List Tone}
    (h : List.Forall₂ (Exact P) us Ls) (j : ℕ) (hj : j < Ls.length) (v : ℝ) :
    ∑ p ∈ Icc 1 P, ((starRingEnd ℂ) (us.getD j 0 p) *
        mixFull resp (Ls.zip ((List.replicate Ls.length 0).set j (p : ℤ))) v).re / 2
      = photonWork (fun v => (resp v).im) j Ls v := by
  induction h generalizing v j with
  | nil => simp at hj
  | @cons u L us Ls h1 h3 ih =>
    have h2 := forall₂_small h3
    rcases j with _ | j
    · simp only [List.getD_cons_zero, List.length_cons, List.replicate_succ, List.set_cons_zero]
      exact (power_head hr h1 h2 v).tsum_eq.symm
    · simp only [List.getD_cons_succ, List.length_cons, List.replicate_succ, List.set_cons_succ]
      rw [List.length_cons] at hj
      have hj' : j < Ls.length := by omega
      have hs : HasSum (fun k : ℤ => ‖L.C k‖ ^ 2 * photonWork (fun v => (resp v).im) j Ls (v + k * L.w))
          (∑ p ∈ Icc 1 P, ((starRingEnd ℂ) (us.getD j 0 p) *
            mixFull resp ((L :: Ls).zip (0 :: (List.replicate Ls.length 0).set j (p : ℤ))) v).re / 2) := by
        simp only [← ih j hj', Finset.mul_sum]
        refine hasSum_sum fun p hp => ?_
        have hp0 := (Finset.mem_Icc.1 hp).1
        have hne : ¬ ∀ a ∈ (List.replicate Ls.length (0 : ℤ)).set j (p : ℤ), a = 0 := by
          intro h
          have := h p (List.mem_set (by simpa using hj') _)
          omega
        have s := ((mixFull_zero_cons hr h1.small h2 _ (by simp) hne v).mul_left
          ((starRingEnd ℂ) (us.getD j 0 p))).mapL reCLM
        refine (Eq.mp (congrArg (fun f => HasSum f _) ?_) (s.div_const 2))
        funext k
        rw [reCLM_apply, mul_left_comm, re_ofReal_mul]
        ring
      exact hs.tsum_eq.symm

/-- The photon average of a non-decreasing curve is non-decreasing. -/
theorem avg_mono {g : ℝ → ℝ} {m : ℕ} (hg : GrowthR m g) (hm : Monotone g) {Ls : List Tone}
    (h : ∀ L ∈ Ls, Small fun k => ‖L.C k‖) : Monotone (photonAverage g Ls) := by
  induction Ls with
  | nil => exact hm
  | cons L Ls ih =>
    have h2 : ∀ L ∈ Ls, Small fun k => ‖L.C k‖ := fun L hL => h L (by simp [hL])
    intro v v' hv
    refine hasSum_le (fun k => ?_) (avg_hasSum hg (h L (by simp)) h2 v) (avg_hasSum hg (h L (by simp)) h2 v')
    exact mul_le_mul_of_nonneg_left (ih h2 (by linarith)) (by positivity)

/-- A tone whose photons are absorbed and emitted with the same probability takes no energy from a
junction whose curve does not fall. -/
theorem work_nonneg {g : ℝ → ℝ} {m : ℕ} (hg : GrowthR m g) (hm : Monotone g) {Ls : List Tone}
    (h : ∀ L ∈ Ls, Small fun k => ‖L.C k‖) (j : ℕ) (hj : j < Ls.length) (hw : 0 ≤ (Ls[j]).w)
    (hsym : ∀ k : ℤ, ‖(Ls[j]).C (-k)‖ = ‖(Ls[j]).C k‖) (v : ℝ) : 0 ≤ photonWork g j Ls v := by
  induction Ls generalizing j v with
  | nil => simp at hj
  | cons L Ls ih =>
    have h2 : ∀ L ∈ Ls, Small fun k => ‖L.C k‖ := fun L hL => h L (by simp [hL])
    rcases j with _ | j
    · simp only [List.getElem_cons_zero] at hw hsym
      rw [photonWork]
      set G := photonAverage g Ls with hG
      have hmono := avg_mono hg hm h2
      set F : ℤ → ℝ := fun k => k * L.w * (‖L.C k‖ ^ 2 * G (v + k * L.w)) with hF
      have hneg : ∑' k : ℤ, F (-k) = ∑' k : ℤ, F k := (Equiv.neg ℤ).tsum_eq F
      by_cases hs : Summable F
      · have hs' : Summable fun k => F (-k) := (Equiv.neg ℤ).summable_iff.2 hs
        have h3 : 0 ≤ ∑' k : ℤ, (F k + F (-k)) := by
          refine tsum_nonneg fun k => ?_
          simp only [hF, hsym k]
          push_cast
          have e : (k : ℝ) * L.w * (‖L.C k‖ ^ 2 * G (v + k * L.w)) + -(k : ℝ) * L.w * (‖L.C k‖ ^ 2 * G (v + -(k : ℝ) * L.w))
              = ‖L.C k‖ ^ 2 * ((k * L.w) * (G (v + k * L.w) - G (v + -(k : ℝ) * L.w))) := by ring
          rw [e]
          refine mul_nonneg (by positivity) ?_
          rcases le_total 0 ((k : ℝ) * L.w) with hk | hk
          · exact mul_nonneg hk (sub_nonneg.2 (hmono (by linarith)))
          · exact mul_nonneg_of_nonpos_of_nonpos hk (sub_nonpos.2 (hmono (by linarith)))
        rw [hs.tsum_add hs', hneg] at h3
        linarith
      · rw [tsum_eq_zero_of_not_summable hs]
    · simp only [List.getElem_cons_succ] at hw hsym
      rw [photonWork]
      rw [List.length_cons] at hj
      exact tsum_nonneg fun k => mul_nonneg (by positivity) (ih h2 j (by omega) hw hsym _)

/-- Without dc current no tone gives or takes energy. -/
theorem work_zero (j : ℕ) (Ls : List Tone) (v : ℝ) : photonWork (fun _ => 0) j Ls v = 0 := by
  have havg : ∀ (Ls : List Tone) (v : ℝ), photonAverage (fun _ => 0) Ls v = 0 := by
    intro Ls
    induction Ls with
    | nil => simp [photonAverage]
    | cons L Ls ih => intro v; simp [photonAverage, ih]
  induction Ls generalizing v j with
  | nil => rcases j with _ | j <;> rfl
  | cons L Ls ih =>
    rcases j with _ | j
    · simp [photonWork, havg]
    · simp [photonWork, ih]

/-- The books balance: the dc power and the energies that the tones give add up to the energy that the
junction takes. -/
theorem work_sum {resp : ℝ → ℂ} {m : ℕ} (hr : Growth m resp) {P : ℕ} {us : List (ℕ → ℂ)} {Ls : List Tone}
    (h : List.Forall₂ (Exact P) us Ls) (v : ℝ) :
    v * photonAverage (fun v => (resp v).im) Ls v + ∑ j ∈ range Ls.length, photonWork (fun v => (resp v).im) j Ls v
      = photonAverage (fun v => v * (resp v).im) Ls v := by
  rw [← energy hr h, acPower]
  congr 1
  exact sum_congr rfl fun j hj => (tone_power hr h j (mem_range.1 hj) v).symm

/-- A single sine: photons are absorbed and emitted with the same probability. -/
theorem phaseCoeff_sym {u : ℕ → ℂ} {P : ℕ} (hP : 1 ≤ P) (h : ∀ p, 2 ≤ p → p ≤ P → u p = 0) (w : ℝ) (k : ℤ) :
    ‖phaseCoeff u w P (-k)‖ = ‖phaseCoeff u w P k‖ := by
  rw [phaseCoeff_single hP h, phaseCoeff_one, phaseCoeff_one, norm_jaFull, norm_jaFull, abs_besselJ_neg]

end QMix
