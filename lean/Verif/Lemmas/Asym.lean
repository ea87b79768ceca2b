import Verif.Lemmas.Energy
import Verif.Lemmas.Truncation2

/-! Photon averages far above the gap. -/

namespace QMix

open Complex Filter Topology Finset Spec

theorem avg_add {g h : ℝ → ℝ} {m : ℕ} (hg : GrowthR m g) (hh : GrowthR m h) {Ls : List Tone}
    (hL : ∀ L ∈ Ls, Small fun k => ‖L.C k‖) (v : ℝ) :
    photonAverage (fun v => g v + h v) Ls v = photonAverage g Ls v + photonAverage h Ls v := by
  induction Ls generalizing v with
  | nil => rfl
  | cons L Ls ih =>
    have hL' : ∀ L ∈ Ls, Small fun k => ‖L.C k‖ := fun L h => hL L (by simp [h])
    have h1 := avg_hasSum hg (hL L (by simp)) hL' v
    have h2 := avg_hasSum hh (hL L (by simp)) hL' v
    refine HasSum.unique ?_ (h1.add h2)
    simp only [photonAverage, ih hL', mul_add]
    exact Summable.hasSum (h1.add h2).summable

theorem avg_tendsto {g : ℝ → ℝ} (hg : GrowthR 0 g) (h0 : Tendsto g atTop (𝓝 0)) {Ls : List Tone}
    (hL : ∀ L ∈ Ls, Small fun k => ‖L.C k‖) : Tendsto (photonAverage g Ls) atTop (𝓝 0) := by
  induction Ls with
  | nil => exact h0
  | cons L Ls ih =>
    have hL' : ∀ L ∈ Ls, Small fun k => ‖L.C k‖ := fun L h => hL L (by simp [h])
    obtain ⟨K, hK, hb⟩ := avg_bound hg hL'
    have hs : Summable fun k : ℤ => ‖L.C k‖ ^ 2 * K := by simpa using (sq_summable (hL L (by simp)) 0).mul_right K
    have := tendsto_tsum_of_dominated_convergence (𝓕 := atTop) (f := fun v (k : ℤ) => ‖L.C k‖ ^ 2 * photonAverage g Ls (v + k * L.w))
      (g := fun _ => 0) hs (fun k => by
        have := ((ih hL').comp (tendsto_atTop_add_const_right atTop (k * L.w) tendsto_id)).const_mul (‖L.C k‖ ^ 2)
        simpa using this)
      (Eventually.of_forall fun v k => by
        rw [Real.norm_eq_abs, abs_mul, abs_of_nonneg (by positivity : 0 ≤ ‖L.C k‖ ^ 2)]
        exact mul_le_mul_of_nonneg_left (by simpa using hb (v + k * L.w)) (by positivity))
    rw [tsum_zero] at this
    exact this

theorem hasSum_sq {P : ℕ} {v : ℕ → ℂ} {L : Tone} (h : Exact P v L) : HasSum (fun k : ℤ => ‖L.C k‖ ^ 2) 1 := by
  have := h.orth 0
  rw [if_pos rfl] at this
  have e : (fun k : ℤ => L.C k * (starRingEnd ℂ) (L.C (k + 0))) = fun k : ℤ => ((‖L.C k‖ ^ 2 : ℝ) : ℂ) := by
    funext k
    rw [add_zero, mul_conj, normSq_eq_norm_sq]
  rw [e, ← ofReal_one] at this
  exact hasSum_ofReal.1 this

theorem avg_const (c : ℝ) {P : ℕ} {vs : List (ℕ → ℂ)} {Ls : List Tone} (h : List.Forall₂ (Exact P) vs Ls) (v : ℝ) :
    photonAverage (fun _ => c) Ls v = c := by
  induction h generalizing v with
  | nil => rfl
  | cons h1 _ ih =>
    simp only [photonAverage, ih]
    rw [((hasSum_sq h1).mul_right c).tsum_eq, one_mul]

theorem exact_small {P : ℕ} {vs : List (ℕ → ℂ)} {Ls : List Tone} (h : List.Forall₂ (Exact P) vs Ls) :
    ∀ L ∈ Ls, Small fun k => ‖L.C k‖ := by
  induction h with
  | nil => simp
  | cons h1 _ ih => exact List.forall_mem_cons.2 ⟨h1.small, ih⟩

theorem avg_id {P : ℕ} {vs : List (ℕ → ℂ)} {Ls : List Tone} (h : List.Forall₂ (Exact P) vs Ls) (v : ℝ) :
    photonAverage (fun v => v) Ls v = v := by
  have hr : Growth 1 fun v : ℝ => I * (v : ℂ) := ⟨1, zero_le_one, fun v => by simp⟩
  have h1 := im_corrFull_zero hr (exact_small h) v
  rw [corrFull_ohm P h _ (by simp [h.length_eq]), ohm_dc _ _ _ (by simp [h.length_eq]) (fun a ha => List.eq_of_mem_replicate ha)] at h1
  have e : (fun v : ℝ => (I * (v : ℂ)).im) = fun v => v := by funext v; simp
  rw [e] at h1
  rw [← h1]
  simp

/-- The squares of the Bessel functions add up to 1. -/
theorem hasSum_besselJ_sq (x : ℝ) (hx : 0 ≤ x) : HasSum (fun k : ℤ => besselJ k x ^ 2) 1 := by
  have h := hasSum_sq (exact_phaseCoeff (fun _ => (x : ℂ)) (one_ne_zero) 1 0)
  have e : (fun k : ℤ => besselJ k x ^ 2) = fun k : ℤ => ‖phaseCoeff (fun _ => (x : ℂ)) 1 1 k‖ ^ 2 := by
    funext k
    rw [phaseCoeff_one, norm_jaFull, sq_abs]
    simp [abs_of_nonneg hx]
  rw [e]
  exact h

end QMix
