import Verif.Lemmas.Energy
import Verif.Lemmas.Truncation2

/-! Averaging over the phase of a harmonic: the photon average of a tone then separates. -/

namespace QMix

open Complex Filter Topology Finset

namespace Spec

/-- The mean over a phase angle. -/
noncomputable def phaseMean (f : ℝ → ℝ) : ℝ := 1 / (2 * Real.pi) * ∫ φ in (-Real.pi)..Real.pi, f φ

/-- The phasors of a tone with the phase of harmonic `q` advanced by `φ`. -/
noncomputable def advance (v : ℕ → ℂ) (q : ℕ) (φ : ℝ) (p : ℕ) : ℂ := if p = q then v p * exp (I * φ) else v p

end Spec

open Spec

theorem exp_arg_advance {z : ℂ} (hz : z ≠ 0) (φ : ℝ) : exp (I * arg (z * exp (I * φ))) = exp (I * arg z) * exp (I * φ) := by
  have h1 := norm_mul_exp_arg_mul_I (z * exp (I * φ))
  have h2 := norm_mul_exp_arg_mul_I z
  have hn : ‖exp (I * (φ : ℂ))‖ = 1 := by
    have := norm_exp_I_mul 1 φ
    simpa using this
  rw [norm_mul, hn, mul_one] at h1
  have h0 : (‖z‖ : ℂ) ≠ 0 := by exact_mod_cast norm_ne_zero_iff.2 hz
  apply mul_left_cancel₀ h0
  rw [mul_comm I (arg (z * exp (I * φ)) : ℂ), h1, mul_comm I (arg z : ℂ), ← mul_assoc, h2]

theorem jaFull_advance (z : ℂ) (φ w : ℝ) (p : ℕ) (l : ℤ) :
    jaFull (z * exp (I * φ)) w p l = jaFull z w p l * exp (I * (-l : ℤ) * φ) := by
  have hn : ‖exp (I * (φ : ℂ))‖ = 1 := by
    have := norm_exp_I_mul 1 φ
    simpa using this
  unfold jaFull
  rw [norm_mul, hn, mul_one]
  rcases eq_or_ne z 0 with rfl | hz
  · rcases eq_or_ne l 0 with rfl | hl
    · simp
    · rw [norm_zero, zero_div, besselJ_zero_right hl]
      simp
  · have h := exp_arg_advance hz φ
    have e : ∀ x : ℝ, exp (-I * l * x) = exp (I * x) ^ (-l) := by
      intro x
      rw [← exp_int_mul]
      congr 1
      push_cast
      ring
    rw [e, h, mul_zpow, ← e, mul_assoc _ (exp (-I * l * arg z))]
    congr 2
    rw [← exp_int_mul]
    congr 1
    push_cast
    ring

theorem phaseFactor_congr {u v : ℕ → ℂ} {P : ℕ} (h : ∀ p, 1 ≤ p → p ≤ P → u p = v p) (w t : ℝ) :
    phaseFactor u w P t = phaseFactor v w P t := by
  unfold phaseFactor junctionPhase
  congr 3
  refine sum_congr rfl fun p hp => ?_
  rw [mem_Icc] at hp
  rw [h p hp.1 hp.2]

theorem phaseCoeff_congr {u v : ℕ → ℂ} {P : ℕ} (h : ∀ p, 1 ≤ p → p ≤ P → u p = v p) (w : ℝ) :
    phaseCoeff u w P = phaseCoeff v w P := by
  unfold phaseCoeff
  rw [show phaseFactor u w P = phaseFactor v w P from funext fun t => phaseFactor_congr h w t]

/-- The coefficients of a tone whose last harmonic is advanced. -/
theorem phaseCoeff_advance (v : ℕ → ℂ) (w : ℝ) (P : ℕ) (φ : ℝ) (k : ℤ) :
    phaseCoeff (advance v (P + 1) φ) w (P + 1) k
      = ∑' l : ℤ, (phaseCoeff v w P (k - (P + 1 : ℕ) * l) * jaFull (v (P + 1)) w (P + 1) l) * exp (I * (-l : ℤ) * φ) := by
  rw [phaseCoeff_succ, phaseCoeff_congr (u := advance v (P + 1) φ) (v := v)
    (fun p _ h => by unfold advance; rw [if_neg (by omega)])]
  refine tsum_congr fun l => ?_
  rw [show advance v (P + 1) φ (P + 1) = v (P + 1) * exp (I * φ) by simp [advance], jaFull_advance]
  ring

/-- A tone with nothing above its fundamental. -/
theorem phaseCoeff_single {u : ℕ → ℂ} {P : ℕ} (hP : 1 ≤ P) (h : ∀ p, 2 ≤ p → p ≤ P → u p = 0) (w : ℝ) :
    phaseCoeff u w P = phaseCoeff u w 1 := by
  unfold phaseCoeff
  congr 1
  funext t
  unfold phaseFactor junctionPhase
  congr 3
  symm
  refine sum_subset (Icc_subset_Icc_right hP) fun p hp hp' => ?_
  rw [mem_Icc] at hp hp'
  rw [h p (by omega) hp.2]
  simp

theorem small_neg {D : ℤ → ℝ} (h : Small D) : Small fun k => D (-k) where
  nonneg k := h.nonneg _
  summable m := by
    have := ((Equiv.neg ℤ).summable_iff).2 (h.summable m)
    refine this.congr fun k => ?_
    simp

/-- Parseval for an absolutely convergent series: the mean of the squared magnitude. -/
theorem mean_sq {c : ℤ → ℂ} (hc : Small fun l => ‖c l‖) :
    phaseMean (fun φ => ‖∑' l : ℤ, c l * exp (I * (-l : ℤ) * φ)‖ ^ 2) = ∑' l : ℤ, ‖c l‖ ^ 2 := by
  have hs : ∀ φ : ℝ, HasSum (fun l : ℤ => c l * exp (I * (-l : ℤ) * φ)) (∑' l : ℤ, c l * exp (I * (-l : ℤ) * φ)) := fun φ =>
    (Summable.of_norm (hc.sum.congr fun l => by rw [norm_mul, norm_exp_I_mul, mul_one])).hasSum
  have hn : ∀ φ : ℝ, HasSum (fun k : ℤ => c (-k) * exp (I * k * φ)) (∑' l : ℤ, c l * exp (I * (-l : ℤ) * φ)) := by
    intro φ
    have := ((Equiv.neg ℤ).hasSum_iff).2 (hs φ)
    convert this using 1
    funext k
    simp
  have hj : ∀ φ : ℝ, HasSum (fun l : ℤ => (starRingEnd ℂ) (c l) * exp (I * l * ((1 : ℤ) * φ : ℝ)))
      ((starRingEnd ℂ) (∑' l : ℤ, c l * exp (I * (-l : ℤ) * φ))) := by
    intro φ
    have : HasSum _ ((starRingEnd ℂ) _) := (hs φ).star
    convert this using 1
    funext l
    rw [star_def, map_mul, ← exp_conj]
    congr 2
    simp
  have hB : Small fun k => ‖c (-k)‖ := small_neg hc
  have hA : Small fun k => ‖(starRingEnd ℂ) (c k)‖ := by simpa using hc
  have h := fcoef_of_hasSum (conv_small hB hA 1).sum (fun t => hasSum_conv hB hA 1 (hn t) (hj t)) 0
  unfold fcoef at h
  unfold phaseMean
  have e1 : (fun t : ℝ => exp (-(I * (0 : ℤ) * t)) * ((∑' l : ℤ, c l * exp (I * (-l : ℤ) * t)) *
      (starRingEnd ℂ) (∑' l : ℤ, c l * exp (I * (-l : ℤ) * t))))
      = fun t : ℝ => ((‖∑' l : ℤ, c l * exp (I * (-l : ℤ) * t)‖ ^ 2 : ℝ) : ℂ) := by
    funext t
    rw [mul_conj, normSq_eq_norm_sq]
    simp
  have e2 : (∑' l : ℤ, c (-(0 - 1 * l)) * (starRingEnd ℂ) (c l)) = ((∑' l : ℤ, ‖c l‖ ^ 2 : ℝ) : ℂ) := by
    rw [ofReal_tsum]
    refine tsum_congr fun l => ?_
    rw [show -(0 - 1 * l) = l by ring, mul_conj, normSq_eq_norm_sq]
  rw [e1, e2, intervalIntegral.integral_ofReal, ← ofReal_mul] at h
  exact_mod_cast h

theorem continuous_series {c : ℤ → ℂ} (hc : Summable fun l => ‖c l‖) :
    Continuous fun φ : ℝ => ∑' l : ℤ, c l * exp (I * (-l : ℤ) * φ) := by
  refine continuous_tsum (fun l => by fun_prop) hc fun l φ => ?_
  rw [norm_mul, norm_exp_I_mul, mul_one]

/-- The terms of one coefficient. -/
theorem small_term (v : ℕ → ℂ) (w : ℝ) (P : ℕ) (k : ℤ) :
    Small fun l : ℤ => ‖phaseCoeff v w P (k - (P + 1 : ℕ) * l) * jaFull (v (P + 1)) w (P + 1) l‖ := by
  have h1 := small_phaseCoeff v w P
  have h2 := small_jaFull (v (P + 1)) w (P + 1)
  obtain ⟨B, hB0, hB⟩ := h1.bounded 0
  refine Small.mono (E := fun l => B * ‖jaFull (v (P + 1)) w (P + 1) l‖) ⟨fun l => mul_nonneg hB0 (norm_nonneg _), fun m => ?_⟩
    (fun _ => norm_nonneg _) fun l => ?_
  · exact ((h2.summable m).mul_left B).congr fun l => by ring
  · rw [norm_mul]
    exact mul_le_mul_of_nonneg_right (by simpa using hB (k - (P + 1 : ℕ) * l)) (norm_nonneg _)

/-- The mean over the phase of the last harmonic separates it from the tone. -/
theorem mean_photonAverage {g : ℝ → ℝ} {m : ℕ} (hg : GrowthR m g) (v : ℕ → ℂ) (w : ℝ) (P : ℕ) (x : ℝ) :
    (Continuous fun φ => photonAverage g [⟨phaseCoeff (advance v (P + 1) φ) w (P + 1), 0, w⟩] x) ∧
    phaseMean (fun φ => photonAverage g [⟨phaseCoeff (advance v (P + 1) φ) w (P + 1), 0, w⟩] x)
      = photonAverage g [⟨phaseCoeff v w P, 0, w⟩, ⟨jaFull (v (P + 1)) w (P + 1), 0, (P + 1 : ℕ) * w⟩] x := by
  have hC := small_phaseCoeff v w P
  have hJ := small_jaFull (v (P + 1)) w (P + 1)
  set q : ℤ := ((P + 1 : ℕ) : ℤ) with hq
  set c : ℤ → ℤ → ℂ := fun k l => phaseCoeff v w P (k - q * l) * jaFull (v (P + 1)) w (P + 1) l with hcdef
  have hc : ∀ k, Small fun l => ‖c k l‖ := small_term v w P
  have hE : Small fun k => ∑' l, ‖c k l‖ := by
    have := hC.conv hJ q
    simpa only [hcdef, norm_mul] using this
  obtain ⟨K, hK, hb⟩ := hg
  -- the photon numbers one by one
  let f : ℤ → C(ℝ, ℝ) := fun k => ⟨fun φ => ‖∑' l : ℤ, c k l * exp (I * (-l : ℤ) * φ)‖ ^ 2 * g (x + k * w),
    ((continuous_series (hc k).sum).norm.pow 2).mul continuous_const⟩
  have hle : ∀ k (φ : ℝ), ‖∑' l : ℤ, c k l * exp (I * (-l : ℤ) * φ)‖ ≤ ∑' l, ‖c k l‖ := by
    intro k φ
    have e : ∀ l, ‖c k l * exp (I * (-l : ℤ) * φ)‖ = ‖c k l‖ := fun l => by rw [norm_mul (c k l), norm_exp_I_mul, mul_one]
    exact (norm_tsum_le_tsum_norm ((hc k).sum.congr fun l => (e l).symm)).trans_eq (tsum_congr e)
  let L : Tone := ⟨fun k => ((∑' l, ‖c k l‖ : ℝ) : ℂ), 0, w⟩
  have hL : Small fun k => ‖L.C k‖ := by
    have : (fun k => ‖L.C k‖) = fun k => ∑' l, ‖c k l‖ := by
      funext k
      show ‖((∑' l, ‖c k l‖ : ℝ) : ℂ)‖ = _
      rw [norm_real, Real.norm_of_nonneg (hE.nonneg k)]
    rw [this]
    exact hE
  have hfb : ∀ k (φ : ℝ), ‖f k φ‖ ≤ K * ((1 + |L.w|) * (1 + |x|)) ^ m * ((1 + |(k : ℝ)|) ^ m * ‖L.C k‖ ^ 2) := by
    intro k φ
    have h1 := avg_term_le (L := L) hK (hb (x + k * L.w))
    refine le_trans ?_ h1
    show |‖∑' l : ℤ, c k l * exp (I * (-l : ℤ) * (φ : ℝ))‖ ^ 2 * g (x + k * w)| ≤ |‖((∑' l, ‖c k l‖ : ℝ) : ℂ)‖ ^ 2 * g (x + k * w)|
    rw [abs_mul, abs_mul, norm_real, Real.norm_of_nonneg (hE.nonneg k), abs_of_nonneg (sq_nonneg (‖_‖ : ℝ)),
      abs_of_nonneg (sq_nonneg (∑' l, ‖c k l‖))]
    exact mul_le_mul_of_nonneg_right (pow_le_pow_left₀ (norm_nonneg _) (hle k φ) 2) (abs_nonneg _)
  have hsum : Summable fun k : ℤ => ‖(f k).restrict
      (⟨Set.uIcc (-Real.pi) Real.pi, isCompact_uIcc⟩ : TopologicalSpace.Compacts ℝ)‖ := by
    refine Summable.of_nonneg_of_le (fun _ => norm_nonneg _) (fun k => ?_)
      ((sq_summable hL m).mul_left (K * ((1 + |L.w|) * (1 + |x|)) ^ m))
    rw [ContinuousMap.norm_le _ (by positivity)]
    exact fun φ => hfb k φ
  have h1 := intervalIntegral.hasSum_intervalIntegral_of_summable_norm hsum
  have h2 : ∀ φ : ℝ, ∑' k, f k φ = photonAverage g [⟨phaseCoeff (advance v (P + 1) φ) w (P + 1), 0, w⟩] x := by
    intro φ
    refine tsum_congr fun k => ?_
    show _ = ‖phaseCoeff (advance v (P + 1) φ) w (P + 1) k‖ ^ 2 * g (x + k * w)
    rw [phaseCoeff_advance]
    rfl
  have hcont : Continuous fun φ => photonAverage g [⟨phaseCoeff (advance v (P + 1) φ) w (P + 1), 0, w⟩] x := by
    simp only [← h2]
    refine continuous_tsum (fun k => (f k).continuous) ((sq_summable hL m).mul_left (K * ((1 + |L.w|) * (1 + |x|)) ^ m))
      fun k φ => hfb k φ
  refine ⟨hcont, ?_⟩
  simp only [h2] at h1
  have h3 : ∀ k : ℤ, 1 / (2 * Real.pi) * ∫ φ in (-Real.pi)..Real.pi, f k φ = (∑' l : ℤ, ‖c k l‖ ^ 2) * g (x + k * w) := by
    intro k
    rw [← mean_sq (hc k)]
    unfold phaseMean
    rw [mul_assoc, ← intervalIntegral.integral_mul_const]
    rfl
  have h4 := h1.mul_left (1 / (2 * Real.pi))
  simp only [h3] at h4
  -- both sides are the sum over pairs of photon numbers
  have hD : Small fun k => ‖phaseCoeff v w P k‖ ^ 2 := by
    obtain ⟨B, hB0, hB⟩ := hC.bounded 0
    refine ⟨fun k => by positivity, fun n => sq_summable (L := ⟨phaseCoeff v w P, 0, w⟩) hC n⟩
  have hF : Small fun k => ‖jaFull (v (P + 1)) w (P + 1) k‖ ^ 2 :=
    ⟨fun k => by positivity, fun n => sq_summable (L := ⟨jaFull (v (P + 1)) w (P + 1), 0, w⟩) hJ n⟩
  have hpair : Summable fun y : ℤ × ℤ => ‖c y.1 y.2‖ ^ 2 * g (x + y.1 * w) := by
    have hp := (hD.pair hF q m).mul_left (K * ((1 + |w|) * (1 + |x|)) ^ m)
    refine Summable.of_norm_bounded hp fun y => ?_
    have h1 := avg_term_le (L := ⟨fun _ => c y.1 y.2, 0, w⟩) (k := y.1) hK (hb (x + y.1 * w))
    rw [Real.norm_eq_abs]
    refine h1.trans_eq ?_
    simp only [hcdef, norm_mul, mul_pow]
  have h5 : phaseMean (fun φ => photonAverage g [⟨phaseCoeff (advance v (P + 1) φ) w (P + 1), 0, w⟩] x)
      = ∑' y : ℤ × ℤ, ‖c y.1 y.2‖ ^ 2 * g (x + y.1 * w) := by
    rw [hpair.tsum_prod]
    refine h4.unique ?_
    have e : (fun k : ℤ => (∑' l : ℤ, ‖c k l‖ ^ 2) * g (x + k * w)) = fun k : ℤ => ∑' l : ℤ, ‖c k l‖ ^ 2 * g (x + k * w) :=
      funext fun k => tsum_mul_right.symm
    rw [e]
    exact hpair.prod.hasSum
  rw [h5, ← (shear (-q)).tsum_eq]
  have hpair' := (shear (-q)).summable_iff.2 hpair
  rw [show (∑' y : ℤ × ℤ, ‖c (shear (-q) y).1 (shear (-q) y).2‖ ^ 2 * g (x + (shear (-q) y).1 * w))
    = ∑' y : ℤ × ℤ, ((fun y : ℤ × ℤ => ‖c y.1 y.2‖ ^ 2 * g (x + y.1 * w)) ∘ shear (-q)) y from rfl, hpair'.tsum_prod]
  refine tsum_congr fun k => ?_
  show _ = ‖phaseCoeff v w P k‖ ^ 2 * ∑' l : ℤ, ‖jaFull (v (P + 1)) w (P + 1) l‖ ^ 2 * g (x + k * w + l * ((P + 1 : ℕ) * w))
  rw [← tsum_mul_left]
  refine tsum_congr fun l => ?_
  simp only [Function.comp_apply, shear_apply, hcdef]
  rw [show k - -q * l - q * l = k by ring, norm_mul, mul_pow, mul_assoc]
  congr 3
  rw [hq]
  push_cast
  ring

end QMix
