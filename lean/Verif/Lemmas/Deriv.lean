import Verif.Lemmas.Phase
import Mathlib.Analysis.Calculus.ContDiff.Basic
import Mathlib.Analysis.Calculus.ContDiff.Operations
import Mathlib.Analysis.Calculus.MeanValue
import Mathlib.Analysis.SpecialFunctions.ExpDeriv

/-! The Jacobi-Anger coefficients are smooth functions of the voltage phasor. -/

namespace QMix

open Complex Filter Topology Finset Spec
open scoped ContDiff

/-- Minus the instantaneous phase: `Im (conj z * exp (i t))`. -/
noncomputable def swing (a : ℝ) (z : ℂ) (t : ℝ) : ℝ := (z.re * Real.sin t - z.im * Real.cos t) / a

theorem swing_add (a : ℝ) (z h : ℂ) (t : ℝ) : swing a (z + h) t = swing a z t + swing a h t := by
  simp only [swing, add_re, add_im]
  ring

theorem swing_polar (a : ℝ) (z : ℂ) (t : ℝ) : swing a z t = ‖z‖ / a * Real.sin (t - arg z) := by
  rw [Real.sin_sub]
  have h1 := norm_mul_cos_arg z
  have h2 := norm_mul_sin_arg z
  unfold swing
  rw [← h1, ← h2]
  ring

theorem abs_swing_le (a : ℝ) (z : ℂ) (t : ℝ) : |swing a z t| ≤ ‖z‖ / |a| := by
  rw [swing_polar, abs_mul, abs_div, abs_norm]
  exact mul_le_of_le_one_right (by positivity) (Real.abs_sin_le_one _)

theorem continuous_swing (a : ℝ) (z : ℂ) : Continuous (swing a z) := by
  unfold swing
  fun_prop

/-- The coefficient as an integral in which the phasor enters linearly. -/
theorem jaFull_eq (z : ℂ) (w : ℝ) (p : ℕ) (n : ℤ) : jaFull z w p n = fcoef (fun t => exp (I * swing (p * w) z t)) n := by
  symm
  refine fcoef_of_hasSum (small_jaFull z w p).sum (fun t => ?_) n
  have := hasSum_jaFull z w p t
  convert this using 2
  rw [swing_polar]
  push_cast
  ring

theorem fcoef_add {F G : ℝ → ℂ} (hF : Continuous F) (hG : Continuous G) (n : ℤ) :
    fcoef (fun t => F t + G t) n = fcoef F n + fcoef G n := by
  unfold fcoef
  rw [← mul_add, ← intervalIntegral.integral_add]
  · simp only [mul_add]
  · exact Continuous.intervalIntegrable (by fun_prop) _ _
  · exact Continuous.intervalIntegrable (by fun_prop) _ _

theorem fcoef_const_mul (c : ℂ) (F : ℝ → ℂ) (n : ℤ) : fcoef (fun t => c * F t) n = c * fcoef F n := by
  unfold fcoef
  rw [mul_left_comm c, ← intervalIntegral.integral_const_mul c]
  congr 2
  funext t
  ring

theorem fcoef_shift (F : ℝ → ℂ) (n m : ℤ) : fcoef (fun t => exp (I * m * t) * F t) n = fcoef F (n - m) := by
  unfold fcoef
  congr 2
  funext t
  rw [← mul_assoc, ← exp_add]
  congr 2
  push_cast
  ring

theorem norm_fcoef_le {F : ℝ → ℂ} {K : ℝ} (h : ∀ t, ‖F t‖ ≤ K) (n : ℤ) : ‖fcoef F n‖ ≤ K := by
  unfold fcoef
  have h1 : ‖∫ t in (-Real.pi)..Real.pi, exp (-(I * n * t)) * F t‖ ≤ K * |Real.pi - -Real.pi| := by
    refine intervalIntegral.norm_integral_le_of_norm_le_const fun t _ => ?_
    rw [norm_mul, show -(I * (n : ℂ) * t) = I * ((-n : ℤ) : ℂ) * t by push_cast; ring, norm_exp_I_mul, one_mul]
    exact h t
  rw [norm_mul, norm_real, Real.norm_of_nonneg (by positivity)]
  rw [abs_of_nonneg (by linarith [Real.pi_pos])] at h1
  have hp := Real.pi_pos
  calc 1 / (2 * Real.pi) * ‖∫ t in (-Real.pi)..Real.pi, exp (-(I * n * t)) * F t‖
      ≤ 1 / (2 * Real.pi) * (K * (Real.pi - -Real.pi)) := mul_le_mul_of_nonneg_left h1 (by positivity)
    _ = K := by field_simp; ring

theorem norm_exp_sub_one_sub (y : ℝ) : ‖exp (I * y) - 1 - I * y‖ ≤ y ^ 2 := by
  have hd : ∀ x ∈ Set.uIcc 0 y, HasDerivWithinAt (fun x : ℝ => exp (I * x) - 1 - I * x) (I * (exp (I * x) - 1)) (Set.uIcc 0 y) x := by
    intro x _
    have h1 : HasDerivAt (fun x : ℝ => I * (x : ℂ)) (I * 1) x := (hasDerivAt_id x).ofReal_comp.const_mul I
    have h2 := ((h1.cexp.sub_const 1).sub h1).hasDerivWithinAt (s := Set.uIcc 0 y)
    rw [show I * (exp (I * x) - 1) = exp (I * x) * (I * 1) - I * 1 by ring]
    exact h2
  have hb : ∀ x ∈ Set.uIcc 0 y, ‖I * (exp (I * (x : ℂ)) - 1)‖ ≤ |y| := by
    intro x hx
    rw [norm_mul, norm_I, one_mul]
    refine (Real.norm_exp_I_mul_ofReal_sub_one_le).trans ?_
    rw [Real.norm_eq_abs]
    have := Set.abs_sub_left_of_mem_uIcc hx
    simpa using this
  have h := (convex_uIcc 0 y).norm_image_sub_le_of_norm_hasDerivWithin_le hd hb Set.left_mem_uIcc Set.right_mem_uIcc
  simp only [ofReal_zero, mul_zero, exp_zero, sub_self, sub_zero] at h
  refine h.trans_eq ?_
  rw [Real.norm_eq_abs, ← sq, sq_abs]

/-- The derivative of a coefficient in the direction `h`. -/
noncomputable def jaDeriv (z : ℂ) (w : ℝ) (p : ℕ) (n : ℤ) (h : ℂ) : ℂ :=
  ((starRingEnd ℂ) h * jaFull z w p (n - 1) - h * jaFull z w p (n + 1)) / (2 * (p * w : ℝ))

theorem swing_mul (a : ℝ) (h : ℂ) (t : ℝ) :
    I * swing a h t = (starRingEnd ℂ) h / (2 * (a : ℂ)) * exp (I * (1 : ℤ) * t) + -(h / (2 * (a : ℂ))) * exp (I * (-1 : ℤ) * t) := by
  have h1 : exp (I * (1 : ℤ) * t) = Real.cos t + Real.sin t * I := by
    rw [ofReal_cos, ofReal_sin, ← exp_mul_I]
    congr 1
    push_cast
    ring
  have h2 : exp (I * (-1 : ℤ) * t) = Real.cos t - Real.sin t * I := by
    have : exp (((-t : ℝ) : ℂ) * I) = Real.cos t - Real.sin t * I := by
      rw [exp_mul_I, ← ofReal_cos, ← ofReal_sin, Real.cos_neg, Real.sin_neg]
      push_cast
      ring
    rw [← this]
    congr 1
    push_cast
    ring
  rw [h1, h2]
  have hh : h = h.re + h.im * I := (re_add_im h).symm
  have hc : (starRingEnd ℂ) h = h.re - h.im * I := by
    apply Complex.ext <;> simp
  rw [hc]
  nth_rewrite 4 [hh]
  unfold swing
  push_cast
  rcases eq_or_ne (a : ℂ) 0 with ha | ha
  · rw [ha]; simp
  · field_simp
    ring_nf

theorem jaDeriv_eq (z : ℂ) (w : ℝ) (p : ℕ) (n : ℤ) (h : ℂ) :
    jaDeriv z w p n h = fcoef (fun t => I * swing (p * w) h t * exp (I * swing (p * w) z t)) n := by
  have hc := continuous_swing (p * w) z
  have e : (fun t : ℝ => I * swing (p * w) h t * exp (I * swing (p * w) z t))
      = fun t : ℝ => (starRingEnd ℂ) h / (2 * ((p * w : ℝ) : ℂ)) * (exp (I * (1 : ℤ) * t) * exp (I * swing (p * w) z t))
        + -(h / (2 * ((p * w : ℝ) : ℂ))) * (exp (I * (-1 : ℤ) * t) * exp (I * swing (p * w) z t)) := by
    funext t
    rw [swing_mul]
    ring
  rw [e, fcoef_add (by fun_prop) (by fun_prop), fcoef_const_mul, fcoef_const_mul, fcoef_shift, fcoef_shift, ← jaFull_eq, ← jaFull_eq]
  unfold jaDeriv
  rw [sub_neg_eq_add]
  ring

/-- The remainder of the linear approximation. -/
theorem jaFull_taylor (z h : ℂ) (w : ℝ) (p : ℕ) (n : ℤ) :
    ‖jaFull (z + h) w p n - jaFull z w p n - jaDeriv z w p n h‖ ≤ (‖h‖ / |p * w|) ^ 2 := by
  have hz := continuous_swing (p * w) z
  have hh := continuous_swing (p * w) h
  have e : jaFull (z + h) w p n - jaFull z w p n - jaDeriv z w p n h
      = fcoef (fun t => exp (I * swing (p * w) z t) * (exp (I * swing (p * w) h t) - 1 - I * swing (p * w) h t)) n := by
    have h1 : jaFull (z + h) w p n = fcoef (fun t => (exp (I * swing (p * w) z t) + I * swing (p * w) h t * exp (I * swing (p * w) z t))
        + exp (I * swing (p * w) z t) * (exp (I * swing (p * w) h t) - 1 - I * swing (p * w) h t)) n := by
      rw [jaFull_eq]
      congr 1
      funext t
      rw [swing_add, ofReal_add, mul_add, exp_add]
      ring
    rw [h1, fcoef_add (by fun_prop) (by fun_prop), fcoef_add (by fun_prop) (by fun_prop), ← jaFull_eq, ← jaDeriv_eq]
    ring
  rw [e]
  refine norm_fcoef_le (fun t => ?_) n
  have h1 : ‖exp (I * (swing (p * w) z t : ℂ))‖ = 1 := by
    rw [mul_comm]
    exact norm_exp_ofReal_mul_I _
  rw [norm_mul, h1, one_mul]
  refine (norm_exp_sub_one_sub _).trans ?_
  rw [← sq_abs]
  exact pow_le_pow_left₀ (abs_nonneg _) (abs_swing_le _ _ _) 2

/-- The derivative as a linear map. -/
noncomputable def jaDerivL (z : ℂ) (w : ℝ) (p : ℕ) (n : ℤ) : ℂ →L[ℝ] ℂ :=
  (jaFull z w p (n - 1) / (2 * (p * w : ℝ))) • (conjCLE : ℂ →L[ℝ] ℂ)
    - (jaFull z w p (n + 1) / (2 * (p * w : ℝ))) • ContinuousLinearMap.id ℝ ℂ

theorem jaDerivL_apply (z : ℂ) (w : ℝ) (p : ℕ) (n : ℤ) (h : ℂ) : jaDerivL z w p n h = jaDeriv z w p n h := by
  show jaFull z w p (n - 1) / (2 * (p * w : ℝ)) * (starRingEnd ℂ) h - jaFull z w p (n + 1) / (2 * (p * w : ℝ)) * h = _
  unfold jaDeriv
  ring

theorem hasFDerivAt_jaFull (z : ℂ) (w : ℝ) (p : ℕ) (n : ℤ) :
    HasFDerivAt (fun z => jaFull z w p n) (jaDerivL z w p n) z := by
  rw [hasFDerivAt_iff_isLittleO_nhds_zero]
  have h1 : (fun h => jaFull (z + h) w p n - jaFull z w p n - jaDerivL z w p n h) =O[𝓝 0] fun h : ℂ => ‖h‖ ^ 2 := by
    refine Asymptotics.IsBigO.of_bound ((1 / |p * w|) ^ 2) (Eventually.of_forall fun h => ?_)
    rw [jaDerivL_apply, norm_pow, norm_norm, ← mul_pow, one_div_mul_eq_div]
    exact jaFull_taylor z h w p n
  exact h1.trans_isLittleO (Asymptotics.isLittleO_norm_pow_id one_lt_two)

theorem contDiff_jaFull (w : ℝ) (p : ℕ) (n : ℤ) : ContDiff ℝ ∞ fun z => jaFull z w p n := by
  rw [contDiff_infty]
  intro k
  induction k generalizing n with
  | zero =>
    rw [Nat.cast_zero, contDiff_zero]
    exact continuous_iff_continuousAt.2 fun z => (hasFDerivAt_jaFull z w p n).continuousAt
  | succ k ih =>
    rw [Nat.cast_add, Nat.cast_one, contDiff_succ_iff_hasFDerivAt]
    refine ⟨fun z => jaDerivL z w p n, ?_, fun z => hasFDerivAt_jaFull z w p n⟩
    unfold jaDerivL
    exact (((ih _).div_const _).smul contDiff_const).sub (((ih _).div_const _).smul contDiff_const)

end QMix
