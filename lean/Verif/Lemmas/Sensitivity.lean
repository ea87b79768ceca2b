import Verif.Lemmas.Section
import Mathlib.Analysis.InnerProductSpace.PiL2

/-! # How far a change of the applied voltages changes the phase-factor coefficients

The difference of two phase factors is at most the difference of their phases, so multiplication by it has at most this norm as an
operator on sequences. -/

namespace QMix

open Complex Finset Spec MeasureTheory

/-! ## Mean values over a period -/

/-- The mean of a function over a period. -/
noncomputable def pmean (F : ℝ → ℂ) : ℂ := (1 / (2 * Real.pi) : ℝ) * ∫ t in (-Real.pi)..Real.pi, F t

/-- A trigonometric polynomial. -/
noncomputable def tpoly (s : Finset ℤ) (u : ℤ → ℂ) (t : ℝ) : ℂ := ∑ j ∈ s, u j * exp (I * j * t)

theorem continuous_tpoly (s : Finset ℤ) (u : ℤ → ℂ) : Continuous (tpoly s u) := by
  unfold tpoly
  fun_prop

theorem fcoef_tpoly (s : Finset ℤ) (u : ℤ → ℂ) (k : ℤ) : fcoef (tpoly s u) k = if k ∈ s then u k else 0 := by
  refine fcoef_of_hasSum (c := fun k => if k ∈ s then u k else 0) ?_ (fun t => ?_) k
  · refine summable_of_ne_finset_zero (s := s) fun k hk => ?_
    rw [if_neg hk, norm_zero]
  · have := hasSum_sum_of_ne_finset_zero (L := .unconditional ℤ) (f := fun k : ℤ => (if k ∈ s then u k else 0) * exp (I * k * t)) (s := s)
      (fun k hk => by rw [if_neg hk, zero_mul])
    convert this using 1
    exact sum_congr rfl fun k hk => by rw [if_pos hk]

theorem pmean_conj {F : ℝ → ℂ} (hF : Continuous F) (s : Finset ℤ) (u : ℤ → ℂ) :
    pmean (fun t => F t * (starRingEnd ℂ) (tpoly s u t)) = ∑ j ∈ s, (starRingEnd ℂ) (u j) * fcoef F j := by
  have e : ∀ t : ℝ, F t * (starRingEnd ℂ) (tpoly s u t) = ∑ j ∈ s, (starRingEnd ℂ) (u j) * (exp (-(I * j * t)) * F t) := by
    intro t
    unfold tpoly
    rw [map_sum, mul_sum]
    refine sum_congr rfl fun j _ => ?_
    have : (starRingEnd ℂ) (exp (I * j * t)) = exp (-(I * j * t)) := by
      rw [← exp_conj, map_mul, map_mul, conj_I, conj_ofReal, map_intCast]
      ring_nf
    rw [map_mul, this]
    ring
  unfold pmean fcoef
  simp only [e]
  rw [intervalIntegral.integral_finsetSum fun j _ => (intervalIntegrable_fourier hF _ _ _).const_mul _, mul_sum]
  refine sum_congr rfl fun j _ => ?_
  rw [intervalIntegral.integral_const_mul]
  ring

/-- The mean square. -/
noncomputable def meanSq (F : ℝ → ℂ) : ℝ := 1 / (2 * Real.pi) * ∫ t in (-Real.pi)..Real.pi, ‖F t‖ ^ 2

theorem pmean_sq (F : ℝ → ℂ) : pmean (fun t => F t * (starRingEnd ℂ) (F t)) = (meanSq F : ℝ) := by
  unfold pmean meanSq
  simp only [mul_conj, normSq_eq_norm_sq]
  rw [intervalIntegral.integral_ofReal]
  push_cast
  ring

theorem meanSq_tpoly (s : Finset ℤ) (u : ℤ → ℂ) : meanSq (tpoly s u) = ∑ j ∈ s, ‖u j‖ ^ 2 := by
  have h := pmean_conj (continuous_tpoly s u) s u
  rw [pmean_sq] at h
  have : ∑ j ∈ s, (starRingEnd ℂ) (u j) * fcoef (tpoly s u) j = ((∑ j ∈ s, ‖u j‖ ^ 2 : ℝ) : ℂ) := by
    rw [ofReal_sum]
    refine sum_congr rfl fun j hj => ?_
    rw [fcoef_tpoly, if_pos hj, mul_comm, mul_conj, normSq_eq_norm_sq]
  rw [this] at h
  exact_mod_cast h

theorem meanSq_mono {F G : ℝ → ℂ} (hF : Continuous F) (hG : Continuous G) {c : ℝ} (h : ∀ t, ‖F t‖ ≤ c * ‖G t‖) :
    meanSq F ≤ c ^ 2 * meanSq G := by
  unfold meanSq
  rw [mul_left_comm, ← intervalIntegral.integral_const_mul (c ^ 2)]
  have hp := Real.pi_pos
  refine mul_le_mul_of_nonneg_left ?_ (show (0 : ℝ) ≤ 1 / (2 * Real.pi) by positivity)
  refine intervalIntegral.integral_mono (by linarith) (Continuous.intervalIntegrable (by fun_prop) _ _)
    (Continuous.intervalIntegrable (by fun_prop) _ _) fun t => ?_
  have := pow_le_pow_left₀ (norm_nonneg (F t)) (h t) 2
  rwa [mul_pow] at this

/-- Bessel's inequality. -/
theorem bessel_ineq {F : ℝ → ℂ} (hF : Continuous F) (s : Finset ℤ) : ∑ k ∈ s, ‖fcoef F k‖ ^ 2 ≤ meanSq F := by
  set c : ℤ → ℂ := fcoef F
  have hS := continuous_tpoly s c
  have h0 : 0 ≤ meanSq (fun t => F t - tpoly s c t) := by
    unfold meanSq
    have hp := Real.pi_pos
    refine mul_nonneg (by positivity) (intervalIntegral.integral_nonneg (by linarith) fun t _ => by positivity)
  have e : ∀ t, ‖F t - tpoly s c t‖ ^ 2 = ‖F t‖ ^ 2 - 2 * (F t * (starRingEnd ℂ) (tpoly s c t)).re + ‖tpoly s c t‖ ^ 2 := by
    intro t
    rw [← normSq_eq_norm_sq, ← normSq_eq_norm_sq, ← normSq_eq_norm_sq, normSq_sub]
    ring
  have h1 : meanSq (fun t => F t - tpoly s c t) = meanSq F - 2 * (pmean (fun t => F t * (starRingEnd ℂ) (tpoly s c t))).re + meanSq (tpoly s c) := by
    have hc : Continuous fun t => F t * (starRingEnd ℂ) (tpoly s c t) := hF.mul (continuous_conj.comp hS)
    have hr : Continuous fun t => (F t * (starRingEnd ℂ) (tpoly s c t)).re := continuous_re.comp hc
    have hi : (∫ t in (-Real.pi)..Real.pi, F t * (starRingEnd ℂ) (tpoly s c t)).re
        = ∫ t in (-Real.pi)..Real.pi, (F t * (starRingEnd ℂ) (tpoly s c t)).re :=
      (intervalIntegral.intervalIntegral_re (hc.intervalIntegrable _ _)).symm
    unfold meanSq pmean
    simp only [e]
    rw [re_ofReal_mul, hi, intervalIntegral.integral_add (Continuous.intervalIntegrable (by fun_prop) _ _)
      (Continuous.intervalIntegrable (by fun_prop) _ _), intervalIntegral.integral_sub (Continuous.intervalIntegrable (by fun_prop) _ _)
      (Continuous.intervalIntegrable (by fun_prop) _ _), intervalIntegral.integral_const_mul]
    ring
  have h2 : pmean (fun t => F t * (starRingEnd ℂ) (tpoly s c t)) = ((∑ k ∈ s, ‖c k‖ ^ 2 : ℝ) : ℂ) := by
    rw [pmean_conj hF, ofReal_sum]
    refine sum_congr rfl fun j _ => ?_
    rw [mul_comm, mul_conj, normSq_eq_norm_sq]
  rw [h1, h2, ofReal_re, meanSq_tpoly] at h0
  linarith

/-! ## One harmonic -/

/-- The phase factor of one harmonic. -/
noncomputable def harmFactor (v : ℂ) (w : ℝ) (p : ℕ) (t : ℝ) : ℂ :=
  exp (I * (‖v‖ / (p * w) : ℝ) * Real.sin (p * t - arg v))

theorem continuous_harmFactor (v : ℂ) (w : ℝ) (p : ℕ) : Continuous (harmFactor v w p) := by
  unfold harmFactor
  fun_prop

theorem fcoef_harmFactor (v : ℂ) (w : ℝ) {p : ℕ} (hp : 0 < p) (k : ℤ) : fcoef (harmFactor v w p) k = spread (jaFull v w p) p k := by
  have p0 : (p : ℤ) ≠ 0 := by exact_mod_cast hp.ne'
  have inj : Function.Injective fun l : ℤ => (p : ℤ) * l := fun a b h => mul_left_cancel₀ p0 h
  have off : ∀ m : ℤ, m ∉ Set.range (fun l : ℤ => (p : ℤ) * l) → spread (jaFull v w p) p m = 0 := by
    intro m hm
    exact if_neg fun ⟨l, hl⟩ => hm ⟨l, hl.symm⟩
  refine fcoef_of_hasSum ?_ (fun t => ?_) k
  · rw [← inj.summable_iff]
    · refine (small_jaFull v w p).sum.congr fun l => ?_
      simp only [Function.comp_apply]
      rw [spread_mul _ hp]
    · intro m hm
      rw [off m hm, norm_zero]
  · rw [← inj.hasSum_iff]
    · have := hasSum_jaFull v w p (p * t)
      unfold harmFactor
      convert this using 1
      funext l
      simp only [Function.comp_apply]
      rw [spread_mul _ hp]
      congr 2
      push_cast
      ring
    · intro m hm
      rw [off m hm, zero_mul]

theorem norm_mul_sin_sub (v : ℂ) (s : ℝ) : ‖v‖ * Real.sin (s - arg v) = ((starRingEnd ℂ) v * exp (s * I)).im := by
  rw [Real.sin_sub, mul_sub, mul_im, conj_re, conj_im, exp_ofReal_mul_I_re, exp_ofReal_mul_I_im]
  have h1 := Complex.norm_mul_cos_arg v
  have h2 := Complex.norm_mul_sin_arg v
  linear_combination Real.sin s * h1 - Real.cos s * h2

/-- Two phase factors differ by at most the difference of their phases. -/
theorem harmFactor_sub (v v' : ℂ) {w : ℝ} (hw : 0 < w) {p : ℕ} (hp : 0 < p) (t : ℝ) :
    ‖harmFactor v w p t - harmFactor v' w p t‖ ≤ ‖v - v'‖ / (p * w) := by
  have hp' : (0 : ℝ) < p := by exact_mod_cast hp
  have e : ∀ u : ℂ, harmFactor u w p t = exp (I * ((‖u‖ * Real.sin (p * t - arg u) / (p * w) : ℝ) : ℂ)) := by
    intro u
    unfold harmFactor
    congr 1
    push_cast
    ring
  have h1 : ∀ x y : ℝ, ‖exp (I * (x : ℂ)) - exp (I * (y : ℂ))‖ ≤ |x - y| := by
    intro x y
    have : exp (I * (x : ℂ)) - exp (I * (y : ℂ)) = exp (I * (y : ℂ)) * (exp (I * ((x - y : ℝ) : ℂ)) - 1) := by
      rw [mul_sub, ← exp_add, mul_one]
      congr 2
      push_cast
      ring
    rw [this, norm_mul, mul_comm I (y : ℂ), norm_exp_ofReal_mul_I, one_mul]
    have := Real.norm_exp_I_mul_ofReal_sub_one_le (x := x - y)
    rwa [Real.norm_eq_abs] at this
  rw [e, e]
  refine (h1 _ _).trans ?_
  rw [← sub_div, norm_mul_sin_sub, norm_mul_sin_sub, ← sub_im, ← sub_mul, ← map_sub, abs_div, abs_of_pos (by positivity : (0 : ℝ) < p * w)]
  refine div_le_div_of_nonneg_right ((abs_im_le_norm _).trans ?_) (by positivity)
  rw [norm_mul, norm_exp_ofReal_mul_I, mul_one, Complex.norm_conj]

/-- Convolution with the difference of the coefficients of two phase factors: the norm is at most the largest difference of the
phases. -/
theorem section_sub_le (v v' : ℂ) {w : ℝ} (hw : 0 < w) {p : ℕ} (hp : 0 < p) (u : ℤ → ℂ) (s t : Finset ℤ) :
    ∑ k ∈ t, ‖∑ j ∈ s, u j * (spread (jaFull v w p) p (k - j) - spread (jaFull v' w p) p (k - j))‖ ^ 2
      ≤ (‖v - v'‖ / (p * w)) ^ 2 * ∑ j ∈ s, ‖u j‖ ^ 2 := by
  set F : ℝ → ℂ := fun x => tpoly s u x * (harmFactor v w p x - harmFactor v' w p x) with hF
  have c1 := continuous_harmFactor v w p
  have c2 := continuous_harmFactor v' w p
  have hc : Continuous F := (continuous_tpoly s u).mul (c1.sub c2)
  have e : ∀ k, fcoef F k = ∑ j ∈ s, u j * (spread (jaFull v w p) p (k - j) - spread (jaFull v' w p) p (k - j)) := by
    intro k
    have h1 : ∀ x : ℝ, exp (-(I * k * x)) * F x = ∑ j ∈ s, (u j * (exp (-(I * (k - j : ℤ) * x)) * harmFactor v w p x)
        - u j * (exp (-(I * (k - j : ℤ) * x)) * harmFactor v' w p x)) := by
      intro x
      rw [hF]
      simp only [tpoly]
      rw [sum_mul, mul_sum]
      refine sum_congr rfl fun j _ => ?_
      have : exp (-(I * (k - j : ℤ) * x)) = exp (-(I * k * x)) * exp (I * j * x) := by
        rw [← exp_add]
        congr 1
        push_cast
        ring
      rw [this]
      ring
    unfold fcoef
    simp only [h1]
    rw [intervalIntegral.integral_finsetSum fun j _ => ((intervalIntegrable_fourier c1 _ _ _).const_mul _).sub
      ((intervalIntegrable_fourier c2 _ _ _).const_mul _), mul_sum]
    refine sum_congr rfl fun j _ => ?_
    rw [intervalIntegral.integral_sub ((intervalIntegrable_fourier c1 _ _ _).const_mul _) ((intervalIntegrable_fourier c2 _ _ _).const_mul _),
      intervalIntegral.integral_const_mul, intervalIntegral.integral_const_mul, ← fcoef_harmFactor v w hp, ← fcoef_harmFactor v' w hp]
    unfold fcoef
    ring
  have h := bessel_ineq hc t
  simp only [e] at h
  refine h.trans ?_
  rw [← meanSq_tpoly]
  refine meanSq_mono hc (continuous_tpoly s u) fun x => ?_
  rw [hF]
  simp only [norm_mul]
  rw [mul_comm]
  exact mul_le_mul_of_nonneg_right (harmFactor_sub v v' hw hp x) (norm_nonneg _)

/-! ## All harmonics -/

/-- The root of the sum of the squares. -/
noncomputable def l2 (s : Finset ℤ) (u : ℤ → ℂ) : ℝ := Real.sqrt (∑ k ∈ s, ‖u k‖ ^ 2)

theorem l2_nonneg (s : Finset ℤ) (u : ℤ → ℂ) : 0 ≤ l2 s u := Real.sqrt_nonneg _

theorem l2_congr {s : Finset ℤ} {u u' : ℤ → ℂ} (h : ∀ k ∈ s, u k = u' k) : l2 s u = l2 s u' := by
  unfold l2
  rw [sum_congr rfl fun k hk => by rw [h k hk]]

theorem l2_eq (s : Finset ℤ) (u : ℤ → ℂ) : l2 s u = ‖WithLp.toLp 2 (fun k : s => u k)‖ := by
  rw [EuclideanSpace.norm_eq, l2]
  congr 1
  exact (sum_coe_sort s fun k => ‖u k‖ ^ 2).symm

theorem l2_add (s : Finset ℤ) (u u' : ℤ → ℂ) : l2 s (fun k => u k + u' k) ≤ l2 s u + l2 s u' := by
  rw [l2_eq, l2_eq, l2_eq]
  exact norm_add_le (WithLp.toLp 2 fun k : s => u k) (WithLp.toLp 2 fun k : s => u' k)

theorem l2_le {s : Finset ℤ} {u : ℤ → ℂ} {c : ℝ} (hc : 0 ≤ c) (h : ∑ k ∈ s, ‖u k‖ ^ 2 ≤ c ^ 2) : l2 s u ≤ c :=
  Real.sqrt_le_iff.2 ⟨hc, h⟩

theorem l2_sq (s : Finset ℤ) (u : ℤ → ℂ) : l2 s u ^ 2 = ∑ k ∈ s, ‖u k‖ ^ 2 :=
  Real.sq_sqrt (sum_nonneg fun _ _ => by positivity)

/-- Equal limits: the coefficients change by at most the sum of the changes of the phases. -/
theorem conv_sub_le (v v' : ℕ → ℂ) {w : ℝ} (hw : 0 < w) (M P : ℕ) :
    l2 (Icc (-(M : ℤ)) M) (fun k => toneCoeff v w P M M k - toneCoeff v' w P M M k) ≤ ∑ p ∈ Icc 1 P, ‖v p - v' p‖ / (p * w) := by
  induction P with
  | zero => simp [toneCoeff, harmonicConv, l2]
  | succ P ih =>
    rw [sum_Icc_succ_top (by omega)]
    set S := Icc (-(M : ℤ)) M with hS
    have hd : 0 ≤ ‖v (P + 1) - v' (P + 1)‖ / (((P + 1 : ℕ) : ℝ) * w) := by positivity
    rcases Nat.eq_zero_or_pos P with rfl | hP
    · rw [Icc_eq_empty (by omega), sum_empty]
      simp only [zero_add] at hd ⊢
      refine l2_le hd ?_
      have h := section_sub_le (v 1) (v' 1) hw one_pos (fun _ => 1) {0} S
      simp only [sum_singleton, one_mul, sub_zero, norm_one, one_pow, mul_one] at h
      refine le_trans (le_of_eq (sum_congr rfl fun k hk => ?_)) h
      have hk' := abs_le.2 (mem_Icc.1 hk)
      unfold toneCoeff
      rw [harmonicConv_fst _ _ hk', harmonicConv_fst _ _ hk', jacobiAnger, jacobiAnger, if_pos hk', if_pos hk']
      have e : ∀ A : ℤ → ℂ, spread A 1 k = A k := fun A => by simp [spread]
      rw [e, e]
      rfl
    · have e : ∀ u : ℕ → ℂ, ∀ k ∈ S, toneCoeff u w (P + 1) M M k
          = ∑ j ∈ S, toneCoeff u w P M M j * spread (jaFull (u (P + 1)) w (P + 1)) (P + 1) (k - j) := by
        intro u k hk
        have hk' := abs_le.2 (mem_Icc.1 hk)
        unfold toneCoeff
        rw [harmonicConv, conv_spread (by omega) _ _ hk']
        refine sum_congr rfl fun j hj => ?_
        congr 1
        refine spread_congr (by omega) (fun l hl => ?_) hk' (abs_le.2 (mem_Icc.1 hj))
        rw [jacobiAnger, if_pos hl]
        rfl
      rw [l2_congr (u' := fun k => (∑ j ∈ S, (toneCoeff v w P M M j - toneCoeff v' w P M M j) *
            spread (jaFull (v (P + 1)) w (P + 1)) (P + 1) (k - j)) +
          ∑ j ∈ S, toneCoeff v' w P M M j * (spread (jaFull (v (P + 1)) w (P + 1)) (P + 1) (k - j) -
            spread (jaFull (v' (P + 1)) w (P + 1)) (P + 1) (k - j)))]
      · refine (l2_add _ _ _).trans (add_le_add ?_ ?_)
        · refine le_trans (Real.sqrt_le_sqrt ?_) ih
          exact section_le (v (P + 1)) w (p := P + 1) (by omega) _ S S
        · refine l2_le hd ((section_sub_le (v (P + 1)) (v' (P + 1)) hw (p := P + 1) (by omega) _ S S).trans ?_)
          exact mul_le_of_le_one_right (by positivity) (conv_sq_le v' w M P)
      · intro k hk
        rw [e v k hk, e v' k hk, ← sum_sub_distrib, ← sum_add_distrib]
        refine sum_congr rfl fun j _ => ?_
        ring

/-- The coefficients that are used change by at most the sum of the changes of the phases. -/
theorem toneCoeff_sub_le (v v' : ℕ → ℂ) {w : ℝ} (hw : 0 < w) {P nb M : ℕ} (h : nb ≤ M) (hP : P ≤ 2 ∨ nb = M) :
    l2 (Icc (-(nb : ℤ)) nb) (fun k => toneCoeff v w P nb M k - toneCoeff v' w P nb M k) ≤ ∑ p ∈ Icc 1 P, ‖v p - v' p‖ / (p * w) := by
  rcases hP with hP | rfl
  · refine le_trans (le_of_eq (l2_congr fun k hk => ?_)) (conv_sub_le v v' hw nb P)
    have hk' := abs_le.2 (mem_Icc.1 hk)
    have hM : (nb : ℤ) ≤ M := by exact_mod_cast h
    interval_cases P
    · rfl
    · unfold toneCoeff
      rw [harmonicConv_fst _ _ (hk'.trans hM), harmonicConv_fst _ _ (hk'.trans hM), harmonicConv_fst _ _ hk', harmonicConv_fst _ _ hk']
    · rw [toneCoeff_two v w h hk', toneCoeff_two v' w h hk']
  · exact conv_sub_le v v' hw nb P

/-- The Cauchy-Schwarz inequality for the products in a correlation. -/
theorem pair_l2 (n : ℕ) (a b : ℤ → ℂ) (d : ℤ) :
    ∑ k ∈ Icc (-(n : ℤ)) n, (if |k + d| ≤ (n : ℤ) then ‖a k‖ * ‖b (k + d)‖ else 0) ≤ l2 (Icc (-(n : ℤ)) n) a * l2 (Icc (-(n : ℤ)) n) b := by
  set S := Icc (-(n : ℤ)) n with hS
  have h1 : ∑ k ∈ S, (if |k + d| ≤ (n : ℤ) then ‖b (k + d)‖ else 0) ^ 2 ≤ ∑ k ∈ S, ‖b k‖ ^ 2 := by
    have : ∀ k : ℤ, (if |k + d| ≤ (n : ℤ) then ‖b (k + d)‖ else 0) ^ 2 = if |k + d| ≤ (n : ℤ) then ‖b (k + d)‖ ^ 2 else 0 := by
      intro k
      split_ifs <;> simp
    simp only [this]
    rw [← sum_filter]
    have : ∑ k ∈ S.filter (fun k => |k + d| ≤ (n : ℤ)), ‖b (k + d)‖ ^ 2
        = ∑ k ∈ (S.filter (fun k => |k + d| ≤ (n : ℤ))).map (addRightEmbedding d), ‖b k‖ ^ 2 := by
      rw [sum_map]
      rfl
    rw [this]
    refine sum_le_sum_of_subset_of_nonneg ?_ fun _ _ _ => by positivity
    intro k hk
    obtain ⟨j, hj, rfl⟩ := Finset.mem_map.1 hk
    exact mem_Icc.2 (abs_le.1 (mem_filter.1 hj).2)
  have h2 := Real.sum_mul_le_sqrt_mul_sqrt S (fun k => ‖a k‖) (fun k => if |k + d| ≤ (n : ℤ) then ‖b (k + d)‖ else 0)
  simp only [mul_ite, mul_zero] at h2
  refine h2.trans (mul_le_mul_of_nonneg_left (Real.sqrt_le_sqrt h1) (Real.sqrt_nonneg _))

end QMix
