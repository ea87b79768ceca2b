import Verif.Props.Tucker
import Verif.Lemmas.Bessel3

/-!
# Property C119: a weakly pumped junction

For a drive that is small compared with the photon voltage, the tunnelling currents of one tone are
those of the quantum theory of small signals: the dc current rises with the square of the drive in
proportion to the second difference of the I-V curve over one photon step, and the ac current is the
drive times the small-signal admittance, a first difference of the I-V curve for the conductance and a
second difference of its Kramers-Kronig transform for the susceptance.
-/

namespace QMix.Props

open Complex Finset QMix.Qt QMix.Zemb

variable {ι : Type}

/-- The sum of the magnitudes of the response function over the photon steps that are summed. -/
noncomputable def stepSum (r : ℝ → ℝ) (vb w : ℝ) (n : ℕ) : ℝ := ∑ k ∈ Icc (-(n : ℤ)) n, r (vb + k * w)

/-- The second difference of `g` over one photon step. -/
noncomputable def secondDiff (g : ℝ → ℝ) (vb w : ℝ) : ℝ := g (vb + w) - 2 * g vb + g (vb - w)

/-! ## Lemmas -/

theorem weak_dc_coeff (k : ℤ) {a : ℝ} (ha : |a| ≤ 1) :
    |besselJ k a ^ 2 - (if k = 0 then 1 - a ^ 2 / 2 else if k = 1 ∨ k = -1 then a ^ 2 / 4 else 0)|
      ≤ 3 / 4 * a ^ 4 := by
  have h4 : 0 ≤ a ^ 4 := by positivity
  by_cases h0 : k = 0
  · rw [if_pos h0, h0]
    have := abs_besselJ_zero_sq ha
    linarith
  · rw [if_neg h0]
    by_cases h1 : k = 1 ∨ k = -1
    · rw [if_pos h1]
      have e : besselJ k a ^ 2 = besselJ 1 a ^ 2 := by
        rcases h1 with rfl | rfl
        · rfl
        · rw [← sq_abs, abs_besselJ_neg, sq_abs]
      rw [e]
      exact abs_besselJ_one_sq ha
    · rw [if_neg h1, sub_zero, abs_of_nonneg (sq_nonneg _)]
      have hk : 2 ≤ |k| := by
        rw [le_abs]
        omega
      have := abs_besselJ_le_sq hk ha
      rw [← sq_abs]
      calc |besselJ k a| ^ 2 ≤ (a ^ 2 / 2) ^ 2 := pow_le_pow_left₀ (abs_nonneg _) this 2
        _ ≤ _ := by nlinarith

theorem sum_three (n : ℕ) (hn : 1 ≤ n) (x y z : ℂ) :
    ∑ k ∈ Icc (-(n : ℤ)) n, (if k = 0 then x else if k = 1 then y else if k = -1 then z else 0)
      = x + y + z := by
  have e : ∀ k : ℤ, (if k = 0 then x else if k = 1 then y else if k = -1 then z else 0)
      = (if k = 0 then x else 0) + (if k = 1 then y else 0) + (if k = -1 then z else 0) := by
    intro k
    by_cases h0 : k = 0
    · subst h0; simp
    · by_cases h1 : k = 1
      · subst h1; norm_num
      · by_cases h2 : k = -1
        · subst h2; norm_num
        · simp [h0, h1, h2]
  simp_rw [e]
  rw [sum_add_distrib, sum_add_distrib, sum_ite_eq', sum_ite_eq', sum_ite_eq',
    if_pos (by simp), if_pos (by rw [mem_Icc]; omega), if_pos (by rw [mem_Icc]; omega)]

/-- Changing the coefficients of a sum by at most `ε` changes it by at most `ε` times the sum of the
magnitudes. -/
theorem sum_coeff_le {s : Finset ℤ} {c l : ℤ → ℂ} {r : ℤ → ℂ} {ε : ℝ} (h : ∀ k ∈ s, ‖c k - l k‖ ≤ ε) :
    ‖∑ k ∈ s, c k * r k - ∑ k ∈ s, l k * r k‖ ≤ ε * ∑ k ∈ s, ‖r k‖ := by
  rw [← sum_sub_distrib, mul_sum]
  refine (norm_sum_le _ _).trans (sum_le_sum fun k hk => ?_)
  rw [← sub_mul, norm_mul]
  exact mul_le_mul_of_nonneg_right (h k hk) (norm_nonneg _)

theorem weak_ac_coeff (k : ℤ) {a : ℝ} (ha0 : 0 ≤ a) (ha : a ≤ 1) :
    |besselJ k a * besselJ (k + 1) a - (if k = 0 then a / 2 else if k = -1 then -(a / 2) else 0)|
      ≤ 5 / 8 * a ^ 3 := by
  have ha' : |a| ≤ 1 := by rwa [abs_of_nonneg ha0]
  have h3 : 0 ≤ a ^ 3 := by positivity
  have j1 := abs_besselJ_one_le a
  have j1' := abs_besselJ_one_sub a
  have j0 := abs_besselJ_zero_sub a
  rw [abs_of_nonneg ha0] at j1 j1'
  have main : |besselJ 0 a * besselJ 1 a - a / 2| ≤ 5 / 8 * a ^ 3 := by
    have e : besselJ 0 a * besselJ 1 a - a / 2 = (besselJ 1 a - a / 2) + (besselJ 0 a - 1) * besselJ 1 a := by
      ring
    rw [e]
    refine (abs_add_le _ _).trans ?_
    rw [abs_mul]
    have := mul_le_mul j0 j1 (abs_nonneg _) (by positivity)
    nlinarith
  by_cases h0 : k = 0
  · rw [if_pos h0, h0]
    simpa using main
  · rw [if_neg h0]
    by_cases h1 : k = -1
    · rw [if_pos h1, h1]
      have e : besselJ (-1) a * besselJ (-1 + 1) a - -(a / 2) = -(besselJ 0 a * besselJ 1 a - a / 2) := by
        rw [besselJ_neg, neg_add_cancel]
        norm_num
        ring
      rw [e, abs_neg]
      exact main
    · rw [if_neg h1, sub_zero, abs_mul]
      have bnd : ∀ m : ℤ, m ≠ 0 → |besselJ m a| ≤ a := by
        intro m hm
        by_cases hm1 : m = 1
        · rw [hm1]; exact j1
        · by_cases hm2 : m = -1
          · rw [hm2, abs_besselJ_neg]; exact j1
          · have := abs_besselJ_le_sq (n := m) (by rw [le_abs]; omega) ha'
            nlinarith
      by_cases hk : 1 ≤ k
      · have b1 := bnd k h0
        have b2 := abs_besselJ_le_sq (n := k + 1) (by rw [le_abs]; omega) ha'
        have := mul_le_mul b1 b2 (abs_nonneg _) ha0
        nlinarith
      · have b1 := bnd (k + 1) (by omega)
        have b2 := abs_besselJ_le_sq (n := k) (by rw [le_abs]; omega) ha'
        have := mul_le_mul b2 b1 (abs_nonneg _) (by positivity)
        nlinarith

/-- The correlation of order one of a weak tone. -/
theorem weak_corr (resp : ℝ → ℂ) (v : ℂ) {w a : ℝ} (hw : 0 < w) (hv : ‖v‖ = a * w) (ha : a ≤ 1) (n : ℕ)
    (hn : 1 ≤ n) (vb : ℝ) :
    ‖Spec.corr resp [(⟨Spec.jacobiAnger v w 1 n, n, w⟩, 1)] vb
        - exp (I * arg v) * ((a / 2 : ℝ) * (resp vb - resp (vb - w)))‖
      ≤ 5 / 8 * a ^ 3 * stepSum (fun x => ‖resp x‖) vb w n := by
  have ha0 : 0 ≤ a := by
    have := norm_nonneg v
    rw [hv] at this
    exact nonneg_of_mul_nonneg_left this hw
  have e1 : Spec.corr resp [(⟨Spec.jacobiAnger v w 1 n, n, w⟩, 1)] vb
      = ∑ k ∈ Icc (-(n : ℤ)) n, (if |k + 1| ≤ n then exp (I * arg v) * ((besselJ k a * besselJ (k + 1) a : ℝ) : ℂ)
          else 0) * resp (vb + k * w) := by
    simp only [Spec.corr]
    refine sum_congr rfl fun k hk => ?_
    rw [mem_Icc, ← abs_le] at hk
    by_cases h1 : |k + 1| ≤ n
    · rw [if_pos h1, if_pos h1, jacobiAnger_prod hw hv hk h1]
      simp
    · rw [if_neg h1, if_neg h1, zero_mul]
  have e2 : exp (I * arg v) * ((a / 2 : ℝ) * (resp vb - resp (vb - w)))
      = ∑ k ∈ Icc (-(n : ℤ)) n, (if |k + 1| ≤ n then exp (I * arg v) *
          (((if k = 0 then a / 2 else if k = -1 then -(a / 2) else 0) : ℝ) : ℂ) else 0) * resp (vb + k * w) := by
    rw [show exp (I * arg v) * ((a / 2 : ℝ) * (resp vb - resp (vb - w)))
      = exp (I * arg v) * ((a / 2 : ℝ) : ℂ) * resp vb + 0 + exp (I * arg v) * -((a / 2 : ℝ) : ℂ) * resp (vb - w)
      by ring, ← sum_three n hn]
    refine sum_congr rfl fun k _ => ?_
    by_cases h0 : k = 0
    · subst h0
      have hb : |(0 : ℤ) + 1| ≤ (n : ℤ) := by rw [abs_le]; omega
      rw [if_pos hb, if_pos rfl, if_pos rfl]
      simp
    · by_cases h1 : k = -1
      · subst h1
        have hb : |(-1 : ℤ) + 1| ≤ (n : ℤ) := by rw [abs_le]; omega
        rw [if_pos hb, if_neg h0, if_neg h0, if_neg (by norm_num), if_pos rfl, if_pos rfl]
        simp [sub_eq_add_neg]
      · simp [h0, h1]
  rw [e1, e2]
  refine sum_coeff_le (fun k _ => ?_)
  by_cases h1 : |k + 1| ≤ n
  · rw [if_pos h1, if_pos h1, ← mul_sub, norm_mul, mul_comm I, norm_exp_ofReal_mul_I, one_mul, ← ofReal_sub,
      norm_real, Real.norm_eq_abs]
    exact weak_ac_coeff k ha0 ha
  · rw [if_neg h1, if_neg h1, sub_zero, norm_zero]
    positivity

/-- The correlation of order minus one of a weak tone. -/
theorem weak_corr_neg (resp : ℝ → ℂ) (v : ℂ) {w a : ℝ} (hw : 0 < w) (hv : ‖v‖ = a * w) (ha : a ≤ 1) (n : ℕ)
    (hn : 1 ≤ n) (vb : ℝ) :
    ‖Spec.corr resp [(⟨Spec.jacobiAnger v w 1 n, n, w⟩, -1)] vb
        - exp (-(I * arg v)) * ((a / 2 : ℝ) * (resp (vb + w) - resp vb))‖
      ≤ 5 / 8 * a ^ 3 * stepSum (fun x => ‖resp x‖) vb w n := by
  have ha0 : 0 ≤ a := by
    have := norm_nonneg v
    rw [hv] at this
    exact nonneg_of_mul_nonneg_left this hw
  have e1 : Spec.corr resp [(⟨Spec.jacobiAnger v w 1 n, n, w⟩, -1)] vb
      = ∑ k ∈ Icc (-(n : ℤ)) n, (if |k + -1| ≤ n then exp (-(I * arg v)) *
          ((besselJ (k - 1) a * besselJ (k - 1 + 1) a : ℝ) : ℂ) else 0) * resp (vb + k * w) := by
    simp only [Spec.corr]
    refine sum_congr rfl fun k hk => ?_
    rw [mem_Icc, ← abs_le] at hk
    by_cases h1 : |k + -1| ≤ n
    · rw [if_pos h1, if_pos h1, jacobiAnger_prod hw hv hk h1, sub_add_cancel, mul_comm (besselJ (k - 1) a)]
      simp [sub_eq_add_neg]
    · rw [if_neg h1, if_neg h1, zero_mul]
  have e2 : exp (-(I * arg v)) * ((a / 2 : ℝ) * (resp (vb + w) - resp vb))
      = ∑ k ∈ Icc (-(n : ℤ)) n, (if |k + -1| ≤ n then exp (-(I * arg v)) *
          (((if k - 1 = 0 then a / 2 else if k - 1 = -1 then -(a / 2) else 0) : ℝ) : ℂ) else 0) *
            resp (vb + k * w) := by
    rw [show exp (-(I * arg v)) * ((a / 2 : ℝ) * (resp (vb + w) - resp vb))
      = exp (-(I * arg v)) * -((a / 2 : ℝ) : ℂ) * resp vb + exp (-(I * arg v)) * ((a / 2 : ℝ) : ℂ) * resp (vb + w) + 0
      by ring, ← sum_three n hn]
    refine sum_congr rfl fun k _ => ?_
    by_cases h0 : k = 0
    · subst h0
      have hb : |(0 : ℤ) + -1| ≤ (n : ℤ) := by rw [abs_le]; omega
      rw [if_pos hb, if_pos rfl, if_neg (by norm_num), if_pos (by norm_num)]
      simp
    · by_cases h1 : k = 1
      · subst h1
        have hb : |(1 : ℤ) + -1| ≤ (n : ℤ) := by rw [abs_le]; omega
        rw [if_pos hb, if_neg h0, if_pos rfl, if_pos (by norm_num)]
        simp
      · have h2 : ¬ k - 1 = 0 := by omega
        have h3 : ¬ k - 1 = -1 := by omega
        simp [h0, h1, h2, h3]
  rw [e1, e2]
  refine sum_coeff_le (fun k _ => ?_)
  have hE : ‖exp (-(I * arg v))‖ = 1 := by rw [norm_exp]; simp
  by_cases h1 : |k + -1| ≤ n
  · rw [if_pos h1, if_pos h1, ← mul_sub, norm_mul, hE, one_mul, ← ofReal_sub,
      norm_real, Real.norm_eq_abs]
    exact weak_ac_coeff (k - 1) ha0 ha
  · rw [if_neg h1, if_neg h1, sub_zero, norm_zero]
    positivity

/-! ## C119 -/

/-- C119. The dc current of a weakly pumped junction: the unpumped current plus a quarter of the square
of the drive level times the second difference of the I-V curve over one photon step, up to the fourth
power of the drive level. -/
theorem C119_dc (vj : ℕ → ℕ → Arr ι) (cct : Cct ι) (resp : ℝ → ℂ) (nb : NumB) (n : ℕ) (α : ι → ℝ)
    (h : Valid cct nb) (hF : cct.numF = 1) (hP : cct.numP = 1) (hn : (nb.toTup 1).head? = some n) (hn1 : 1 ≤ n)
    (hw : 1 / 20000 < cct.freq 1) (hv : ∀ i, ‖vj 1 1 i‖ = α i * cct.freq 1) (hα : ∀ i, α i ≤ 1) :
    ∃ r, qtcurrentList vj cct resp [0] nb none = .ok [r] ∧ ∀ i, (r i).im = 0 ∧
      |(r i).re - ((resp (cct.vb i)).im
          + α i ^ 2 / 4 * secondDiff (fun x => (resp x).im) (cct.vb i) (cct.freq 1))|
        ≤ 3 / 4 * α i ^ 4 * stepSum (fun x => |(resp x).im|) (cct.vb i) (cct.freq 1) n := by
  refine ⟨_, C26_dc vj cct resp nb n α h hF hP hn hw hv, fun i => ⟨ofReal_im _, ?_⟩⟩
  have ha0 : 0 ≤ α i := by
    have := norm_nonneg (vj 1 1 i)
    rw [hv] at this
    exact nonneg_of_mul_nonneg_left this (by linarith)
  have ha : |α i| ≤ 1 := by rw [abs_of_nonneg ha0]; exact hα i
  rw [ofReal_re, pumpedIv_eq]
  set a := α i
  set w := cct.freq 1
  set vb := cct.vb i
  have key := sum_coeff_le (s := Icc (-(n : ℤ)) n) (c := fun k => ((besselJ k a ^ 2 : ℝ) : ℂ))
    (l := fun k => ((if k = 0 then 1 - a ^ 2 / 2 else if k = 1 ∨ k = -1 then a ^ 2 / 4 else 0 : ℝ) : ℂ))
    (r := fun k => (((resp (vb + k * w)).im : ℝ) : ℂ)) (ε := 3 / 4 * a ^ 4) (fun k _ => by
      rw [← ofReal_sub, norm_real, Real.norm_eq_abs]
      exact weak_dc_coeff k ha)
  have e2 : ∑ k ∈ Icc (-(n : ℤ)) n,
      ((if k = 0 then 1 - a ^ 2 / 2 else if k = 1 ∨ k = -1 then a ^ 2 / 4 else 0 : ℝ) : ℂ) *
        (((resp (vb + k * w)).im : ℝ) : ℂ)
      = (((resp vb).im + a ^ 2 / 4 * secondDiff (fun x => (resp x).im) vb w : ℝ) : ℂ) := by
    have e3 : (((resp vb).im + a ^ 2 / 4 * secondDiff (fun x => (resp x).im) vb w : ℝ) : ℂ)
        = (((1 - a ^ 2 / 2) * (resp vb).im : ℝ) : ℂ) + ((a ^ 2 / 4 * (resp (vb + w)).im : ℝ) : ℂ)
          + ((a ^ 2 / 4 * (resp (vb - w)).im : ℝ) : ℂ) := by
      rw [← ofReal_add, ← ofReal_add]
      congr 1
      unfold secondDiff
      ring
    rw [e3, ← sum_three n hn1]
    refine sum_congr rfl fun k _ => ?_
    by_cases h0 : k = 0
    · subst h0; simp
    · by_cases h1 : k = 1
      · subst h1; simp
      · by_cases h2 : k = -1
        · subst h2
          rw [if_neg h0, if_pos (Or.inr rfl), if_neg h0, if_neg h1, if_pos rfl, ← ofReal_mul]
          simp [sub_eq_add_neg]
        · simp [h0, h1, h2]
  rw [e2] at key
  simp only [← ofReal_mul, ← ofReal_sum, ← ofReal_sub, norm_real, Real.norm_eq_abs] at key
  exact key

/-- C119. The ac current of a weakly pumped junction: the phasor of the drive times the small-signal
admittance, up to the third power of the drive level. The conductance is the first difference of the
I-V curve over two photon steps, the susceptance the second difference of its Kramers-Kronig
transform. -/
theorem C119_ac (vj : ℕ → ℕ → Arr ι) (cct : Cct ι) (resp : ℝ → ℂ) (nb : NumB) (n : ℕ) (α : ι → ℝ)
    (h : Valid cct nb) (hF : cct.numF = 1) (hP : cct.numP = 1) (hn : (nb.toTup 1).head? = some n) (hn1 : 1 ≤ n)
    (hw : 1 / 20000 < cct.freq 1) (hv : ∀ i, ‖vj 1 1 i‖ = α i * cct.freq 1) (hα : ∀ i, α i ≤ 1) :
    ∃ r, qtcurrentList vj cct resp [cct.freq 1] nb none = .ok [r] ∧ ∀ i,
      ‖r i - vj 1 1 i * ((((resp (cct.vb i + cct.freq 1)).im - (resp (cct.vb i - cct.freq 1)).im) /
            (2 * cct.freq 1) : ℝ)
          + I * ((secondDiff (fun x => (resp x).re) (cct.vb i) (cct.freq 1) / (2 * cct.freq 1) : ℝ)))‖
        ≤ 5 / 4 * α i ^ 3 * stepSum (fun x => ‖resp x‖) (cct.vb i) (cct.freq 1) n := by
  refine ⟨_, C14_mtsda vj cct resp [cct.freq 1] nb h, fun i => ?_⟩
  simp only [hF, hP]
  rw [single_tone resp _ cct.freq hn]
  have hc := current_single_ac resp ⟨Spec.jacobiAnger (vj 1 1 i) (cct.freq 1) 1 n, n, cct.freq 1⟩ hw
    (cct.vb i)
  simp only at hc
  rw [hc]
  have hw0 : 0 < cct.freq 1 := by linarith
  have h1 := weak_corr resp (vj 1 1 i) hw0 (hv i) (hα i) n hn1 (cct.vb i)
  have h2 := weak_corr_neg resp (vj 1 1 i) hw0 (hv i) (hα i) n hn1 (cct.vb i)
  have hvv := norm_mul_exp_arg_mul_I (vj 1 1 i)
  rw [hv i] at hvv
  set w := cct.freq 1
  set vb := cct.vb i
  set a := α i
  set φ := arg (vj 1 1 i)
  set R1 := Spec.corr resp [(⟨Spec.jacobiAnger (vj 1 1 i) w 1 n, n, w⟩, 1)] vb
  set R2 := Spec.corr resp [(⟨Spec.jacobiAnger (vj 1 1 i) w 1 n, n, w⟩, -1)] vb
  have hm : Spec.mixProduct resp [(⟨Spec.jacobiAnger (vj 1 1 i) w 1 n, n, w⟩, 1)] vb
      = -I * (R1 - (starRingEnd ℂ) R2) := by
    unfold Spec.mixProduct
    rw [if_neg (by simp)]
    rfl
  have hw' : (w : ℂ) ≠ 0 := ofReal_ne_zero.2 hw0.ne'
  have hconj : (starRingEnd ℂ) (exp (-(I * φ)) * ((a / 2 : ℝ) * (resp (vb + w) - resp vb)))
      = exp (I * φ) * ((a / 2 : ℝ) * ((starRingEnd ℂ) (resp (vb + w)) - (starRingEnd ℂ) (resp vb))) := by
    rw [map_mul, map_mul, map_sub, conj_ofReal, ← exp_conj]
    congr 2
    simp
  have hlead : vj 1 1 i * ((((resp (vb + w)).im - (resp (vb - w)).im) / (2 * w) : ℝ)
          + I * ((secondDiff (fun x => (resp x).re) vb w / (2 * w) : ℝ)))
      = -I * (exp (I * φ) * ((a / 2 : ℝ) * (resp vb - resp (vb - w)))
        - (starRingEnd ℂ) (exp (-(I * φ)) * ((a / 2 : ℝ) * (resp (vb + w) - resp vb)))) := by
    rw [hconj, ← hvv, mul_comm (φ : ℂ) I]
    have e : ((((resp (vb + w)).im - (resp (vb - w)).im : ℝ) : ℂ)
        + I * ((secondDiff (fun x => (resp x).re) vb w : ℝ) : ℂ))
        = -I * (resp vb - resp (vb - w) - ((starRingEnd ℂ) (resp (vb + w)) - (starRingEnd ℂ) (resp vb))) := by
      apply Complex.ext
      · simp [secondDiff]; ring
      · simp [secondDiff]; ring
    calc _ = exp (I * φ) * ((a / 2 : ℝ) : ℂ) * ((((resp (vb + w)).im - (resp (vb - w)).im : ℝ) : ℂ)
        + I * ((secondDiff (fun x => (resp x).re) vb w : ℝ) : ℂ)) := by
          push_cast
          field_simp
      _ = _ := by rw [e]; ring
  rw [hm, hlead, ← mul_sub, norm_mul, norm_neg, norm_I, one_mul, sub_sub_sub_comm, ← map_sub]
  refine (norm_sub_le _ _).trans ?_
  rw [norm_conj]
  linarith

/-- A real drive of level one tenth. -/
example (resp : ℝ → ℂ) : ∃ r,
    qtcurrentList (fun _ _ _ => ((0.1 * 0.3 : ℝ) : ℂ)) { demo with numF := 1, numP := 1 } resp [0] (.int 5) none
      = .ok [r] ∧ ∀ i, (r i).im = 0 ∧
      |(r i).re - ((resp (demo.vb i)).im + 0.1 ^ 2 / 4 * secondDiff (fun x => (resp x).im) (demo.vb i) 0.3)|
        ≤ 3 / 4 * 0.1 ^ 4 * stepSum (fun x => |(resp x).im|) (demo.vb i) 0.3 5 := by
  have h := C119_dc (fun _ _ _ => ((0.1 * 0.3 : ℝ) : ℂ)) { demo with numF := 1, numP := 1 } resp (.int 5) 5
    (fun _ => 0.1) (demo_one_valid 5) rfl rfl rfl (by norm_num) (by norm_num [demo])
    (fun i => by rw [norm_real, Real.norm_of_nonneg (by norm_num)]; simp [demo]) (fun _ => by norm_num)
  simpa [demo] using h

example (resp : ℝ → ℂ) : ∃ r,
    qtcurrentList (fun _ _ _ => ((0.1 * 0.3 : ℝ) : ℂ)) { demo with numF := 1, numP := 1 } resp [0.3] (.int 5) none
      = .ok [r] ∧ ∀ i,
      ‖r i - ((0.1 * 0.3 : ℝ) : ℂ) * ((((resp (demo.vb i + 0.3)).im - (resp (demo.vb i - 0.3)).im) /
            (2 * 0.3) : ℝ)
          + I * ((secondDiff (fun x => (resp x).re) (demo.vb i) 0.3 / (2 * 0.3) : ℝ)))‖
        ≤ 5 / 4 * 0.1 ^ 3 * stepSum (fun x => ‖resp x‖) (demo.vb i) 0.3 5 :=
  C119_ac (fun _ _ _ => ((0.1 * 0.3 : ℝ) : ℂ)) { demo with numF := 1, numP := 1 } resp (.int 5) 5
    (fun _ => 0.1) (demo_one_valid 5) rfl rfl rfl (by norm_num) (by norm_num [demo])
    (fun i => by rw [norm_real, Real.norm_of_nonneg (by norm_num)]; simp [demo]) (fun _ => by norm_num)

end QMix.Props
