import Verif.Props.Tucker
import Verif.Lemmas.Section
import Verif.Lemmas.Bessel4
import Mathlib.Analysis.Calculus.MeanValue

/-! The ac current of Tucker theory is a Lipschitz function of the drive level. -/

namespace QMix

open Complex Finset Zemb

/-- The squares of the Bessel functions add up to at most one. -/
theorem sum_besselJ_sq_le (s : Finset ℤ) {x : ℝ} (hx : 0 ≤ x) : ∑ k ∈ s, besselJ k x ^ 2 ≤ 1 := by
  obtain ⟨N, hN⟩ : ∃ N : ℕ, ∀ k ∈ s, k.natAbs ≤ N := ⟨s.sup Int.natAbs, fun k hk => le_sup (f := Int.natAbs) hk⟩
  have hsub : s ⊆ Icc (-(N : ℤ)) N := by
    intro k hk
    have := hN k hk
    rw [mem_Icc]
    omega
  refine (sum_le_sum_of_subset_of_nonneg hsub fun k _ _ => sq_nonneg _).trans ?_
  have h := Spec.toneCoeff_sq_le (fun _ => (x : ℂ)) 1 (P := 1) (le_refl N) (Or.inl (by norm_num))
  refine le_trans (le_of_eq (sum_congr rfl fun k hk => ?_)) h
  have hk' := abs_le.2 (mem_Icc.1 hk)
  unfold Spec.toneCoeff
  rw [Spec.harmonicConv_one _ _ _ _ le_rfl, Props.norm_jacobiAnger (α := x) one_pos (by simp [abs_of_nonneg hx]) hk']

/-- The product of two neighbouring Bessel functions, its derivative and a bound for it. -/
theorem hasDerivAt_pair (j k : ℤ) (x : ℝ) :
    HasDerivAt (fun x => ((besselJ k x * besselJ j x : ℝ) : ℂ))
      (((besselJ (k - 1) x - besselJ (k + 1) x) / 2 * besselJ j x
        + besselJ k x * ((besselJ (j - 1) x - besselJ (j + 1) x) / 2) : ℝ) : ℂ) x :=
  ((hasDerivAt_besselJ k x).mul (hasDerivAt_besselJ j x)).ofReal_comp

theorem abs_pair_le (a b c d e f : ℝ) :
    |(a - b) / 2 * c + d * ((e - f) / 2)| ≤ (a ^ 2 + b ^ 2 + 2 * c ^ 2 + 2 * d ^ 2 + e ^ 2 + f ^ 2) / 4 := by
  rw [abs_le]
  constructor <;> nlinarith [sq_nonneg (a - c), sq_nonneg (a + c), sq_nonneg (b - c), sq_nonneg (b + c),
    sq_nonneg (d - e), sq_nonneg (d + e), sq_nonneg (d - f), sq_nonneg (d + f)]

theorem sum_shift_le (s : Finset ℤ) (m : ℤ) {x : ℝ} (hx : 0 ≤ x) : ∑ k ∈ s, besselJ (k + m) x ^ 2 ≤ 1 := by
  have := sum_besselJ_sq_le (s.map (addRightEmbedding m)) hx
  rwa [sum_map] at this

theorem sum_pair_le (s : Finset ℤ) (m : ℤ) {x : ℝ} (hx : 0 ≤ x) :
    ∑ k ∈ s, |(besselJ (k - 1) x - besselJ (k + 1) x) / 2 * besselJ (k + m) x
      + besselJ k x * ((besselJ (k + m - 1) x - besselJ (k + m + 1) x) / 2)| ≤ 2 := by
  refine (sum_le_sum fun k _ => abs_pair_le _ _ _ _ _ _).trans ?_
  rw [← sum_div]
  simp only [sum_add_distrib, ← mul_sum]
  have h1 := sum_shift_le s (-1) hx
  have h2 := sum_shift_le s 1 hx
  have h3 := sum_shift_le s m hx
  have h4 := sum_shift_le s 0 hx
  have h5 := sum_shift_le s (m - 1) hx
  have h6 := sum_shift_le s (m + 1) hx
  simp only [add_zero] at h4
  have e1 : ∀ k : ℤ, k + -1 = k - 1 := fun k => by ring
  have e5 : ∀ k : ℤ, k + (m - 1) = k + m - 1 := fun k => by ring
  have e6 : ∀ k : ℤ, k + (m + 1) = k + m + 1 := fun k => by ring
  simp only [e1] at h1
  simp only [e5] at h5
  simp only [e6] at h6
  linarith

theorem acCurrent_pairs (idc ikk : ℝ → ℝ) (vb vph : ℝ) (n : ℤ) (α : ℝ) :
    acCurrent idc ikk vb vph n α = ∑ k ∈ Icc (-n) n,
      (((besselJ k α * besselJ (k + -1) α : ℝ) : ℂ) * (idc (vb + k * vph) + I * ikk (vb + k * vph))
      + ((besselJ k α * besselJ (k + 1) α : ℝ) : ℂ) * (idc (vb + k * vph) - I * ikk (vb + k * vph))) := by
  rw [Props.acCurrent_eq]
  refine sum_congr rfl fun k _ => ?_
  rw [← sub_eq_add_neg]
  push_cast
  ring

/-- If the response is bounded by `B` then the ac current is Lipschitz with constant `4 B`. -/
theorem acCurrent_lip {idc ikk : ℝ → ℝ} {B : ℝ} (hB : ∀ v, ‖(idc v : ℂ) + I * ikk v‖ ≤ B) (vb vph : ℝ) (n : ℤ)
    {a b : ℝ} (ha : 0 ≤ a) (hb : 0 ≤ b) :
    ‖acCurrent idc ikk vb vph n a - acCurrent idc ikk vb vph n b‖ ≤ 4 * B * |a - b| := by
  have hB' : ∀ v, ‖(idc v : ℂ) - I * ikk v‖ ≤ B := by
    intro v
    have e : (idc v : ℂ) - I * ikk v = (starRingEnd ℂ) (idc v + I * ikk v) := by
      simp [sub_eq_add_neg]
    rw [e, norm_conj]
    exact hB v
  have hB0 : 0 ≤ B := (norm_nonneg _).trans (hB 0)
  have hd : ∀ x, HasDerivAt (acCurrent idc ikk vb vph n) (∑ k ∈ Icc (-n) n,
      ((((besselJ (k - 1) x - besselJ (k + 1) x) / 2 * besselJ (k + -1) x
        + besselJ k x * ((besselJ (k + -1 - 1) x - besselJ (k + -1 + 1) x) / 2) : ℝ) : ℂ)
        * (idc (vb + k * vph) + I * ikk (vb + k * vph))
      + (((besselJ (k - 1) x - besselJ (k + 1) x) / 2 * besselJ (k + 1) x
        + besselJ k x * ((besselJ (k + 1 - 1) x - besselJ (k + 1 + 1) x) / 2) : ℝ) : ℂ)
        * (idc (vb + k * vph) - I * ikk (vb + k * vph)))) x := by
    intro x
    have : acCurrent idc ikk vb vph n = _ := funext fun α => acCurrent_pairs idc ikk vb vph n α
    rw [this]
    exact HasDerivAt.fun_sum fun k _ => ((hasDerivAt_pair (k + -1) k x).mul_const _).add
      ((hasDerivAt_pair (k + 1) k x).mul_const _)
  have h := (convex_Ici (0 : ℝ)).norm_image_sub_le_of_norm_hasDerivWithin_le (C := 4 * B)
    (fun x _ => (hd x).hasDerivWithinAt) (fun x hx => ?_) (Set.mem_Ici.2 hb) (Set.mem_Ici.2 ha)
  · rwa [Real.norm_eq_abs] at h
  · refine (norm_sum_le _ _).trans ?_
    have h1 := sum_pair_le (Icc (-n) n) (-1) hx
    have h2 := sum_pair_le (Icc (-n) n) 1 hx
    calc _ ≤ ∑ k ∈ Icc (-n) n, (|(besselJ (k - 1) x - besselJ (k + 1) x) / 2 * besselJ (k + -1) x
        + besselJ k x * ((besselJ (k + -1 - 1) x - besselJ (k + -1 + 1) x) / 2)| * B
        + |(besselJ (k - 1) x - besselJ (k + 1) x) / 2 * besselJ (k + 1) x
        + besselJ k x * ((besselJ (k + 1 - 1) x - besselJ (k + 1 + 1) x) / 2)| * B) := by
          refine sum_le_sum fun k _ => (norm_add_le _ _).trans ?_
          rw [norm_mul, norm_mul, norm_real, norm_real]
          exact add_le_add (mul_le_mul_of_nonneg_left (hB _) (abs_nonneg _))
            (mul_le_mul_of_nonneg_left (hB' _) (abs_nonneg _))
      _ ≤ 4 * B := by
          rw [sum_add_distrib, ← sum_mul, ← sum_mul]
          nlinarith

end QMix
