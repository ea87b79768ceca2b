import Verif.Lemmas.KkTrans
import Mathlib.Analysis.SpecialFunctions.Trigonometric.Bounds
import Mathlib.Analysis.Real.Pi.Bounds

/-!
# The weights with which `kk_trans` sums the excess current
-/

namespace QMix.MathFn

open QMix.Np

/-- The weight of a sample `j` places above the output sample, for FFTs of length `M`. -/
noncomputable def kkKernel (M : ℕ) (j : ℤ) : ℝ :=
  2 / M * ∑ f ∈ Finset.range ((M - 1) / 2), Real.sin ((f + 1 : ℕ) * (2 * Real.pi * j / M))

theorem sin_int_pi (k : ℤ) : Real.sin (Real.pi * k) = 0 := by
  rw [mul_comm]; exact Real.sin_int_mul_pi k

/-- Only the frequencies strictly between zero and the highest contribute. -/
theorem weight_sin (M : ℕ) (hM : 0 < M) (j : ℤ) (f : ℕ) :
    hilbertWeight M f * Real.sin (2 * Real.pi * f * j / M) =
      if 1 ≤ f ∧ f ≤ (M - 1) / 2 then 2 * Real.sin (2 * Real.pi * f * j / M) else 0 := by
  unfold hilbertWeight
  by_cases h0 : f = 0
  · subst h0; simp
  rw [if_neg h0]
  by_cases hp : M % 2 = 0
  · rw [if_pos hp]
    by_cases h1 : f = M / 2
    · rw [if_pos h1, if_neg (by omega)]
      have e : (M : ℝ) = 2 * f := by
        have : M = 2 * f := by omega
        exact_mod_cast this
      have hf : (f : ℝ) ≠ 0 := by exact_mod_cast h0
      rw [e, show 2 * Real.pi * f * j / (2 * f) = Real.pi * j by field_simp, sin_int_pi, mul_zero]
    · rw [if_neg h1]
      by_cases h2 : f < M / 2
      · rw [if_pos h2, if_pos (by omega)]
      · rw [if_neg h2, if_neg (by omega), zero_mul]
  · rw [if_neg hp]
    by_cases h2 : f < (M + 1) / 2
    · rw [if_pos h2, if_pos (by omega)]
    · rw [if_neg h2, if_neg (by omega), zero_mul]

/-- The transform as a weighted sum. -/
theorem kkAt_kernel (N M : ℕ) (h0 : 0 < M) (hM : N ≤ M) (x : ℕ → ℝ) (k : ℕ) :
    kkAt M (tab N x) k = ∑ t ∈ Finset.range N, x t * kkKernel M ((t : ℤ) - k) := by
  rw [kkAt_sum N M hM, Finset.sum_comm, Finset.mul_sum, ← Finset.sum_neg_distrib]
  apply Finset.sum_congr rfl
  intro t _
  have e : ∀ f : ℕ, hilbertWeight M f * (x t * Real.sin (2 * Real.pi * f * ((k : ℝ) - t) / M)) =
      -x t * (if 1 ≤ f ∧ f ≤ (M - 1) / 2 then
        2 * Real.sin (2 * Real.pi * f * (((t : ℤ) - k : ℤ) : ℝ) / M) else 0) := by
    intro f
    rw [← weight_sin M h0, show 2 * Real.pi * f * ((k : ℝ) - t) / M =
      -(2 * Real.pi * f * (((t : ℤ) - k : ℤ) : ℝ) / M) by push_cast; ring, Real.sin_neg]
    ring
  simp only [e]
  rw [← Finset.mul_sum, ← Finset.sum_filter]
  have hs : (Finset.range M).filter (fun f => 1 ≤ f ∧ f ≤ (M - 1) / 2) =
      (Finset.range ((M - 1) / 2)).image fun f => f + 1 := by
    ext f
    simp only [Finset.mem_filter, Finset.mem_range, Finset.mem_image]
    constructor
    · rintro ⟨h1, h2, h3⟩
      exact ⟨f - 1, by omega, by omega⟩
    · rintro ⟨g, h1, rfl⟩
      omega
  rw [hs, Finset.sum_image fun a _ b _ h => by simpa using h]
  unfold kkKernel
  rw [← Finset.mul_sum]
  have : ∀ f : ℕ, 2 * Real.pi * ((f + 1 : ℕ) : ℝ) * (((t : ℤ) - k : ℤ) : ℝ) / M =
      ((f + 1 : ℕ) : ℝ) * (2 * Real.pi * (((t : ℤ) - k : ℤ) : ℝ) / M) := by intro f; ring
  simp only [this]
  ring

theorem sum_sin (m : ℕ) (θ : ℝ) :
    2 * Real.sin (θ / 2) * ∑ f ∈ Finset.range m, Real.sin ((f + 1 : ℕ) * θ) =
      Real.cos (θ / 2) - Real.cos ((m + 1 / 2) * θ) := by
  induction m with
  | zero => simp; rw [div_eq_inv_mul, sub_self]
  | succ m ih =>
    rw [Finset.sum_range_succ, mul_add, ih]
    have : 2 * Real.sin (θ / 2) * Real.sin (((m + 1 : ℕ) : ℝ) * θ) =
        Real.cos ((m + 1 / 2) * θ) - Real.cos (((m + 1 : ℕ) + 1 / 2) * θ) := by
      rw [show ((m : ℝ) + 1 / 2) * θ = ((m + 1 : ℕ) : ℝ) * θ - θ / 2 by push_cast; ring,
        show (((m + 1 : ℕ) : ℝ) + 1 / 2) * θ = ((m + 1 : ℕ) : ℝ) * θ + θ / 2 by ring,
        Real.cos_sub, Real.cos_add]
      ring
    rw [this]
    ring

theorem kkKernel_neg (M : ℕ) (j : ℤ) : kkKernel M (-j) = -kkKernel M j := by
  unfold kkKernel
  have : ∀ f : ℕ, Real.sin (((f + 1 : ℕ) : ℝ) * (2 * Real.pi * ((-j : ℤ) : ℝ) / M)) =
      -Real.sin (((f + 1 : ℕ) : ℝ) * (2 * Real.pi * (j : ℝ) / M)) := by
    intro f
    rw [← Real.sin_neg]
    congr 1
    push_cast
    ring
  simp only [this, Finset.sum_neg_distrib]
  ring

theorem kkKernel_zero (M : ℕ) : kkKernel M 0 = 0 := by simp [kkKernel]

/-- The cotangent near its pole. -/
theorem cot_bounds {y : ℝ} (h0 : 0 < y) (h1 : y ≤ Real.pi / 2) :
    |Real.cos y / Real.sin y - 1 / y| ≤ Real.pi / 4 * y := by
  have hs : 2 / Real.pi * y ≤ Real.sin y := Real.mul_le_sin h0.le h1
  have hpi := Real.pi_pos
  have hsp : 0 < Real.sin y := Real.sin_pos_of_pos_of_lt_pi h0 (by linarith)
  have hc : 1 - y ^ 2 / 2 ≤ Real.cos y := Real.one_sub_sq_div_two_le_cos
  have hy : Real.sin y ≤ y := Real.sin_le h0.le
  have hle : y * Real.cos y ≤ Real.sin y := by
    rcases h1.lt_or_eq with h | h
    · have hcp : 0 < Real.cos y := Real.cos_pos_of_mem_Ioo ⟨by linarith, h⟩
      have := (Real.lt_tan h0 h).le
      rw [Real.tan_eq_sin_div_cos, le_div_iff₀ hcp] at this
      exact this
    · rw [h, Real.cos_pi_div_two, Real.sin_pi_div_two]; norm_num
  have e : Real.cos y / Real.sin y - 1 / y = -((Real.sin y - y * Real.cos y) / (y * Real.sin y)) := by
    field_simp
    ring
  rw [e, abs_neg, abs_of_nonneg (div_nonneg (by linarith) (by positivity)), div_le_iff₀ (by positivity)]
  have h2 : Real.sin y - y * Real.cos y ≤ y ^ 3 / 2 := by nlinarith
  have h3 : Real.pi / 4 * y * (y * (2 / Real.pi * y)) ≤ Real.pi / 4 * y * (y * Real.sin y) := by gcongr
  have h4 : Real.pi / 4 * y * (y * (2 / Real.pi * y)) = y ^ 3 / 2 := by field_simp; ring
  linarith

theorem cos_odd_pi {j : ℤ} (h : j % 2 = 1) : Real.cos (Real.pi * j) = -1 := by
  obtain ⟨q, rfl⟩ : ∃ q, j = 2 * q + 1 := ⟨j / 2, by omega⟩
  rw [show Real.pi * ((2 * q + 1 : ℤ) : ℝ) = Real.pi + q * (2 * Real.pi) by push_cast; ring,
    Real.cos_add_int_mul_two_pi, Real.cos_pi]

theorem cos_even_pi {j : ℤ} (h : j % 2 = 0) : Real.cos (Real.pi * j) = 1 := by
  obtain ⟨q, rfl⟩ : ∃ q, j = 2 * q := ⟨j / 2, by omega⟩
  rw [show Real.pi * ((2 * q : ℤ) : ℝ) = 0 + q * (2 * Real.pi) by push_cast; ring,
    Real.cos_add_int_mul_two_pi, Real.cos_zero]

/-- The weights of the principal value: samples at an even distance are skipped, those at an odd
distance have twice the weight of the integrand. -/
noncomputable def pvKernel (j : ℤ) : ℝ := if j % 2 = 1 then 2 / (Real.pi * j) else 0

/-- The weights are those of the principal value, up to the wrap-around of the FFT. -/
theorem kernel_near_pos {M : ℕ} {j : ℤ} (hj : 0 < j) (h2 : 2 * j ≤ M) :
    |kkKernel M j - pvKernel j| ≤ 5 * j / M ^ 2 := by
  have hpi := Real.pi_pos
  have hp4 := Real.pi_lt_d2
  have hjr : (0 : ℝ) < j := by exact_mod_cast hj
  have h2r : 2 * (j : ℝ) ≤ M := by exact_mod_cast h2
  have hM : (0 : ℝ) < M := by linarith
  set y : ℝ := Real.pi * j / M with hy
  have hy0 : 0 < y := by positivity
  have hy1 : y ≤ Real.pi / 2 := by
    rw [hy, div_le_div_iff₀ hM two_pos]
    nlinarith
  have hsp : 0 < Real.sin y := Real.sin_pos_of_pos_of_lt_pi hy0 (by linarith)
  have hθ : 2 * Real.pi * (j : ℝ) / M = 2 * y := by rw [hy]; ring
  have hS := sum_sin ((M - 1) / 2) (2 * y)
  rw [show 2 * y / 2 = y by ring] at hS
  have hk : kkKernel M j = 1 / M * ((Real.cos y -
      Real.cos ((((M - 1) / 2 : ℕ) + 1 / 2) * (2 * y))) / Real.sin y) := by
    unfold kkKernel
    rw [hθ, ← hS]
    generalize ∑ f ∈ Finset.range ((M - 1) / 2), Real.sin ((f + 1 : ℕ) * (2 * y)) = S
    field_simp
  by_cases hp : M % 2 = 0
  · have e : ((((M - 1) / 2 : ℕ) : ℝ) + 1 / 2) * (2 * y) = Real.pi * j - y := by
      have : (((M - 1) / 2 : ℕ) : ℝ) = M / 2 - 1 := by
        have h : M = 2 * ((M - 1) / 2) + 2 := by omega
        have h' : (M : ℝ) = 2 * (((M - 1) / 2 : ℕ) : ℝ) + 2 := by exact_mod_cast h
        linarith
      rw [this, hy]
      field_simp
      ring
    have hsin : Real.sin (Real.pi * j) = 0 := sin_int_pi j
    rw [e, Real.cos_sub, hsin, zero_mul, add_zero] at hk
    rcases Int.emod_two_eq_zero_or_one j with ho | ho
    · rw [cos_even_pi ho] at hk
      unfold pvKernel
      rw [hk, if_neg (by omega)]
      simp
      positivity
    · rw [cos_odd_pi ho] at hk
      unfold pvKernel
      rw [hk, if_pos ho]
      have e2 : 1 / (M : ℝ) * ((Real.cos y - -1 * Real.cos y) / Real.sin y) - 2 / (Real.pi * j) =
          2 / M * (Real.cos y / Real.sin y - 1 / y) := by
        rw [hy]
        field_simp
        ring
      rw [e2, abs_mul, abs_of_pos (by positivity)]
      calc 2 / (M : ℝ) * |Real.cos y / Real.sin y - 1 / y| ≤ 2 / M * (Real.pi / 4 * y) := by
            gcongr; exact cot_bounds hy0 hy1
        _ = (Real.pi ^ 2 / 2) * j / M ^ 2 := by rw [hy]; field_simp; ring
        _ ≤ 5 * j / M ^ 2 := by gcongr; nlinarith
  · have e : ((((M - 1) / 2 : ℕ) : ℝ) + 1 / 2) * (2 * y) = Real.pi * j := by
      have : (((M - 1) / 2 : ℕ) : ℝ) = M / 2 - 1 / 2 := by
        have h : M = 2 * ((M - 1) / 2) + 1 := by omega
        have h' : (M : ℝ) = 2 * (((M - 1) / 2 : ℕ) : ℝ) + 1 := by exact_mod_cast h
        linarith
      rw [this, hy]
      field_simp
      ring
    rw [e] at hk
    have hz0 : 0 < y / 2 := by linarith
    have hs2 : 0 < Real.sin (y / 2) := Real.sin_pos_of_pos_of_lt_pi hz0 (by linarith)
    have hc2 : 0 < Real.cos (y / 2) := Real.cos_pos_of_mem_Ioo ⟨by linarith, by linarith⟩
    have hsy : Real.sin y = 2 * Real.sin (y / 2) * Real.cos (y / 2) := by
      rw [← Real.sin_two_mul]; congr 1; ring
    have hcy : Real.cos y = 2 * Real.cos (y / 2) ^ 2 - 1 := by
      rw [← Real.cos_two_mul]; congr 1; ring
    have hcy' : Real.cos y = 1 - 2 * Real.sin (y / 2) ^ 2 := by
      rw [hcy, Real.cos_sq']; ring
    rcases Int.emod_two_eq_zero_or_one j with ho | ho
    · rw [cos_even_pi ho] at hk
      unfold pvKernel
      rw [hk, if_neg (by omega), sub_zero]
      have e2 : (Real.cos y - 1) / Real.sin y = -(Real.sin (y / 2) / Real.cos (y / 2)) := by
        rw [hsy, hcy']
        field_simp
        ring
      have hc3 : 1 / 2 ≤ Real.cos (y / 2) := by
        have : Real.cos (Real.pi / 3) ≤ Real.cos (y / 2) :=
          Real.cos_le_cos_of_nonneg_of_le_pi hz0.le (by linarith) (by linarith)
        rwa [Real.cos_pi_div_three] at this
      have hs3 : Real.sin (y / 2) ≤ y / 2 := Real.sin_le hz0.le
      rw [e2, abs_mul, abs_neg, abs_of_pos (by positivity), abs_of_pos (by positivity)]
      calc 1 / (M : ℝ) * (Real.sin (y / 2) / Real.cos (y / 2)) ≤ 1 / M * (y / 2 / (1 / 2)) := by
            gcongr
        _ = Real.pi * j / M ^ 2 := by rw [hy]; field_simp
        _ ≤ 5 * j / M ^ 2 := by gcongr; linarith
    · rw [cos_odd_pi ho] at hk
      unfold pvKernel
      rw [hk, if_pos ho]
      have e2 : 1 / (M : ℝ) * ((Real.cos y - -1) / Real.sin y) - 2 / (Real.pi * j) =
          1 / M * (Real.cos (y / 2) / Real.sin (y / 2) - 1 / (y / 2)) := by
        have : (Real.cos y - -1) / Real.sin y = Real.cos (y / 2) / Real.sin (y / 2) := by
          rw [hsy, hcy]
          field_simp
          ring
        rw [this, mul_sub]
        congr 1
        rw [hy]
        field_simp
      rw [e2, abs_mul, abs_of_pos (by positivity)]
      calc 1 / (M : ℝ) * |Real.cos (y / 2) / Real.sin (y / 2) - 1 / (y / 2)|
          ≤ 1 / M * (Real.pi / 4 * (y / 2)) := by
            gcongr; exact cot_bounds hz0 (by linarith)
        _ = (Real.pi ^ 2 / 8) * j / M ^ 2 := by rw [hy]; field_simp; ring
        _ ≤ 5 * j / M ^ 2 := by gcongr; nlinarith

theorem pvKernel_neg (j : ℤ) : pvKernel (-j) = -pvKernel j := by
  unfold pvKernel
  by_cases h : j % 2 = 1
  · rw [if_pos h, if_pos (by omega)]
    push_cast
    rw [mul_neg, div_neg]
  · rw [if_neg h, if_neg (by omega), neg_zero]

theorem kernel_near {M : ℕ} {j : ℤ} (h2 : 2 * |j| ≤ M) :
    |kkKernel M j - pvKernel j| ≤ 5 * |(j : ℝ)| / M ^ 2 := by
  rcases lt_trichotomy j 0 with h | h | h
  · have := kernel_near_pos (M := M) (j := -j) (by omega) (by rw [abs_of_neg h] at h2; exact h2)
    rw [kkKernel_neg, pvKernel_neg, ← abs_neg] at this
    rw [abs_of_neg (by exact_mod_cast h : (j : ℝ) < 0)]
    convert this using 2
    · ring
    · push_cast; rfl
  · subst h
    rw [kkKernel_zero]
    simp [pvKernel]
  · have := kernel_near_pos (M := M) h (by rw [abs_of_pos h] at h2; exact h2)
    rwa [abs_of_pos (by exact_mod_cast h : (0 : ℝ) < j)]

/-- The effect of the finite padding. -/
theorem kkAt_near (N n : ℕ) (hN : 0 < N) (hn : 2 ≤ n) (x : ℕ → ℝ) {B : ℝ} (hB : ∀ t < N, |x t| ≤ B)
    {k : ℕ} (hk : k < N) :
    |kkAt (N * n) (tab N x) k - ∑ t ∈ Finset.range N, x t * pvKernel ((t : ℤ) - k)| ≤
      5 * B / n ^ 2 := by
  have hnr : (0 : ℝ) < n := by exact_mod_cast (by omega : 0 < n)
  have hNr : (0 : ℝ) < N := by exact_mod_cast hN
  have hB0 : 0 ≤ B := (abs_nonneg _).trans (hB 0 hN)
  rw [kkAt_kernel N (N * n) (by positivity) (Nat.le_mul_of_pos_right _ (by omega)),
    ← Finset.sum_sub_distrib]
  refine (Finset.abs_sum_le_sum_abs _ _).trans ?_
  calc _ ≤ ∑ _t ∈ Finset.range N, B * (5 * N / ((N * n : ℕ) : ℝ) ^ 2) := by
        apply Finset.sum_le_sum
        intro t ht
        have ht := Finset.mem_range.1 ht
        rw [← mul_sub, abs_mul]
        have hj : |(t : ℤ) - k| ≤ N := by rw [abs_le]; omega
        apply mul_le_mul (hB t ht) _ (abs_nonneg _) hB0
        have h2 : 2 * |(t : ℤ) - k| ≤ ((N * n : ℕ) : ℤ) := by
          push_cast
          have : (N : ℤ) * 2 ≤ N * n := by
            apply mul_le_mul_of_nonneg_left _ (by omega)
            exact_mod_cast hn
          omega
        refine (kernel_near h2).trans ?_
        have : |(((t : ℤ) - k : ℤ) : ℝ)| ≤ N := by exact_mod_cast hj
        gcongr
    _ = 5 * B / n ^ 2 := by
        rw [Finset.sum_const, Finset.card_range, nsmul_eq_mul]
        push_cast
        field_simp

end QMix.MathFn
