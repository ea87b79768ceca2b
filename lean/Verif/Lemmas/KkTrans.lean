import Verif.Model.MathFn
import Verif.Lemmas.NumPy
import Mathlib.RingTheory.RootsOfUnity.Complex
import Mathlib.Tactic.Ring
import Mathlib.Tactic.FieldSimp
import Mathlib.Tactic.Linarith

/-!
# Lemmas about `kk_trans`
-/

namespace QMix.MathFn

open QMix.Np

/-- The transform of the excess current `x` at position `k`, for FFTs of length `M`. -/
noncomputable def kkAt (M : ℕ) (x : List ℝ) (k : ℕ) : ℝ :=
  -(1 / M * ∑ f ∈ Finset.range M, ∑ t ∈ Finset.range M,
    hilbertWeight M f * (x.getD t 0 * Real.sin (2 * Real.pi * f * ((k : ℝ) - t) / M)))

theorem hilbert_im (M : ℕ) (x : List ℝ) (k : ℕ) :
    -(1 / (M : ℂ) * ∑ f ∈ Finset.range M,
      hilbertWeight M f * fft x M f * Complex.exp ((2 * Real.pi * f * k / M : ℝ) * Complex.I)).im
    = kkAt M x k := by
  unfold kkAt fft
  congr 1
  have e : (1 / (M : ℂ)) = ((1 / M : ℝ) : ℂ) := by push_cast; rfl
  rw [e, Complex.im_ofReal_mul, Complex.im_sum]
  congr 1
  apply Finset.sum_congr rfl
  intro f _
  rw [mul_assoc, Complex.im_ofReal_mul, Finset.sum_mul, Complex.im_sum, Finset.mul_sum]
  apply Finset.sum_congr rfl
  intro t _
  rw [mul_assoc, ← Complex.exp_add, Complex.im_ofReal_mul]
  congr 2
  rw [← add_mul, ← Complex.ofReal_neg, ← Complex.ofReal_add, Complex.exp_ofReal_mul_I_im]
  congr 1
  ring

theorem hilbert_eq (x : List ℝ) {M : ℕ} (hM : 0 < M) : hilbert x M = .ok (tab M fun k =>
    1 / (M : ℂ) * ∑ f ∈ Finset.range M,
    hilbertWeight M f * fft x M f * Complex.exp ((2 * Real.pi * f * k / M : ℝ) * Complex.I)) := by
  unfold hilbert
  rw [raiseIf_neg (by omega)]
  rfl

theorem hilbert_ok {x : List ℝ} {N : ℤ} {z : List ℂ} (h : hilbert x N = .ok z) : 0 < N := by
  unfold hilbert at h
  obtain ⟨_, h0, -⟩ := bind_ok_iff.1 h
  rw [raiseIf_ok] at h0
  omega

/-- What a successful call computes. -/
theorem kkTrans_ok {v i r : List ℝ} {n : ℤ} (hl : i.length = v.length) (h : kkTrans v i n = .ok r) :
    1 ≤ n ∧ 2 ≤ v.length ∧
      r = tab v.length (kkAt (v.length * n.toNat) (tab v.length fun t => i.getD t 0 - v.getD t 0)) := by
  unfold kkTrans at h
  dsimp only at h
  obtain ⟨v1, hv1, h⟩ := bind_ok_iff.1 h
  obtain ⟨v0, -, h⟩ := bind_ok_iff.1 h
  obtain ⟨d, -, h⟩ := bind_ok_iff.1 h
  obtain ⟨m, -, h⟩ := bind_ok_iff.1 h
  obtain ⟨_, -, h⟩ := bind_ok_iff.1 h
  obtain ⟨x, hx, h⟩ := bind_ok_iff.1 h
  obtain ⟨z, hz, h⟩ := bind_ok_iff.1 h
  have hx' := eq_tab i 0
  have hv' := eq_tab v 0
  rw [hl] at hx'
  have hx : zip (· - ·) (tab v.length fun t => i.getD t 0) (tab v.length fun t => v.getD t 0) = .ok x := by
    rw [← hx', ← hv']
    exact hx
  rw [zip_tab] at hx
  cases hx
  have hN := hilbert_ok hz
  have hn : 1 ≤ n := by
    by_contra hn
    have : n ≤ 0 := by omega
    have := mul_nonpos_of_nonneg_of_nonpos (Int.natCast_nonneg v.length) this
    omega
  have h2 : 2 ≤ v.length := by
    by_contra h2
    unfold pyGet pyIndex at hv1
    rw [if_neg (by omega), if_neg (by omega)] at hv1
    cases hv1
  refine ⟨hn, h2, ?_⟩
  have hM : (v.length : ℤ) * n = ((v.length * n.toNat : ℕ) : ℤ) := by
    push_cast
    rw [Int.toNat_of_nonneg (by omega)]
  have hn1 : 1 ≤ n.toNat := by omega
  have hle : v.length ≤ v.length * n.toNat := Nat.le_mul_of_pos_right _ hn1
  rw [hM, hilbert_eq _ (by omega)] at hz
  cases hz
  rw [map_tab, slice_tab (a := 0) (b := v.length) _ _ _ rfl (by simp [bound]; rw [if_neg (by omega)]; omega)
    hle, Nat.sub_zero] at h
  cases h
  apply tab_ext rfl
  intro k _
  rw [zero_add]
  exact hilbert_im _ _ _

/-- Evenly spaced voltages are accepted. -/
theorem kkTrans_even (N : ℕ) (hN : 2 ≤ N) (a d : ℝ) (i : List ℝ) (hl : i.length = N) {n : ℤ} (hn : 1 ≤ n) :
    ∃ r, kkTrans (tab N fun t => a + d * t) i n = .ok r := by
  have i0 : pyIndex N 0 = .ok 0 := pyIndex_nonneg (by omega) (by omega)
  have i1 : pyIndex N 1 = .ok 1 := pyIndex_nonneg (by omega) (by omega)
  have hx' := eq_tab i 0
  rw [hl] at hx'
  have hM : (N : ℤ) * n = ((N * n.toNat : ℕ) : ℤ) := by
    push_cast
    rw [Int.toNat_of_nonneg (by omega)]
  have hn1 : 1 ≤ n.toNat := by omega
  have hle : N ≤ N * n.toNat := Nat.le_mul_of_pos_right _ hn1
  unfold kkTrans
  dsimp only
  rw [pyGet_tab _ i1, py_bind, pyGet_tab _ i0, py_bind,
    slice_tab (a := 1) (b := N) _ _ _ (by simp [bound]; omega) rfl le_rfl,
    slice_tab (a := 0) (b := N - 1) _ _ _ rfl (by simp [bound]; omega) (by omega), Nat.sub_zero, zip_tab,
    py_bind, map_tab, tab_length]
  have hz : ∀ t : ℕ, |a + d * ((1 : ℕ) : ℝ) - (a + d * ((0 : ℕ) : ℝ)) -
      (a + d * ((1 + t : ℕ) : ℝ) - (a + d * ((0 + t : ℕ) : ℝ)))| = 0 := by
    intro t
    rw [abs_eq_zero]
    push_cast
    ring
  simp only [hz]
  obtain ⟨m, hm⟩ := amax_ok (l := tab (N - 1) fun _ => (0 : ℝ)) (by
    intro hh; have := congrArg List.length hh; simp at this; omega)
  have hmem := amax_mem hm
  rw [mem_tab] at hmem
  obtain ⟨_, -, hm0⟩ := hmem
  rw [hm, py_bind, pyAssert_pos (by rw [← hm0]; norm_num), hx', zip_tab, py_bind, hM,
    hilbert_eq _ (by omega), py_bind]
  exact ⟨_, rfl⟩

/-- The sum over the padded array stops at the data. -/
theorem kkAt_sum (N M : ℕ) (hM : N ≤ M) (x : ℕ → ℝ) (k : ℕ) :
    kkAt M (tab N x) k = -(1 / M * ∑ f ∈ Finset.range M, ∑ t ∈ Finset.range N,
      hilbertWeight M f * (x t * Real.sin (2 * Real.pi * f * ((k : ℝ) - t) / M))) := by
  unfold kkAt
  congr 2
  apply Finset.sum_congr rfl
  intro f _
  rw [← Finset.sum_subset (Finset.range_mono hM)]
  · apply Finset.sum_congr rfl
    intro t ht
    rw [tab_getD (Finset.mem_range.1 ht)]
  · intro t _ ht
    rw [List.getD_eq_getElem?_getD, List.getElem?_eq_none (by rw [tab_length]; simpa using ht), Option.getD_none]
    ring

theorem kkAt_zero (M N : ℕ) (hM : N ≤ M) (k : ℕ) : kkAt M (tab N fun _ => 0) k = 0 := by
  rw [kkAt_sum N M hM]
  simp

theorem kkAt_lin (M N : ℕ) (hM : N ≤ M) (x y : ℕ → ℝ) (a b : ℝ) (k : ℕ) :
    kkAt M (tab N fun t => a * x t + b * y t) k = a * kkAt M (tab N x) k + b * kkAt M (tab N y) k := by
  rw [kkAt_sum N M hM, kkAt_sum N M hM, kkAt_sum N M hM]
  have : ∑ f ∈ Finset.range M, ∑ t ∈ Finset.range N, hilbertWeight M f *
        ((a * x t + b * y t) * Real.sin (2 * Real.pi * f * ((k : ℝ) - t) / M))
      = a * (∑ f ∈ Finset.range M, ∑ t ∈ Finset.range N, hilbertWeight M f *
          (x t * Real.sin (2 * Real.pi * f * ((k : ℝ) - t) / M)))
        + b * ∑ f ∈ Finset.range M, ∑ t ∈ Finset.range N, hilbertWeight M f *
          (y t * Real.sin (2 * Real.pi * f * ((k : ℝ) - t) / M)) := by
    rw [Finset.mul_sum, Finset.mul_sum, ← Finset.sum_add_distrib]
    apply Finset.sum_congr rfl
    intro f _
    rw [Finset.mul_sum, Finset.mul_sum, ← Finset.sum_add_distrib]
    apply Finset.sum_congr rfl
    intro t _
    ring
  rw [this]
  ring

theorem kkAt_odd (M N : ℕ) (hM : N ≤ M) (x : ℕ → ℝ) (hx : ∀ t < N, x (N - 1 - t) = -x t) (k : ℕ)
    (hk : k < N) : kkAt M (tab N x) (N - 1 - k) = kkAt M (tab N x) k := by
  rw [kkAt_sum N M hM, kkAt_sum N M hM]
  congr 2
  apply Finset.sum_congr rfl
  intro f _
  rw [← Finset.sum_range_reflect]
  apply Finset.sum_congr rfl
  intro t ht
  have ht := Finset.mem_range.1 ht
  rw [hx t ht, Nat.cast_sub (show k ≤ N - 1 by omega), Nat.cast_sub (show t ≤ N - 1 by omega),
    show 2 * Real.pi * f * (((N - 1 : ℕ) : ℝ) - k - (((N - 1 : ℕ) : ℝ) - t)) / M
      = -(2 * Real.pi * f * ((k : ℝ) - t) / M) by ring, Real.sin_neg]
  ring

/-! ## Harmonics -/

/-- Orthogonality of the exponentials. -/
theorem exp_sum {M : ℕ} (hM : 0 < M) (d : ℤ) :
    ∑ t ∈ Finset.range M, Complex.exp ((2 * Real.pi * d * t / M : ℝ) * Complex.I)
      = if (M : ℤ) ∣ d then (M : ℂ) else 0 := by
  have hζ := Complex.isPrimitiveRoot_exp M hM.ne'
  set ζ := Complex.exp (2 * Real.pi * Complex.I / M) with hζd
  have hM' : (M : ℂ) ≠ 0 := by exact_mod_cast hM.ne'
  have hp : ∀ t : ℕ, Complex.exp ((2 * Real.pi * d * t / M : ℝ) * Complex.I) = (ζ ^ d) ^ t := by
    intro t
    rw [hζd, ← Complex.exp_int_mul, ← Complex.exp_nat_mul]
    congr 1
    push_cast
    field_simp
  simp only [hp]
  by_cases h : (M : ℤ) ∣ d
  · rw [if_pos h, (hζ.zpow_eq_one_iff_dvd d).2 h]
    simp
  · rw [if_neg h]
    have hne : ζ ^ d ≠ 1 := fun hh => h ((hζ.zpow_eq_one_iff_dvd d).1 hh)
    have := mul_neg_geom_sum (ζ ^ d) M
    rw [← zpow_natCast, ← zpow_mul, mul_comm d, zpow_mul, zpow_natCast, hζ.pow_eq_one, one_zpow, sub_self] at this
    rcases mul_eq_zero.1 this with h' | h'
    · exact absurd (sub_eq_zero.1 h').symm hne
    · exact h'

theorem cos_exp (y : ℝ) : (Real.cos y : ℂ)
    = (Complex.exp (y * Complex.I) + Complex.exp ((-y : ℝ) * Complex.I)) / 2 := by
  rw [Complex.ofReal_cos, Complex.cos]
  push_cast
  rfl

/-- The spectrum of a harmonic. -/
theorem fft_cos {M m : ℕ} (hm : 0 < m) (h2 : 2 * m < M) (φ : ℝ) {f : ℕ} (hf : f < M) :
    fft (tab M fun t => Real.cos (2 * Real.pi * m * t / M + φ)) M f
      = if f = m then M / 2 * Complex.exp (φ * Complex.I)
        else if f = M - m then M / 2 * Complex.exp ((-φ : ℝ) * Complex.I) else 0 := by
  have hM : 0 < M := by omega
  unfold fft
  have e : ∀ t ∈ Finset.range M,
      (((tab M fun t => Real.cos (2 * Real.pi * m * t / M + φ)).getD t 0 : ℝ) : ℂ)
        * Complex.exp (-(2 * Real.pi * f * t / M : ℝ) * Complex.I)
      = Complex.exp (φ * Complex.I) / 2 * Complex.exp ((2 * Real.pi * ((m - f : ℤ) : ℝ) * t / M : ℝ) * Complex.I)
        + Complex.exp ((-φ : ℝ) * Complex.I) / 2
          * Complex.exp ((2 * Real.pi * ((-m - f : ℤ) : ℝ) * t / M : ℝ) * Complex.I) := by
    intro t ht
    rw [tab_getD (Finset.mem_range.1 ht), cos_exp, add_div, add_mul, div_mul_eq_mul_div, div_mul_eq_mul_div,
      div_mul_eq_mul_div, div_mul_eq_mul_div, ← Complex.exp_add, ← Complex.exp_add, ← Complex.exp_add,
      ← Complex.exp_add]
    congr 2
    · congr 1
      push_cast
      ring
    · congr 1
      push_cast
      ring
  rw [Finset.sum_congr rfl e, Finset.sum_add_distrib, ← Finset.mul_sum, ← Finset.mul_sum, exp_sum hM,
    exp_sum hM]
  have d1 : (M : ℤ) ∣ (m : ℤ) - f ↔ f = m := by
    constructor
    · rintro ⟨c, hc⟩
      have : c < 1 := by by_contra hh; nlinarith
      have : -1 < c := by by_contra hh; nlinarith
      have : c = 0 := by omega
      subst this
      omega
    · rintro rfl; simp
  have d2 : (M : ℤ) ∣ -(m : ℤ) - f ↔ f = M - m := by
    constructor
    · rintro ⟨c, hc⟩
      have : c < 0 := by by_contra hh; nlinarith
      have : -2 < c := by by_contra hh; nlinarith
      have : c = -1 := by omega
      subst this
      omega
    · rintro rfl
      exact ⟨-1, by push_cast [Nat.cast_sub (show m ≤ M by omega)]; ring⟩
  simp only [d1, d2]
  by_cases h : f = m
  · rw [if_pos h, if_neg (by omega), if_pos h]
    ring
  · rw [if_neg h, if_neg h]
    by_cases h' : f = M - m
    · rw [if_pos h', if_pos h']
      ring
    · rw [if_neg h', if_neg h']
      ring

theorem hilbertWeight_pos {M m : ℕ} (hm : 0 < m) (h2 : 2 * m < M) : hilbertWeight M m = 2 := by
  unfold hilbertWeight
  rw [if_neg (by omega)]
  split_ifs <;> first | rfl | omega

theorem hilbertWeight_neg {M m : ℕ} (hm : 0 < m) (h2 : 2 * m < M) : hilbertWeight M (M - m) = 0 := by
  unfold hilbertWeight
  rw [if_neg (by omega)]
  split_ifs <;> first | rfl | omega

/-- A harmonic is turned by a quarter of a period. -/
theorem kkAt_cos {M m : ℕ} (hm : 0 < m) (h2 : 2 * m < M) (φ : ℝ) (k : ℕ) :
    kkAt M (tab M fun t => Real.cos (2 * Real.pi * m * t / M + φ)) k
      = -Real.sin (2 * Real.pi * m * k / M + φ) := by
  have hM : (M : ℂ) ≠ 0 := by exact_mod_cast (show M ≠ 0 by omega)
  rw [← hilbert_im, Finset.sum_eq_single m]
  · rw [fft_cos hm h2 φ (by omega), if_pos rfl, hilbertWeight_pos hm h2, ← Complex.exp_ofReal_mul_I_im]
    congr 2
    push_cast
    rw [add_mul, Complex.exp_add]
    field_simp
  · intro f hf hne
    rw [fft_cos hm h2 φ (Finset.mem_range.1 hf), if_neg hne]
    by_cases h : f = M - m
    · rw [if_pos h, h, hilbertWeight_neg hm h2]
      simp
    · rw [if_neg h]
      simp
  · intro h
    exact absurd (Finset.mem_range.2 (by omega)) h

/-- A constant is lost. -/
theorem kkAt_const {M : ℕ} (hM : 0 < M) (c : ℝ) (k : ℕ) : kkAt M (tab M fun _ => c) k = 0 := by
  rw [← hilbert_im]
  have e : ∀ f < M, fft (tab M fun _ => c) M f = if f = 0 then (M : ℂ) * (c : ℂ) else 0 := by
    intro f hf
    unfold fft
    have e : ∀ t ∈ Finset.range M, (((tab M fun _ => c).getD t 0 : ℝ) : ℂ)
        * Complex.exp (-(2 * Real.pi * f * t / M : ℝ) * Complex.I)
        = c * Complex.exp ((2 * Real.pi * ((-f : ℤ) : ℝ) * t / M : ℝ) * Complex.I) := by
      intro t ht
      rw [tab_getD (Finset.mem_range.1 ht)]
      congr 2
      push_cast
      ring
    rw [Finset.sum_congr rfl e, ← Finset.mul_sum, exp_sum hM]
    by_cases h : f = 0
    · rw [if_pos h, if_pos (by simp [h])]
      ring
    · rw [if_neg h, if_neg, mul_zero]
      rintro ⟨d, hd⟩
      have hf0 : (0 : ℤ) < f := by omega
      have : d < 0 := by by_contra hh; nlinarith
      have : (-1 : ℤ) < d := by by_contra hh; nlinarith
      omega
  rw [Finset.sum_eq_single 0]
  · rw [e 0 hM, if_pos rfl]
    simp only [Nat.cast_zero, mul_zero, zero_mul, zero_div, Complex.ofReal_zero, Complex.exp_zero, mul_one]
    rw [show (1 / (M : ℂ) * ((hilbertWeight M 0 : ℂ) * ((M : ℂ) * c)))
      = ((1 / M * (hilbertWeight M 0 * (M * c)) : ℝ) : ℂ) by push_cast; ring, Complex.ofReal_im, neg_zero]
  · intro f hf hne
    rw [e f (Finset.mem_range.1 hf), if_neg hne]
    simp
  · intro h
    exact absurd (Finset.mem_range.2 hM) h

end QMix.MathFn
