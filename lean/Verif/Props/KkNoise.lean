import Verif.Props.KkTrans
import Mathlib.Analysis.SpecialFunctions.Log.Basic
import Mathlib.Analysis.Complex.ExponentialBounds

/-! # Errors of the dc I-V curve in its Kramers-Kronig transform (C182) -/

namespace QMix.Props

open QMix.MathFn QMix.Np

/-- The reciprocals of the odd numbers. -/
noncomputable def oddInv (j : ℕ) : ℝ := if j % 2 = 1 then 1 / j else 0

theorem oddInv_nonneg (j : ℕ) : 0 ≤ oddInv j := by
  unfold oddInv
  split_ifs <;> positivity

theorem sum_oddInv (q : ℕ) : ∑ j ∈ Finset.range (2 * q + 2), oddInv j ≤ 1 + Real.log (2 * q + 1) / 2 ∧
    Real.log (2 * q + 3) / 2 ≤ ∑ j ∈ Finset.range (2 * q + 2), oddInv j := by
  induction q with
  | zero =>
    have h : ∑ j ∈ Finset.range (2 * 0 + 2), oddInv j = 1 := by norm_num [Finset.sum_range_succ, oddInv]
    rw [h]
    norm_num
    have := Real.log_le_sub_one_of_pos (show (0 : ℝ) < 3 by norm_num)
    linarith
  | succ q ih =>
    have h : ∑ j ∈ Finset.range (2 * (q + 1) + 2), oddInv j = ∑ j ∈ Finset.range (2 * q + 2), oddInv j + 1 / (2 * q + 3) := by
      rw [show 2 * (q + 1) + 2 = 2 * q + 2 + 1 + 1 by ring, Finset.sum_range_succ, Finset.sum_range_succ]
      have a : oddInv (2 * q + 2) = 0 := by
        unfold oddInv
        rw [if_neg (by omega)]
      have b : oddInv (2 * q + 2 + 1) = 1 / (2 * q + 3) := by
        unfold oddInv
        rw [if_pos (by omega)]
        push_cast
        ring
      rw [a, b, add_zero]
    rw [h]
    have q0 : (0 : ℝ) ≤ q := Nat.cast_nonneg q
    push_cast
    constructor
    · have a := Real.one_sub_inv_le_log_of_pos (show (0 : ℝ) < (2 * q + 3) / (2 * q + 1) by positivity)
      rw [Real.log_div (by positivity) (by positivity)] at a
      have e : 1 - ((2 * (q : ℝ) + 3) / (2 * q + 1))⁻¹ = 2 * (1 / (2 * q + 3)) := by
        field_simp
        ring
      rw [e] at a
      rw [show 2 * ((q : ℝ) + 1) + 1 = 2 * q + 3 by ring]
      linarith [ih.1]
    · have a := Real.log_le_sub_one_of_pos (show (0 : ℝ) < (2 * q + 5) / (2 * q + 3) by positivity)
      rw [Real.log_div (by positivity) (by positivity)] at a
      have e : (2 * (q : ℝ) + 5) / (2 * q + 3) - 1 = 2 * (1 / (2 * q + 3)) := by
        field_simp
        ring
      rw [e] at a
      rw [show 2 * ((q : ℝ) + 1) + 3 = 2 * q + 5 by ring]
      linarith [ih.2]

theorem sum_oddInv_le {m : ℕ} (hm : 1 ≤ m) : ∑ j ∈ Finset.range m, oddInv j ≤ 1 + Real.log m / 2 := by
  rcases Nat.eq_or_lt_of_le hm with rfl | h
  · norm_num [oddInv]
  have h1 : ∑ j ∈ Finset.range m, oddInv j ≤ ∑ j ∈ Finset.range (2 * ((m - 1) / 2) + 2), oddInv j := by
    refine Finset.sum_le_sum_of_subset_of_nonneg (fun x hx => ?_) fun j _ _ => oddInv_nonneg j
    rw [Finset.mem_range] at hx ⊢
    omega
  refine h1.trans ((sum_oddInv _).1.trans ?_)
  have h2 : (2 * ((m - 1) / 2 : ℕ) + 1 : ℝ) ≤ m := by
    have : 2 * ((m - 1) / 2) + 1 ≤ m := by omega
    exact_mod_cast this
  have := Real.log_le_log (by positivity) h2
  linarith

theorem le_sum_oddInv (m : ℕ) : Real.log (m + 1) / 2 ≤ ∑ j ∈ Finset.range (m + 1), oddInv j := by
  rcases Nat.eq_zero_or_pos m with rfl | h
  · norm_num [oddInv]
  have h1 : ∑ j ∈ Finset.range (2 * ((m - 1) / 2) + 2), oddInv j ≤ ∑ j ∈ Finset.range (m + 1), oddInv j := by
    refine Finset.sum_le_sum_of_subset_of_nonneg (fun x hx => ?_) fun j _ _ => oddInv_nonneg j
    rw [Finset.mem_range] at hx ⊢
    omega
  refine le_trans ?_ ((sum_oddInv _).2.trans h1)
  have h2 : ((m : ℝ) + 1) ≤ 2 * ((m - 1) / 2 : ℕ) + 3 := by
    have : m + 1 ≤ 2 * ((m - 1) / 2) + 3 := by omega
    exact_mod_cast this
  have := Real.log_le_log (by positivity) h2
  linarith

theorem abs_pvKernel (j : ℤ) : |pvKernel j| = 2 / Real.pi * oddInv j.natAbs := by
  unfold pvKernel oddInv
  by_cases h : j % 2 = 1
  · rw [if_pos h, if_pos (by omega), abs_div, abs_mul, abs_of_pos Real.pi_pos, Nat.cast_natAbs, abs_of_pos two_pos]
    push_cast
    rw [div_mul_div_comm, mul_one]
  · rw [if_neg h, if_neg (by omega), abs_zero, mul_zero]

theorem sum_abs_pvKernel {N k : ℕ} (hk : k < N) : ∑ t ∈ Finset.range N, |pvKernel ((t : ℤ) - k)| ≤ 2 / Real.pi * (2 + Real.log N) := by
  simp only [abs_pvKernel]
  rw [← Finset.mul_sum]
  refine mul_le_mul_of_nonneg_left ?_ (by positivity)
  rw [← Finset.sum_range_add_sum_Ico _ hk.le]
  have h1 : ∑ t ∈ Finset.range k, oddInv ((t : ℤ) - k).natAbs = ∑ j ∈ Finset.range (k + 1), oddInv j := by
    rw [Finset.sum_range_succ', ← Finset.sum_range_reflect]
    have : oddInv 0 = 0 := by norm_num [oddInv]
    rw [this, add_zero]
    refine Finset.sum_congr rfl fun t ht => ?_
    rw [Finset.mem_range] at ht
    congr 1
    omega
  have h2 : ∑ t ∈ Finset.Ico k N, oddInv ((t : ℤ) - k).natAbs = ∑ j ∈ Finset.range (N - k), oddInv j := by
    rw [Finset.sum_Ico_eq_sum_range]
    refine Finset.sum_congr rfl fun t ht => ?_
    congr 1
    omega
  rw [h1, h2]
  have a := sum_oddInv_le (show 1 ≤ k + 1 by omega)
  have b := sum_oddInv_le (show 1 ≤ N - k by omega)
  have a' := Real.log_le_log (show (0 : ℝ) < (k + 1 : ℕ) by positivity) (show ((k + 1 : ℕ) : ℝ) ≤ N by exact_mod_cast hk)
  have b' := Real.log_le_log (show (0 : ℝ) < (N - k : ℕ) by exact_mod_cast (by omega : 0 < N - k))
    (show ((N - k : ℕ) : ℝ) ≤ N by exact_mod_cast (by omega : N - k ≤ N))
  linarith

/-- C182. Errors of the current up to `ν` change `kk_trans` by at most `ν (5 / n ^ 2 + 2 / π (2 + log N))` at every point. -/
theorem C182_noise {v i i' r r' : List ℝ} {n : ℤ} (hn : 2 ≤ n) (hl : i.length = v.length) (hl' : i'.length = v.length)
    (h : kkTrans v i n = .ok r) (h' : kkTrans v i' n = .ok r') {ν : ℝ} (hν : ∀ t < v.length, |i.getD t 0 - i'.getD t 0| ≤ ν) :
    ∀ k < v.length, |r.getD k 0 - r'.getD k 0| ≤ ν * (5 / n ^ 2 + 2 / Real.pi * (2 + Real.log v.length)) := by
  intro k hk
  obtain ⟨-, -, rfl⟩ := kkTrans_ok hl h
  obtain ⟨-, -, rfl⟩ := kkTrans_ok hl' h'
  obtain ⟨m, rfl⟩ : ∃ m : ℕ, n = m := ⟨n.toNat, by omega⟩
  have hm : 2 ≤ m := by exact_mod_cast hn
  rw [tab_getD hk, tab_getD hk, Int.toNat_natCast]
  have hle : v.length ≤ v.length * m := Nat.le_mul_of_pos_right _ (by omega)
  have e := kkAt_lin (v.length * m) v.length hle (fun t => i.getD t 0 - v.getD t 0) (fun t => i'.getD t 0 - v.getD t 0) 1 (-1) k
  rw [one_mul, neg_one_mul, ← sub_eq_add_neg] at e
  rw [← e]
  have hB : ∀ t < v.length, |1 * (i.getD t 0 - v.getD t 0) + -1 * (i'.getD t 0 - v.getD t 0)| ≤ ν := fun t ht => by
    rw [show 1 * (i.getD t 0 - v.getD t 0) + -1 * (i'.getD t 0 - v.getD t 0) = i.getD t 0 - i'.getD t 0 by ring]
    exact hν t ht
  have h1 := kkAt_near v.length m (by omega) hm (fun t => 1 * (i.getD t 0 - v.getD t 0) + -1 * (i'.getD t 0 - v.getD t 0)) hB hk
  have h2 : |∑ t ∈ Finset.range v.length, (1 * (i.getD t 0 - v.getD t 0) + -1 * (i'.getD t 0 - v.getD t 0)) * pvKernel ((t : ℤ) - k)|
      ≤ ν * (2 / Real.pi * (2 + Real.log v.length)) := by
    refine (Finset.abs_sum_le_sum_abs _ _).trans (le_trans ?_ (mul_le_mul_of_nonneg_left (sum_abs_pvKernel hk) ((abs_nonneg _).trans (hν k hk))))
    rw [Finset.mul_sum]
    refine Finset.sum_le_sum fun t ht => ?_
    rw [abs_mul]
    exact mul_le_mul_of_nonneg_right (hB t (Finset.mem_range.1 ht)) (abs_nonneg _)
  have h3 := abs_sub_abs_le_abs_sub (kkAt (v.length * m) (tab v.length fun t => 1 * (i.getD t 0 - v.getD t 0) + -1 * (i'.getD t 0 - v.getD t 0)) k)
    (∑ t ∈ Finset.range v.length, (1 * (i.getD t 0 - v.getD t 0) + -1 * (i'.getD t 0 - v.getD t 0)) * pvKernel ((t : ℤ) - k))
  have e3 : 5 * ν / (m : ℝ) ^ 2 = ν * (5 / (m : ℝ) ^ 2) := by ring
  push_cast
  linarith

/-- C182. The logarithm is needed: on every even grid, for every current, some errors of size `ν` change `kk_trans` by
`ν (log N / π - 5 / n ^ 2)` or more. -/
theorem C182_sharp {N : ℕ} (hN : 2 ≤ N) (a d : ℝ) {i : List ℝ} (hl : i.length = N) {n : ℤ} (hn : 2 ≤ n) {ν : ℝ} (hν : 0 ≤ ν) :
    ∃ i' r r', i'.length = N ∧ kkTrans (tab N fun t => a + d * t) i n = .ok r ∧ kkTrans (tab N fun t => a + d * t) i' n = .ok r' ∧
      (∀ t < N, |i.getD t 0 - i'.getD t 0| ≤ ν) ∧ ν * (Real.log N / Real.pi - 5 / n ^ 2) ≤ |r.getD 0 0 - r'.getD 0 0| := by
  set i' : List ℝ := tab N fun t => i.getD t 0 - ν * SignType.sign (pvKernel ((t : ℤ) - (0 : ℕ))) with hi'
  obtain ⟨r, hr⟩ := kkTrans_even N hN a d i hl (by omega : 1 ≤ n)
  obtain ⟨r', hr'⟩ := kkTrans_even N hN a d i' (tab_length _ _) (by omega : 1 ≤ n)
  have sgn : ∀ x : ℝ, |((SignType.sign x : SignType) : ℝ)| ≤ 1 := fun x => by
    rcases lt_trichotomy x 0 with h | h | h
    · rw [sign_neg h]; simp
    · rw [h, sign_zero]; simp
    · rw [sign_pos h]; simp
  have hd : ∀ t < N, i.getD t 0 - i'.getD t 0 = ν * SignType.sign (pvKernel ((t : ℤ) - (0 : ℕ))) := fun t ht => by
    rw [hi', tab_getD ht]
    ring
  have hB : ∀ t < N, |i.getD t 0 - i'.getD t 0| ≤ ν := fun t ht => by
    rw [hd t ht, abs_mul, abs_of_nonneg hν]
    exact mul_le_of_le_one_right hν (sgn _)
  refine ⟨i', r, r', tab_length _ _, hr, hr', hB, ?_⟩
  obtain ⟨-, -, rfl⟩ := kkTrans_ok (by rw [hl, tab_length]) hr
  obtain ⟨-, -, rfl⟩ := kkTrans_ok (by rw [tab_length, tab_length]) hr'
  obtain ⟨m, rfl⟩ : ∃ m : ℕ, n = m := ⟨n.toNat, by omega⟩
  have hm : 2 ≤ m := by exact_mod_cast hn
  rw [tab_length, tab_getD (by omega), tab_getD (by omega), Int.toNat_natCast]
  have hle : N ≤ N * m := Nat.le_mul_of_pos_right _ (by omega)
  set v : List ℝ := tab N fun t : ℕ => a + d * t
  have e := kkAt_lin (N * m) N hle (fun t => i.getD t 0 - v.getD t 0) (fun t => i'.getD t 0 - v.getD t 0) 1 (-1) 0
  rw [one_mul, neg_one_mul, ← sub_eq_add_neg] at e
  rw [← e]
  have hx : (tab N fun t => 1 * (i.getD t 0 - v.getD t 0) + -1 * (i'.getD t 0 - v.getD t 0)) = tab N fun t => i.getD t 0 - i'.getD t 0 :=
    tab_ext rfl fun t _ => by ring
  rw [hx]
  have h1 := kkAt_near N m (by omega) hm (fun t => i.getD t 0 - i'.getD t 0) hB (k := 0) (by omega)
  have h2 : ∑ t ∈ Finset.range N, (i.getD t 0 - i'.getD t 0) * pvKernel ((t : ℤ) - (0 : ℕ)) = ν * (2 / Real.pi * ∑ j ∈ Finset.range N, oddInv j) := by
    rw [Finset.mul_sum, Finset.mul_sum]
    refine Finset.sum_congr rfl fun t ht => ?_
    rw [hd t (Finset.mem_range.1 ht), mul_assoc, sign_mul_self, abs_pvKernel]
    congr 3
  have h3 : Real.log N / 2 ≤ ∑ j ∈ Finset.range N, oddInv j := by
    have := le_sum_oddInv (N - 1)
    rwa [Nat.sub_add_cancel (by omega), ← Nat.cast_add_one, Nat.sub_add_cancel (by omega)] at this
  have h4 : ν * (Real.log N / Real.pi) ≤ ν * (2 / Real.pi * ∑ j ∈ Finset.range N, oddInv j) := by
    refine mul_le_mul_of_nonneg_left ?_ hν
    have := mul_le_mul_of_nonneg_left h3 (show 0 ≤ 2 / Real.pi by positivity)
    refine le_of_eq_of_le ?_ this
    ring
  rw [← h2] at h4
  have e3 : 5 * ν / (m : ℝ) ^ 2 = ν * (5 / (m : ℝ) ^ 2) := by ring
  have h5 := abs_le.1 h1
  have h6 := le_abs_self (kkAt (N * m) (tab N fun t => i.getD t 0 - i'.getD t 0) 0)
  rw [Int.cast_natCast, mul_sub]
  linarith

/-- A thousand points, the padding that `RespFn` uses, errors of 0.001: the transform is within 0.0058. -/
example {i i' : List ℝ} (hl : i.length = 1000) (hl' : i'.length = 1000) (hν : ∀ t < 1000, |i.getD t 0 - i'.getD t 0| ≤ 0.001) :
    ∃ r r', kkTrans (tab 1000 fun t => -2 + 0.004 * t) i 50 = .ok r ∧ kkTrans (tab 1000 fun t => -2 + 0.004 * t) i' 50 = .ok r' ∧
      ∀ k < 1000, |r.getD k 0 - r'.getD k 0| ≤ 0.0058 := by
  obtain ⟨r, hr⟩ := kkTrans_even 1000 (by norm_num) (-2) 0.004 i hl (by norm_num : (1 : ℤ) ≤ 50)
  obtain ⟨r', hr'⟩ := kkTrans_even 1000 (by norm_num) (-2) 0.004 i' hl' (by norm_num : (1 : ℤ) ≤ 50)
  refine ⟨r, r', hr, hr', fun k hk => ?_⟩
  have hN : (tab 1000 fun t : ℕ => -2 + (0.004 : ℝ) * t).length = 1000 := tab_length _ _
  have := C182_noise (by norm_num) (by rw [hl, hN]) (by rw [hl', hN]) hr hr' (by rw [hN]; exact hν) k (by rw [hN]; exact hk)
  rw [hN] at this
  refine this.trans ?_
  have h1 : Real.log (1000 : ℕ) ≤ 6.98 := by
    have h2 := Real.log_two_lt_d9
    have : Real.log (1000 : ℕ) ≤ Real.log (2 ^ 10) := Real.log_le_log (by norm_num) (by norm_num)
    rw [Real.log_pow] at this
    push_cast at this ⊢
    linarith
  have h3 : 2 / Real.pi * (2 + Real.log (1000 : ℕ)) ≤ 0.6371 * 8.98 := by
    refine mul_le_mul ?_ (by linarith) (by positivity) (by norm_num)
    rw [div_le_iff₀ Real.pi_pos]
    have := Real.pi_gt_d2
    linarith
  have : (0.001 : ℝ) * (5 / ((50 : ℤ) : ℝ) ^ 2 + 2 / Real.pi * (2 + Real.log (1000 : ℕ))) ≤ 0.001 * (5 / 50 ^ 2 + 0.6371 * 8.98) := by
    push_cast at h3 ⊢
    linarith
  refine this.trans ?_
  norm_num

end QMix.Props
