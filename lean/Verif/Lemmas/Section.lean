import Verif.Lemmas.Truncation2

/-! # The truncated phase-factor coefficients have a norm of at most one

Multiplication by a phase factor is a unitary operator on sequences. The harmonic convolution with equal limits is a product of
sections of such operators. -/

namespace QMix.Spec

open Complex Finset

theorem ja_orth (v : ℂ) (w : ℝ) (p : ℕ) (a : ℤ) :
    HasSum (fun k : ℤ => jaFull v w p k * (starRingEnd ℂ) (jaFull v w p (k + a))) (if a = 0 then 1 else 0) := by
  have h := phaseCoeff_orth (fun _ => v) (p * w) 1 a
  have e : ∀ k, phaseCoeff (fun _ => v) (p * w) 1 k = jaFull v w p k := by
    intro k
    rw [phaseCoeff_one]
    unfold jaFull
    norm_num
  simpa only [e] using h

/-- The coefficients of the phase factor of harmonic `p`. -/
noncomputable def spread (A : ℤ → ℂ) (p : ℕ) (m : ℤ) : ℂ := if (p : ℤ) ∣ m then A (m / p) else 0

theorem spread_mul (A : ℤ → ℂ) {p : ℕ} (hp : 0 < p) (l : ℤ) : spread A p (p * l) = A l := by
  have : (p : ℤ) ≠ 0 := by exact_mod_cast hp.ne'
  rw [spread, if_pos (dvd_mul_right _ _), Int.mul_ediv_cancel_left _ this]

theorem spread_orth (v : ℂ) (w : ℝ) {p : ℕ} (hp : 0 < p) (d : ℤ) :
    HasSum (fun m : ℤ => spread (jaFull v w p) p m * (starRingEnd ℂ) (spread (jaFull v w p) p (m + d))) (if d = 0 then 1 else 0) := by
  have p0 : (p : ℤ) ≠ 0 := by exact_mod_cast hp.ne'
  by_cases hd : (p : ℤ) ∣ d
  · obtain ⟨e, rfl⟩ := hd
    have inj : Function.Injective fun l : ℤ => (p : ℤ) * l := fun a b h => mul_left_cancel₀ p0 h
    rw [← inj.hasSum_iff]
    · have := ja_orth v w p e
      have e0 : (p : ℤ) * e = 0 ↔ e = 0 := by rw [mul_eq_zero, or_iff_right p0]
      simp only [e0]
      convert this using 2 with l
      simp only [Function.comp_apply]
      rw [← mul_add, spread_mul _ hp, spread_mul _ hp]
    · intro m hm
      have : ¬ (p : ℤ) ∣ m := fun ⟨l, hl⟩ => hm ⟨l, hl.symm⟩
      simp [spread, this]
  · have d0 : d ≠ 0 := fun h => hd (h ▸ dvd_zero _)
    rw [if_neg d0]
    have : (fun m : ℤ => spread (jaFull v w p) p m * (starRingEnd ℂ) (spread (jaFull v w p) p (m + d))) = fun _ => 0 := by
      funext m
      by_cases hm : (p : ℤ) ∣ m
      · have : ¬ (p : ℤ) ∣ m + d := fun h => hd ((dvd_add_right hm).1 h)
        simp [spread, this]
      · simp [spread, hm]
    rw [this]
    exact hasSum_zero

/-- Convolution with the coefficients of a phase factor does not change the norm; a part of the result has at most this norm. -/
theorem section_le (v : ℂ) (w : ℝ) {p : ℕ} (hp : 0 < p) (u : ℤ → ℂ) (s t : Finset ℤ) :
    ∑ k ∈ t, ‖∑ j ∈ s, u j * spread (jaFull v w p) p (k - j)‖ ^ 2 ≤ ∑ j ∈ s, ‖u j‖ ^ 2 := by
  set B := spread (jaFull v w p) p with hB
  have h1 : ∀ i j : ℤ, HasSum (fun k : ℤ => B (k - i) * (starRingEnd ℂ) (B (k - j))) (if i = j then 1 else 0) := by
    intro i j
    have := ((Equiv.subRight i).hasSum_iff).2 (spread_orth v w hp (i - j))
    simp only [sub_eq_zero] at this
    have e : (fun k : ℤ => B (k - i) * (starRingEnd ℂ) (B (k - j))) =
        (fun m : ℤ => B m * (starRingEnd ℂ) (B (m + (i - j)))) ∘ Equiv.subRight i := by
      funext k
      simp only [Function.comp_apply, Equiv.subRight_apply]
      rw [show k - i + (i - j) = k - j by ring]
    rw [e]
    exact this
  have h2 : HasSum (fun k : ℤ => ∑ i ∈ s, ∑ j ∈ s, u i * (starRingEnd ℂ) (u j) * (B (k - i) * (starRingEnd ℂ) (B (k - j))))
      (∑ i ∈ s, ∑ j ∈ s, u i * (starRingEnd ℂ) (u j) * if i = j then 1 else 0) :=
    hasSum_sum fun i _ => hasSum_sum fun j _ => (h1 i j).mul_left _
  have e1 : ∀ k : ℤ, ∑ i ∈ s, ∑ j ∈ s, u i * (starRingEnd ℂ) (u j) * (B (k - i) * (starRingEnd ℂ) (B (k - j)))
      = ((‖∑ j ∈ s, u j * B (k - j)‖ ^ 2 : ℝ) : ℂ) := by
    intro k
    rw [← normSq_eq_norm_sq, normSq_eq_conj_mul_self, map_sum, sum_mul_sum, sum_comm]
    refine sum_congr rfl fun i _ => sum_congr rfl fun j _ => ?_
    rw [map_mul]
    ring
  have e2 : ∑ i ∈ s, ∑ j ∈ s, u i * (starRingEnd ℂ) (u j) * (if i = j then 1 else 0) = ((∑ j ∈ s, ‖u j‖ ^ 2 : ℝ) : ℂ) := by
    rw [ofReal_sum]
    refine sum_congr rfl fun i hi => ?_
    simp only [mul_ite, mul_one, mul_zero]
    rw [sum_ite_eq, if_pos hi, mul_conj, normSq_eq_norm_sq]
  rw [e2] at h2
  simp only [e1] at h2
  have h3 := hasSum_ofReal.1 h2
  exact sum_le_hasSum t (fun k _ => by positivity) h3

/-- The convolution with harmonic `p + 1` as a convolution with the coefficients of its phase factor. -/
theorem conv_spread {M p : ℕ} (hp : 2 ≤ p) (C A : ℤ → ℂ) {k : ℤ} (hk : |k| ≤ (M : ℤ)) :
    ∑ l ∈ Icc (-(M : ℤ)) M, (if |k - (p : ℤ) * l| ≤ M then C (k - p * l) * A l else 0)
      = ∑ j ∈ Icc (-(M : ℤ)) M, C j * spread A p (k - j) := by
  have p0 : (p : ℤ) ≠ 0 := by exact_mod_cast (by omega : p ≠ 0)
  have h : ∀ j ∈ Icc (-(M : ℤ)) M, C j * spread A p (k - j)
      = ∑ l ∈ Icc (-(M : ℤ)) M, if j = k - p * l then C j * A l else 0 := by
    intro j hj
    by_cases hd : (p : ℤ) ∣ k - j
    · obtain ⟨e, he⟩ := hd
      have hj' := mem_Icc.1 hj
      have hk' := abs_le.1 hk
      have hp' : (2 : ℤ) ≤ p := by exact_mod_cast hp
      have e1 : e ∈ Icc (-(M : ℤ)) M := by
        rw [mem_Icc]
        constructor
        · by_contra hc
          have : (p : ℤ) * e ≤ 2 * e := by nlinarith
          omega
        · by_contra hc
          have : 2 * e ≤ (p : ℤ) * e := by nlinarith
          omega
      rw [he, spread_mul A (by omega), sum_eq_single_of_mem e e1]
      · rw [if_pos (by linarith)]
      · intro l _ hl
        rw [if_neg]
        intro h
        apply hl
        have : (p : ℤ) * l = p * e := by linarith
        exact mul_left_cancel₀ p0 this
    · rw [spread, if_neg hd, mul_zero]
      symm
      refine sum_eq_zero fun l _ => if_neg fun h => hd ⟨l, by linarith⟩
  rw [sum_congr rfl h, sum_comm]
  refine sum_congr rfl fun l _ => ?_
  rw [sum_ite_eq']
  simp only [mem_Icc, abs_le]

theorem harmonicConv_fst (A : ℕ → ℤ → ℂ) (M : ℕ) {k : ℤ} (hk : |k| ≤ (M : ℤ)) : harmonicConv M A 1 k = A 1 k := by
  have hk' := abs_le.1 hk
  simp only [harmonicConv]
  rw [sum_eq_single_of_mem k (mem_Icc.2 hk')]
  · rw [show k - ((0 + 1 : ℕ) : ℤ) * k = 0 by push_cast; ring, if_pos (by simp), if_pos rfl, one_mul]
  · intro l _ hl
    rw [if_neg (show ¬k - ((0 + 1 : ℕ) : ℤ) * l = 0 by push_cast; omega)]
    simp

theorem sum_ja_sq_le (v : ℂ) (w : ℝ) (p : ℕ) (s : Finset ℤ) : ∑ k ∈ s, ‖jaFull v w p k‖ ^ 2 ≤ 1 := by
  have h := ja_orth v w p 0
  rw [if_pos rfl] at h
  have e : ∀ k, jaFull v w p k * (starRingEnd ℂ) (jaFull v w p (k + 0)) = ((‖jaFull v w p k‖ ^ 2 : ℝ) : ℂ) := by
    intro k
    rw [add_zero, mul_conj, normSq_eq_norm_sq]
  simp only [e] at h
  rw [← ofReal_one] at h
  exact sum_le_hasSum s (fun k _ => by positivity) (hasSum_ofReal.1 h)

theorem spread_congr {A B : ℤ → ℂ} {M p : ℕ} (hp : 2 ≤ p) (h : ∀ l : ℤ, |l| ≤ (M : ℤ) → A l = B l) {k j : ℤ} (hk : |k| ≤ (M : ℤ))
    (hj : |j| ≤ (M : ℤ)) : spread A p (k - j) = spread B p (k - j) := by
  unfold spread
  by_cases hd : (p : ℤ) ∣ k - j
  · rw [if_pos hd, if_pos hd]
    refine h _ ?_
    obtain ⟨e, he⟩ := hd
    have p0 : (p : ℤ) ≠ 0 := by exact_mod_cast (by omega : p ≠ 0)
    rw [he, Int.mul_ediv_cancel_left _ p0]
    have hk' := abs_le.1 hk
    have hj' := abs_le.1 hj
    have hp' : (2 : ℤ) ≤ p := by exact_mod_cast hp
    rw [abs_le]
    constructor
    · by_contra hc
      have : (p : ℤ) * e ≤ 2 * e := by nlinarith
      omega
    · by_contra hc
      have : 2 * e ≤ (p : ℤ) * e := by nlinarith
      omega
  · rw [if_neg hd, if_neg hd]

/-- Equal limits: the squares of the coefficients add up to at most 1, whatever the limit is. -/
theorem conv_sq_le (v : ℕ → ℂ) (w : ℝ) (M P : ℕ) :
    ∑ k ∈ Icc (-(M : ℤ)) M, ‖toneCoeff v w P M M k‖ ^ 2 ≤ 1 := by
  unfold toneCoeff
  induction P with
  | zero =>
    simp only [harmonicConv]
    rw [sum_eq_single_of_mem 0 (mem_Icc.2 (by omega))]
    · simp
    · intro k _ hk
      simp [hk]
  | succ P ih =>
    rcases Nat.eq_zero_or_pos P with rfl | hP
    · refine le_trans (le_of_eq ?_) (sum_ja_sq_le (v 1) w 1 (Icc (-(M : ℤ)) M))
      refine sum_congr rfl fun k hk => ?_
      have hk' := abs_le.2 (mem_Icc.1 hk)
      rw [zero_add, harmonicConv_fst _ _ hk', jacobiAnger, if_pos hk']
      rfl
    · refine le_trans (le_of_eq ?_) (le_trans (section_le (v (P + 1)) w (p := P + 1) (by omega)
        (harmonicConv M (fun p => jacobiAnger (v p) w p M) P) (Icc (-(M : ℤ)) M) (Icc (-(M : ℤ)) M)) ih)
      refine sum_congr rfl fun k hk => ?_
      have hk' := abs_le.2 (mem_Icc.1 hk)
      congr 2
      rw [harmonicConv]
      rw [conv_spread (by omega) _ _ hk']
      refine sum_congr rfl fun j hj => ?_
      congr 1
      refine spread_congr (by omega) (fun l hl => ?_) hk' (abs_le.2 (mem_Icc.1 hj))
      rw [jacobiAnger, if_pos hl]
      rfl

/-- At most two harmonics: a larger array makes no difference. -/
theorem toneCoeff_two (v : ℕ → ℂ) (w : ℝ) {nb M : ℕ} (h : nb ≤ M) {k : ℤ} (hk : |k| ≤ (nb : ℤ)) :
    toneCoeff v w 2 nb M k = toneCoeff v w 2 nb nb k := by
  unfold toneCoeff
  rw [harmonicConv, harmonicConv]
  have hM : (nb : ℤ) ≤ M := by exact_mod_cast h
  rw [← sum_subset (s₁ := Icc (-(nb : ℤ)) nb)]
  · refine sum_congr rfl fun l hl => ?_
    by_cases h1 : |k - ((1 + 1 : ℕ) : ℤ) * l| ≤ (nb : ℤ)
    · rw [if_pos h1, if_pos (h1.trans hM), harmonicConv_fst _ _ h1, harmonicConv_fst _ _ (h1.trans hM)]
    · rw [if_neg h1]
      split_ifs with h2
      · rw [harmonicConv_fst _ _ h2, jacobiAnger, if_neg h1, zero_mul]
      · rfl
  · intro l hl
    rw [mem_Icc] at hl ⊢
    omega
  · intro l _ hl
    have : ¬ |l| ≤ (nb : ℤ) := fun h' => hl (mem_Icc.2 (abs_le.1 h'))
    rw [jacobiAnger, if_neg this, mul_zero, ite_self]

/-- The squares of the coefficients that are used add up to at most 1. -/
theorem toneCoeff_sq_le (v : ℕ → ℂ) (w : ℝ) {P nb M : ℕ} (h : nb ≤ M) (hP : P ≤ 2 ∨ nb = M) :
    ∑ k ∈ Icc (-(nb : ℤ)) nb, ‖toneCoeff v w P nb M k‖ ^ 2 ≤ 1 := by
  rcases hP with hP | rfl
  · refine le_trans (le_of_eq (sum_congr rfl fun k hk => ?_)) (conv_sq_le v w nb P)
    have hk' := abs_le.2 (mem_Icc.1 hk)
    have hM : (nb : ℤ) ≤ M := by exact_mod_cast h
    interval_cases P
    · rfl
    · unfold toneCoeff
      rw [harmonicConv_fst _ _ (hk'.trans hM), harmonicConv_fst _ _ hk']
    · rw [toneCoeff_two v w h hk']
  · exact conv_sq_le v w nb P

end QMix.Spec
