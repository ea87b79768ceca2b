import Verif.Lemmas.Bessel4

/-! Lower bounds of the Bessel functions near zero: `J_n(x) ≥ (x / 2)^n / n! (1 - x² / (4 (n + 1)))`. -/

namespace QMix

open Real

/-- Two functions that start at the same value and whose derivatives are ordered. -/
theorem le_of_deriv_le {f g f' g' : ℝ → ℝ} (hf : ∀ x, HasDerivAt f (f' x) x) (hg : ∀ x, HasDerivAt g (g' x) x)
    (h0 : f 0 ≤ g 0) (h : ∀ x, 0 ≤ x → f' x ≤ g' x) {x : ℝ} (hx : 0 ≤ x) : f x ≤ g x := by
  have m : MonotoneOn (fun y => g y - f y) (Set.Ici 0) := by
    refine monotoneOn_of_deriv_nonneg (convex_Ici 0) (fun y _ => ((hg y).sub (hf y)).continuousAt.continuousWithinAt)
      (fun y _ => ((hg y).sub (hf y)).differentiableAt.differentiableWithinAt) fun y hy => ?_
    have e : deriv (fun y => g y - f y) y = g' y - f' y := ((hg y).sub (hf y)).deriv
    rw [e]
    rw [interior_Ici] at hy
    linarith [h y hy.le]
  have := m Set.self_mem_Ici hx hx
  dsimp only at this
  linarith

theorem besselJ_ge (n : ℕ) : ∀ x : ℝ, 0 ≤ x → (x / 2) ^ n / n.factorial * (1 - x ^ 2 / (4 * (n + 1))) ≤ besselJ n x := by
  induction n with
  | zero =>
    intro x _
    simpa using (besselJ_zero_bounds x).1
  | succ n ih =>
    intro x hx
    rcases hx.eq_or_lt with rfl | hx
    · rw [besselJ_zero_right (by omega)]
      simp
    have hn : (0 : ℝ) < n.factorial := by exact_mod_cast Nat.factorial_pos _
    have key := le_of_deriv_le (x := x)
      (f := fun x => x ^ (2 * n + 2) / (2 ^ (n + 1) * (n + 1).factorial)
        - x ^ (2 * n + 4) / (2 ^ (n + 1) * (n + 1).factorial * (4 * (n + 2))))
      (g := fun x => x ^ (n + 1) * besselJ (n + 1 : ℕ) x)
      (fun y => ((hasDerivAt_pow (2 * n + 2) y).div_const _).sub ((hasDerivAt_pow (2 * n + 4) y).div_const _))
      (hasDerivAt_pow_besselJ n) (by simp) (fun y hy => ?_) hx.le
    · have hp : (0 : ℝ) < x ^ (n + 1) := by positivity
      refine le_of_mul_le_mul_left (le_trans (le_of_eq ?_) key) hp
      rw [div_pow]
      push_cast
      field_simp
      ring
    · refine le_trans (le_of_eq ?_) (mul_le_mul_of_nonneg_left (ih y hy) (pow_nonneg hy (n + 1)))
      rw [Nat.factorial_succ, div_pow]
      push_cast
      field_simp
      ring

/-- `J_n` is not negative up to `2 √(n + 1)`. -/
theorem besselJ_nonneg {n : ℕ} {x : ℝ} (h0 : 0 ≤ x) (h1 : x ^ 2 ≤ 4 * (n + 1)) : 0 ≤ besselJ n x := by
  refine le_trans ?_ (besselJ_ge n x h0)
  have : x ^ 2 / (4 * (n + 1)) ≤ 1 := by rw [div_le_one (by positivity)]; exact h1
  have : 0 ≤ 1 - x ^ 2 / (4 * ((n : ℝ) + 1)) := by linarith
  positivity

theorem besselJ_pos {n : ℕ} {x : ℝ} (h0 : 0 < x) (h1 : x ^ 2 < 4 * (n + 1)) : 0 < besselJ n x := by
  refine lt_of_lt_of_le ?_ (besselJ_ge n x h0.le)
  have : x ^ 2 / (4 * (n + 1)) < 1 := by rw [div_lt_one (by positivity)]; exact h1
  have : 0 < 1 - x ^ 2 / (4 * ((n : ℝ) + 1)) := by linarith
  positivity

/-! ## `J_0(3)` is negative -/

theorem hasDerivAt_besselJ_zero (x : ℝ) : HasDerivAt (besselJ 0) (-besselJ 1 x) x := by
  refine (hasDerivAt_besselJ 0 x).congr_deriv ?_
  have := besselJ_neg 1 x
  rw [zpow_one] at this
  rw [zero_sub, zero_add, this]
  ring

theorem hasDerivAt_mul_besselJ_one (x : ℝ) : HasDerivAt (fun x => x * besselJ 1 x) (x * besselJ 0 x) x := by
  have := hasDerivAt_pow_besselJ 0 x
  simpa using this

theorem besselJ_zero_le (x : ℝ) (hx : 0 ≤ x) : besselJ 0 x ≤ 1 - x ^ 2 / 4 + x ^ 4 / 64 - x ^ 6 / 2304 + x ^ 8 / 147456 := by
  have poly : ∀ a b c d e y : ℝ, HasDerivAt (fun x : ℝ => a + b * x ^ 2 + c * x ^ 4 + d * x ^ 6 + e * x ^ 8)
      (2 * b * y + 4 * c * y ^ 3 + 6 * d * y ^ 5 + 8 * e * y ^ 7) y := by
    intro a b c d e y
    have h := (((((hasDerivAt_pow 2 y).const_mul b).const_add a).add ((hasDerivAt_pow 4 y).const_mul c)).add
      ((hasDerivAt_pow 6 y).const_mul d)).add ((hasDerivAt_pow 8 y).const_mul e)
    refine h.congr_deriv ?_
    norm_num
    ring
  -- from `J_0` to `x J_1`
  have up : ∀ a b c d e : ℝ, (∀ y, 0 ≤ y → besselJ 0 y ≤ 2 * a + 4 * b * y ^ 2 + 6 * c * y ^ 4 + 8 * d * y ^ 6) →
      ∀ x, 0 ≤ x → x * besselJ 1 x ≤ 0 + a * x ^ 2 + b * x ^ 4 + c * x ^ 6 + d * x ^ 8 := by
    intro a b c d _ h x hx
    refine le_of_deriv_le hasDerivAt_mul_besselJ_one (poly 0 a b c d) (by simp) (fun y hy => ?_) hx
    nlinarith [mul_le_mul_of_nonneg_left (h y hy) hy]
  have dn : ∀ a b c d e : ℝ, (∀ y, 0 ≤ y → 2 * a + 4 * b * y ^ 2 + 6 * c * y ^ 4 + 8 * d * y ^ 6 ≤ besselJ 0 y) →
      ∀ x, 0 ≤ x → 0 + a * x ^ 2 + b * x ^ 4 + c * x ^ 6 + d * x ^ 8 ≤ x * besselJ 1 x := by
    intro a b c d _ h x hx
    refine le_of_deriv_le (poly 0 a b c d) hasDerivAt_mul_besselJ_one (by simp) (fun y hy => ?_) hx
    nlinarith [mul_le_mul_of_nonneg_left (h y hy) hy]
  -- from `x J_1` to `J_0`
  have one : ∀ y : ℝ, 0 ≤ y → ∀ p, y * besselJ 1 y ≤ y * p → besselJ 1 y ≤ p ∨ y = 0 := by
    intro y hy p h
    rcases hy.eq_or_lt with h0 | h0
    · exact .inr h0.symm
    · exact .inl (le_of_mul_le_mul_left h h0)
  have one' : ∀ y : ℝ, 0 ≤ y → ∀ p, y * p ≤ y * besselJ 1 y → p ≤ besselJ 1 y ∨ y = 0 := by
    intro y hy p h
    rcases hy.eq_or_lt with h0 | h0
    · exact .inr h0.symm
    · exact .inl (le_of_mul_le_mul_left h h0)
  have z : besselJ 1 0 = 0 := besselJ_zero_right one_ne_zero
  have lo : ∀ b c d : ℝ, (∀ y, 0 ≤ y → y * besselJ 1 y ≤ 0 + b * y ^ 2 + c * y ^ 4 + d * y ^ 6 + 0 * y ^ 8) →
      ∀ x, 0 ≤ x → 1 + -b / 2 * x ^ 2 + -c / 4 * x ^ 4 + -d / 6 * x ^ 6 + 0 * x ^ 8 ≤ besselJ 0 x := by
    intro b c d h x hx
    refine le_of_deriv_le (poly 1 (-b / 2) (-c / 4) (-d / 6) 0) hasDerivAt_besselJ_zero (by simp [besselJ_zero_zero])
      (fun y hy => ?_) hx
    rcases one y hy (b * y + c * y ^ 3 + d * y ^ 5) (by linarith [h y hy]) with h1 | rfl
    · linarith
    · rw [z]; norm_num
  have hi : ∀ b c d e : ℝ, (∀ y, 0 ≤ y → 0 + b * y ^ 2 + c * y ^ 4 + d * y ^ 6 + e * y ^ 8 ≤ y * besselJ 1 y) →
      ∀ x, 0 ≤ x → besselJ 0 x ≤ 1 + -b / 2 * x ^ 2 + -c / 4 * x ^ 4 + -d / 6 * x ^ 6 + -e / 8 * x ^ 8 := by
    intro b c d e h x hx
    refine le_of_deriv_le hasDerivAt_besselJ_zero (poly 1 (-b / 2) (-c / 4) (-d / 6) (-e / 8)) (by simp [besselJ_zero_zero])
      (fun y hy => ?_) hx
    rcases one' y hy (b * y + c * y ^ 3 + d * y ^ 5 + e * y ^ 7) (by linarith [h y hy]) with h1 | rfl
    · linarith
    · rw [z]; norm_num
  have s1 := dn (1 / 2) (-(1 / 16)) 0 0 0 fun y _ => by linarith [(besselJ_zero_bounds y).1]
  have s2 := hi _ _ _ _ s1
  have s3 := up (1 / 2) (-(1 / 16)) (1 / 384) 0 0 fun y hy => by linarith [s2 y hy]
  have s4 := lo _ _ _ s3
  have s5 := dn (1 / 2) (-(1 / 16)) (1 / 384) (-(1 / 18432)) 0 fun y hy => by linarith [s4 y hy]
  have s6 := hi _ _ _ _ s5
  linarith [s6 x hx]

theorem besselJ_zero_three : besselJ 0 3 < 0 := by
  have := besselJ_zero_le 3 (by norm_num)
  norm_num at this
  linarith

end QMix
