import Mathlib.Analysis.SpecialFunctions.Pow.Real
import Mathlib.Tactic.FieldSimp
import Mathlib.Tactic.Positivity
import Mathlib.Tactic.Linarith

/-!
# Relative errors of positive and negative numbers
-/

namespace QMix.Rel

/-- `x` is `y` up to `n` roundings with relative error at most `u`. -/
def Rel (u : ℝ) (n : ℕ) (x y : ℝ) : Prop := ∃ c : ℝ, (1 - u) ^ n ≤ c ∧ c * (1 - u) ^ n ≤ 1 ∧ x = y * c

variable {u : ℝ} {n m : ℕ} {x y z w : ℝ}

theorem Rel.refl (x : ℝ) : Rel u 0 x x := ⟨1, by simp, by simp, by simp⟩

theorem Rel.mono (h0 : 0 ≤ u) (h1 : u < 1) (h : Rel u n x y) (hn : n ≤ m) : Rel u m x y := by
  obtain ⟨c, a, b, e⟩ := h
  have hle : (1 - u) ^ m ≤ (1 - u) ^ n := pow_le_pow_of_le_one (by linarith) (by linarith) hn
  have hc : 0 ≤ c := le_trans (pow_nonneg (by linarith) n) a
  exact ⟨c, hle.trans a, (mul_le_mul_of_nonneg_left hle hc).trans b, e⟩

theorem Rel.trans (h1 : u < 1) (h : Rel u n x y) (h' : Rel u m y z) : Rel u (n + m) x z := by
  obtain ⟨c, a, b, e⟩ := h
  obtain ⟨c', a', b', e'⟩ := h'
  have p : ∀ k : ℕ, 0 < (1 - u) ^ k := fun k => pow_pos (by linarith) k
  refine ⟨c' * c, ?_, ?_, by rw [e, e']; ring⟩
  · rw [pow_add, mul_comm]
    exact mul_le_mul a' a (p n).le ((p m).le.trans a')
  · rw [pow_add, show c' * c * ((1 - u) ^ n * (1 - u) ^ m) = (c * (1 - u) ^ n) * (c' * (1 - u) ^ m) by ring]
    exact mul_le_one₀ b (mul_nonneg ((p m).le.trans a') (p m).le) b'

theorem Rel.of_le (h0 : 0 ≤ u) (h1 : u < 1) (h : |x - y| ≤ u * |y|) : Rel u 1 x y := by
  rcases eq_or_ne y 0 with rfl | hy
  · simp only [abs_zero, mul_zero, sub_zero] at h
    have : x = 0 := abs_eq_zero.1 (le_antisymm h (abs_nonneg _))
    exact ⟨1, by simp [h0], by simp [h0], by simp [this]⟩
  · have e : x = y * (x / y) := by field_simp
    have hd : |x / y - 1| ≤ u := by
      rw [show x / y - 1 = (x - y) / y by field_simp, abs_div]
      exact (div_le_iff₀ (abs_pos.2 hy)).2 h
    rw [abs_le] at hd
    refine ⟨x / y, by simp; linarith [hd.1], ?_, e⟩
    have : x / y * (1 - u) ≤ (1 + u) * (1 - u) := mul_le_mul_of_nonneg_right (by linarith [hd.2]) (by linarith)
    simp only [pow_one]
    nlinarith

theorem Rel.mul (h1 : u < 1) (h : Rel u n x y) (h' : Rel u m z w) : Rel u (n + m) (x * z) (y * w) := by
  obtain ⟨c, a, b, e⟩ := h
  have hx : Rel u n (x * z) (y * z) := ⟨c, a, b, by rw [e]; ring⟩
  obtain ⟨c', a', b', e'⟩ := h'
  have hy : Rel u m (y * z) (y * w) := ⟨c', a', b', by rw [e']; ring⟩
  exact hx.trans h1 hy

theorem Rel.inv (h1 : u < 1) (h : Rel u n x y) : Rel u n x⁻¹ y⁻¹ := by
  obtain ⟨c, a, b, e⟩ := h
  have p : 0 < (1 - u) ^ n := pow_pos (by linarith) n
  have hc : 0 < c := p.trans_le a
  refine ⟨c⁻¹, ?_, ?_, by rw [e, mul_inv]⟩
  · rw [le_inv_comm₀ p hc, ← one_div]
    exact (le_div_iff₀ p).2 b
  · rw [inv_mul_le_iff₀ hc, mul_one]
    exact a

theorem Rel.div (h1 : u < 1) (h : Rel u n x y) (h' : Rel u m z w) : Rel u (n + m) (x / z) (y / w) := by
  simpa only [div_eq_mul_inv] using h.mul h1 (h'.inv h1)

theorem Rel.sq (h1 : u < 1) (h : Rel u n x y) : Rel u (n + n) (x ^ 2) (y ^ 2) := by
  simpa only [pow_two] using h.mul h1 h

theorem Rel.mulLeft (k : ℝ) (h : Rel u n x y) : Rel u n (k * x) (k * y) := by
  obtain ⟨c, a, b, e⟩ := h
  exact ⟨c, a, b, by rw [e]; ring⟩

theorem Rel.divRight (k : ℝ) (h : Rel u n x y) : Rel u n (x / k) (y / k) := by
  obtain ⟨c, a, b, e⟩ := h
  exact ⟨c, a, b, by rw [e]; ring⟩

theorem Rel.sign (h1 : u < 1) (h : Rel u n x y) : (0 ≤ y → 0 ≤ x) ∧ (0 < y → 0 < x) ∧ (y ≠ 0 → x ≠ 0) ∧ (x ≠ 0 → y ≠ 0) := by
  obtain ⟨c, a, b, e⟩ := h
  have hc : 0 < c := (pow_pos (by linarith : 0 < 1 - u) n).trans_le a
  subst e
  exact ⟨fun h => mul_nonneg h hc.le, fun h => mul_pos h hc, fun h => mul_ne_zero h hc.ne', fun h => left_ne_zero_of_mul h⟩

/-- The error in the usual form. -/
theorem Rel.abs_sub_le (h1 : u < 1) (h0 : 0 ≤ u) (h : Rel u n x y) : |x - y| ≤ (((1 - u) ^ n)⁻¹ - 1) * |y| := by
  obtain ⟨c, a, b, e⟩ := h
  have p : 0 < (1 - u) ^ n := pow_pos (by linarith) n
  have hle : (1 - u) ^ n ≤ 1 := pow_le_one₀ (by linarith) (by linarith)
  have hc : c ≤ ((1 - u) ^ n)⁻¹ := by rw [← one_div]; exact (le_div_iff₀ p).2 b
  have hi : 1 - (1 - u) ^ n ≤ ((1 - u) ^ n)⁻¹ - 1 := by
    set q := (1 - u) ^ n
    have e1 : q * q⁻¹ = 1 := mul_inv_cancel₀ p.ne'
    have e2 : 1 ≤ q⁻¹ := (one_le_inv₀ p).2 hle
    nlinarith
  rw [e, show y * c - y = (c - 1) * y by ring, abs_mul]
  refine mul_le_mul_of_nonneg_right (abs_le.2 ⟨by linarith, by linarith⟩) (abs_nonneg _)

/-- `n` roundings cost little more than `n u`. -/
theorem inv_pow_le (h0 : 0 ≤ u) (hn : (n * (n + 1) : ℝ) * u ≤ 1) : ((1 - u) ^ n)⁻¹ - 1 ≤ (n + 1) * u := by
  rcases Nat.eq_zero_or_pos n with rfl | hpos
  · simpa using h0
  have hn1 : (1 : ℝ) ≤ n := by exact_mod_cast hpos
  have hu : u ≤ 1 / 2 := by
    have : 2 * u ≤ n * (n + 1) * u := mul_le_mul_of_nonneg_right (by nlinarith) h0
    linarith
  have hb : 1 - n * u ≤ (1 - u) ^ n := by
    have := one_add_mul_le_pow (a := -u) (by linarith) n
    simpa [sub_eq_add_neg] using this
  have hnu : 0 < 1 - n * u := by nlinarith
  have : ((1 - u) ^ n)⁻¹ ≤ (1 - n * u)⁻¹ := inv_anti₀ hnu hb
  have h2 : (1 - n * u)⁻¹ ≤ 1 + (n + 1) * u := by
    rw [inv_le_iff_one_le_mul₀ hnu]
    nlinarith
  linarith

end QMix.Rel
