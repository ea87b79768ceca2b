import Verif.Model.QtRound
import Verif.Lemmas.Py
import Mathlib.Data.Int.Log

/-!
# Double precision with unbounded exponent

`fl` is the nearest number with a 53 bit mantissa, ties to even: IEEE 754 binary64 without overflow and underflow.
-/

namespace QMix.Spec

open Complex QMix.Rnd

/-- The unit roundoff of binary64. -/
noncomputable def u64 : ℝ := 2⁻¹ ^ 53

/-- The spacing of the 53 bit numbers around `x`. -/
noncomputable def ulp (x : ℝ) : ℝ := 2 ^ (Int.log 2 |x| - 52)

/-- Rounding to nearest, ties to even. -/
noncomputable def fl (x : ℝ) : ℝ := roundHalfEven (x / ulp x) * ulp x

theorem ulp_pos (x : ℝ) : 0 < ulp x := by unfold ulp; positivity

theorem fl_le (x : ℝ) : |fl x - x| ≤ u64 * |x| := by
  rcases eq_or_ne x 0 with rfl | hx
  · have : roundHalfEven (0 : ℝ) = 0 := by simpa using roundHalfEven_intCast 0
    simp [fl, this]
  have hp := ulp_pos x
  have h1 := abs_roundHalfEven_sub_le (x / ulp x)
  have h2 : fl x - x = ((roundHalfEven (x / ulp x) : ℝ) - x / ulp x) * ulp x := by
    unfold fl
    field_simp
  rw [h2, abs_mul, abs_of_pos hp]
  have h3 : (2 : ℝ) ^ Int.log 2 |x| ≤ |x| := by
    have := Int.zpow_log_le_self (b := 2) (R := ℝ) (by norm_num) (abs_pos.2 hx)
    exact_mod_cast this
  have h4 : ulp x = 2 ^ Int.log 2 |x| * (2⁻¹ ^ 52) := by
    unfold ulp
    rw [zpow_sub₀ (by norm_num), div_eq_mul_inv, inv_pow]
    norm_cast
  calc |(roundHalfEven (x / ulp x) : ℝ) - x / ulp x| * ulp x ≤ 1 / 2 * ulp x := mul_le_mul_of_nonneg_right h1 hp.le
    _ = u64 * 2 ^ Int.log 2 |x| := by rw [h4]; unfold u64; ring
    _ ≤ u64 * |x| := mul_le_mul_of_nonneg_left h3 (by unfold u64; positivity)

/-- Complex sum. -/
noncomputable def cadd (x y : ℂ) : ℂ := ⟨fl (x.re + y.re), fl (x.im + y.im)⟩

/-- Complex product by the schoolbook formula, every operation rounded. -/
noncomputable def cmul (x y : ℂ) : ℂ :=
  ⟨fl (fl (x.re * y.re) - fl (x.im * y.im)), fl (fl (x.re * y.im) + fl (x.im * y.re))⟩

theorem u64_pos : 0 < u64 := by unfold u64; positivity

theorem u64_lt : u64 < 1 / 8 := by unfold u64; norm_num

theorem fl_sum {a b a' b' : ℝ} (ha : |a' - a| ≤ u64 * |a|) (hb : |b' - b| ≤ u64 * |b|) :
    |fl (a' + b') - (a + b)| ≤ (2 * u64 + u64 ^ 2) * (|a| + |b|) := by
  have h1 := fl_le (a' + b')
  have u0 := u64_pos
  have h2 : |a' + b' - (a + b)| ≤ u64 * (|a| + |b|) := by
    rw [show a' + b' - (a + b) = (a' - a) + (b' - b) by ring]
    exact (abs_add_le _ _).trans (by linarith)
  have h3 : |a' + b'| ≤ (1 + u64) * (|a| + |b|) := by
    have := abs_add_le (a' + b' - (a + b)) (a + b)
    rw [sub_add_cancel] at this
    have := abs_add_le a b
    nlinarith
  calc |fl (a' + b') - (a + b)| ≤ |fl (a' + b') - (a' + b')| + |a' + b' - (a + b)| := by
        have := abs_add_le (fl (a' + b') - (a' + b')) (a' + b' - (a + b))
        rwa [sub_add_sub_cancel] at this
    _ ≤ u64 * ((1 + u64) * (|a| + |b|)) + u64 * (|a| + |b|) := by
        have := mul_le_mul_of_nonneg_left h3 u0.le
        linarith
    _ = _ := by ring

theorem cmul_le (x y : ℂ) : ‖cmul x y - x * y‖ ≤ 4 * u64 * ‖x * y‖ := by
  have u0 := u64_pos
  have u1 := u64_lt
  have h1 : |(cmul x y - x * y).re| ≤ (2 * u64 + u64 ^ 2) * (|x.re * y.re| + |x.im * y.im|) := by
    have := fl_sum (a := x.re * y.re) (b := -(x.im * y.im)) (a' := fl (x.re * y.re)) (b' := -fl (x.im * y.im)) (fl_le _) (by
      rw [abs_neg, show -fl (x.im * y.im) - -(x.im * y.im) = -(fl (x.im * y.im) - x.im * y.im) by ring, abs_neg]
      exact fl_le _)
    rw [abs_neg, ← sub_eq_add_neg, ← sub_eq_add_neg] at this
    simpa [cmul] using this
  have h2 : |(cmul x y - x * y).im| ≤ (2 * u64 + u64 ^ 2) * (|x.re * y.im| + |x.im * y.re|) := by
    have := fl_sum (fl_le (x.re * y.im)) (fl_le (x.im * y.re))
    simpa [cmul] using this
  have e : 0 ≤ 2 * u64 + u64 ^ 2 := by positivity
  have h3 : ‖cmul x y - x * y‖ ^ 2 ≤ (4 * u64 * ‖x * y‖) ^ 2 := by
    have q1 := pow_le_pow_left₀ (abs_nonneg _) h1 2
    have q2 := pow_le_pow_left₀ (abs_nonneg _) h2 2
    rw [sq_abs, mul_pow] at q1 q2
    rw [mul_pow, Complex.sq_norm, Complex.sq_norm, normSq_apply, map_mul, normSq_apply, normSq_apply]
    have q3 : (|x.re * y.re| + |x.im * y.im|) ^ 2 + (|x.re * y.im| + |x.im * y.re|) ^ 2
        ≤ 2 * ((x.re * x.re + x.im * x.im) * (y.re * y.re + y.im * y.im)) := by
      rw [abs_mul, abs_mul, abs_mul, abs_mul]
      have r1 := sq_abs x.re
      have r2 := sq_abs x.im
      have r3 := sq_abs y.re
      have r4 := sq_abs y.im
      have e1 : (x.re * x.re + x.im * x.im) * (y.re * y.re + y.im * y.im)
          = (|x.re| ^ 2 + |x.im| ^ 2) * (|y.re| ^ 2 + |y.im| ^ 2) := by rw [r1, r2, r3, r4]; ring
      rw [e1]
      nlinarith [sq_nonneg (|x.re| * |y.re| - |x.im| * |y.im|), sq_nonneg (|x.re| * |y.im| - |x.im| * |y.re|)]
    have q4 : (2 * u64 + u64 ^ 2) ^ 2 * 2 ≤ (4 * u64) ^ 2 := by nlinarith [mul_pos u0 u0, mul_pos (mul_pos u0 u0) u0]
    have q5 : 0 ≤ (x.re * x.re + x.im * x.im) * (y.re * y.re + y.im * y.im) :=
      mul_nonneg (add_nonneg (mul_self_nonneg _) (mul_self_nonneg _)) (add_nonneg (mul_self_nonneg _) (mul_self_nonneg _))
    set Z := (x.re * x.re + x.im * x.im) * (y.re * y.re + y.im * y.im)
    have q6 := mul_le_mul_of_nonneg_left q3 (by positivity : 0 ≤ (2 * u64 + u64 ^ 2) ^ 2)
    have q7 := mul_le_mul_of_nonneg_right q4 q5
    nlinarith
  exact le_of_sq_le_sq h3 (by positivity)

/-- Double precision, as an arithmetic with relative error `4 u64 = 2^-51`. -/
noncomputable def binary64 : Arith (4 * u64) where
  add := cadd
  mul := cmul
  radd x y := fl (x + y)
  rsub x y := fl (x - y)
  add_le x y := by
    have h : ∀ t : ℝ, |fl t - t| ≤ 4 * u64 * |t| := fun t => (fl_le t).trans (by
      have := abs_nonneg t
      have := u64_pos
      nlinarith)
    have u0 := u64_pos
    have h1 := h (x.re + y.re)
    have h2 := h (x.im + y.im)
    have h3 : ‖cadd x y - (x + y)‖ ^ 2 ≤ (4 * u64 * ‖x + y‖) ^ 2 := by
      have q1 := pow_le_pow_left₀ (abs_nonneg _) h1 2
      have q2 := pow_le_pow_left₀ (abs_nonneg _) h2 2
      rw [sq_abs, mul_pow, sq_abs] at q1 q2
      rw [mul_pow, Complex.sq_norm, Complex.sq_norm, normSq_apply, normSq_apply]
      simp only [cadd, sub_re, sub_im, add_re, add_im]
      nlinarith
    exact le_of_sq_le_sq h3 (by positivity)
  mul_le := cmul_le
  radd_le x y := (fl_le _).trans (by nlinarith [abs_nonneg (x + y), u64_pos])
  rsub_le x y := (fl_le _).trans (by nlinarith [abs_nonneg (x - y), u64_pos])

end QMix.Spec
