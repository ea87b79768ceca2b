import Verif.Model.PolyRange
import Verif.Props.MathFn

/-! # Where the polynomial model leaves the range of the numbers (C176) -/

namespace QMix.Props

open QMix.Np QMix.MathFn QMix.PolyRange

open Classical in
theorem npow_cases (v e : ℝ) : npow v e = .ok (v ^ e) ∨ npow v e = .error .nonFinite := by
  unfold npow
  by_cases h1 : v = 0 ∧ e < 0
  · right
    rw [raiseIf_pos h1]
  by_cases h2 : v < 0 ∧ ∀ k : ℤ, e ≠ k
  · right
    rw [raiseIf_neg h1, raiseIf_pos h2]
  · left
    rw [raiseIf_neg h1, raiseIf_neg h2]
    rfl

theorem rpow_abs_le {v e B : ℝ} (hv : |v| ≤ B) (hB : 1 ≤ B) {E : ℕ} (h0 : 0 ≤ e) (he : e ≤ E) : |v ^ e| ≤ B ^ E := by
  refine (Real.abs_rpow_le_abs_rpow v e).trans ((Real.rpow_le_rpow (abs_nonneg v) hv h0).trans ?_)
  rw [← Real.rpow_natCast]
  exact Real.rpow_le_rpow_of_exponent_le hB he

open Classical in
theorem dpow_eq {v e B : ℝ} (hv : |v| ≤ B) (hB : 1 ≤ B) {E : ℕ} (h0 : 0 ≤ e) (he : e ≤ E) (hl : B ^ E < dblLimit) : dpow v e = npow v e := by
  unfold dpow
  rcases npow_cases v e with h | h
  · rw [h, py_bind, raiseIf_neg (not_le.2 ((rpow_abs_le hv hB h0 he).trans_lt hl))]
    rfl
  · rw [h]
    rfl

theorem limit_thousand : (1000 : ℝ) ^ 101 < dblLimit := by
  rw [dblLimit, show (2 : ℝ) ^ 1024 = (2 ^ 128) ^ 8 by rw [← pow_mul], show (2 : ℝ) ^ 970 = (2 ^ 97) ^ 10 by rw [← pow_mul]]
  norm_num

theorem limit_1300 : dblLimit ≤ (1300 : ℝ) ^ 101 := by
  rw [dblLimit, show (2 : ℝ) ^ 1024 = (2 ^ 128) ^ 8 by rw [← pow_mul], show (2 : ℝ) ^ 970 = (2 ^ 97) ^ 10 by rw [← pow_mul]]
  norm_num

/-- C176, doubles: for orders up to 50 (the default) and voltages up to 1000 gap voltages nothing leaves the range of double precision. -/
theorem C176_doubles_partial {v order : ℝ} (hv : |v| ≤ 1000) (h0 : 0 ≤ order) (h1 : order ≤ 50) : polynomialD v order = polynomial v order := by
  unfold polynomialD polynomial
  rw [dpow_eq hv (by norm_num) (E := 101) (by linarith) (by push_cast; linarith) limit_thousand,
    dpow_eq hv (by norm_num) (E := 101) (by linarith) (by push_cast; linarith) limit_thousand]

open Classical in
/-- C176 fails for large voltages: with the default order the result is not finite from 1300 gap voltages on, although the current is
close to the voltage there. -/
theorem C176_false_large {v : ℝ} (hv : 1300 ≤ v) : polynomialD v 50 = .error .nonFinite ∧ ∃ i, polynomial v 50 = .ok i ∧ v - 1 < i ∧ i < v := by
  have h0 : 0 < v := by linarith
  constructor
  · unfold polynomialD dpow
    rw [npow_pos h0, py_bind, raiseIf_pos]
    · rfl
    rw [show (2 * 50 + 1 : ℝ) = ((101 : ℕ) : ℝ) by norm_num, Real.rpow_natCast, abs_of_pos (by positivity)]
    exact limit_1300.trans (pow_le_pow_left₀ (by norm_num) hv _)
  · refine ⟨_, polynomial_nonneg h0.le (by norm_num), ?_, ?_⟩
    · rw [show (2 * 50 : ℝ) = ((100 : ℕ) : ℝ) by norm_num, Real.rpow_natCast]
      have h1 : v ≤ v ^ 100 := by
        calc v = v ^ 1 := (pow_one v).symm
          _ ≤ v ^ 100 := pow_le_pow_right₀ (by linarith) (by norm_num)
      rw [mul_div_assoc', lt_div_iff₀ (by positivity)]
      nlinarith
    · rw [show (2 * 50 : ℝ) = ((100 : ℕ) : ℝ) by norm_num, Real.rpow_natCast]
      have h1 : 0 < v ^ 100 := by positivity
      rw [mul_div_assoc', div_lt_iff₀ (by positivity)]
      nlinarith

theorem wrap_small {k : ℤ} (h : |k| < 2 ^ 63) : wrap k = k := by
  obtain ⟨h1, h2⟩ := abs_lt.1 h
  unfold wrap
  rw [Int.bmod_eq_of_le_mul_two] <;> norm_num at * <;> omega

open Classical in
theorem ipow_nonneg (v : ℤ) {e : ℤ} (h : 0 ≤ e) : ipow v e = .ok (wrap (v ^ e.toNat)) := by
  unfold ipow
  rw [raiseIf_neg (not_lt.2 h)]
  rfl

/-- C176, integers: an array of integers gives the same as an array of floats as long as the larger power fits into 63 bits. -/
theorem C176_integers_partial (v : ℤ) {n : ℕ} (h : |v| ^ (2 * n + 1) < 2 ^ 63 - 1) : polynomialI v n = polynomial v n := by
  have h1 : |v ^ (2 * n + 1)| < 2 ^ 63 - 1 := by rwa [abs_pow]
  have h2 : |v ^ (2 * n)| < 2 ^ 63 - 1 := by
    rw [abs_pow]
    rcases eq_or_ne v 0 with rfl | hv
    · rw [abs_zero]
      rcases Nat.eq_zero_or_pos n with rfl | hn
      · norm_num
      · rw [zero_pow (by omega)]
        norm_num
    · refine lt_of_le_of_lt (pow_le_pow_right₀ ?_ (Nat.le_succ _)) h
      exact Int.one_le_abs hv
  have h3 : |1 + v ^ (2 * n)| < 2 ^ 63 := (abs_add_le _ _).trans_lt (by rw [abs_one]; linarith)
  have h4 : 0 ≤ v ^ (2 * n) := by
    rw [pow_mul]
    positivity
  unfold polynomialI polynomial
  rw [ipow_nonneg v (by positivity), ipow_nonneg v (by positivity), py_bind, py_bind]
  rw [show (2 * (n : ℤ) + 1).toNat = 2 * n + 1 by omega, show (2 * (n : ℤ)).toNat = 2 * n by omega, wrap_small (h1.trans (by norm_num)),
    wrap_small (h2.trans (by norm_num)), wrap_small h3]
  have e1 := npow_int (v := v) (k := 2 * n + 1) (Or.inr (by positivity))
  have e2 := npow_int (v := v) (k := 2 * n) (Or.inr (by positivity))
  push_cast at e1 e2
  rw [e1, e2, py_bind, py_bind]
  rw [show (2 * (n : ℤ) + 1) = ((2 * n + 1 : ℕ) : ℤ) by push_cast; ring, show (2 * (n : ℤ)) = ((2 * n : ℕ) : ℤ) by push_cast; ring, zpow_natCast,
    zpow_natCast]
  push_cast
  rfl

theorem wrap_even {v : ℤ} (hv : 2 ∣ v) {e : ℕ} (he : 64 ≤ e) : wrap (v ^ e) = 0 := by
  unfold wrap
  refine Int.bmod_eq_zero_of_dvd ?_
  have : (2 : ℤ) ^ 64 ∣ v ^ e := (pow_dvd_pow 2 he).trans (pow_dvd_pow_of_dvd hv e)
  exact_mod_cast this

/-- C176 fails for arrays of integers: for orders from 32 on (the default is 50), the current at every even number of gap voltages is 0,
without a warning; a float of the same value gives the voltage, nearly. -/
theorem C176_false_integers {v : ℤ} (hv : 2 ∣ v) {n : ℕ} (hn : 32 ≤ n) : polynomialI v n = .ok 0 ∧
    (2 ≤ v → ∃ i, polynomial v n = .ok i ∧ (v : ℝ) - 1 < i) := by
  constructor
  · unfold polynomialI
    rw [ipow_nonneg v (by positivity), ipow_nonneg v (by positivity), py_bind, py_bind]
    rw [show (2 * (n : ℤ) + 1).toNat = 2 * n + 1 by omega, show (2 * (n : ℤ)).toNat = 2 * n by omega, wrap_even hv (by omega),
      wrap_even hv (by omega)]
    have : wrap (1 + 0) = 1 := by decide
    rw [this, fdiv_ok (by norm_num)]
    simp
  · intro h2
    have h0 : (2 : ℝ) ≤ v := by exact_mod_cast h2
    refine ⟨_, polynomial_nonneg (by linarith) (by positivity), ?_⟩
    rw [show (2 * (n : ℝ)) = ((2 * n : ℕ) : ℝ) by push_cast; ring, Real.rpow_natCast]
    have h1 : (v : ℝ) ≤ (v : ℝ) ^ (2 * n) := by
      calc (v : ℝ) = (v : ℝ) ^ 1 := (pow_one _).symm
        _ ≤ (v : ℝ) ^ (2 * n) := pow_le_pow_right₀ (by linarith) (by omega)
    rw [mul_div_assoc', lt_div_iff₀ (by positivity)]
    nlinarith

/-- The hypotheses can be met: two gap voltages, as a float, as an integer of low order and as an integer of the default order. -/
example : polynomialD 2 50 = polynomial 2 50 ∧ polynomialI 2 3 = polynomial (2 : ℤ) (3 : ℕ) ∧ polynomialI 2 50 = .ok 0 :=
  ⟨C176_doubles_partial (by norm_num) (by norm_num) (by norm_num), C176_integers_partial 2 (n := 3) (by norm_num),
    (C176_false_integers (v := 2) (n := 50) (by norm_num) (by norm_num)).1⟩

end QMix.Props
