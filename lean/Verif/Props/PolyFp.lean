import Verif.Model.PolyFp
import Verif.Props.ExpFp
import Verif.Lemmas.IvModels

/-!
# C201: the polynomial I-V curve in floating-point arithmetic
-/

namespace QMix.Props

open QMix.CctFp QMix.MathFn QMix.Spec QMix.Rel

variable {u : ℝ} {p : ℕ}

/-! ## Lemmas -/

theorem power_rel (P : Power u p) (h0 : 0 ≤ u) (h1 : u < 1) (v : ℝ) (n : ℕ) : Rel u p (P.pow v n) (v ^ n) := by
  have h := P.pow_le v n
  have q0 : 0 < (1 - u) ^ p := pow_pos (by linarith) _
  have q1 : (1 - u) ^ p ≤ 1 := pow_le_one₀ (by linarith) (by linarith)
  by_cases hv : v ^ n = 0
  · rw [hv, abs_zero, mul_zero, sub_zero] at h
    refine ⟨1, q1, by linarith, ?_⟩
    rw [abs_eq_zero.1 (le_antisymm h (abs_nonneg _)), hv, zero_mul]
  · have hp := abs_pos.2 hv
    have e : P.pow v n / v ^ n - 1 = (P.pow v n - v ^ n) / v ^ n := by field_simp
    have k : |P.pow v n / v ^ n - 1| ≤ 1 - (1 - u) ^ p := by
      rw [e, abs_div, div_le_iff₀ hp]
      exact h
    obtain ⟨k1, k2⟩ := abs_le.1 k
    refine ⟨P.pow v n / v ^ n, by linarith, ?_, by field_simp⟩
    calc P.pow v n / v ^ n * (1 - u) ^ p ≤ (2 - (1 - u) ^ p) * (1 - u) ^ p := by gcongr; linarith
      _ ≤ 1 := by nlinarith [sq_nonneg (1 - (1 - u) ^ p)]

open Classical in
theorem polynomial_nat (v : ℝ) (n : ℕ) : MathFn.polynomial v n = .ok (v ^ (2 * n + 1) / (1 + v ^ (2 * n))) := by
  have key : ∀ m : ℕ, MathFn.npow v (m : ℝ) = .ok (v ^ m) := by
    intro m
    unfold MathFn.npow
    rw [raiseIf_neg (fun h => absurd h.2 (not_lt.2 (Nat.cast_nonneg m))), raiseIf_neg (fun h => h.2 (m : ℤ) (by simp)), Real.rpow_natCast]
    rfl
  have a := key (2 * n + 1)
  have b := key (2 * n)
  push_cast at a b
  unfold MathFn.polynomial
  rw [a, py_bind, b, py_bind]
  have : (1 : ℝ) + v ^ (2 * n) ≠ 0 := by
    have : 0 ≤ v ^ (2 * n) := by rw [pow_mul]; positivity
    linarith
  exact Np.fdiv_ok this

theorem polynomialR_rel (A : Fp u) (P : Power u p) (h0 : 0 ≤ u) (h1 : u < 1) (v : ℝ) (n : ℕ) :
    Rel u (2 * p + 2) (polynomialR A P v n) (v ^ (2 * n + 1) / (1 + v ^ (2 * n))) := by
  have hp : 0 ≤ v ^ (2 * n) := by rw [pow_mul]; positivity
  have d : Rel u (p + 1) (A.rnd (1 + P.pow v (2 * n))) (1 + v ^ (2 * n)) := by
    rw [add_comm 1, add_comm 1]
    exact rnd_step A h0 h1 ((power_rel P h0 h1 v (2 * n)).add_one h0 h1 hp)
  have := rnd_step A h0 h1 ((power_rel P h0 h1 v (2 * n + 1)).div h1 d)
  exact this.mono h0 h1 (by omega)

/-! ## C201 -/

/-- C201: with powers that are right up to `p` roundings, the current is that of exact arithmetic up to `2 p + 2` roundings, at every voltage and
for every order: the order does not make the curve less accurate. -/
theorem C201_polynomial (A : Fp u) (P : Power u p) (h0 : 0 ≤ u) (h1 : u < 1) (v : ℝ) (n : ℕ) :
    ∃ i, MathFn.polynomial v n = .ok i ∧ UpTo u (2 * p + 2) (polynomialR A P v n) i :=
  ⟨_, polynomial_nat v n, (polynomialR_rel A P h0 h1 v n).abs_sub_le h1 h0⟩

/-- C201, the sign: the current is positive at positive voltages, negative at negative voltages and zero at zero. -/
theorem C201_sign (A : Fp u) (P : Power u p) (h0 : 0 ≤ u) (h1 : u < 1) (v : ℝ) (n : ℕ) :
    (0 < polynomialR A P v n ↔ 0 < v) ∧ (polynomialR A P v n < 0 ↔ v < 0) := by
  obtain ⟨c, c1, -, e⟩ := polynomialR_rel A P h0 h1 v n
  have hc : 0 < c := lt_of_lt_of_le (pow_pos (by linarith) _) c1
  have hd : 0 < 1 + v ^ (2 * n) := by
    have : 0 ≤ v ^ (2 * n) := by rw [pow_mul]; positivity
    linarith
  have ho : Odd (2 * n + 1) := ⟨n, rfl⟩
  rw [e]
  constructor
  · rw [mul_pos_iff_of_pos_right hc, div_pos_iff_of_pos_right hd, ho.pow_pos_iff]
  · rw [← neg_pos, ← neg_mul, mul_pos_iff_of_pos_right hc, ← neg_div, div_pos_iff_of_pos_right hd, neg_pos, ho.pow_neg_iff]

/-- C201 in binary64, with powers right up to two roundings: within seven units of roundoff. -/
theorem C201_polynomial_64 (A : Fp u64) (P : Power u64 2) (v : ℝ) (n : ℕ) :
    |polynomialR A P v n - v ^ (2 * n + 1) / (1 + v ^ (2 * n))| ≤ 7 * u64 * |v ^ (2 * n + 1) / (1 + v ^ (2 * n))| := by
  have h0 : 0 ≤ u64 := by unfold u64; positivity
  have h1 : u64 < 1 := by unfold u64; norm_num
  refine ((polynomialR_rel A P h0 h1 v n).abs_sub_le h1 h0).trans ?_
  gcongr
  refine (inv_pow_le h0 (n := 2 * 2 + 2) (by unfold u64; norm_num)).trans (le_of_eq (by norm_num))

/-- Exact powers. -/
noncomputable def exactPower (h0 : 0 ≤ u) (h1 : u < 1) (p : ℕ) : Power u p where
  pow v n := v ^ n
  pow_le v n := by
    rw [sub_self, abs_zero]
    exact mul_nonneg (sub_nonneg.2 (pow_le_one₀ (by linarith) (by linarith))) (abs_nonneg _)

/-- Powers that are all too small by one rounding. -/
noncomputable def lowPower (h0 : 0 ≤ u) (p : ℕ) (hp : p ≠ 0) (h1 : u < 1) : Power u p where
  pow v n := (1 - u) * v ^ n
  pow_le v n := by
    rw [show (1 - u) * v ^ n - v ^ n = -u * v ^ n by ring, abs_mul, abs_neg, abs_of_nonneg h0]
    gcongr
    have := pow_le_of_le_one (show 0 ≤ 1 - u by linarith) (by linarith) hp
    linarith

example (A : Fp u64) : |polynomialR A (lowPower (u := u64) (by unfold u64; positivity) 2 (by norm_num) (by unfold u64; norm_num)) 2 50 -
    2 ^ 101 / (1 + 2 ^ 100)| ≤ 7 * u64 * |2 ^ 101 / (1 + 2 ^ 100)| := C201_polynomial_64 A _ 2 50

/-- With exact powers, two roundings are left. -/
example (A : Fp u64) : ∃ i, MathFn.polynomial (-1.1) (30 : ℕ) = .ok i ∧
    UpTo u64 (2 * 0 + 2) (polynomialR A (exactPower (u := u64) (by unfold u64; positivity) (by unfold u64; norm_num) 0) (-1.1) 30) i :=
  C201_polynomial A _ (by unfold u64; positivity) (by unfold u64; norm_num) _ _

end QMix.Props
