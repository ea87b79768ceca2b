import Verif.Model.MathFn
import Verif.Lemmas.NumPy
import Mathlib.Analysis.SpecificLimits.Normed
import Mathlib.Tactic.Linarith
import Mathlib.Tactic.FieldSimp
import Mathlib.Tactic.Ring

/-!
# Lemmas about the I-V curve models
-/

namespace QMix.MathFn

open QMix.Np Filter Topology

theorem perfectElem_neg (v : ℝ) : perfectElem (-v) = -perfectElem v := by
  unfold perfectElem
  dsimp only
  by_cases h : |v| < 1
  · rw [if_pos (by rwa [abs_neg]), if_pos h, neg_zero]
  · rw [if_neg (by rwa [abs_neg]), if_neg h]
    by_cases h1 : v = 1
    · subst h1; norm_num
    · by_cases h2 : v = -1
      · subst h2; norm_num
      · rw [if_neg (by intro h; apply h1; linarith), if_neg (by intro h; apply h2; linarith),
          if_neg h2, if_neg h1]

theorem perfectElemI_neg (v : ℤ) : perfectElemI (-v) = -perfectElemI v := by
  unfold perfectElemI
  dsimp only
  by_cases h : |v| < 1
  · rw [if_pos (by rwa [abs_neg]), if_pos h, neg_zero]
  · rw [if_neg (by rwa [abs_neg]), if_neg h]
    split_ifs <;> omega

theorem perfectScalar_eq (v : ℝ) : perfectScalar v = .num (perfectElem v) := by
  unfold perfectScalar perfectElem
  dsimp only
  by_cases h : |v| < 1
  · rw [if_pos h, if_pos h]
  · rw [if_neg h, if_neg h]
    by_cases h2 : 1 < |v|
    · rw [if_pos h2]
      have a : v ≠ 1 := by rintro rfl; norm_num at h2
      have b : v ≠ -1 := by rintro rfl; norm_num at h2
      rw [if_neg b, if_neg a]
    · rw [if_neg h2]
      have h3 : |v| = 1 := le_antisymm (not_lt.1 h2) (not_lt.1 h)
      rcases (abs_eq zero_le_one).1 h3 with rfl | rfl
      · norm_num
      · norm_num

theorem perfectElem_lt {v : ℝ} (h : |v| < 1) : perfectElem v = 0 := by
  unfold perfectElem
  dsimp only
  rw [if_pos h]

theorem perfectElem_gt {v : ℝ} (h : 1 < |v|) : perfectElem v = v := by
  unfold perfectElem
  dsimp only
  have a : v ≠ 1 := by rintro rfl; norm_num at h
  have b : v ≠ -1 := by rintro rfl; norm_num at h
  rw [if_neg (not_lt.2 h.le), if_neg b, if_neg a]

theorem perfectElem_one : perfectElem 1 = 1 / 2 := by
  unfold perfectElem
  norm_num

theorem perfectElem_neg_one : perfectElem (-1) = -1 / 2 := by
  unfold perfectElem
  norm_num

theorem perfectKkElem_neg (m v : ℝ) : perfectKkElem m (-v) = perfectKkElem m v := by
  unfold perfectKkElem
  rw [abs_neg]
  by_cases h : |v| ≠ 1
  · rw [if_pos h, if_pos h]
    have a : v - 1 ≠ 0 := by intro h'; apply h; rw [sub_eq_zero.1 h', abs_one]
    have b : v + 1 ≠ 0 := by intro h'; apply h; rw [eq_neg_of_add_eq_zero_left h', abs_neg, abs_one]
    have e : (-v - 1) / (-v + 1) = ((v - 1) / (v + 1))⁻¹ := by
      rw [inv_div, show -v - 1 = -(v + 1) by ring, show -v + 1 = -(v - 1) by ring, neg_div_neg_eq]
    rw [e, abs_inv, Real.log_inv]
    ring
  · rw [if_neg h, if_neg h]

theorem perfectKkScalar_eq (m v : ℝ) : perfectKkScalar m v = perfectKkElem m v := by
  unfold perfectKkScalar perfectKkElem
  by_cases h : |v| = 1
  · rw [if_pos h, if_neg (not_not.2 h)]
  · rw [if_neg h, if_pos h]

/-! ## The polynomial model -/

open Classical in
theorem npow_pos {v : ℝ} (hv : 0 < v) (e : ℝ) : npow v e = .ok (v ^ e) := by
  unfold npow
  rw [raiseIf_neg (fun h => hv.ne' h.1), raiseIf_neg (fun h => not_lt.2 hv.le h.1)]
  rfl

open Classical in
theorem npow_zero {e : ℝ} (he : 0 ≤ e) : npow 0 e = .ok ((0 : ℝ) ^ e) := by
  unfold npow
  rw [raiseIf_neg (fun h => not_lt.2 he h.2), raiseIf_neg (fun h => lt_irrefl _ h.1)]
  rfl

open Classical in
theorem npow_int {v : ℝ} {k : ℤ} (h : v ≠ 0 ∨ 0 ≤ k) : npow v k = .ok (v ^ k) := by
  unfold npow
  rw [raiseIf_neg (fun h' => by
      rcases h with h | h
      · exact h h'.1
      · exact not_lt.2 (by exact_mod_cast h) h'.2), raiseIf_neg (fun h' => h'.2 k rfl)]
  show Except.ok _ = _
  rw [Real.rpow_intCast]

open Classical in
theorem npow_zero_neg {e : ℝ} (he : e < 0) : npow 0 e = .error .nonFinite := by
  unfold npow
  rw [raiseIf_pos ⟨rfl, he⟩]

/-- `2 k` as an exponent gives a non-negative number. -/
theorem zpow_two_mul_nonneg (v : ℝ) (k : ℤ) : 0 ≤ v ^ (2 * k) := by
  rw [zpow_mul]
  apply zpow_nonneg
  rw [zpow_two]
  exact mul_self_nonneg v

theorem polynomial_int {v : ℝ} {k : ℤ} (h : v ≠ 0 ∨ 0 ≤ k) :
    polynomial v k = .ok (v ^ (2 * k + 1) / (1 + v ^ (2 * k))) := by
  unfold polynomial
  rw [show (2 * (k : ℝ) + 1) = ((2 * k + 1 : ℤ) : ℝ) by push_cast; ring,
    show (2 * (k : ℝ)) = ((2 * k : ℤ) : ℝ) by push_cast; ring,
    npow_int (h.imp id fun h => by omega), py_bind, npow_int (h.imp id fun h => by omega), py_bind,
    fdiv_ok (by have := zpow_two_mul_nonneg v k; positivity)]

theorem polynomial_int_zero {k : ℤ} (h : k < 0) : polynomial 0 k = .error .nonFinite := by
  unfold polynomial
  rw [npow_zero_neg (by
    have : (k : ℝ) ≤ -1 := by exact_mod_cast Int.le_sub_one_of_lt h
    linarith)]
  rfl

theorem polynomial_int_neg (v : ℝ) (k : ℤ) :
    polynomial (-v) k = (polynomial v k).map fun i => -i := by
  by_cases h : v ≠ 0 ∨ 0 ≤ k
  · rw [polynomial_int h, polynomial_int (h.imp neg_ne_zero.2 id)]
    show _ = Except.ok _
    congr 1
    have e1 : (-v) ^ (2 * k) = v ^ (2 * k) := Even.neg_zpow ⟨k, by ring⟩ v
    have e2 : (-v) ^ (2 * k + 1) = -v ^ (2 * k + 1) := Odd.neg_zpow ⟨k, rfl⟩ v
    rw [e1, e2, neg_div]
  · push Not at h
    rw [h.1, neg_zero, polynomial_int_zero h.2]
    rfl

theorem polynomial_nonneg {v r : ℝ} (hv : 0 ≤ v) (hr : 0 ≤ r) :
    polynomial v r = .ok (v * (v ^ (2 * r) / (1 + v ^ (2 * r)))) := by
  have h0 : 0 ≤ v ^ (2 * r) := Real.rpow_nonneg hv _
  unfold polynomial
  rcases hv.eq_or_lt with rfl | hv
  · rw [npow_zero (by linarith), py_bind, npow_zero (by linarith), py_bind, fdiv_ok (by positivity),
      Real.zero_rpow (by linarith)]
    simp
  · rw [npow_pos hv, py_bind, npow_pos hv, py_bind, fdiv_ok (by positivity), Real.rpow_add hv,
      Real.rpow_one]
    congr 1
    ring

theorem ratio_lt_one {p : ℝ} (hp : 0 ≤ p) : p / (1 + p) < 1 := by
  rw [div_lt_one (by positivity)]
  linarith

theorem ratio_mono {p q : ℝ} (hp : 0 ≤ p) (h : p ≤ q) : p / (1 + p) ≤ q / (1 + q) := by
  rw [div_le_div_iff₀ (by linarith) (by linarith)]
  nlinarith

theorem ratio_pos {p : ℝ} (hp : 0 < p) : 0 < p / (1 + p) := by positivity

theorem rpow_pos_or {v r : ℝ} (hv : 0 < v) : 0 < v ^ (2 * r) := Real.rpow_pos_of_pos hv _

/-- Limit of large orders. -/
theorem ratio_limit_gt {v : ℝ} (h : 1 < v) :
    Tendsto (fun n : ℕ => v * ((v ^ (2 * n)) / (1 + v ^ (2 * n)))) atTop (𝓝 v) := by
  have hq : Tendsto (fun n : ℕ => ((v ^ 2)⁻¹) ^ n) atTop (𝓝 0) :=
    tendsto_pow_atTop_nhds_zero_of_lt_one (by positivity) (inv_lt_one_of_one_lt₀ (by nlinarith))
  have : Tendsto (fun n : ℕ => v * (1 / (((v ^ 2)⁻¹) ^ n + 1))) atTop (𝓝 (v * (1 / (0 + 1)))) :=
    (tendsto_const_nhds.div (hq.add tendsto_const_nhds) (by norm_num)).const_mul v
  rw [show v * (1 / (0 + 1)) = v by ring] at this
  refine this.congr fun n => ?_
  have hp : v ^ (2 * n) ≠ 0 := pow_ne_zero _ (by linarith)
  have hpos : 0 < v ^ (2 * n) := by positivity
  rw [inv_pow, ← pow_mul]
  field_simp

theorem ratio_limit_lt {v : ℝ} (h0 : 0 ≤ v) (h : v < 1) :
    Tendsto (fun n : ℕ => v * ((v ^ (2 * n)) / (1 + v ^ (2 * n)))) atTop (𝓝 0) := by
  have hq : Tendsto (fun n : ℕ => (v ^ 2) ^ n) atTop (𝓝 0) :=
    tendsto_pow_atTop_nhds_zero_of_lt_one (by positivity) (by nlinarith)
  have : Tendsto (fun n : ℕ => v * ((v ^ 2) ^ n / (1 + (v ^ 2) ^ n))) atTop (𝓝 (v * (0 / (1 + 0)))) :=
    (hq.div (tendsto_const_nhds.add hq) (by norm_num)).const_mul v
  rw [show v * ((0 : ℝ) / (1 + 0)) = 0 by ring] at this
  refine this.congr fun n => ?_
  rw [pow_mul]

/-! ## The exponential models -/

theorem step_pos (x : ℝ) : 0 < step x := by unfold step; positivity

theorem step_neg (x : ℝ) : step (-x) = 1 - step x := by
  unfold step
  have h := Real.exp_pos x
  rw [Real.exp_neg]
  field_simp
  ring

theorem step_lt_one (x : ℝ) : step x < 1 := by
  have := step_pos (-x)
  rw [step_neg] at this
  linarith

theorem step_anti {x y : ℝ} (h : x < y) : step y < step x := by
  unfold step
  have := Real.exp_lt_exp.2 h
  apply one_div_lt_one_div_of_lt <;> [positivity; linarith]

end QMix.MathFn
