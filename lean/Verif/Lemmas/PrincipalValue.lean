import Verif.Lemmas.IvModels
import Mathlib.MeasureTheory.Integral.IntervalIntegral.FundThmCalculus
import Mathlib.Analysis.SpecialFunctions.Log.Deriv

/-!
# The Kramers-Kronig integral of the ideal I-V curve
-/

namespace QMix.MathFn

open MeasureTheory Filter Topology Set

theorem hasDeriv_F (v x : ℝ) (h : x ≠ v) :
    HasDerivAt (fun x => -x - v * Real.log (x - v)) (-x / (x - v)) x := by
  have h0 : x - v ≠ 0 := sub_ne_zero.2 h
  have h1 : HasDerivAt (fun x => Real.log (x - v)) (1 / (x - v)) x :=
    ((hasDerivAt_id x).sub_const v).log h0
  have := (hasDerivAt_id x).neg.sub (h1.const_mul v)
  have e : -x / (x - v) = -1 - v * (1 / (x - v)) := by
    field_simp
    ring
  rw [e]
  exact this

theorem cont_g {a b v : ℝ} (h : ∀ x ∈ Icc a b, x ≠ v) :
    ContinuousOn (fun x => -x / (x - v)) (Icc a b) := by
  intro x hx
  apply ContinuousAt.continuousWithinAt
  apply ContinuousAt.div (continuous_neg.continuousAt) (by fun_prop)
  exact sub_ne_zero.2 (h x hx)

theorem ftc_g {a b v : ℝ} (hab : a ≤ b) (h : ∀ x ∈ Icc a b, x ≠ v) :
    ∫ x in Ioc a b, -x / (x - v)
      = (-b - v * Real.log (b - v)) - (-a - v * Real.log (a - v)) := by
  rw [← intervalIntegral.integral_of_le hab]
  apply intervalIntegral.integral_eq_sub_of_hasDerivAt
  · intro x hx
    rw [uIcc_of_le hab] at hx
    exact hasDeriv_F v x (h x hx)
  · apply ContinuousOn.intervalIntegrable
    rw [uIcc_of_le hab]
    exact cont_g h

theorem excess_ae (v : ℝ) : ∀ᵐ x : ℝ, (perfectElem x - x) / (x - v)
    = (Ioo (-1 : ℝ) 1).indicator (fun x => -x / (x - v)) x := by
  have h : ∀ᵐ x : ℝ, x ∉ ({1, -1} : Set ℝ) := by
    exact (Set.toFinite ({1, -1} : Set ℝ)).countable.ae_notMem volume
  filter_upwards [h] with x hx
  simp only [mem_insert_iff, mem_singleton_iff, not_or] at hx
  by_cases hi : |x| < 1
  · rw [indicator_of_mem (show x ∈ Ioo (-1 : ℝ) 1 from abs_lt.1 hi), perfectElem_lt hi, zero_sub]
  · rw [indicator_of_notMem (show x ∉ Ioo (-1 : ℝ) 1 from fun hh => hi (abs_lt.2 hh)), perfectElem_gt, sub_self, zero_div]
    refine lt_of_le_of_ne (not_lt.1 hi) fun hh => ?_
    rcases (abs_eq zero_le_one).1 hh.symm with h' | h'
    · exact hx.1 h'
    · exact hx.2 h'

theorem excess_integral (v : ℝ) (S : Set ℝ) : ∫ x in S, (perfectElem x - x) / (x - v)
    = ∫ x in S ∩ Ioo (-1 : ℝ) 1, -x / (x - v) := by
  rw [← setIntegral_indicator measurableSet_Ioo]
  exact integral_congr_ae (ae_restrict_of_ae (excess_ae v))

theorem pv_inside {v : ℝ} (hv : |v| < 1) {ε : ℝ} (h0 : 0 < ε) (h1 : ε < 1 - v) (h2 : ε < 1 + v) :
    ∫ x in {x | ε ≤ |x - v|}, (perfectElem x - x) / (x - v)
      = -2 + 2 * ε + v * (Real.log (1 + v) - Real.log (1 - v)) := by
  rw [excess_integral]
  have hS : {x | ε ≤ |x - v|} ∩ Ioo (-1 : ℝ) 1 = Ioc (-1) (v - ε) ∪ Ico (v + ε) 1 := by
    ext x
    simp only [mem_inter_iff, mem_ofPred_eq, mem_Ioo, mem_union, mem_Ioc, mem_Ico, le_abs]
    constructor
    · rintro ⟨h | h, ha, hb⟩
      · right; constructor <;> linarith
      · left; constructor <;> linarith
    · rintro (⟨ha, hb⟩ | ⟨ha, hb⟩)
      · exact ⟨Or.inr (by linarith), by linarith, by linarith⟩
      · exact ⟨Or.inl (by linarith), by linarith, by linarith⟩
  have hA : ∀ x ∈ Icc (-1) (v - ε), x ≠ v := by rintro x ⟨-, hx⟩ rfl; linarith
  have hB : ∀ x ∈ Icc (v + ε) 1, x ≠ v := by rintro x ⟨hx, -⟩ rfl; linarith
  rw [hS, setIntegral_union _ measurableSet_Ico, integral_Ico_eq_integral_Ioo, ← integral_Ioc_eq_integral_Ioo,
    ftc_g (by linarith) hA, ftc_g (by linarith) hB]
  · rw [show v - ε - v = -ε by ring, show -1 - v = -(1 + v) by ring, Real.log_neg_eq_log,
      Real.log_neg_eq_log, show v + ε - v = ε by ring]
    ring
  · exact ((cont_g hA).integrableOn_Icc).mono_set Ioc_subset_Icc_self
  · exact ((cont_g hB).integrableOn_Icc).mono_set Ico_subset_Icc_self
  · rw [Set.disjoint_left]
    rintro x ⟨_, hx⟩ ⟨hx', _⟩
    linarith

theorem pv_outside {v : ℝ} (hv : 1 < |v|) {ε : ℝ} (h1 : ε < |v| - 1) :
    ∫ x in {x | ε ≤ |x - v|}, (perfectElem x - x) / (x - v)
      = -2 + v * (Real.log (1 + v) - Real.log (1 - v)) := by
  rw [excess_integral]
  have hS : {x | ε ≤ |x - v|} ∩ Ioo (-1 : ℝ) 1 = Ioo (-1) 1 := by
    apply inter_eq_right.2
    intro x hx
    have : |x| < 1 := abs_lt.2 hx
    have := abs_sub_abs_le_abs_sub v x
    rw [abs_sub_comm] at this
    show ε ≤ |x - v|
    linarith
  have hA : ∀ x ∈ Icc (-1 : ℝ) 1, x ≠ v := by
    rintro x hx rfl
    exact absurd (abs_le.2 hx) (not_le.2 hv)
  rw [hS, ← integral_Ioc_eq_integral_Ioo, ftc_g (by norm_num) hA, show -1 - v = -(1 + v) by ring,
    Real.log_neg_eq_log]
  ring

theorem kk_value (m : ℝ) {v : ℝ} (h : |v| ≠ 1) :
    Real.pi * perfectKkElem m v = -2 + v * (Real.log (1 + v) - Real.log (1 - v)) := by
  have a : v - 1 ≠ 0 := by intro h'; apply h; rw [sub_eq_zero.1 h', abs_one]
  have b : v + 1 ≠ 0 := by intro h'; apply h; rw [eq_neg_of_add_eq_zero_left h', abs_neg, abs_one]
  unfold perfectKkElem
  rw [if_pos h, Real.log_abs, Real.log_div a b, show v - 1 = -(1 - v) by ring, Real.log_neg_eq_log,
    add_comm v 1]
  have := Real.pi_pos.ne'
  field_simp
  ring

/-- `perfect_kk` is the principal value of the Kramers-Kronig integral of `perfect`. -/
theorem pv_perfect (m : ℝ) {v : ℝ} (h : |v| ≠ 1) :
    Tendsto (fun ε => 1 / Real.pi * ∫ x in {x | ε ≤ |x - v|}, (perfectElem x - x) / (x - v)) (𝓝[>] 0)
      (𝓝 (perfectKkElem m v)) := by
  have hpi := Real.pi_pos.ne'
  have e : perfectKkElem m v = 1 / Real.pi * (Real.pi * perfectKkElem m v) := by field_simp
  rw [e, kk_value m h]
  apply Tendsto.const_mul
  rcases lt_or_gt_of_ne h with hv | hv
  · have ht : Tendsto (fun ε : ℝ => -2 + 2 * ε + v * (Real.log (1 + v) - Real.log (1 - v))) (𝓝[>] 0)
        (𝓝 (-2 + v * (Real.log (1 + v) - Real.log (1 - v)))) := by
      have : Tendsto (fun ε : ℝ => -2 + 2 * ε + v * (Real.log (1 + v) - Real.log (1 - v))) (𝓝 0)
          (𝓝 (-2 + 2 * 0 + v * (Real.log (1 + v) - Real.log (1 - v)))) := by
        apply Continuous.tendsto; fun_prop
      rw [mul_zero, add_zero] at this
      exact this.mono_left nhdsWithin_le_nhds
    refine ht.congr' ?_
    have hv' := abs_lt.1 hv
    have h1 : ∀ᶠ ε : ℝ in 𝓝[>] 0, ε < 1 - v := nhdsWithin_le_nhds (Iio_mem_nhds (by linarith [hv'.2]))
    have h2 : ∀ᶠ ε : ℝ in 𝓝[>] 0, ε < 1 + v := nhdsWithin_le_nhds (Iio_mem_nhds (by linarith [hv'.1]))
    filter_upwards [h1, h2, self_mem_nhdsWithin] with ε h1 h2 h0
    exact (pv_inside hv h0 h1 h2).symm
  · refine (tendsto_const_nhds (x := -2 + v * (Real.log (1 + v) - Real.log (1 - v)))).congr' ?_
    have h1 : ∀ᶠ ε : ℝ in 𝓝[>] 0, ε < |v| - 1 := nhdsWithin_le_nhds (Iio_mem_nhds (by linarith))
    filter_upwards [h1] with ε h1
    exact (pv_outside hv h1).symm

end QMix.MathFn
