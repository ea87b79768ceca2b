import Verif.Model.IfData
import Verif.Lemmas.Py
import Verif.Lemmas.NumPy
import Mathlib.Analysis.SpecialFunctions.Trigonometric.DerivHyp
import Mathlib.Analysis.Calculus.Deriv.MeanValue

/-!
# Hyperbolic functions for the Callen-Welton temperature
-/

namespace QMix.IfData

open Real

theorem tanh_pos' {x : ℝ} (h : 0 < x) : 0 < tanh x := by
  rw [tanh_eq_sinh_div_cosh]
  exact div_pos (sinh_pos_iff.2 h) (cosh_pos x)

theorem tanh_lt_tanh {x y : ℝ} (h : x < y) : tanh x < tanh y := by
  rw [tanh_eq_sinh_div_cosh, tanh_eq_sinh_div_cosh, div_lt_div_iff₀ (cosh_pos x) (cosh_pos y)]
  have := sinh_pos_iff.2 (sub_pos.2 h)
  rw [sinh_sub] at this
  linarith

theorem sinh_lt_mul_cosh {x : ℝ} (h : 0 < x) : sinh x < x * cosh x := by
  have hm : StrictMonoOn (fun x => x * cosh x - sinh x) (Set.Ici 0) := by
    apply strictMonoOn_of_deriv_pos (convex_Ici 0)
    · exact ((continuous_id.mul continuous_cosh).sub continuous_sinh).continuousOn
    · intro y hy
      rw [interior_Ici, Set.mem_Ioi] at hy
      have hd : HasDerivAt (fun x => x * cosh x - sinh x) (1 * cosh y + y * sinh y - cosh y) y :=
        ((hasDerivAt_id' y).mul (hasDerivAt_cosh y)).sub (hasDerivAt_sinh y)
      rw [hd.deriv]
      have := mul_pos hy (sinh_pos_iff.2 hy)
      linarith
  have := hm (Set.mem_Ici.2 le_rfl) (Set.mem_Ici.2 h.le) h
  simp only [zero_mul, sinh_zero, sub_self] at this
  linarith

theorem tanh_lt_self {x : ℝ} (h : 0 < x) : tanh x < x := by
  rw [tanh_eq_sinh_div_cosh, div_lt_iff₀ (cosh_pos x)]
  exact sinh_lt_mul_cosh h

theorem self_lt_sinh_mul_cosh {x : ℝ} (h : 0 < x) : x < sinh x * cosh x := by
  have h1 := self_lt_sinh_iff.2 h
  have h2 := one_le_cosh x
  nlinarith

/-- `x / tanh x` is increasing. -/
theorem div_tanh_lt {x y : ℝ} (hx : 0 < x) (h : x < y) : x / tanh x < y / tanh y := by
  have hm : StrictMonoOn (fun x => x * cosh x / sinh x) (Set.Ioi 0) := by
    apply strictMonoOn_of_deriv_pos (convex_Ioi 0)
    · apply ContinuousOn.div
      · exact (continuous_id.mul continuous_cosh).continuousOn
      · exact continuous_sinh.continuousOn
      · intro y hy; exact (sinh_pos_iff.2 hy).ne'
    · intro y hy
      rw [interior_Ioi, Set.mem_Ioi] at hy
      have hs := sinh_pos_iff.2 hy
      have hd : HasDerivAt (fun x => x * cosh x / sinh x)
          (((1 * cosh y + y * sinh y) * sinh y - y * cosh y * cosh y) / sinh y ^ 2) y :=
        ((hasDerivAt_id' y).mul (hasDerivAt_cosh y)).div (hasDerivAt_sinh y) hs.ne'
      rw [hd.deriv]
      apply div_pos _ (by positivity)
      have h1 := self_lt_sinh_mul_cosh hy
      have h2 := cosh_sq y
      nlinarith
  have := hm (Set.mem_Ioi.2 hx) (Set.mem_Ioi.2 (hx.trans h)) h
  simp only at this
  rwa [tanh_eq_sinh_div_cosh, tanh_eq_sinh_div_cosh, div_div_eq_mul_div, div_div_eq_mul_div]

/-- `x / tanh x < 1 + x`. -/
theorem div_tanh_lt_add {x : ℝ} (hx : 0 < x) : x / tanh x < 1 + x := by
  have hs := sinh_pos_iff.2 hx
  rw [tanh_eq_sinh_div_cosh, div_div_eq_mul_div, div_lt_iff₀ hs]
  have h1 := self_lt_sinh_iff.2 hx
  have h2 : cosh x - sinh x = exp (-x) := by rw [cosh_sub_sinh]
  have h3 : exp (-x) < 1 := by rw [exp_lt_one_iff]; linarith
  nlinarith [exp_pos (-x)]

/-- Half the photon energy over Boltzmann's constant. -/
noncomputable def halfPhoton (f : ℝ) : ℝ := planckH * f / 2 / boltzmann

theorem halfPhoton_pos {f : ℝ} (h : 0 < f) : 0 < halfPhoton f := by
  unfold halfPhoton planckH boltzmann
  positivity

theorem halfPhoton_lt {f g : ℝ} (h : f < g) : halfPhoton f < halfPhoton g := by
  have := halfPhoton_pos (sub_pos.2 h)
  unfold halfPhoton at *
  have e : planckH * (g - f) / 2 / boltzmann
    = planckH * g / 2 / boltzmann - planckH * f / 2 / boltzmann := by ring
  linarith

theorem tempCw_eq {f t : ℝ} (hf : 0 < f) (ht : 0 < t) :
    tempCw f t = .ok (halfPhoton f / tanh (halfPhoton f / t)) := by
  have h := tanh_pos' (div_pos (halfPhoton_pos hf) ht)
  unfold tempCw
  rw [raiseIf_neg ht.ne']
  unfold Np.fdiv
  rw [if_neg]
  · rfl
  · exact h.ne'

end QMix.IfData
