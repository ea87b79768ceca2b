import Verif.Spec.Curves
import Verif.Lemmas.IvModels
import Mathlib.Analysis.SpecialFunctions.Exp

/-!
# The logistic steps of the models as windows and pairs of steps
-/

namespace QMix.MathFn

open QMix.Spec Filter Topology

theorem den_pos (a c v : ℝ) : 0 < Real.cosh (a * c) + Real.cosh (a * v) := by
  have := Real.cosh_pos (a * c)
  have := Real.cosh_pos (a * v)
  linarith

/-- Two logistic steps, one down and one up. -/
theorem step_window (a c v : ℝ) : step (a * (v - c)) - step (a * (v + c)) = window a c v := by
  unfold step window
  have h1 := Real.exp_pos (a * c)
  have h2 := Real.exp_pos (a * v)
  rw [Real.sinh_eq, Real.cosh_eq, Real.cosh_eq, mul_sub, mul_add, Real.exp_sub, Real.exp_add, Real.exp_neg,
    Real.exp_neg]
  field_simp
  ring

/-- Two logistic steps up. -/
theorem step_steps (a c v : ℝ) : 1 - step (a * (v - c)) - step (a * (v + c)) = steps a c v := by
  unfold step steps
  have h1 := Real.exp_pos (a * c)
  have h2 := Real.exp_pos (a * v)
  rw [Real.sinh_eq, Real.cosh_eq, Real.cosh_eq, mul_sub, mul_add, Real.exp_sub, Real.exp_add, Real.exp_neg,
    Real.exp_neg]
  field_simp
  ring

/-- A logistic step becomes a sharp one. -/
theorem step_sharp {α : ℝ} (hα : 0 < α) (t : ℝ) :
    Tendsto (fun a : ℝ => step (a * α * t)) atTop (𝓝 ((1 - Real.sign t) / 2)) := by
  unfold step
  rcases lt_trichotomy t 0 with h | h | h
  · rw [Real.sign_of_neg h]
    have : Tendsto (fun a : ℝ => Real.exp (a * α * t)) atTop (𝓝 0) := by
      apply Real.tendsto_exp_atBot.comp
      have := (tendsto_id (α := ℝ) (x := atTop)).atTop_mul_const_of_neg (mul_neg_of_pos_of_neg hα h)
      exact this.congr fun a => by simp only [id]; ring
    have := (tendsto_const_nhds (x := (1 : ℝ))).div ((tendsto_const_nhds (x := (1 : ℝ))).add this) (by norm_num)
    rw [show ((1 - -1) / 2 : ℝ) = 1 / (1 + 0) by norm_num]
    exact this
  · subst h
    simp only [mul_zero, Real.exp_zero, Real.sign_zero]
    convert tendsto_const_nhds using 2
    norm_num
  · rw [Real.sign_of_pos h]
    have : Tendsto (fun a : ℝ => 1 + Real.exp (a * α * t)) atTop atTop := by
      apply tendsto_atTop_add_const_left
      apply Real.tendsto_exp_atTop.comp
      have := (tendsto_id (α := ℝ) (x := atTop)).atTop_mul_const (mul_pos hα h)
      exact this.congr fun a => by simp only [id]; ring
    have := this.inv_tendsto_atTop
    convert this using 2
    · simp
    · norm_num

theorem window_sharp {α : ℝ} (hα : 0 < α) (c v : ℝ) :
    Tendsto (fun a : ℝ => window (a * α) c v) atTop (𝓝 (sharpWindow c v)) := by
  have := (step_sharp hα (v - c)).sub (step_sharp hα (v + c))
  refine (this.congr fun a => step_window (a * α) c v).trans (le_of_eq ?_)
  unfold sharpWindow
  congr 1
  ring

theorem steps_sharp {α : ℝ} (hα : 0 < α) (c v : ℝ) :
    Tendsto (fun a : ℝ => steps (a * α) c v) atTop (𝓝 (sharpSteps c v)) := by
  have := ((tendsto_const_nhds (x := (1 : ℝ))).sub (step_sharp hα (v - c))).sub (step_sharp hα (v + c))
  refine (this.congr fun a => step_steps (a * α) c v).trans (le_of_eq ?_)
  unfold sharpSteps
  congr 1
  ring

end QMix.MathFn
