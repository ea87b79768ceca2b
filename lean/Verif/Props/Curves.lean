import Verif.Lemmas.Curves

/-!
# C159: the exponential I-V models, piece by piece
-/

namespace QMix.Props

open QMix.Np QMix.MathFn QMix.Spec Filter Topology

/-- C159: the corrected exponential model is the subgap line inside the window between the gaps and the
normal-state line outside, whatever the parameters. -/
theorem C159_fixed {v vgap rn rsg agap : ℝ} (h1 : vgap ≠ 0) (h2 : rn ≠ 0) (h3 : rsg ≠ 0) {m : String}
    (hm : m = "fixed" ∨ m = "corrected" ∨ m = "FIXED") :
    exponential v vgap rn rsg agap m =
      .ok (window agap vgap (v * vgap) * (v * rn / rsg) + (1 - window agap vgap (v * vgap)) * v) := by
  unfold exponential
  rw [raiseIf_neg h2]
  dsimp only
  rw [if_pos (by rcases hm with rfl | rfl | rfl <;> decide), raiseIf_neg (by
    rintro (h' | h')
    · exact h3 h'
    · exact (div_ne_zero h1 h2) h')]
  refine congrArg Except.ok ?_
  rw [← step_window]
  rw [show -agap * (v * vgap + vgap) = -(agap * (v * vgap + vgap)) by ring,
      show -agap * (v * vgap - vgap) = -(agap * (v * vgap - vgap)) by ring, step_neg, step_neg]
  field_simp
  ring

/-- C159: in the model named `original` the subgap conductance is counted once more. The note in the
documentation follows: inside the gap the resistance is half of `rsg`, and outside it is the parallel
connection of `rn` and `rsg`. -/
theorem C159_original {v vgap rn rsg agap : ℝ} (h1 : vgap ≠ 0) (h2 : rn ≠ 0) (h3 : rsg ≠ 0) :
    exponential v vgap rn rsg agap "original" =
      .ok (window agap vgap (v * vgap) * (v * rn / rsg) + (1 - window agap vgap (v * vgap)) * v
        + v * rn / rsg) := by
  unfold exponential
  rw [raiseIf_neg h2]
  dsimp only
  rw [if_neg (by decide), if_pos (by decide), raiseIf_neg (by
    rintro (h' | h')
    · exact h3 h'
    · exact (div_ne_zero h1 h2) h')]
  refine congrArg Except.ok ?_
  rw [← step_window]
  rw [show -agap * (v * vgap + vgap) = -(agap * (v * vgap + vgap)) by ring,
      show -agap * (v * vgap - vgap) = -(agap * (v * vgap - vgap)) by ring, step_neg, step_neg]
  field_simp
  ring

/-- C159: the expanded model in amperes adds to the corrected one a leakage current that flows below the gap,
a drop of `inot` at the notch voltage and a drop of `ioff` at the gap. -/
theorem C159_expanded {v vgap rn rsg agap a0 ileak vnot inot anot ioff : ℝ} (h1 : vgap ≠ 0) (h2 : rn ≠ 0)
    (h3 : rsg ≠ 0) : ∃ i, expanded v vgap rn rsg agap a0 ileak vnot inot anot ioff = .ok i ∧
      i * (vgap / rn) = window agap vgap (v * vgap) * (v * vgap / rsg)
        + (1 - window agap vgap (v * vgap)) * (v * vgap / rn)
        + ileak * (steps a0 0 (v * vgap) - steps agap vgap (v * vgap))
        - inot * steps anot vnot (v * vgap) - ioff * steps agap vgap (v * vgap) := by
  unfold expanded
  dsimp only
  rw [raiseIf_neg h2, raiseIf_neg (by
    rintro (h' | h')
    · exact h3 h'
    · exact (div_ne_zero h1 h2) h')]
  refine ⟨_, rfl, ?_⟩
  rw [div_mul_cancel₀ _ (div_ne_zero h1 h2)]
  rw [← step_window, ← step_steps, ← step_steps, ← step_steps, sub_zero, add_zero]
  rw [show -agap * (v * vgap + vgap) = -(agap * (v * vgap + vgap)) by ring,
      show -agap * (v * vgap - vgap) = -(agap * (v * vgap - vgap)) by ring,
      show -a0 * (v * vgap) = -(a0 * (v * vgap)) by ring, step_neg, step_neg, step_neg]
  have e : ∀ x y : ℝ, x / (1 + Real.exp y) = x * step y := fun x y => by unfold step; ring
  simp only [e]
  field_simp
  ring

/-- The limit of a sharp gap. -/
private theorem scaled_window {vgap : ℝ} (h : 0 < vgap) (v : ℝ) :
    sharpWindow vgap (v * vgap) = sharpWindow 1 v ∧ sharpSteps vgap (v * vgap) = sharpSteps 1 v := by
  have e : ∀ t : ℝ, Real.sign (t * vgap) = Real.sign t := by
    intro t
    rcases lt_trichotomy t 0 with ht | ht | ht
    · rw [Real.sign_of_neg ht, Real.sign_of_neg (mul_neg_of_neg_of_pos ht h)]
    · simp [ht]
    · rw [Real.sign_of_pos ht, Real.sign_of_pos (mul_pos ht h)]
  unfold sharpWindow sharpSteps
  rw [show v * vgap + vgap = (v + 1) * vgap by ring, show v * vgap - vgap = (v - 1) * vgap by ring, e, e]
  exact ⟨rfl, rfl⟩

/-- C159: as the gap becomes sharp, the corrected model tends to the line of the subgap resistance below the
gap, to the normal-state line above, and to their mean at the gap. -/
theorem C159_fixed_sharp {vgap rn rsg : ℝ} (h1 : 0 < vgap) (h2 : rn ≠ 0) (h3 : rsg ≠ 0) (v : ℝ) :
    ∃ i : ℝ → ℝ, (∀ a, exponential v vgap rn rsg a "fixed" = .ok (i a)) ∧
      (|v| < 1 → Tendsto i atTop (𝓝 (v * rn / rsg))) ∧ (1 < |v| → Tendsto i atTop (𝓝 v)) ∧
      (|v| = 1 → Tendsto i atTop (𝓝 ((v * rn / rsg + v) / 2))) := by
  refine ⟨_, fun a => C159_fixed h1.ne' h2 h3 (Or.inl rfl), ?_⟩
  have hw := window_sharp (α := 1) one_pos vgap (v * vgap)
  rw [(scaled_window h1 v).1] at hw
  simp only [mul_one] at hw
  have ht := (hw.mul_const (v * rn / rsg)).add
    (((tendsto_const_nhds (x := (1 : ℝ))).sub hw).mul_const v)
  refine ⟨fun h => ?_, fun h => ?_, fun h => ?_⟩
  · rw [(sharp_inside h).1] at ht
    convert ht using 2
    ring
  · have : sharpWindow 1 v = 0 := by
      rcases lt_abs.mp h with h | h
      · exact (sharp_above zero_le_one h).1
      · exact (sharp_below zero_le_one (by linarith)).1
    rw [this] at ht
    convert ht using 2
    ring
  · have : sharpWindow 1 v = 1 / 2 := by
      rcases (abs_eq zero_le_one).mp h with h | h
      · rw [h]; exact (sharp_edge one_pos).1
      · rw [h]
        unfold sharpWindow
        rw [neg_add_cancel, Real.sign_zero, Real.sign_of_neg (by norm_num)]
        norm_num
    rw [this] at ht
    convert ht using 2
    ring

/-- C159: the model named `original` tends to half the subgap resistance below the gap and to the parallel
connection of `rn` and `rsg` above it. -/
theorem C159_original_sharp {vgap rn rsg : ℝ} (h1 : 0 < vgap) (h2 : rn ≠ 0) (h3 : rsg ≠ 0) (v : ℝ) :
    ∃ i : ℝ → ℝ, (∀ a, exponential v vgap rn rsg a "original" = .ok (i a)) ∧
      (|v| < 1 → Tendsto i atTop (𝓝 (v * rn / (rsg / 2)))) ∧
      (1 < |v| → Tendsto i atTop (𝓝 (v * rn * (1 / rn + 1 / rsg)))) := by
  refine ⟨_, fun a => C159_original h1.ne' h2 h3, ?_⟩
  have hw := window_sharp (α := 1) one_pos vgap (v * vgap)
  rw [(scaled_window h1 v).1] at hw
  simp only [mul_one] at hw
  have ht := ((hw.mul_const (v * rn / rsg)).add
    (((tendsto_const_nhds (x := (1 : ℝ))).sub hw).mul_const v)).add_const (v * rn / rsg)
  refine ⟨fun h => ?_, fun h => ?_⟩
  · rw [(sharp_inside h).1] at ht
    convert ht using 2
    field_simp
    ring
  · have : sharpWindow 1 v = 0 := by
      rcases lt_abs.mp h with h | h
      · exact (sharp_above zero_le_one h).1
      · exact (sharp_below zero_le_one (by linarith)).1
    rw [this] at ht
    convert ht using 2
    field_simp
    ring

/-- C159: when all transitions of the expanded model become sharp, the current in amperes at a positive voltage
is `ileak + V / rsg` below the gap, `V / rn - ioff` from the gap to the notch and `V / rn - ioff - inot` above
the notch: the leakage current does not flow above the gap. -/
theorem C159_expanded_sharp {vgap rn rsg vnot α β γ : ℝ} (h1 : 0 < vgap) (h2 : rn ≠ 0) (h3 : rsg ≠ 0)
    (hα : 0 < α) (hβ : 0 < β) (hγ : 0 < γ) (hn : vgap < vnot) (ileak inot ioff V : ℝ) (hV : 0 < V) :
    ∃ i : ℝ → ℝ, (∀ a, expanded (V / vgap) vgap rn rsg (a * α) (a * β) ileak vnot inot (a * γ) ioff
        = .ok (i a)) ∧
      (V < vgap → Tendsto (fun a => i a * (vgap / rn)) atTop (𝓝 (V / rsg + ileak))) ∧
      (vgap < V → V < vnot → Tendsto (fun a => i a * (vgap / rn)) atTop (𝓝 (V / rn - ioff))) ∧
      (vnot < V → Tendsto (fun a => i a * (vgap / rn)) atTop (𝓝 (V / rn - ioff - inot))) := by
  choose i hi he using fun a : ℝ => C159_expanded (v := V / vgap) (agap := a * α) (a0 := a * β) (ileak := ileak)
    (vnot := vnot) (inot := inot) (anot := a * γ) (ioff := ioff) h1.ne' h2 h3
  have eV : V / vgap * vgap = V := div_mul_cancel₀ _ h1.ne'
  simp only [eV] at he
  refine ⟨i, hi, ?_⟩
  simp only [he]
  have w := window_sharp hα vgap V
  have s := steps_sharp hα vgap V
  have z := steps_sharp hβ 0 V
  have n := steps_sharp hγ vnot V
  have ht := ((((w.mul_const (V / rsg)).add (((tendsto_const_nhds (x := (1 : ℝ))).sub w).mul_const (V / rn))).add
    ((z.sub s).const_mul ileak)).sub (n.const_mul inot)).sub (s.const_mul ioff)
  rw [(sharp_above le_rfl hV).2] at ht
  have hg := h1.trans hn
  refine ⟨fun h => ?_, fun h h' => ?_, fun h => ?_⟩
  · have a1 : |V| < vgap := by rwa [abs_of_pos hV]
    have a2 : |V| < vnot := a1.trans hn
    rw [(sharp_inside a1).1, (sharp_inside a1).2, (sharp_inside a2).2] at ht
    convert ht using 2
    ring
  · have a2 : |V| < vnot := by rwa [abs_of_pos hV]
    rw [(sharp_above h1.le h).1, (sharp_above h1.le h).2, (sharp_inside a2).2] at ht
    convert ht using 2
    ring
  · rw [(sharp_above h1.le (hn.trans h)).1, (sharp_above h1.le (hn.trans h)).2, (sharp_above hg.le h).2] at ht
    convert ht using 2
    ring

/-- The default parameters of the expanded model satisfy the hypotheses. -/
example (V : ℝ) (hV : 0 < V) := C159_expanded_sharp (vgap := 2.8e-3) (rn := 14) (rsg := 5e2) (vnot := 2.85e-3)
  (α := 4e4) (β := 1e4) (γ := 2e4) (by norm_num) (by norm_num) (by norm_num) (by norm_num) (by norm_num)
  (by norm_num) (by norm_num) 5e-6 1e-5 1e-5 V hV

/-- With the sharpness 1, the gap 1 and the resistances 1 and 2, at the gap: the window is
`sinh 1 / (2 cosh 1)`. -/
example : exponential 1 1 1 2 1 "fixed" = .ok (1 - Real.sinh 1 / (4 * Real.cosh 1)) := by
  rw [C159_fixed one_ne_zero one_ne_zero two_ne_zero (Or.inl rfl)]
  unfold window
  have := (Real.cosh_pos 1).ne'
  refine congrArg Except.ok ?_
  simp only [mul_one]
  field_simp
  ring

end QMix.Props
