import Verif.Lemmas.ExponFp
import Verif.Props.Overflow
import Verif.Props.PolyFp

/-!
# C202: the exponential I-V curve in floating-point arithmetic
-/

namespace QMix.Props

open QMix.CctFp QMix.MathFn QMix.Rel QMix.Spec

variable {u : ℝ} {p : ℕ}

/-! ## Specification -/

/-- The factor by which a result may be wrong: `n` roundings, and three roundings of the exponents of the steps, which are up to
`agap (|v| + 1) vgap`. -/
noncomputable def expFactor (u : ℝ) (n : ℕ) (v vgap agap : ℝ) : ℝ :=
  (1 - u)⁻¹ ^ n * Real.exp (((1 + u) ^ 3 - 1) * (|agap| * (|v * vgap| + |vgap|)))

/-! ## Lemmas -/

section
variable {x y B v vgap agap : ℝ} (h0 : 0 ≤ u) (h1 : u < 1)
include h0 h1

theorem r_one : 1 ≤ (1 - u)⁻¹ := (le_add_of_nonneg_right h0).trans (one_add_le h0 h1)

theorem expFactor_pos (n : ℕ) : 0 ≤ expFactor u n v vgap agap :=
  mul_nonneg (pow_nonneg (zero_le_one.trans (r_one h0 h1)) _) (Real.exp_pos _).le

theorem expFactor_mono {n m : ℕ} (h : n ≤ m) : expFactor u n v vgap agap ≤ expFactor u m v vgap agap :=
  mul_le_mul_of_nonneg_right (pow_le_pow_right₀ (r_one h0 h1) h) (Real.exp_pos _).le

theorem appr_rnd (A : Fp u) {n : ℕ} (h : Appr (expFactor u n v vgap agap) x y B) : Appr (expFactor u (n + 1) v vgap agap) (A.rnd x) y B := by
  refine (h.rnd A h0 h1 (expFactor_pos h0 h1 n)).mono (le_of_eq ?_)
  unfold expFactor
  ring

theorem appr_up {n m : ℕ} (h : Appr (expFactor u n v vgap agap) x y B) (hm : n ≤ m) : Appr (expFactor u m v vgap agap) x y B :=
  h.mono (expFactor_mono h0 h1 hm)

/-- One term of the sum. -/
theorem appr_term (A : Fp u) (E : ExpFn u p) {c c' a g : ℝ} (hc : Rel u 3 c c') (ha : |a| = |agap|) (hg : |g| = |vgap|) :
    Appr (expFactor u (p + 6) v vgap agap) (A.rnd (c * stepR A E (A.rnd (a * A.rnd (A.rnd (v * vgap) + g)))))
      (c' * step (a * (v * vgap + g))) |c'| := by
  have e := arg_err A h0 a v vgap hg
  rw [ha] at e
  have := ((Appr.of_rel h0 h1 hc).mul (mul_nonneg (pow_nonneg (zero_le_one.trans (r_one h0 h1)) _) (Real.exp_pos _).le)
    (stepR_appr A E h0 h1 e))
  rw [mul_one] at this
  have k : Appr (expFactor u (p + 5) v vgap agap) (c * stepR A E (A.rnd (a * A.rnd (A.rnd (v * vgap) + g))))
      (c' * step (a * (v * vgap + g))) |c'| := this.mono (le_of_eq (by unfold expFactor; ring))
  exact appr_rnd h0 h1 A k

/-- The quotient by the gap current. -/
theorem appr_quot (A : Fp u) {n : ℕ} {g : ℝ} (h : Appr (expFactor u n v vgap agap) x y B) :
    Appr (expFactor u (n + 2) v vgap agap) (A.rnd (x / A.rnd g)) (y / g) (B * |g⁻¹|) := by
  have k := (Appr.of_rel h0 h1 ((rnd_rel A h0 h1 g).inv h1))
  have := h.mul (pow_nonneg (zero_le_one.trans (r_one h0 h1)) 1) k
  rw [← div_eq_mul_inv, ← div_eq_mul_inv] at this
  exact appr_rnd h0 h1 A (n := n + 1) (this.mono (le_of_eq (by unfold expFactor; ring)))

end

/-! ## C202 -/

/-- C202: the current of the exponential model in floating-point arithmetic, with exponentials that are right up to `p` roundings, is that of
exact arithmetic up to `p + 13` roundings and three roundings of the exponents, relative to `|v| (2 rn / rsg + 2)`, for every voltage, every
choice of the parameters and all three names of the model. -/
theorem C202_exponential (A : Fp u) (E : ExpFn u p) (h0 : 0 ≤ u) (h1 : u < 1) {v vgap rn rsg agap : ℝ} {model : String} {i : ℝ}
    (h : MathFn.exponential v vgap rn rsg agap model = .ok i) :
    ∃ f, exponentialR A E v vgap rn rsg agap model = .ok f ∧
      |f - i| ≤ (expFactor u (p + 13) v vgap agap - 1) * (|v| * (2 * |rn / rsg| + 2)) := by
  classical
  unfold MathFn.exponential at h
  obtain ⟨_, k, h⟩ := bind_ok_iff.1 h
  have hrn := not_of_raise k
  dsimp only at h
  have hv1 : Rel u 1 (A.rnd (v * vgap)) (v * vgap) := rnd_rel A h0 h1 _
  have hd : Rel u 3 (A.rnd (A.rnd (v * vgap) / rn)) (v * vgap / rn) := (rnd_step A h0 h1 (hv1.divRight rn)).mono h0 h1 (by norm_num)
  have tn := fun (a g : ℝ) (ha : |a| = |agap|) (hg : |g| = |vgap|) => appr_term (v := v) h0 h1 A E hd ha hg
  have size : ∀ {c : ℝ}, rsg ≠ 0 → vgap / rn ≠ 0 → c = |v * vgap / rsg| * 2 + |v * vgap / rn| * 2 →
      c * |(vgap / rn)⁻¹| = |v| * (2 * |rn / rsg| + 2) := by
    rintro c hs hg rfl
    have hvg : vgap ≠ 0 := fun e => hg (by rw [e, zero_div])
    simp only [abs_div, abs_mul, abs_inv]
    have := abs_ne_zero.2 hvg
    have := abs_ne_zero.2 hrn
    have := abs_ne_zero.2 hs
    field_simp
  unfold exponentialR
  rw [raiseIf_neg hrn]
  dsimp only
  split_ifs at h ⊢ with m1 m2
  · obtain ⟨_, k, h⟩ := bind_ok_iff.1 h
    obtain ⟨hs, hg⟩ := not_or.1 (not_of_raise k)
    have hs2 : Rel u 1 (A.rnd (rsg * 2)) (rsg * 2) := rnd_rel A h0 h1 _
    rw [raiseIf_neg (not_or.2 ⟨(hs2.sign h1).2.2.1 (by simpa using hs), ((rnd_rel A h0 h1 (vgap / rn)).sign h1).2.2.1 hg⟩)]
    have hc : Rel u 3 (A.rnd (A.rnd (v * vgap) / A.rnd (rsg * 2))) (v * vgap / (rsg * 2)) := rnd_step A h0 h1 (hv1.div h1 hs2)
    have ts := fun (a g : ℝ) (ha : |a| = |agap|) (hg : |g| = |vgap|) => appr_term (v := v) h0 h1 A E hc ha hg
    have s1 := ts (-agap) vgap (abs_neg _) rfl
    have s2 := ts agap vgap rfl rfl
    have s3 := ts (-agap) (-vgap) (abs_neg _) (abs_neg _)
    have s4 := ts agap (-vgap) rfl (abs_neg _)
    have s5 := tn agap vgap rfl rfl
    have s6 := tn (-agap) (-vgap) (abs_neg _) (abs_neg _)
    simp only [← sub_eq_add_neg] at s3 s4 s6
    have t2 := appr_rnd h0 h1 A (s1.sub s2)
    have t3 := appr_rnd h0 h1 A (t2.sub (appr_up h0 h1 s3 (m := p + 6 + 1) (by omega)))
    have t4 := appr_rnd h0 h1 A (t3.add (appr_up h0 h1 s4 (m := p + 6 + 1 + 1) (by omega)))
    have t5 := appr_rnd h0 h1 A (t4.add (appr_up h0 h1 s5 (m := p + 6 + 1 + 1 + 1) (by omega)))
    have t6 := appr_rnd h0 h1 A (t5.add (appr_up h0 h1 s6 (m := p + 6 + 1 + 1 + 1 + 1) (by omega)))
    have t7 := (appr_quot h0 h1 A (g := vgap / rn) t6).2
    refine ⟨_, rfl, ?_⟩
    rw [← Except.ok.inj h]
    refine t7.trans (le_of_eq ?_)
    rw [size hs hg]
    simp only [abs_div, abs_mul, abs_two]
    have := abs_ne_zero.2 hs
    field_simp
    ring
  · obtain ⟨_, k, h⟩ := bind_ok_iff.1 h
    obtain ⟨hs, hg⟩ := not_or.1 (not_of_raise k)
    rw [raiseIf_neg (not_or.2 ⟨hs, ((rnd_rel A h0 h1 (vgap / rn)).sign h1).2.2.1 hg⟩)]
    have hc : Rel u 3 (A.rnd (A.rnd (v * vgap) / rsg)) (v * vgap / rsg) := (rnd_step A h0 h1 (hv1.divRight rsg)).mono h0 h1 (by norm_num)
    have ts := fun (a g : ℝ) (ha : |a| = |agap|) (hg : |g| = |vgap|) => appr_term (v := v) h0 h1 A E hc ha hg
    have s1 := ts (-agap) vgap (abs_neg _) rfl
    have s4 := ts agap (-vgap) rfl (abs_neg _)
    have s5 := tn agap vgap rfl rfl
    have s6 := tn (-agap) (-vgap) (abs_neg _) (abs_neg _)
    simp only [← sub_eq_add_neg] at s4 s6
    have t4 := appr_rnd h0 h1 A (s1.add s4)
    have t5 := appr_rnd h0 h1 A (t4.add (appr_up h0 h1 s5 (m := p + 6 + 1) (by omega)))
    have t6 := appr_rnd h0 h1 A (t5.add (appr_up h0 h1 s6 (m := p + 6 + 1 + 1) (by omega)))
    have t7 := (appr_up h0 h1 (appr_quot h0 h1 A (g := vgap / rn) t6) (m := p + 13) (by omega)).2
    refine ⟨_, rfl, ?_⟩
    rw [← Except.ok.inj h]
    refine t7.trans (le_of_eq ?_)
    rw [size hs hg]
    ring

/-- C202 in binary64, with exponentials that are right up to two roundings: if the exponents are at most 10000 (with the default parameters, up to
88 gap voltages), the error is at most `1e-11 |v| (2 rn / rsg + 2)`. -/
theorem C202_exponential_64 (A : Fp u64) (E : ExpFn u64 2) {v vgap rn rsg agap : ℝ} {model : String} {i : ℝ}
    (h : MathFn.exponential v vgap rn rsg agap model = .ok i) (hx : |agap| * (|v * vgap| + |vgap|) ≤ 10000) :
    ∃ f, exponentialR A E v vgap rn rsg agap model = .ok f ∧ |f - i| ≤ 1e-11 * (|v| * (2 * |rn / rsg| + 2)) := by
  have h0 : 0 ≤ u64 := by unfold u64; positivity
  have h1 : u64 < 1 := by unfold u64; norm_num
  obtain ⟨f, hf, hb⟩ := C202_exponential A E h0 h1 h
  refine ⟨f, hf, hb.trans (mul_le_mul_of_nonneg_right ?_ (by positivity))⟩
  have a : (1 - u64)⁻¹ ^ (2 + 13) ≤ 1 + 16 * u64 := by
    have := inv_pow_le h0 (n := 15) (by unfold u64; norm_num)
    rw [inv_pow]
    norm_num at this ⊢
    linarith
  set W := |agap| * (|v * vgap| + |vgap|)
  have hW : 0 ≤ W := by positivity
  have c3 : (1 + u64) ^ 3 - 1 ≤ 4 * u64 := by unfold u64; norm_num
  have c0 : 0 ≤ (1 + u64) ^ 3 - 1 := by unfold u64; norm_num
  have t : ((1 + u64) ^ 3 - 1) * W ≤ 40000 * u64 := (mul_le_mul c3 hx hW (by linarith)).trans (le_of_eq (by ring))
  have b : Real.exp (((1 + u64) ^ 3 - 1) * W) ≤ 1 + 80000 * u64 := by
    have k := Real.abs_exp_sub_one_le (x := ((1 + u64) ^ 3 - 1) * W) (by
      rw [abs_of_nonneg (mul_nonneg c0 hW)]
      refine t.trans ?_
      unfold u64
      norm_num)
    rw [abs_of_nonneg (mul_nonneg c0 hW)] at k
    have := (_root_.abs_le.1 k).2
    linarith
  have m := mul_le_mul a b (Real.exp_pos _).le (by linarith)
  have n : (1 + 16 * u64) * (1 + 80000 * u64) - 1 ≤ 1e-11 := by unfold u64; norm_num
  unfold expFactor
  linarith

/-- Exponentials that are all too large by one rounding. -/
noncomputable def highExp : ExpFn u64 2 where
  fn x := (1 + u64) * Real.exp x
  fn_le x := by
    have ex := Real.exp_pos x
    rw [show (1 + u64) * Real.exp x - Real.exp x = u64 * Real.exp x by ring, abs_mul, abs_of_pos ex,
      abs_of_nonneg (show (0 : ℝ) ≤ u64 by unfold u64; positivity)]
    refine mul_le_mul_of_nonneg_right ?_ ex.le
    unfold u64
    norm_num

/-- The default parameters at twice the gap voltage. -/
example (A : Fp u64) : ∃ f i, MathFn.exponential 2 2.8e-3 14 300 4e4 "fixed" = .ok i ∧ exponentialR A highExp 2 2.8e-3 14 300 4e4 "fixed" = .ok f ∧
    |f - i| ≤ 1e-11 * (|2| * (2 * |14 / 300| + 2)) := by
  obtain ⟨i, hi⟩ : ∃ i, MathFn.exponential 2 2.8e-3 14 300 4e4 "fixed" = .ok i := by
    unfold MathFn.exponential
    rw [raiseIf_neg (by norm_num)]
    dsimp only
    rw [if_pos (.inl (by decide)), raiseIf_neg (by norm_num)]
    exact ⟨_, rfl⟩
  obtain ⟨f, hf, hb⟩ := C202_exponential_64 A highExp hi (by norm_num [abs_of_pos])
  exact ⟨f, i, hi, hf, hb⟩

end QMix.Props
