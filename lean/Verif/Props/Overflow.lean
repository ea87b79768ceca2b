import Verif.Model.Overflow
import Verif.Lemmas.Float
import Verif.Props.MathFn

/-!
# C199: overflow in the models of I-V curves
-/

namespace QMix.Props

open QMix QMix.MathFn Fl

/-! ## Specification -/

/-- `f` is a number, and it differs from `y` by at most `e`. -/
def NumNear (f : Flt) (y e : ℝ) : Prop := ∃ x : ℝ, f = num x ∧ |x - y| ≤ e

/-! ## Lemmas -/

theorem NumNear.exact (x : ℝ) : NumNear (num x) x 0 := ⟨x, rfl, by simp⟩

theorem NumNear.mono {f : Flt} {y e e' : ℝ} (h : NumNear f y e) (he : e ≤ e') : NumNear f y e' := by
  obtain ⟨x, rfl, hx⟩ := h
  exact ⟨x, rfl, hx.trans he⟩

theorem NumNear.add {f g : Flt} {y z e d : ℝ} (h : NumNear f y e) (k : NumNear g z d) : NumNear (fadd f g) (y + z) (e + d) := by
  obtain ⟨x, rfl, hx⟩ := h
  obtain ⟨w, rfl, hw⟩ := k
  refine ⟨_, fadd_num _ _, ?_⟩
  rw [add_sub_add_comm]
  exact (abs_add_le _ _).trans (add_le_add hx hw)

theorem NumNear.sub {f g : Flt} {y z e d : ℝ} (h : NumNear f y e) (k : NumNear g z d) : NumNear (fsub f g) (y - z) (e + d) := by
  obtain ⟨x, rfl, hx⟩ := h
  obtain ⟨w, rfl, hw⟩ := k
  refine ⟨_, fsub_num _ _, ?_⟩
  rw [sub_sub_sub_comm]
  exact (abs_sub _ _).trans (add_le_add hx hw)

theorem NumNear.mul {f : Flt} {y e : ℝ} (c : ℝ) (h : NumNear f y e) : NumNear (fmul (num c) f) (c * y) (|c| * e) := by
  obtain ⟨x, rfl, hx⟩ := h
  refine ⟨_, fmul_num _ _, ?_⟩
  rw [← mul_sub, abs_mul]
  exact mul_le_mul_of_nonneg_left hx (abs_nonneg c)

theorem NumNear.div {f : Flt} {y e c : ℝ} (hc : c ≠ 0) (h : NumNear f y e) : NumNear (Fl.fdiv f (num c)) (y / c) (e / |c|) := by
  obtain ⟨x, rfl, hx⟩ := h
  refine ⟨_, fdiv_num _ hc, ?_⟩
  rw [← sub_div, abs_div]
  exact div_le_div_of_nonneg_right hx (abs_nonneg c)

theorem one_top : fadd (num 1) (some ⊤) = some ⊤ := by
  unfold fadd num
  dsimp only
  rw [if_neg]
  · rw [EReal.coe_add_top]
  · rintro (⟨h, -⟩ | ⟨h, -⟩)
    · exact EReal.coe_ne_top _ h
    · exact EReal.coe_ne_bot _ h

theorem not_of_raise {c : Prop} [Decidable c] {e : PyErr} {x : Unit} (h : raiseIf c e = .ok x) : ¬ c := by
  intro hc
  simp [raiseIf, hc] at h

theorem stepF_near {big : ℝ} (hb : 0 < big) (x y : ℝ) : NumNear (stepF big x y) (x / (1 + Real.exp y)) (|x| / big) := by
  have hy := Real.exp_pos y
  unfold stepF orInf
  split_ifs with h h'
  · refine ⟨0, ?_, ?_⟩
    · rw [one_top]
      unfold Fl.fdiv num
      simp
    · rw [zero_sub, abs_neg, abs_div, abs_of_pos (by linarith : 0 < 1 + Real.exp y)]
      exact div_le_div_of_nonneg_left (abs_nonneg x) hb (by linarith)
  · linarith
  · rw [fadd_num, fdiv_num _ (by positivity)]
    exact (NumNear.exact _).mono (by positivity)

theorem step_near {big : ℝ} (hb : 0 < big) (c y : ℝ) : NumNear (fmul (num c) (stepF big 1 y)) (c * step y) (|c| * (1 / big)) := by
  have := stepF_near hb 1 y
  rw [abs_one] at this
  exact this.mul c

/-- Powers of 35 from the 200th on overflow. -/
theorem big_power {n : ℕ} {e : ℝ} (hn : 200 ≤ n) (he : e = n) : npowF (2 ^ 1024) 35 e = .ok (some ⊤) := by
  have l : (2 : ℝ) ^ 1024 < 35 ^ 200 := by
    have := pow_lt_pow_left₀ (show (2 : ℝ) ^ 256 < 35 ^ 50 by norm_num) (by positivity) (n := 4) (by norm_num)
    rwa [← pow_mul, ← pow_mul] at this
  unfold npowF
  rw [npow_pos (by norm_num), he, Real.rpow_natCast]
  have o : orInf (2 ^ 1024) (35 ^ n) = some ⊤ := if_pos (l.trans_le (pow_le_pow_right₀ (by norm_num) hn))
  rw [py_bind, o]
  rfl

/-! ## C199 -/

/-- C199, the exponential model: overflow does no harm. Where the model of exact arithmetic has a current, the code returns a number, and the
overflow changes it by less than the voltage divided by the largest number (times a factor of the resistances). -/
theorem C199_exponential {big : ℝ} (hb : 0 < big) {v vgap rn rsg agap : ℝ} {model : String} {i : ℝ}
    (h : exponential v vgap rn rsg agap model = .ok i) :
    ∃ f, exponentialF big v vgap rn rsg agap model = .ok f ∧ NumNear f i (|v| * (2 * |rn / rsg| + 2) / big) := by
  unfold exponential at h
  unfold exponentialF
  obtain ⟨_, h1, h⟩ := bind_ok_iff.1 h
  have hrn : rn ≠ 0 := not_of_raise h1
  rw [raiseIf_neg hrn]
  dsimp only at h ⊢
  have N := step_near hb
  split_ifs at h ⊢ with hm ho
  · obtain ⟨_, h2, h⟩ := bind_ok_iff.1 h
    have hz : ¬ (rsg = 0 ∨ vgap / rn = 0) := not_of_raise h2
    rw [raiseIf_neg hz]
    cases h
    refine ⟨_, rfl, ((((((N _ _).sub (N _ _)).sub (N _ _)).add (N _ _)).add (N _ _)).add (N _ _)).div (fun e => hz (.inr e)) |>.mono ?_⟩
    have hr : rsg ≠ 0 := fun e => hz (.inl e)
    have hg : vgap ≠ 0 := fun e => hz (.inr (by rw [e, zero_div]))
    apply le_of_eq
    have := abs_pos.2 hrn
    have := abs_pos.2 hr
    have := abs_pos.2 hg
    simp only [abs_div, abs_mul, abs_two]
    field_simp
    ring
  · obtain ⟨_, h2, h⟩ := bind_ok_iff.1 h
    have hz : ¬ (rsg = 0 ∨ vgap / rn = 0) := not_of_raise h2
    rw [raiseIf_neg hz]
    cases h
    refine ⟨_, rfl, ((((N _ _).add (N _ _)).add (N _ _)).add (N _ _)).div (fun e => hz (.inr e)) |>.mono ?_⟩
    have hr : rsg ≠ 0 := fun e => hz (.inl e)
    have hg : vgap ≠ 0 := fun e => hz (.inr (by rw [e, zero_div]))
    apply le_of_eq
    have := abs_pos.2 hrn
    have := abs_pos.2 hr
    have := abs_pos.2 hg
    simp only [abs_div, abs_mul]
    field_simp
    ring

/-- C199, the expanded model: overflow does no harm. -/
theorem C199_expanded {big : ℝ} (hb : 0 < big) {v vgap rn rsg agap a0 ileak vnot inot anot ioff i : ℝ}
    (h : expanded v vgap rn rsg agap a0 ileak vnot inot anot ioff = .ok i) :
    ∃ f, expandedF big v vgap rn rsg agap a0 ileak vnot inot anot ioff = .ok f ∧
      NumNear f i ((|v| * (2 * |rn / rsg| + 2) + (4 * |ileak| + 2 * |inot| + 2 * |ioff|) / |vgap / rn|) / big) := by
  unfold expanded at h
  unfold expandedF
  dsimp only at h ⊢
  obtain ⟨_, h1, h⟩ := bind_ok_iff.1 h
  have hrn : rn ≠ 0 := not_of_raise h1
  obtain ⟨_, h2, h⟩ := bind_ok_iff.1 h
  have hz : ¬ (rsg = 0 ∨ vgap / rn = 0) := not_of_raise h2
  rw [raiseIf_neg hrn, raiseIf_neg hz]
  cases h
  have N := step_near hb
  have S := stepF_near hb
  have E := NumNear.exact
  refine ⟨_, rfl, (((((((((((((((((N _ _).sub (E _)).sub (N _ _)).add (N _ _)).add (N _ _)).sub (N _ _)).sub (N _ _)).add (N _ _)).add
    (N _ _)).add (N _ _)).add (S _ _)).add (S _ _)).sub (E _)).add (S _ _)).add (S _ _)).sub (E _)).add (E _)).div
    (fun e => hz (.inr e)) |>.mono ?_⟩
  have hr : rsg ≠ 0 := fun e => hz (.inl e)
  have hg : vgap ≠ 0 := fun e => hz (.inr (by rw [e, zero_div]))
  apply le_of_eq
  have := abs_pos.2 hrn
  have := abs_pos.2 hr
  have := abs_pos.2 hg
  simp only [abs_div, abs_mul, abs_two]
  field_simp
  try ring

/-- C199, the polynomial model: as long as the powers are no larger than the largest number, nothing is lost. -/
theorem C199_polynomial_partial {big v order i : ℝ} (h : polynomial v order = .ok i)
    (h1 : |v ^ (2 * order + 1)| ≤ big) (h2 : |v ^ (2 * order)| ≤ big) : polynomialF big v order = .ok (num i) := by
  unfold polynomial at h
  obtain ⟨a, ha, h⟩ := bind_ok_iff.1 h
  obtain ⟨b, hb, h⟩ := bind_ok_iff.1 h
  have val : ∀ {e x : ℝ}, npow v e = .ok x → x = v ^ e := by
    intro e x hx
    unfold npow at hx
    obtain ⟨_, -, hx⟩ := bind_ok_iff.1 hx
    obtain ⟨_, -, hx⟩ := bind_ok_iff.1 hx
    cases hx
    rfl
  have o : ∀ {x : ℝ}, |x| ≤ big → orInf big x = num x := by
    intro x hx
    obtain ⟨p, q⟩ := abs_le.1 hx
    unfold orInf
    rw [if_neg (by linarith), if_neg (by linarith)]
  unfold polynomialF npowF
  rw [ha, hb]
  show Except.ok (Fl.fdiv (orInf big a) (fadd (num 1) (orInf big b))) = _
  rw [o (by rw [val ha]; exact h1), o (by rw [val hb]; exact h2), fadd_num]
  unfold Np.fdiv at h
  split_ifs at h with hz
  cases h
  rw [fdiv_num _ hz]

/-- C199, the polynomial model within the range that is used for response functions: up to the order 99 nothing overflows in binary64. -/
theorem C199_polynomial_range_partial {big v order i : ℝ} (hb : 2 ^ 1023 ≤ big) (h : polynomial v order = .ok i) (hv : |v| ≤ 35)
    (ho : 0 ≤ order ∧ order ≤ 99) : polynomialF big v order = .ok (num i) := by
  have l : (35 : ℝ) ^ 199 ≤ 2 ^ 1023 := by
    have h1 := pow_le_pow_left₀ (by positivity) (show (35 : ℝ) ^ 46 ≤ 2 ^ 236 by norm_num) 4
    calc (35 : ℝ) ^ 199 = (35 ^ 46) ^ 4 * 35 ^ 15 := by rw [← pow_mul, ← pow_add]
      _ ≤ (2 ^ 236) ^ 4 * 2 ^ 77 := mul_le_mul h1 (by norm_num) (by positivity) (by positivity)
      _ = 2 ^ 1021 := by rw [← pow_mul, ← pow_add]
      _ ≤ 2 ^ 1023 := pow_le_pow_right₀ (by norm_num) (by norm_num)
  have b : ∀ e : ℝ, 0 ≤ e → e ≤ 199 → |v ^ e| ≤ big := by
    intro e e0 e1
    refine (Real.abs_rpow_le_abs_rpow v e).trans (le_trans ?_ (l.trans hb))
    calc |v| ^ e ≤ 35 ^ e := Real.rpow_le_rpow (abs_nonneg v) hv e0
      _ ≤ 35 ^ (199 : ℝ) := Real.rpow_le_rpow_of_exponent_le (by norm_num) e1
      _ = 35 ^ 199 := by rw [show (199 : ℝ) = ((199 : ℕ) : ℝ) by norm_num, Real.rpow_natCast]
  exact C199_polynomial_partial h (b _ (by linarith [ho.1]) (by linarith [ho.2])) (b _ (by linarith [ho.1]) (by linarith [ho.2]))

/-- C199 is false of the polynomial model: in binary64, with the order 100, at the end of the range that is used for response functions
(35 gap voltages) the current is NaN. The current of the model is finite there. -/
theorem C199_false_polynomial : polynomialF (2 ^ 1024) 35 100 = .ok none ∧ ∃ i, polynomial 35 100 = .ok i ∧ 34 < i ∧ i < 36 := by
  classical
  have p : ∀ n : ℕ, npow 35 n = .ok (35 ^ n) := by
    intro n
    unfold npow
    rw [raiseIf_neg (by norm_num), raiseIf_neg (by norm_num), Real.rpow_natCast]
    rfl
  have p1 : npow 35 (2 * 100 + 1) = .ok (35 ^ 201) := by
    have := p 201
    rwa [show ((201 : ℕ) : ℝ) = 2 * 100 + 1 by norm_num] at this
  have p2 : npow 35 (2 * 100) = .ok (35 ^ 200) := by
    have := p 200
    rwa [show ((200 : ℕ) : ℝ) = 2 * 100 by norm_num] at this
  constructor
  · unfold polynomialF npowF
    rw [p1, p2]
    show Except.ok (Fl.fdiv (orInf (2 ^ 1024) (35 ^ 201)) (fadd (num 1) (orInf (2 ^ 1024) (35 ^ 200)))) = _
    have l : (2 : ℝ) ^ 1024 < 35 ^ 200 := by
      have := pow_lt_pow_left₀ (show (2 : ℝ) ^ 256 < 35 ^ 50 by norm_num) (by positivity) (n := 4) (by norm_num)
      rwa [← pow_mul, ← pow_mul] at this
    have o1 : orInf (2 ^ 1024) (35 ^ 201) = some ⊤ := if_pos (l.trans (pow_lt_pow_right₀ (by norm_num) (by norm_num)))
    have o2 : orInf (2 ^ 1024) (35 ^ 200) = some ⊤ := if_pos l
    rw [o1, o2]
    rw [one_top]
    unfold Fl.fdiv
    simp
  · refine ⟨35 ^ 201 / (1 + 35 ^ 200), ?_, by norm_num, by norm_num⟩
    unfold polynomial
    rw [p1, p2]
    show Np.fdiv _ _ = _
    unfold Np.fdiv
    rw [if_neg (by positivity)]

/-- The default order 50 at 35 gap voltages. -/
example : ∃ i, polynomial 35 50 = .ok i ∧ polynomialF (2 ^ 1023) 35 50 = .ok (num i) := by
  have h : ∃ i, polynomial 35 50 = .ok i := by
    unfold polynomial
    rw [npow_pos (by norm_num), npow_pos (by norm_num)]
    show ∃ i, Np.fdiv _ _ = _
    unfold Np.fdiv
    rw [if_neg (by positivity)]
    exact ⟨_, rfl⟩
  obtain ⟨i, h⟩ := h
  exact ⟨i, h, C199_polynomial_range_partial le_rfl h (by norm_num) (by norm_num)⟩

/-- The expanded model with its default parameters at 35 gap voltages. -/
example : ∃ i f, expanded 35 2.8e-3 14 500 4e4 1e4 5e-6 2.85e-3 1e-5 2e4 1e-5 = .ok i ∧
    expandedF (2 ^ 1023) 35 2.8e-3 14 500 4e4 1e4 5e-6 2.85e-3 1e-5 2e4 1e-5 = .ok f ∧
    ∃ e, NumNear f i (e / 2 ^ 1023) := by
  have h : ∃ i, expanded 35 2.8e-3 14 500 4e4 1e4 5e-6 2.85e-3 1e-5 2e4 1e-5 = .ok i := by
    unfold expanded
    dsimp only
    rw [raiseIf_neg (by norm_num), raiseIf_neg (by norm_num)]
    exact ⟨_, rfl⟩
  obtain ⟨i, h⟩ := h
  obtain ⟨f, a, b⟩ := C199_expanded (big := 2 ^ 1023) (by positivity) h
  exact ⟨i, f, h, a, _, b⟩

/-- At 35 gap voltages and with the default parameters one exponential overflows. -/
example : (2 : ℝ) ^ 1024 < Real.exp (4e4 * (35 * 2.8e-3 + 2.8e-3)) ∧ ∃ f i, exponential 35 2.8e-3 14 300 4e4 "fixed" = .ok i ∧
    exponentialF (2 ^ 1024) 35 2.8e-3 14 300 4e4 "fixed" = .ok f ∧ NumNear f i (|35| * (2 * |14 / 300| + 2) / 2 ^ 1024) := by
  constructor
  · have h2 : (2 : ℝ) ≤ Real.exp 1 := by
      have := Real.add_one_le_exp (1 : ℝ)
      linarith
    calc (2 : ℝ) ^ 1024 ≤ Real.exp 1 ^ 1024 := pow_le_pow_left₀ (by norm_num) h2 _
      _ = Real.exp 1024 := by rw [← Real.exp_nat_mul]; norm_num
      _ < _ := Real.exp_lt_exp.2 (by norm_num)
  · have h : ∃ i, exponential 35 2.8e-3 14 300 4e4 "fixed" = .ok i := by
      unfold exponential
      rw [raiseIf_neg (by norm_num)]
      dsimp only
      rw [if_pos (.inl (by decide)), raiseIf_neg (by norm_num)]
      exact ⟨_, rfl⟩
    obtain ⟨i, h⟩ := h
    obtain ⟨f, a, b⟩ := C199_exponential (big := 2 ^ 1024) (by positivity) h
    exact ⟨f, i, h, a, b⟩

end QMix.Props
