import Verif.Model.ExponFp
import Verif.Lemmas.CircuitFp
import Verif.Lemmas.IvModels

/-!
# Errors relative to the size of the terms
-/

namespace QMix.MathFn

open QMix.CctFp QMix.Rel

/-- `y` is at most `B`, and `x` differs from it by a factor of up to `F`, in units of `B`. -/
def Appr (F x y B : ℝ) : Prop := |y| ≤ B ∧ |x - y| ≤ (F - 1) * B

variable {u F G x y z w B C : ℝ}

theorem Appr.nonneg (h : Appr F x y B) : 0 ≤ B := (abs_nonneg y).trans h.1

theorem Appr.mono (h : Appr F x y B) (hG : F ≤ G) : Appr G x y B :=
  ⟨h.1, h.2.trans (mul_le_mul_of_nonneg_right (by linarith) h.nonneg)⟩

theorem Appr.abs_le (h : Appr F x y B) : |x| ≤ F * B := by
  have := abs_sub_abs_le_abs_sub x y
  have := h.1
  have := h.2
  linarith

theorem one_add_le (h0 : 0 ≤ u) (h1 : u < 1) : 1 + u ≤ (1 - u)⁻¹ := by
  rw [← one_div, le_div_iff₀ (by linarith)]
  nlinarith

theorem Appr.rnd (A : Fp u) (h0 : 0 ≤ u) (h1 : u < 1) (hF : 0 ≤ F) (h : Appr F x y B) : Appr (F * (1 - u)⁻¹) (A.rnd x) y B := by
  refine ⟨h.1, ?_⟩
  have a := A.rnd_le x
  have b := mul_le_mul_of_nonneg_left h.abs_le h0
  have c := abs_sub_le (A.rnd x) x y
  have d := h.2
  have e := mul_le_mul_of_nonneg_left (one_add_le h0 h1) (mul_nonneg hF h.nonneg)
  nlinarith

theorem Appr.add (h : Appr F x y B) (h' : Appr F z w C) : Appr F (x + z) (y + w) (B + C) := by
  refine ⟨(abs_add_le y w).trans (add_le_add h.1 h'.1), ?_⟩
  rw [show x + z - (y + w) = (x - y) + (z - w) by ring, mul_add]
  exact (abs_add_le _ _).trans (add_le_add h.2 h'.2)

theorem Appr.neg (h : Appr F x y B) : Appr F (-x) (-y) B := by
  refine ⟨by rw [abs_neg]; exact h.1, ?_⟩
  rw [show -x - -y = -(x - y) by ring, abs_neg]
  exact h.2

theorem Appr.sub (h : Appr F x y B) (h' : Appr F z w C) : Appr F (x - z) (y - w) (B + C) := by
  rw [sub_eq_add_neg, sub_eq_add_neg]
  exact h.add h'.neg

theorem Appr.mul (hG : 0 ≤ G) (h : Appr F x y B) (h' : Appr G z w C) : Appr (F * G) (x * z) (y * w) (B * C) := by
  have hB := h.nonneg
  have hC := h'.nonneg
  refine ⟨by rw [abs_mul]; exact mul_le_mul h.1 h'.1 (abs_nonneg _) hB, ?_⟩
  have e : x * z - y * w = (x - y) * z + y * (z - w) := by ring
  have a : |(x - y) * z| ≤ (F - 1) * B * (G * C) := by
    rw [abs_mul]
    exact mul_le_mul h.2 h'.abs_le (abs_nonneg _) ((abs_nonneg _).trans h.2)
  have b : |y * (z - w)| ≤ B * ((G - 1) * C) := by
    rw [abs_mul]
    exact mul_le_mul h.1 h'.2 (abs_nonneg _) hB
  rw [e]
  refine ((abs_add_le _ _).trans (add_le_add a b)).trans (le_of_eq (by ring))

theorem Appr.of_rel {n : ℕ} (h0 : 0 ≤ u) (h1 : u < 1) (h : Rel u n x y) : Appr ((1 - u)⁻¹ ^ n) x y |y| := by
  refine ⟨le_rfl, ?_⟩
  rw [inv_pow]
  exact h.abs_sub_le h1 h0

/-- The step changes by no more than a factor of `exp d` if its argument changes by `d`. -/
theorem step_shift {x y d : ℝ} (h : |x - y| ≤ d) : |step x - step y| ≤ (Real.exp d - 1) * step y := by
  obtain ⟨a, b⟩ := abs_le.1 h
  have ex := Real.exp_pos x
  have ey := Real.exp_pos y
  have hd : 1 ≤ Real.exp d := Real.one_le_exp ((abs_nonneg _).trans h)
  have k1 : Real.exp x ≤ Real.exp d * Real.exp y := by rw [← Real.exp_add]; exact Real.exp_le_exp.2 (by linarith)
  have k2 : Real.exp y ≤ Real.exp d * Real.exp x := by rw [← Real.exp_add]; exact Real.exp_le_exp.2 (by linarith)
  have e : step x - step y = (Real.exp y - Real.exp x) / (1 + Real.exp x) * step y := by
    unfold step
    field_simp
    ring
  rw [e, abs_mul, abs_of_pos (step_pos y)]
  refine mul_le_mul_of_nonneg_right ?_ (step_pos y).le
  rw [abs_div, abs_of_pos (show 0 < 1 + Real.exp x by linarith), div_le_iff₀ (by linarith), abs_le]
  constructor <;> nlinarith

variable {p : ℕ}

theorem expFn_rel (E : ExpFn u p) (h0 : 0 ≤ u) (h1 : u < 1) (x : ℝ) : Rel u p (E.fn x) (Real.exp x) := by
  have h := E.fn_le x
  have ex := Real.exp_pos x
  have q0 : 0 < (1 - u) ^ p := pow_pos (by linarith) _
  have q1 : (1 - u) ^ p ≤ 1 := pow_le_one₀ (by linarith) (by linarith)
  have e : E.fn x / Real.exp x - 1 = (E.fn x - Real.exp x) / Real.exp x := by field_simp
  have k : |E.fn x / Real.exp x - 1| ≤ 1 - (1 - u) ^ p := by
    rw [e, abs_div, abs_of_pos ex, div_le_iff₀ ex]
    exact h
  obtain ⟨k1, k2⟩ := _root_.abs_le.1 k
  refine ⟨E.fn x / Real.exp x, by linarith, ?_, by field_simp⟩
  calc E.fn x / Real.exp x * (1 - u) ^ p ≤ (2 - (1 - u) ^ p) * (1 - u) ^ p := by gcongr; linarith
    _ ≤ 1 := by nlinarith [sq_nonneg (1 - (1 - u) ^ p)]

theorem one_add_rel {n : ℕ} (h0 : 0 ≤ u) (h1 : u < 1) (h : Rel u n x y) (hy : 0 ≤ y) : Rel u n (1 + x) (1 + y) := by
  obtain ⟨c, a, b, rfl⟩ := h
  have q1 : (1 - u) ^ n ≤ 1 := pow_le_one₀ (by linarith) (by linarith)
  refine ⟨(1 + y * c) / (1 + y), ?_, ?_, by field_simp⟩
  · rw [le_div_iff₀ (by linarith)]
    nlinarith
  · rw [div_mul_eq_mul_div, div_le_one (by linarith)]
    nlinarith

theorem stepR_appr (A : Fp u) (E : ExpFn u p) (h0 : 0 ≤ u) (h1 : u < 1) {x y d : ℝ} (h : |x - y| ≤ d) :
    Appr ((1 - u)⁻¹ ^ (p + 2) * Real.exp d) (stepR A E x) (step y) 1 := by
  have r : Rel u (p + 2) (stepR A E x) (step x) := by
    have := rnd_step A h0 h1 ((Rel.refl (u := u) 1).div h1 (rnd_step A h0 h1 (one_add_rel h0 h1 (expFn_rel E h0 h1 x) (Real.exp_pos x).le)))
    rw [zero_add] at this
    exact this
  have a := (Appr.of_rel h0 h1 r).2
  have s := step_shift h
  have y1 := step_lt_one y
  have y0 := step_pos y
  have x0 := step_pos x
  rw [abs_of_pos x0] at a
  refine ⟨by rw [abs_of_pos y0]; exact y1.le, ?_⟩
  have q : 1 ≤ (1 - u)⁻¹ ^ (p + 2) := one_le_pow₀ ((le_add_of_nonneg_right h0).trans (one_add_le h0 h1))
  have xs : step x ≤ Real.exp d * step y := by have := (_root_.abs_le.1 s).2; linarith
  have t := abs_sub_le (stepR A E x) (step x) (step y)
  have hd : 1 ≤ Real.exp d := Real.one_le_exp ((abs_nonneg _).trans h)
  set Q := (1 - u)⁻¹ ^ (p + 2)
  have m : (Q - 1) * step x ≤ (Q - 1) * (Real.exp d * step y) := mul_le_mul_of_nonneg_left xs (by linarith)
  have n : (Q * Real.exp d - 1) * step y ≤ (Q * Real.exp d - 1) * 1 :=
    mul_le_mul_of_nonneg_left y1.le (by nlinarith)
  calc |stepR A E x - step y| ≤ (Q - 1) * (Real.exp d * step y) + (Real.exp d - 1) * step y := by linarith
    _ = (Q * Real.exp d - 1) * step y := by ring
    _ ≤ _ := n

/-- The argument of the steps. -/
theorem arg_err (A : Fp u) (h0 : 0 ≤ u) (a v vgap : ℝ) {g : ℝ} (hg : |g| = |vgap|) :
    |A.rnd (a * A.rnd (A.rnd (v * vgap) + g)) - a * (v * vgap + g)| ≤ ((1 + u) ^ 3 - 1) * (|a| * (|v * vgap| + |vgap|)) := by
  have e1 := A.rnd_le (v * vgap)
  set x := A.rnd (v * vgap)
  have e2 := A.rnd_le (x + g)
  set s := A.rnd (x + g)
  have e3 := A.rnd_le (a * s)
  set W := |v * vgap| + |vgap| with hW
  have hx : |x| ≤ (1 + u) * |v * vgap| := by
    have := abs_sub_abs_le_abs_sub x (v * vgap)
    linarith
  have hxg : |x + g| ≤ (1 + u) * W := by
    have := abs_add_le x g
    have := mul_nonneg h0 (abs_nonneg vgap)
    rw [hW]
    nlinarith
  have hxw : |x + g - (v * vgap + g)| ≤ u * W := by
    rw [add_sub_add_right_eq_sub]
    have := mul_nonneg h0 (abs_nonneg vgap)
    rw [hW]
    linarith
  have hw : |v * vgap + g| ≤ W := by
    rw [hW, ← hg]
    exact abs_add_le _ _
  have hs : |s - (v * vgap + g)| ≤ ((1 + u) ^ 2 - 1) * W := by
    have := abs_sub_le s (x + g) (v * vgap + g)
    have := mul_le_mul_of_nonneg_left hxg h0
    nlinarith
  have hsa : |s| ≤ (1 + u) ^ 2 * W := by
    have := abs_sub_abs_le_abs_sub s (v * vgap + g)
    linarith
  have t := abs_sub_le (A.rnd (a * s)) (a * s) (a * (v * vgap + g))
  rw [abs_mul] at e3
  have k1 : u * (|a| * |s|) ≤ u * (|a| * ((1 + u) ^ 2 * W)) := by gcongr
  have k2 : |a * s - a * (v * vgap + g)| ≤ |a| * (((1 + u) ^ 2 - 1) * W) := by
    rw [← mul_sub, abs_mul]
    gcongr
  calc _ ≤ u * (|a| * ((1 + u) ^ 2 * W)) + |a| * (((1 + u) ^ 2 - 1) * W) := by linarith
    _ = _ := by ring

end QMix.MathFn
