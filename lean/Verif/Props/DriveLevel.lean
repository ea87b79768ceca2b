import Verif.Props.Zemb
import Verif.Lemmas.Bessel
import Verif.Lemmas.Float
import Mathlib.Analysis.Real.Pi.Bounds
import Mathlib.MeasureTheory.Integral.IntervalIntegral.Basic
import Mathlib.Analysis.SpecialFunctions.Integrals.Basic

/-!
# Impedance recovery: the drive level
-/

namespace QMix.Zemb

open Np Fl IvData

/-! ## Specification -/

/-- The dc current of a junction with drive level `a`, by Tucker theory, with photon steps up to
`nb`. -/
noncomputable def tuckerDc (idc : ℝ → ℝ) (vb vph : ℝ) (nb : ℤ) (a : ℝ) : ℝ :=
  ∑ n ∈ Finset.Icc (-nb) nb, besselJ n a ^ 2 * idc (vb + n * vph)

/-- The estimate from which the refinement starts: the drive level at which a current linear in the
drive level would equal the measured current, if that is positive. -/
noncomputable def start (idc : ℝ → ℝ) (vph alphaMax : ℝ) (nb : ℤ) (vb i : ℝ) : ℝ :=
  max 0 ((i - idc vb) / (tuckerDc idc vb vph nb alphaMax - idc vb) * alphaMax)

/-! ## Lemmas -/

theorem foldl_pyRange {σ : Type} [AddCommMonoid σ] (g : ℤ → σ) (nb : ℤ) :
    (pyRange (-nb) (nb + 1)).foldl (fun s n => s + g n) 0 = ∑ n ∈ Finset.Icc (-nb) nb, g n := by
  have h : ∀ (l : List ℤ) (s : σ), l.foldl (fun s n => s + g n) s = s + (l.map g).sum := by
    intro l
    induction l with
    | nil => simp
    | cons a l ih => intro s; simp [ih, add_assoc]
  rw [h, zero_add]
  have hn : (pyRange (-nb) (nb + 1)).Nodup := by
    unfold pyRange
    apply List.Nodup.map _ List.nodup_range
    intro a b hab
    simpa using hab
  have hs : (pyRange (-nb) (nb + 1)).toFinset = Finset.Icc (-nb) nb := by
    ext x
    rw [List.mem_toFinset, mem_pyRange, Finset.mem_Icc]
    omega
  rw [← hs, List.sum_toFinset g hn]

theorem pumpedIv_eq (idc : ℝ → ℝ) (vb vph : ℝ) (nb : ℤ) (a : ℝ) :
    pumpedIv idc vb vph nb a = tuckerDc idc vb vph nb a :=
  foldl_pyRange (fun n => besselJ n a ^ 2 * idc (vb + n * vph)) nb

theorem tuckerDc_zero (idc : ℝ → ℝ) (vb vph : ℝ) {nb : ℤ} (h : 0 ≤ nb) :
    tuckerDc idc vb vph nb 0 = idc vb := by
  unfold tuckerDc
  rw [Finset.sum_eq_single 0]
  · rw [besselJ_zero_zero]; simp
  · intro n _ hn
    rw [besselJ_zero_right hn]; simp
  · intro h'
    exact absurd (Finset.mem_Icc.2 ⟨by omega, h⟩) h'

theorem finite_num (a : ℝ) : finite (num a) = some a := by
  simp [finite, num]

theorem onFinite_num (f : ℝ → ℝ) (a : ℝ) : onFinite f (num a) = num (f a) := by
  simp [onFinite, finite_num]

theorem clamp_num (a : ℝ) : clamp (num a) = num (max 0 a) := by
  unfold clamp
  rw [flt_num]
  split_ifs with h
  · rw [max_eq_left h.le]
  · rw [max_eq_right (not_lt.1 h)]

open Classical in
/-- One pass of the refinement for a finite drive level. -/
noncomputable def pass (f : ℝ → ℝ) (i : ℝ) (s : ℝ × ℝ) : ℝ × ℝ :=
  (max 0 (if i < f s.1 then s.1 - s.2 else if f s.1 < i then s.1 + s.2 else s.1), s.2 / 2)

theorem alphaStep_num (f : ℝ → ℝ) (i : ℝ) (s : ℝ × ℝ) :
    alphaStep f i (num s.1, s.2) = (num (pass f i s).1, (pass f i s).2) := by
  unfold alphaStep pass
  simp only [onFinite_num, fsub_num, fadd_num, flt_num, sub_pos, sub_neg]
  congr 1
  rw [← clamp_num]
  congr 1
  rcases lt_trichotomy i (f s.1) with h | h | h
  · simp [h, not_lt.2 h.le]
  · simp [h]
  · simp [h, not_lt.2 h.le, fadd_num]

theorem alphaStep_iter (f : ℝ → ℝ) (i : ℝ) (s : ℝ × ℝ) (k : ℕ) :
    (alphaStep f i)^[k] (num s.1, s.2) = (num ((pass f i)^[k] s).1, ((pass f i)^[k] s).2) := by
  induction k with
  | zero => rfl
  | succ k ih => rw [Function.iterate_succ_apply', ih, alphaStep_num, Function.iterate_succ_apply']

theorem pass_step (f : ℝ → ℝ) (i : ℝ) (s : ℝ × ℝ) (k : ℕ) :
    ((pass f i)^[k] s).2 = s.2 / 2 ^ k := by
  induction k with
  | zero => simp
  | succ k ih => rw [Function.iterate_succ_apply']; simp only [pass, ih]; rw [div_div, ← pow_succ]

/-- The drive level found, for finite numbers. -/
theorem findAlpha_eq (idc : ℝ → ℝ) (vph alphaMax : ℝ) (nb : ℤ) (vb i : ℝ)
    (h : tuckerDc idc vb vph nb alphaMax ≠ idc vb) :
    findAlpha idc vph alphaMax nb vb i
      = num ((pass (tuckerDc idc vb vph nb) i)^[15]
          (start idc vph alphaMax nb vb i, alphaMax / 4)).1 := by
  unfold findAlpha
  have hf : pumpedIv idc vb vph nb = tuckerDc idc vb vph nb := funext (pumpedIv_eq idc vb vph nb)
  simp only [hf]
  rw [fdiv_num _ (sub_ne_zero.2 h), fmul_num, clamp_num]
  exact congrArg Prod.fst (alphaStep_iter (tuckerDc idc vb vph nb) i
    (start idc vph alphaMax nb vb i, alphaMax / 4) 15)

/-! ## C61 -/

/-- C61. The drive level is never negative (it may be NaN). -/
theorem C61_nonneg (idc : ℝ → ℝ) (vph alphaMax : ℝ) (nb : ℤ) (vb i : ℝ) :
    findAlpha idc vph alphaMax nb vb i = none ∨ ge0 (findAlpha idc vph alphaMax nb vb i) := by
  have hc : ∀ a, clamp a = none ∨ ge0 (clamp a) := by
    intro a
    unfold clamp
    split_ifs with h
    · right; simp [ge0, num]
    · cases a with
      | none => left; rfl
      | some x => right; simpa [ge0, flt, num] using h
  unfold findAlpha
  simp only [Function.iterate_succ_apply' _ 14]
  exact hc _

/-- C61. If the current crosses the measured one at drive level `a`, from below, and the estimate is
within half of `alpha_max` of `a`, then the result is within `alpha_max / 2^16` of `a`. -/
theorem C61_converges (idc : ℝ → ℝ) (vph alphaMax : ℝ) (nb : ℤ) (vb i a : ℝ) (hmax : 0 < alphaMax)
    (ha : 0 ≤ a) (hne : tuckerDc idc vb vph nb alphaMax ≠ idc vb)
    (hlow : ∀ x, 0 ≤ x → x < a → tuckerDc idc vb vph nb x < i)
    (hhigh : ∀ x, a < x → x ≤ a + alphaMax / 2 → i < tuckerDc idc vb vph nb x)
    (hstart : |start idc vph alphaMax nb vb i - a| ≤ alphaMax / 2) :
    ∃ r, findAlpha idc vph alphaMax nb vb i = num r ∧ |r - a| ≤ alphaMax / 2 ^ 16 := by
  refine ⟨_, findAlpha_eq idc vph alphaMax nb vb i hne, ?_⟩
  set f := tuckerDc idc vb vph nb
  set s0 : ℝ × ℝ := (start idc vph alphaMax nb vb i, alphaMax / 4)
  have inv : ∀ k, 0 ≤ ((pass f i)^[k] s0).1 ∧
      |((pass f i)^[k] s0).1 - a| ≤ 2 * (alphaMax / 4 / 2 ^ k) := by
    intro k
    induction k with
    | zero => exact ⟨le_max_left _ _, by simpa [s0] using hstart.trans (by linarith)⟩
    | succ k ih =>
      rw [Function.iterate_succ_apply']
      set s := (pass f i)^[k] s0
      have hs : s.2 = alphaMax / 4 / 2 ^ k := pass_step f i s0 k
      obtain ⟨h0, h1⟩ := ih
      rw [← hs] at h1
      have e : 2 * (alphaMax / 4 / 2 ^ (k + 1)) = s.2 := by rw [hs, pow_succ]; ring
      rw [e]
      have hsp : 0 < s.2 := by rw [hs]; positivity
      have hsm : 2 * s.2 ≤ alphaMax / 2 := by
        rw [hs]
        have : (1 : ℝ) ≤ 2 ^ k := one_le_pow₀ (by norm_num)
        have : alphaMax / 4 / 2 ^ k ≤ alphaMax / 4 := div_le_self (by linarith) this
        linarith
      rw [abs_le] at h1
      refine ⟨le_max_left _ _, ?_⟩
      have key : |(if i < f s.1 then s.1 - s.2 else if f s.1 < i then s.1 + s.2 else s.1) - a| ≤ s.2 := by
        rcases lt_trichotomy s.1 a with h | h | h
        · have := hlow s.1 h0 h
          rw [if_neg (not_lt.2 this.le), if_pos this, abs_le]
          constructor <;> linarith
        · rw [h]
          split_ifs <;> simp [abs_of_pos hsp, hsp.le]
        · have := hhigh s.1 h (by linarith)
          rw [if_pos this, abs_le]
          constructor <;> linarith
      refine le_trans ?_ key
      change |max 0 _ - a| ≤ _
      rcases le_total 0 (if i < f s.1 then s.1 - s.2 else if f s.1 < i then s.1 + s.2 else s.1) with h | h
      · rw [max_eq_right h]
      · rw [max_eq_left h, zero_sub, abs_neg, abs_of_nonneg ha, abs_of_nonpos (by linarith)]
        linarith
  refine (inv 15).2.trans (le_of_eq ?_)
  norm_num
  ring

/-- C61, as stated: the current is increasing in the drive level. -/
theorem C61_increasing (idc : ℝ → ℝ) (vph alphaMax : ℝ) (nb : ℤ) (vb i a : ℝ) (hmax : 0 < alphaMax)
    (ha : 0 ≤ a) (hne : tuckerDc idc vb vph nb alphaMax ≠ idc vb)
    (hmono : StrictMonoOn (tuckerDc idc vb vph nb) (Set.Icc 0 (a + alphaMax / 2)))
    (hsol : tuckerDc idc vb vph nb a = i)
    (hstart : |start idc vph alphaMax nb vb i - a| ≤ alphaMax / 2) :
    ∃ r, findAlpha idc vph alphaMax nb vb i = num r ∧ |r - a| ≤ alphaMax / 2 ^ 16 := by
  apply C61_converges idc vph alphaMax nb vb i a hmax ha hne _ _ hstart
  · intro x h0 hx
    rw [← hsol]
    exact hmono ⟨h0, by linarith⟩ ⟨ha, by linarith⟩ hx
  · intro x hx h1
    rw [← hsol]
    exact hmono ⟨ha, by linarith⟩ ⟨by linarith, h1⟩ hx

/-- C61. The refinement cannot move the estimate by more than half of `alpha_max` (less `2^-16` of
it), whatever the current: a solution further away is missed. -/
theorem C61_reach (idc : ℝ → ℝ) (vph alphaMax : ℝ) (nb : ℤ) (vb i : ℝ) (hmax : 0 < alphaMax)
    (hne : tuckerDc idc vb vph nb alphaMax ≠ idc vb) :
    ∃ r, findAlpha idc vph alphaMax nb vb i = num r ∧
      |r - start idc vph alphaMax nb vb i| ≤ alphaMax / 2 * (1 - 1 / 2 ^ 15) := by
  refine ⟨_, findAlpha_eq idc vph alphaMax nb vb i hne, ?_⟩
  set f := tuckerDc idc vb vph nb
  set a0 := start idc vph alphaMax nb vb i
  have inv : ∀ k, 0 ≤ ((pass f i)^[k] (a0, alphaMax / 4)).1 ∧
      |((pass f i)^[k] (a0, alphaMax / 4)).1 - a0| ≤ alphaMax / 2 * (1 - 1 / 2 ^ k) := by
    intro k
    induction k with
    | zero => exact ⟨le_max_left _ _, by simp⟩
    | succ k ih =>
      rw [Function.iterate_succ_apply']
      set s := (pass f i)^[k] (a0, alphaMax / 4)
      have hs : s.2 = alphaMax / 4 / 2 ^ k := pass_step f i (a0, alphaMax / 4) k
      have hsp : 0 < s.2 := by rw [hs]; positivity
      refine ⟨le_max_left _ _, ?_⟩
      have key : |(pass f i s).1 - s.1| ≤ s.2 := by
        unfold pass
        simp only
        split_ifs
        · rw [abs_le]
          constructor
          · linarith [le_max_right 0 (s.1 - s.2)]
          · have : max 0 (s.1 - s.2) ≤ s.1 := max_le ih.1 (by linarith)
            linarith
        · rw [max_eq_right (by linarith [ih.1])]
          simp [abs_of_pos hsp]
        · rw [max_eq_right ih.1]
          simp [hsp.le]
      calc |(pass f i s).1 - a0| = |((pass f i s).1 - s.1) + (s.1 - a0)| := by ring_nf
        _ ≤ |(pass f i s).1 - s.1| + |s.1 - a0| := abs_add_le _ _
        _ ≤ s.2 + alphaMax / 2 * (1 - 1 / 2 ^ k) := add_le_add key ih.2
        _ = alphaMax / 2 * (1 - 1 / 2 ^ (k + 1)) := by
          rw [hs, pow_succ]; field_simp; ring
  exact (inv 15).2

/-- C61. Without any effect of the drive on the current, or with none measured, there is no drive
level: it is NaN or infinite, and stays so. -/
theorem C61_undefined (idc : ℝ → ℝ) (vph alphaMax : ℝ) (nb : ℤ) (vb i : ℝ) (hmax : 0 < alphaMax)
    (hnone : tuckerDc idc vb vph nb alphaMax = idc vb) (hi : idc vb ≤ i) :
    findAlpha idc vph alphaMax nb vb i = if i = idc vb then none else some ⊤ := by
  have hfix : ∀ (f : ℝ → ℝ) (a : Flt), (a = none ∨ a = some ⊤) → ∀ k s, ((alphaStep f i)^[k] (a, s)).1 = a := by
    intro f a ha k
    have h1 : ∀ s, alphaStep f i (a, s) = (a, s / 2) := by
      intro s
      rcases ha with rfl | rfl <;> simp [alphaStep, onFinite, finite, fsub, flt, clamp, num]
    induction k with
    | zero => intro s; rfl
    | succ k ih => intro s; rw [Function.iterate_succ_apply, h1, ih]
  unfold findAlpha
  simp only [pumpedIv_eq, hnone, sub_self]
  split_ifs with h
  · have : clamp (fmul (Fl.fdiv (num (i - idc vb)) (num 0)) (num alphaMax)) = none := by
      rw [h]; simp [Fl.fdiv, num, fmul, clamp, flt]
    rw [this]
    exact hfix _ _ (Or.inl rfl) 15 _
  · have h' : 0 < i - idc vb := sub_pos.2 (lt_of_le_of_ne hi (Ne.symm h))
    have e1 : ((i - idc vb : ℝ) : EReal) ≠ 0 := by exact_mod_cast h'.ne'
    have e2 : (0 : EReal) < ((i - idc vb : ℝ) : EReal) := by exact_mod_cast h'
    have e3 : (alphaMax : EReal) ≠ 0 := by exact_mod_cast hmax.ne'
    have : clamp (fmul (Fl.fdiv (num (i - idc vb)) (num 0)) (num alphaMax)) = some ⊤ := by
      have e4 : Fl.fdiv (num (i - idc vb)) (num 0) = some ⊤ := by
        unfold Fl.fdiv num
        simp only [EReal.coe_zero, if_true, if_neg e1, if_pos e2]
      have e5 : fmul (some ⊤) (num alphaMax) = some ⊤ := by
        unfold fmul num
        simp [e3, EReal.top_mul_coe_of_pos hmax]
      rw [e4, e5]
      simp [clamp, flt, num]
    rw [this]
    exact hfix _ _ (Or.inr rfl) 15 _

/-! A concrete case: the zeroth photon step only and a constant current `-1`, so that the current is
`-J₀(α)²`. -/

theorem besselJ_zero_eq (x : ℝ) :
    besselJ 0 x = (1 / Real.pi) * ∫ τ in (0 : ℝ)..Real.pi, Real.cos (x * Real.sin τ) := by
  unfold besselJ
  simp

theorem besselJ_zero_pos {x : ℝ} (h0 : 0 ≤ x) (h1 : x ≤ 1) : 0 < besselJ 0 x := by
  rw [besselJ_zero_eq]
  apply mul_pos (by positivity)
  apply intervalIntegral.intervalIntegral_pos_of_pos_on _ _ Real.pi_pos
  · exact Continuous.intervalIntegrable (by fun_prop) _ _
  · intro τ hτ
    have hs := Real.sin_pos_of_pos_of_lt_pi hτ.1 hτ.2
    have hs1 := Real.sin_le_one τ
    apply Real.cos_pos_of_mem_Ioo
    constructor <;> nlinarith [Real.pi_gt_three]

theorem besselJ_zero_anti : StrictAntiOn (besselJ 0) (Set.Icc 0 1) := by
  intro x hx y hy hxy
  rw [besselJ_zero_eq, besselJ_zero_eq]
  apply mul_lt_mul_of_pos_left _ (by positivity)
  apply intervalIntegral.integral_lt_integral_of_continuousOn_of_le_of_exists_lt Real.pi_pos
  · exact Continuous.continuousOn (by fun_prop)
  · exact Continuous.continuousOn (by fun_prop)
  · intro τ hτ
    have hs := Real.sin_nonneg_of_nonneg_of_le_pi hτ.1.le hτ.2
    have hs1 := Real.sin_le_one τ
    apply Real.cos_le_cos_of_nonneg_of_le_pi
    · exact mul_nonneg hx.1 hs
    · nlinarith [Real.two_le_pi, hy.2]
    · exact mul_le_mul_of_nonneg_right hxy.le hs
  · refine ⟨Real.pi / 2, ⟨by linarith [Real.pi_pos], by linarith [Real.pi_pos]⟩, ?_⟩
    rw [Real.sin_pi_div_two, mul_one, mul_one]
    exact Real.cos_lt_cos_of_nonneg_of_le_pi hx.1 (by linarith [hy.2, Real.two_le_pi]) hxy

theorem demo_current (vb vph a : ℝ) : tuckerDc (fun _ => -1) vb vph 0 a = -besselJ 0 a ^ 2 := by
  unfold tuckerDc
  simp

theorem demo_mono (vb vph : ℝ) : StrictMonoOn (tuckerDc (fun _ => -1) vb vph 0) (Set.Icc 0 1) := by
  intro x hx y hy hxy
  rw [demo_current, demo_current]
  have := besselJ_zero_anti hx hy hxy
  have := besselJ_zero_pos hy.1 hy.2
  nlinarith

theorem demo_ne (vb vph : ℝ) : tuckerDc (fun _ => -1) vb vph 0 1 ≠ -1 := by
  have h0 : tuckerDc (fun _ => -1) vb vph 0 0 = -1 := tuckerDc_zero _ _ _ le_rfl
  have := demo_mono vb vph (a := 0) (b := 1) ⟨le_rfl, by norm_num⟩ ⟨by norm_num, le_rfl⟩ (by norm_num)
  linarith

theorem demo_start (vb vph : ℝ) :
    |start (fun _ => -1) vph 1 0 vb (-besselJ 0 (1 / 2) ^ 2) - 1 / 2| ≤ 1 / 2 := by
  have h0 : tuckerDc (fun _ => -1) vb vph 0 0 = -1 := tuckerDc_zero _ _ _ le_rfl
  have h1 := demo_mono vb vph (a := 0) (b := 1 / 2) ⟨le_rfl, by norm_num⟩ ⟨by norm_num, by norm_num⟩ (by norm_num)
  have h2 := demo_mono vb vph (a := 1 / 2) (b := 1) ⟨by norm_num, by norm_num⟩ ⟨by norm_num, le_rfl⟩ (by norm_num)
  rw [← demo_current vb vph]
  unfold start
  have p1 : 0 < (tuckerDc (fun _ => -1) vb vph 0 (1 / 2) - -1) := by linarith
  have p2 : 0 < (tuckerDc (fun _ => -1) vb vph 0 1 - -1) := by linarith
  have q0 : 0 ≤ (tuckerDc (fun _ => -1) vb vph 0 (1 / 2) - -1) / (tuckerDc (fun _ => -1) vb vph 0 1 - -1) :=
    by positivity
  have q1 : (tuckerDc (fun _ => -1) vb vph 0 (1 / 2) - -1) / (tuckerDc (fun _ => -1) vb vph 0 1 - -1) ≤ 1 := by
    rw [div_le_one p2]; linarith
  rw [mul_one, max_eq_right q0, abs_le]
  constructor <;> linarith

/-- The drive level `1/2` is recovered from its current to within `2^-16`. -/
theorem demo_alpha (vb vph : ℝ) : ∃ r, findAlpha (fun _ => -1) vph 1 0 vb (-besselJ 0 (1 / 2) ^ 2) = num r ∧
    |r - 1 / 2| ≤ 1 / 2 ^ 16 := by
  apply C61_increasing (fun _ => -1) vph 1 0 vb (-besselJ 0 (1 / 2) ^ 2) (1 / 2) one_pos (by norm_num)
    (demo_ne vb vph)
  · have e : (1 / 2 : ℝ) + 1 / 2 = 1 := by norm_num
    rw [e]; exact demo_mono vb vph
  · exact demo_current _ _ _
  · exact demo_start vb vph

end QMix.Zemb
