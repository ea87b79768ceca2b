import Verif.Model.CircuitFp
import Verif.Lemmas.Circuit
import Verif.Lemmas.RelErr
import Verif.Spec.Circuit

/-!
# Rounding errors of the powers of the embedding circuit: lemmas
-/

namespace QMix.CctFp

open QMix.Cct QMix.Spec QMix.Rel

variable {u : ℝ} (A : Fp u) (h0 : 0 ≤ u) (h1 : u < 1)

include h0 h1

theorem rnd_rel (x : ℝ) : Rel u 1 (A.rnd x) x := .of_le h0 h1 (A.rnd_le x)

theorem rnd_step {n : ℕ} {x y : ℝ} (h : Rel u n x y) : Rel u (n + 1) (A.rnd x) y := by
  rw [add_comm]
  exact (rnd_rel A h0 h1 x).trans h1 h

theorem rnd_factor (x : ℝ) : ∃ d, |d - 1| ≤ u ∧ A.rnd x = x * d := by
  rcases eq_or_ne x 0 with rfl | hx
  · have := A.rnd_le 0
    simp only [abs_zero, mul_zero, sub_zero] at this
    exact ⟨1, by simpa using h0, by simp [abs_eq_zero.1 (le_antisymm this (abs_nonneg _))]⟩
  · refine ⟨A.rnd x / x, ?_, by field_simp⟩
    rw [show A.rnd x / x - 1 = (A.rnd x - x) / x by field_simp, abs_div]
    exact (div_le_iff₀ (abs_pos.2 hx)).2 (A.rnd_le x)

/-- The conversion to watts. -/
theorem inWatts_rel {s : String} {U : PowerUnit} (hs : s.toLower = U.spelling) (P : ℝ) :
    ∃ y d, inWatts A s P = .ok y ∧ |d - 1| ≤ u ∧ (¬ U.logarithmic → d = 1) ∧ Rel u 3 y (U.watts (P * d)) := by
  have lin : ∀ k : ℝ, Rel u 3 (A.rnd (P * A.rnd k)) (P * 1 * k) := by
    intro k
    rw [mul_one]
    exact (rnd_step A h0 h1 ((rnd_rel A h0 h1 k).mulLeft P)).mono h0 h1 (by norm_num)
  have hone : |(1 : ℝ) - 1| ≤ u := by simpa using h0
  obtain ⟨d, hd, ed⟩ := rnd_factor A h0 h1 (P / 10)
  have hp : Rel u 1 (A.pow10 (A.rnd (P / 10))) (10 ^ (P * d / 10)) := by
    have := A.pow10_le (A.rnd (P / 10))
    rw [show P * d / 10 = A.rnd (P / 10) by rw [ed]; ring]
    exact .of_le h0 h1 (by rwa [abs_of_pos (Real.rpow_pos_of_pos (by norm_num : (0 : ℝ) < 10) _)])
  cases U
  case W => exact ⟨P, 1, by simp [inWatts, hs, PowerUnit.spelling, pure, Except.pure], hone, fun _ => rfl, by
    simpa [PowerUnit.watts] using (Rel.refl P).mono h0 h1 (by norm_num)⟩
  case dBm =>
    refine ⟨_, d, by simp [inWatts, hs, PowerUnit.spelling, pure, Except.pure]; rfl, hd, fun h => absurd trivial h, ?_⟩
    have := rnd_step A h0 h1 (hp.mul h1 (rnd_rel A h0 h1 1e-3))
    rw [show (10 : ℝ) ^ (P * d / 10) * 1e-3 = PowerUnit.dBm.watts (P * d) by simp only [PowerUnit.watts]; ring] at this
    simpa using this
  case dBW =>
    exact ⟨_, d, by simp [inWatts, hs, PowerUnit.spelling, pure, Except.pure], hd, fun h => absurd trivial h, hp.mono h0 h1 (by norm_num)⟩
  all_goals exact ⟨_, 1, by simp [inWatts, hs, PowerUnit.spelling, pure, Except.pure], hone, fun _ => rfl, lin _⟩

/-- The conversion from watts. -/
theorem fromWatts_rel {s : String} {U : PowerUnit} (hs : s.toLower = U.spelling) {Q : ℝ} (hQ : U.logarithmic → 0 < Q) :
    ∃ y z, fromWatts A s Q = .ok y ∧ Rel u 2 y z ∧ (¬ U.logarithmic → y = z) ∧ Rel u 2 (U.watts z) Q := by
  have lin : ∀ k : ℝ, k ≠ 0 → Rel u 2 (A.rnd (Q / A.rnd k) * k) Q := by
    intro k hk
    have h := rnd_step A h0 h1 ((Rel.refl Q).div h1 (rnd_rel A h0 h1 k))
    have := h.mulLeft k
    rw [mul_div_cancel₀ _ hk, mul_comm] at this
    simpa using this
  have self : ∀ y : ℝ, Rel u 2 y y := fun y => (Rel.refl y).mono h0 h1 (by norm_num)
  have dec : ∀ x : ℝ, 0 < x → decibel A x = .ok (A.rnd (10 * A.log10 x)) ∧ Rel u 2 (A.rnd (10 * A.log10 x)) (10 * Real.logb 10 x) :=
    fun x hx => ⟨by simp [decibel, hx], rnd_step A h0 h1 ((Rel.of_le h0 h1 (A.log10_le x)).mulLeft 10)⟩
  have back : ∀ x : ℝ, 0 < x → (10 : ℝ) ^ (10 * Real.logb 10 x / 10) = x := by
    intro x hx
    rw [mul_div_cancel_left₀ _ (by norm_num : (10 : ℝ) ≠ 0), Real.rpow_logb (by norm_num) (by norm_num) hx]
  cases U
  case W => exact ⟨Q, Q, by simp [fromWatts, hs, PowerUnit.spelling, pure, Except.pure], self _, fun _ => rfl, self _⟩
  case dBm =>
    have hx : Rel u 2 (A.rnd (Q * A.rnd 1e3)) (Q * 1e3) := rnd_step A h0 h1 ((rnd_rel A h0 h1 1e3).mulLeft Q)
    have hp : 0 < A.rnd (Q * A.rnd 1e3) := (hx.sign h1).2.1 (mul_pos (hQ trivial) (by norm_num))
    obtain ⟨e, r⟩ := dec _ hp
    refine ⟨_, _, by simp [fromWatts, hs, PowerUnit.spelling]; exact e, r, fun h => absurd trivial h, ?_⟩
    simp only [PowerUnit.watts]
    rw [back _ hp]
    have := hx.divRight 1000
    rwa [show Q * 1e3 / 1000 = Q by ring] at this
  case dBW =>
    obtain ⟨e, r⟩ := dec _ (hQ trivial)
    refine ⟨_, _, by simp [fromWatts, hs, PowerUnit.spelling]; exact e, r, fun h => absurd trivial h, ?_⟩
    simp only [PowerUnit.watts]
    rw [back _ (hQ trivial)]
    exact self _
  all_goals exact ⟨_, _, by simp [fromWatts, hs, PowerUnit.spelling, pure, Except.pure], self _, fun _ => rfl, lin _ (by norm_num)⟩

/-- The modulus of a complex number whose parts are rounded. -/
theorem norm_rel (a b : ℝ) : Rel u 1 ‖(⟨A.rnd a, A.rnd b⟩ : ℂ)‖ ‖(⟨a, b⟩ : ℂ)‖ := by
  refine .of_le h0 h1 ?_
  rw [abs_norm]
  refine (abs_norm_sub_norm_le _ _).trans ?_
  have e : ((⟨A.rnd a, A.rnd b⟩ : ℂ) - ⟨a, b⟩) = ⟨A.rnd a - a, A.rnd b - b⟩ := by
    apply Complex.ext <;> simp
  rw [e]
  have ha := A.rnd_le a
  have hb := A.rnd_le b
  refine le_of_sq_le_sq ?_ (by positivity)
  rw [mul_pow, Complex.sq_norm, Complex.sq_norm, Complex.normSq_apply, Complex.normSq_apply]
  have qa := pow_le_pow_left₀ (abs_nonneg _) ha 2
  have qb := pow_le_pow_left₀ (abs_nonneg _) hb 2
  rw [sq_abs, mul_pow, sq_abs] at qa qb
  simp only
  nlinarith

/-- What `available_power` returns. -/
theorem availablePower_rel {c : Circuit} {vg rn : ℝ} {f p : ℤ} {vt zt : ℂ} {s : String} {U : PowerUnit}
    (hv : c.vgap = some vg) (hr : c.rn = some rn) (hvt : get2 c.vt f p = .ok vt)
    (hz : get2 c.zt f p = .ok zt) (hs : s.toLower = U.spelling) (hR : 0 < zt.re * rn)
    (hpos : U.logarithmic → 0 < sourcePower (vt * vg) (zt.re * rn)) :
    ∃ y z, availablePower A c f p s = .ok y ∧ Rel u 2 y z ∧ (¬ U.logarithmic → y = z)
      ∧ Rel u 10 (U.watts z) (sourcePower (vt * vg) (zt.re * rn)) := by
  have hn : Rel u 1 ‖(⟨A.rnd (vt.re * vg), A.rnd (vt.im * vg)⟩ : ℂ)‖ ‖vt * (vg : ℂ)‖ := by
    have := norm_rel A h0 h1 (vt.re * vg) (vt.im * vg)
    rwa [show (⟨vt.re * vg, vt.im * vg⟩ : ℂ) = vt * (vg : ℂ) by apply Complex.ext <;> simp] at this
  have ha : Rel u 2 (A.abs ⟨A.rnd (vt.re * vg), A.rnd (vt.im * vg)⟩) ‖vt * (vg : ℂ)‖ :=
    (Rel.of_le h0 h1 (by rw [abs_norm]; exact A.abs_le _)).trans h1 hn
  have hro := rnd_rel A h0 h1 (zt.re * rn)
  have hq := rnd_step A h0 h1 ((rnd_step A h0 h1 ((rnd_step A h0 h1 (ha.sq h1)).div h1 hro)).divRight 8)
  rw [show ‖vt * (vg : ℂ)‖ ^ 2 / (zt.re * rn) / 8 = sourcePower (vt * vg) (zt.re * rn) by
    unfold sourcePower; rw [div_div]; ring_nf] at hq
  have hne : A.rnd (zt.re * rn) ≠ 0 := (hro.sign h1).2.2.1 hR.ne'
  obtain ⟨y, z, e, r, l, q⟩ := fromWatts_rel A h0 h1 hs (Q := A.rnd (A.rnd (A.rnd (A.abs ⟨A.rnd (vt.re * vg), A.rnd (vt.im * vg)⟩ ^ 2)
    / A.rnd (zt.re * rn)) / 8)) fun hl => (hq.sign h1).2.1 (hpos hl)
  refine ⟨y, z, ?_, r, l, (q.trans h1 hq).mono h0 h1 (by norm_num)⟩
  unfold availablePower
  rw [hv, hr, hvt, hz]
  simp only [getOpt, ok_bind', ne_eq, hne, not_false_eq_true, if_true]
  exact e

/-- What `set_available_power` stores. -/
theorem setAvailablePower_rel {c c' : Circuit} {P vg rn : ℝ} {f p : ℤ} {s : String} {U : PowerUnit} {zt : ℂ}
    (h : setAvailablePower A c P f p s = .ok c') (hv : c.vgap = some vg) (hr : c.rn = some rn) (hz : get2 c.zt f p = .ok zt)
    (hs : s.toLower = U.spelling) (hR : 0 < zt.re * rn) :
    ∃ (v : ℝ) (d : ℝ), c'.vgap = some vg ∧ c'.rn = some rn ∧ get2 c'.zt f p = .ok zt ∧ get2 c'.vt f p = .ok (v : ℂ) ∧ |d - 1| ≤ u
      ∧ (¬ U.logarithmic → d = 1) ∧ 0 ≤ U.watts (P * d)
      ∧ Rel u 10 (sourcePower ((v : ℂ) * vg) (zt.re * rn)) (U.watts (P * d)) := by
  obtain ⟨y, d, ey, hd, hl, hy⟩ := inWatts_rel A h0 h1 hs P
  unfold setAvailablePower at h
  rw [hv, hr, hz] at h
  simp only [getOpt, ok_bind', ey] at h
  have hz0 : zt ≠ 0 := by rintro rfl; simp at hR
  rw [pyAssert_pos hz0] at h
  set x := A.rnd (A.rnd (8 * y) * A.rnd (zt.re * rn)) with hxd
  have hx : Rel u 6 x (8 * U.watts (P * d) * (zt.re * rn)) :=
    rnd_step A h0 h1 ((rnd_step A h0 h1 (hy.mulLeft 8)).mul h1 (rnd_rel A h0 h1 _))
  by_cases hneg : x < 0
  · rw [raiseIf_pos hneg] at h
    cases h
  rw [raiseIf_neg hneg] at h
  by_cases hvg : vg = 0
  · rw [raiseIf_pos hvg] at h
    cases h
  rw [raiseIf_neg hvg] at h
  obtain ⟨_, a, ha, rfl⟩ := writeVt_ok h
  set v := A.rnd (A.rnd (Real.sqrt x) / vg)
  have hvv : Rel u 2 (v * vg) (Real.sqrt x) := by
    have := (rnd_step A h0 h1 ((rnd_rel A h0 h1 (Real.sqrt x)).divRight vg)).mulLeft vg
    rwa [mul_div_cancel₀ _ hvg, mul_comm] at this
  have hsq : Rel u 4 ((v * vg) ^ 2) x := by
    have := hvv.sq h1
    rwa [Real.sq_sqrt (not_lt.1 hneg)] at this
  refine ⟨v, d, hv, hr, hz, get2_set2 ha, hd, hl, ?_, ?_⟩
  · by_contra hc
    push Not at hc
    obtain ⟨k, k1, k2, k3⟩ := hx
    have hk : 0 < k := (pow_pos (by linarith : 0 < 1 - u) 6).trans_le k1
    have : 8 * U.watts (P * d) * (zt.re * rn) < 0 := mul_neg_of_neg_of_pos (by linarith) hR
    rw [k3] at hneg
    exact hneg (mul_neg_of_neg_of_pos this hk)
  · have e : sourcePower ((v : ℂ) * vg) (zt.re * rn) = (v * vg) ^ 2 / (8 * (zt.re * rn)) := by
      unfold sourcePower
      rw [← Complex.ofReal_mul, Complex.norm_real, Real.norm_eq_abs, sq_abs]
    rw [e]
    have := (hsq.trans h1 hx).divRight (8 * (zt.re * rn))
    rwa [show 8 * U.watts (P * d) * (zt.re * rn) / (8 * (zt.re * rn)) = U.watts (P * d) by
      rw [div_eq_iff (by positivity)]; ring] at this

end QMix.CctFp
