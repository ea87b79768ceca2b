import Verif.Lemmas.CircuitFp
import Verif.Props.Circuit
import Verif.Spec.Binary64
import Mathlib.Analysis.Complex.ExponentialBounds

/-!
# Property C168: the power in floating-point arithmetic
-/

namespace QMix.Props

open QMix.Cct QMix.CctFp QMix.Spec QMix.Rel

variable {u : ℝ}

/-- C168. The stored voltage provides the requested power, up to ten roundings. -/
theorem C168_stored (A : Fp u) (h0 : 0 ≤ u) (h1 : u < 1) {c c' : Circuit} {P vg rn : ℝ} {f p : ℤ} {s : String} {U : PowerUnit} {zt : ℂ}
    (h : CctFp.setAvailablePower A c P f p s = .ok c') (hv : c.vgap = some vg) (hr : c.rn = some rn) (hz : get2 c.zt f p = .ok zt)
    (hs : s.toLower = U.spelling) (hU : ¬ U.logarithmic) (hR : 0 < zt.re * rn) :
    ∃ vt, get2 c'.vt f p = .ok vt ∧ |sourcePower (vt * vg) (zt.re * rn) - U.watts P| ≤ (((1 - u) ^ 10)⁻¹ - 1) * U.watts P := by
  obtain ⟨v, d, _, _, _, hvt, _, hl, hw, hq⟩ := setAvailablePower_rel A h0 h1 h hv hr hz hs hR
  rw [hl hU, mul_one] at hw hq
  have := hq.abs_sub_le h1 h0
  rw [abs_of_nonneg hw] at this
  exact ⟨v, hvt, this⟩

/-- C168. The power that is read is the power of the stored (complex) voltage, up to ten roundings. -/
theorem C168_read (A : Fp u) (h0 : 0 ≤ u) (h1 : u < 1) {c : Circuit} {vg rn : ℝ} {f p : ℤ} {s : String} {U : PowerUnit} {vt zt : ℂ}
    (hv : c.vgap = some vg) (hr : c.rn = some rn) (hvt : get2 c.vt f p = .ok vt) (hz : get2 c.zt f p = .ok zt)
    (hs : s.toLower = U.spelling) (hU : ¬ U.logarithmic) (hR : 0 < zt.re * rn) :
    ∃ y, CctFp.availablePower A c f p s = .ok y ∧ |U.watts y - sourcePower (vt * vg) (zt.re * rn)|
      ≤ (((1 - u) ^ 10)⁻¹ - 1) * sourcePower (vt * vg) (zt.re * rn) := by
  obtain ⟨y, z, e, _, hyz, r⟩ := availablePower_rel A h0 h1 hv hr hvt hz hs hR fun h => absurd h hU
  rw [← hyz hU] at r
  have := r.abs_sub_le h1 h0
  rw [abs_of_nonneg (by unfold sourcePower; positivity : 0 ≤ sourcePower (vt * vg) (zt.re * rn))] at this
  exact ⟨y, e, this⟩

/-- C168. A power set in one linear unit and read in another stands for the same number of watts, up to twenty roundings. -/
theorem C168_linear (A : Fp u) (h0 : 0 ≤ u) (h1 : u < 1) {c c' : Circuit} {P vg rn : ℝ} {f p : ℤ} {s s' : String} {U U' : PowerUnit} {zt : ℂ}
    (h : CctFp.setAvailablePower A c P f p s = .ok c') (hv : c.vgap = some vg) (hr : c.rn = some rn) (hz : get2 c.zt f p = .ok zt)
    (hs : s.toLower = U.spelling) (hs' : s'.toLower = U'.spelling) (hU : ¬ U.logarithmic) (hU' : ¬ U'.logarithmic) (hR : 0 < zt.re * rn) :
    ∃ y, CctFp.availablePower A c' f p s' = .ok y ∧ |U'.watts y - U.watts P| ≤ (((1 - u) ^ 20)⁻¹ - 1) * U.watts P := by
  obtain ⟨v, d, hv', hr', hz', hvt, _, hl, hw, hq⟩ := setAvailablePower_rel A h0 h1 h hv hr hz hs hR
  obtain ⟨y, z, e, _, hyz, r⟩ := availablePower_rel A h0 h1 hv' hr' hvt hz' hs' hR fun h => absurd h hU'
  rw [hl hU, mul_one] at hw hq
  rw [← hyz hU'] at r
  have := (r.trans h1 hq).abs_sub_le h1 h0
  rw [abs_of_nonneg hw] at this
  exact ⟨y, e, this⟩

/-- A wattage with a relative error, in decibels. -/
theorem decibel_shift (h0 : 0 ≤ u) (h1 : u < 1) {U : PowerUnit} (hU : U.logarithmic) {n : ℕ} {x y : ℝ} (h : Rel u n (U.watts x) (U.watts y)) :
    |x - y| ≤ 10 * n * -Real.logb 10 (1 - u) := by
  obtain ⟨c, a, b, e⟩ := h
  have p : 0 < (1 - u) ^ n := pow_pos (by linarith) n
  have hc : 0 < c := p.trans_le a
  have e' : (10 : ℝ) ^ (x / 10) = 10 ^ (y / 10) * c := by
    cases U
    case dBm => simp only [PowerUnit.watts] at e; linarith
    case dBW => exact e
    all_goals exact hU.elim
  have hx : x / 10 = y / 10 + Real.logb 10 c := by
    have := congrArg (Real.logb 10) e'
    rwa [Real.logb_mul (Real.rpow_pos_of_pos (by norm_num) _).ne' hc.ne', Real.logb_rpow (by norm_num) (by norm_num),
      Real.logb_rpow (by norm_num) (by norm_num)] at this
  have l1 : n * Real.logb 10 (1 - u) ≤ Real.logb 10 c := by
    rw [← Real.logb_pow]
    exact Real.logb_le_logb_of_le (by norm_num) p a
  have l2 : Real.logb 10 c + n * Real.logb 10 (1 - u) ≤ 0 := by
    rw [← Real.logb_pow, ← Real.logb_mul hc.ne' p.ne']
    exact Real.logb_nonpos (by norm_num) (mul_nonneg hc.le p.le) b
  rw [abs_le]
  constructor <;> nlinarith

/-- C168. A power set and read in decibels, with twenty roundings of the power, one of the argument of `10 ** x` and two of the result. -/
theorem C168_decibel (A : Fp u) (h0 : 0 ≤ u) (h1 : u < 1) {c c' : Circuit} {P vg rn : ℝ} {f p : ℤ} {s s' : String} {U : PowerUnit} {zt : ℂ}
    (h : CctFp.setAvailablePower A c P f p s = .ok c') (hv : c.vgap = some vg) (hr : c.rn = some rn) (hz : get2 c.zt f p = .ok zt)
    (hs : s.toLower = U.spelling) (hs' : s'.toLower = s.toLower) (hU : U.logarithmic) (hR : 0 < zt.re * rn) :
    ∃ y, CctFp.availablePower A c' f p s' = .ok y ∧
      |y - P| ≤ (((1 - u) ^ 3)⁻¹ - 1) * |P| + ((1 - u) ^ 2)⁻¹ * (200 * -Real.logb 10 (1 - u)) := by
  obtain ⟨v, d, hv', hr', hz', hvt, hd, _, _, hq⟩ := setAvailablePower_rel A h0 h1 h hv hr hz hs hR
  have hpos : 0 < U.watts (P * d) := by
    cases U
    case dBm => simp only [PowerUnit.watts]; positivity
    case dBW => simp only [PowerUnit.watts]; positivity
    all_goals exact hU.elim
  obtain ⟨y, z, e, ry, _, r⟩ := availablePower_rel A h0 h1 hv' hr' hvt hz' (hs'.trans hs) hR fun _ => (hq.sign h1).2.1 hpos
  refine ⟨y, e, ?_⟩
  have hz := decibel_shift h0 h1 hU (r.trans h1 hq)
  set L := 200 * -Real.logb 10 (1 - u) with hL
  have hz' : |z - P * d| ≤ L := by
    refine hz.trans (le_of_eq ?_)
    rw [hL]
    norm_num
  have hy := ry.abs_sub_le h1 h0
  have q2 : 0 < (1 - u) ^ 2 := pow_pos (by linarith) 2
  set k := ((1 - u) ^ 2)⁻¹ with hk
  have hk1 : 1 ≤ k := (one_le_inv₀ q2).2 (pow_le_one₀ (by linarith) (by linarith))
  have hP : |P * d - P| ≤ u * |P| := by
    rw [show P * d - P = P * (d - 1) by ring, abs_mul, mul_comm]
    exact mul_le_mul_of_nonneg_right hd (abs_nonneg _)
  have hzP : |z - P| ≤ u * |P| + L := by
    have := abs_add_le (z - P * d) (P * d - P)
    rw [sub_add_sub_cancel] at this
    linarith
  have hza : |z| ≤ (1 + u) * |P| + L := by
    have := abs_add_le (z - P) P
    rw [sub_add_cancel] at this
    linarith
  have hyP : |y - P| ≤ (k - 1) * |z| + (u * |P| + L) := by
    have := abs_add_le (y - z) (z - P)
    rw [sub_add_sub_cancel] at this
    linarith
  have h3 : k * (1 + u) ≤ ((1 - u) ^ 3)⁻¹ := by
    have : (1 + u) ≤ (1 - u)⁻¹ := by
      rw [← one_div, le_div_iff₀ (by linarith)]
      nlinarith
    calc k * (1 + u) ≤ k * (1 - u)⁻¹ := mul_le_mul_of_nonneg_left this (by linarith)
      _ = ((1 - u) ^ 3)⁻¹ := by rw [hk, ← mul_inv]; ring_nf
  have h4 := mul_le_mul_of_nonneg_left hza (by linarith : 0 ≤ k - 1)
  have h5 := mul_le_mul_of_nonneg_right h3 (abs_nonneg P)
  calc |y - P| ≤ (k - 1) * ((1 + u) * |P| + L) + (u * |P| + L) := by linarith
    _ = (k * (1 + u) * |P| - |P|) + k * L := by ring
    _ ≤ _ := by linarith

/-! ## Double precision -/

/-- Double precision with correctly rounded elementary functions. -/
noncomputable def fp64 : Fp u64 where
  rnd := fl
  pow10 x := fl (10 ^ x)
  log10 x := fl (Real.logb 10 x)
  abs z := fl ‖z‖
  rnd_le := fl_le
  pow10_le x := by
    have := fl_le (10 ^ x)
    rwa [abs_of_pos (Real.rpow_pos_of_pos (by norm_num : (0 : ℝ) < 10) _)] at this
  log10_le x := fl_le _
  abs_le z := by
    have := fl_le ‖z‖
    rwa [abs_norm] at this

theorem u64_small : u64 ≤ 1 / 10 ^ 15 := by unfold u64; norm_num

/-- C168. In double precision a power survives in the linear units to 21 unit roundoffs, -/
theorem C168_linear_64 (A : Fp u64) {c c' : Circuit} {P vg rn : ℝ} {f p : ℤ} {s s' : String} {U U' : PowerUnit} {zt : ℂ}
    (h : CctFp.setAvailablePower A c P f p s = .ok c') (hv : c.vgap = some vg) (hr : c.rn = some rn) (hz : get2 c.zt f p = .ok zt)
    (hs : s.toLower = U.spelling) (hs' : s'.toLower = U'.spelling) (hU : ¬ U.logarithmic) (hU' : ¬ U'.logarithmic) (hR : 0 < zt.re * rn) :
    ∃ y, CctFp.availablePower A c' f p s' = .ok y ∧ |U'.watts y - U.watts P| ≤ 21 * 2⁻¹ ^ 53 * |U.watts P| := by
  have u0 := u64_pos
  have u1 : u64 < 1 := u64_lt.trans (by norm_num)
  obtain ⟨y, e, hy⟩ := C168_linear A u0.le u1 h hv hr hz hs hs' hU hU' hR
  refine ⟨y, e, hy.trans ?_⟩
  have hk := inv_pow_le (n := 20) u0.le (by have := u64_small; norm_num at this ⊢; linarith)
  have hk0 : 0 ≤ ((1 - u64) ^ 20)⁻¹ - 1 :=
    sub_nonneg.2 ((one_le_inv₀ (pow_pos (by linarith) 20)).2 (pow_le_one₀ (by linarith) (by linarith)))
  calc _ ≤ (((1 - u64) ^ 20)⁻¹ - 1) * |U.watts P| := mul_le_mul_of_nonneg_left (le_abs_self _) hk0
    _ ≤ 21 * u64 * |U.watts P| := mul_le_mul_of_nonneg_right (by norm_num at hk ⊢; linarith) (abs_nonneg _)
    _ = _ := by unfold u64; rfl

/-- C168. and in decibels to 4 unit roundoffs of the number plus 100 unit roundoffs. -/
theorem C168_decibel_64 (A : Fp u64) {c c' : Circuit} {P vg rn : ℝ} {f p : ℤ} {s s' : String} {U : PowerUnit} {zt : ℂ}
    (h : CctFp.setAvailablePower A c P f p s = .ok c') (hv : c.vgap = some vg) (hr : c.rn = some rn) (hz : get2 c.zt f p = .ok zt)
    (hs : s.toLower = U.spelling) (hs' : s'.toLower = s.toLower) (hU : U.logarithmic) (hR : 0 < zt.re * rn) :
    ∃ y, CctFp.availablePower A c' f p s' = .ok y ∧ |y - P| ≤ 2⁻¹ ^ 53 * (4 * |P| + 100) := by
  have u0 := u64_pos
  have us := u64_small
  have u1 : u64 < 1 := u64_lt.trans (by norm_num)
  obtain ⟨y, e, hy⟩ := C168_decibel A u0.le u1 h hv hr hz hs hs' hU hR
  refine ⟨y, e, hy.trans ?_⟩
  have hk3 := inv_pow_le (n := 3) u0.le (by norm_num at us ⊢; linarith)
  have hk2 := inv_pow_le (n := 2) u0.le (by norm_num at us ⊢; linarith)
  have hk1 := inv_pow_le (n := 1) u0.le (by norm_num at us ⊢; linarith)
  have hq : 0 < 1 - u64 := by linarith
  have hL : -Real.logb 10 (1 - u64) ≤ 0.49 * u64 := by
    have a := Real.one_sub_inv_le_log_of_pos hq
    have h8 : Real.log 8 ≤ Real.log 10 := Real.log_le_log (by norm_num) (by norm_num)
    have e8 : Real.log 8 = 3 * Real.log 2 := by
      rw [show (8 : ℝ) = 2 ^ 3 by norm_num, Real.log_pow]
      norm_num
    have l2 := Real.log_two_gt_d9
    have hl : (2.07 : ℝ) ≤ Real.log 10 := by linarith
    rw [Real.logb, ← neg_div, div_le_iff₀ (by linarith)]
    have b : (1 - u64)⁻¹ - 1 ≤ 1.01 * u64 := by
      rw [← one_div, sub_le_iff_le_add, div_le_iff₀ hq]
      nlinarith
    nlinarith
  have hP := abs_nonneg P
  have t1 : (((1 - u64) ^ 3)⁻¹ - 1) * |P| ≤ 4 * u64 * |P| := mul_le_mul_of_nonneg_right (by norm_num at hk3 ⊢; linarith) hP
  have t2 : ((1 - u64) ^ 2)⁻¹ * (200 * -Real.logb 10 (1 - u64)) ≤ 1.01 * (98 * u64) := by
    refine mul_le_mul (by norm_num at hk2 ⊢; linarith) (by linarith) ?_ (by norm_num)
    have : Real.logb 10 (1 - u64) ≤ 0 := Real.logb_nonpos (by norm_num) hq.le (by linarith)
    linarith
  calc _ ≤ 4 * u64 * |P| + 1.01 * (98 * u64) := add_le_add t1 t2
    _ ≤ u64 * (4 * |P| + 100) := by linarith
    _ = _ := by unfold u64; rfl

/-- A call that succeeds. -/
theorem set_fp_ok (A : Fp u64) (P : ℝ) {s : String} {U : PowerUnit} (hs : s.toLower = U.spelling) (hP : ∀ d, |d - 1| ≤ u64 → 0 ≤ U.watts (P * d)) :
    ∃ c', CctFp.setAvailablePower A demoCct P 1 1 s = .ok c' := by
  have u0 := u64_pos
  have u1 : u64 < 1 := u64_lt.trans (by norm_num)
  obtain ⟨y, d, ey, hd, _, hy⟩ := inWatts_rel A u0.le u1 hs P
  have hx : 0 ≤ A.rnd (A.rnd (8 * y) * A.rnd ((⟨0.5, -0.25⟩ : ℂ).re * 14)) := by
    have := rnd_step A u0.le u1 ((rnd_step A u0.le u1 (hy.mulLeft 8)).mul u1 (rnd_rel A u0.le u1 ((⟨0.5, -0.25⟩ : ℂ).re * 14)))
    exact (this.sign u1).1 (mul_nonneg (mul_nonneg (by norm_num) (hP d hd)) (by norm_num))
  have hz0 : (⟨0.5, -0.25⟩ : ℂ) ≠ 0 := by
    intro h
    have := congrArg Complex.re h
    norm_num at this
  have hz : get2 demoCct.zt 1 1 = .ok ⟨0.5, -0.25⟩ := rfl
  unfold CctFp.setAvailablePower
  rw [hz]
  simp only [demoCct, getOpt, ok_bind']
  rw [pyAssert_pos hz0, ey]
  simp only [ok_bind']
  rw [raiseIf_neg (not_lt.2 hx), raiseIf_neg (by norm_num)]
  exact ⟨_, rfl⟩

local macro "lower" : tactic => `(tactic| (rw [← String.toList_inj]; simp [String.toLower, PowerUnit.spelling]))

example : ∃ c' y, CctFp.setAvailablePower fp64 demoCct 10 1 1 "nW" = .ok c' ∧ CctFp.availablePower fp64 c' 1 1 "fW" = .ok y ∧
    |y * 1e-15 - 10 * 1e-9| ≤ 21 * 2⁻¹ ^ 53 * 1e-8 := by
  obtain ⟨c', h⟩ := set_fp_ok fp64 10 (s := "nW") (U := .nW) (by lower) fun d hd => by
    have := (abs_le.1 hd).1
    have := u64_lt
    simp only [PowerUnit.watts]
    nlinarith
  obtain ⟨y, e, hy⟩ := C168_linear_64 fp64 (s' := "fW") (U := .nW) (U' := .fW) h rfl rfl (zt := ⟨0.5, -0.25⟩) rfl (by lower) (by lower)
    id id (by norm_num)
  refine ⟨c', y, h, e, ?_⟩
  simp only [PowerUnit.watts] at hy
  norm_num at hy ⊢
  exact hy

example : ∃ c' y, CctFp.setAvailablePower fp64 demoCct (-50) 1 1 "dBm" = .ok c' ∧ CctFp.availablePower fp64 c' 1 1 "dBm" = .ok y ∧
    |y - -50| ≤ 2⁻¹ ^ 53 * 300 := by
  obtain ⟨c', h⟩ := set_fp_ok fp64 (-50) (s := "dBm") (U := .dBm) (by lower) fun d hd => by
    simp only [PowerUnit.watts]
    positivity
  obtain ⟨y, e, hy⟩ := C168_decibel_64 fp64 (s' := "dBm") (U := .dBm) h rfl rfl (zt := ⟨0.5, -0.25⟩) rfl (by lower) rfl trivial (by norm_num)
  refine ⟨c', y, h, e, hy.trans (le_of_eq ?_)⟩
  norm_num

end QMix.Props
