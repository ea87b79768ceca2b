import Verif.Model.ExpFp
import Verif.Props.FreqFp

/-!
# C198: the parameters of a measured junction in floating-point arithmetic
-/

namespace QMix.Props

open QMix.Cct QMix.CctFp QMix.ExpFp QMix.Spec QMix.Rel

variable {u : ℝ}

/-! ## Specification -/

/-- The photon voltage of `freq` GHz in units of the gap voltage. -/
noncomputable def photonOf (freq vgap : ℝ) : ℝ := SI.h * (freq * 1e9) / (SI.e * vgap)

/-- `x` equals `y` up to `n` roundings. -/
def UpTo (u : ℝ) (n : ℕ) (x y : ℝ) : Prop := |x - y| ≤ (((1 - u) ^ n)⁻¹ - 1) * |y|

/-! ## Lemmas -/

local macro "lower" : tactic => `(tactic| (rw [← String.toList_inj]; simp [String.toLower, FreqUnit.spelling]))

theorem quot_ok (A : Fp u) {x y : ℝ} (hy : y ≠ 0) : quot A x y = .ok (A.rnd (x / y)) := by
  unfold quot
  rw [if_neg hy]

theorem gapFreq_rel (A : Fp u) (h0 : 0 ≤ u) (h1 : u < 1) (vgap : ℝ) : Rel u 4 (gapFreq A vgap) (charge * vgap / planck) :=
  rnd_step A h0 h1 ((rnd_step A h0 h1 ((rnd_rel A h0 h1 charge).mul h1 ((Rel.refl vgap)))).div h1 (rnd_rel A h0 h1 planck))

theorem gapFreq_ne (A : Fp u) (h0 : 0 ≤ u) (h1 : u < 1) {vgap : ℝ} (hv : vgap ≠ 0) : gapFreq A vgap ≠ 0 :=
  ((gapFreq_rel A h0 h1 vgap).sign h1).2.2.1 (div_ne_zero (mul_ne_zero charge_pos.ne' hv) planck_pos.ne')

/-! ## C198 -/

/-- C198, the photon voltage: the attribute `vph` and the one used by the impedance recovery are both the photon energy divided by the gap
energy up to seven roundings, and they differ by no more than three roundings each. -/
theorem C198_photon (A : Fp u) (h0 : 0 ≤ u) (h1 : u < 1) {vgap : ℝ} (hv : vgap ≠ 0) (freq : ℝ) :
    ∃ s w, vphStored A freq (gapFreq A vgap) = .ok s ∧ vphUsed A freq (gapFreq A vgap) = .ok w ∧
      UpTo u 7 s (photonOf freq vgap) ∧ UpTo u 7 w (photonOf freq vgap) ∧
      ∃ y, UpTo u 3 s y ∧ UpTo u 3 w y := by
  have hg := gapFreq_ne A h0 h1 hv
  have r := gapFreq_rel A h0 h1 vgap
  have e : photonOf freq vgap = freq * 1e9 / (charge * vgap / planck) := by
    have := charge_pos.ne'
    have := planck_pos.ne'
    show planck * (freq * 1e9) / (charge * vgap) = _
    field_simp
  have s3 : Rel u 3 (A.rnd (A.rnd (freq / gapFreq A vgap) * A.rnd 1e9)) (freq * 1e9 / gapFreq A vgap) := by
    rw [mul_div_right_comm]
    exact rnd_step A h0 h1 ((rnd_rel A h0 h1 _).mul h1 (rnd_rel A h0 h1 _))
  have w3 : Rel u 3 (A.rnd (A.rnd (freq * A.rnd 1e9) / gapFreq A vgap)) (freq * 1e9 / gapFreq A vgap) :=
    rnd_step A h0 h1 ((rnd_step A h0 h1 ((rnd_rel A h0 h1 1e9).mulLeft freq)).divRight _)
  have g4 : Rel u 4 (freq * 1e9 / gapFreq A vgap) (photonOf freq vgap) := by
    rw [e]
    exact ((Rel.refl (freq * 1e9)).div h1 r).mono h0 h1 (by norm_num)
  refine ⟨_, _, by unfold vphStored; rw [quot_ok A hg]; rfl, quot_ok A hg, (s3.trans h1 g4).abs_sub_le h1 h0,
    (w3.trans h1 g4).abs_sub_le h1 h0, _, s3.abs_sub_le h1 h0, w3.abs_sub_le h1 h0⟩

/-- C198, simulation and measurement: a circuit made with the gap voltage of the measurement stores, for the same frequency in GHz, the very
number that the impedance recovery uses. -/
theorem C198_circuit (A : Fp u) (h0 : 0 ≤ u) (h1 : u < 1) {numF numP npts : ℤ} {lo hi vgap : ℝ} {rn : Option ℝ} {name : String}
    {c c' : Circuit} (hc : CctFp.new A numF numP lo hi npts none (some vgap) rn name = .ok c) (hv : vgap ≠ 0) (freq : ℝ) {f : ℤ}
    (h : CctFp.setFreq A c freq f "GHz" = .ok c') :
    ∃ w, vphUsed A freq (gapFreq A vgap) = .ok w ∧ pyGet c'.freq f = .ok w := by
  obtain ⟨e1, e2⟩ := new_gaps A hc
  have hg := gapFreq_ne A h0 h1 hv
  have e3 : c.fgap = some (gapFreq A vgap) := by
    rw [e1]
    show some _ = some _
    unfold gapFreq
    rw [mul_comm]
  rw [setFreq_run A e3 e2 hg hv freq f "GHz" .GHz (by lower)] at h
  exact ⟨_, quot_ok A hg, (writeFreq_get h).1⟩

/-- C198, the junction: the current density is the gap voltage over resistance times area (in square micrometres) up to four roundings, the
gap current is one rounding off. -/
theorem C198_junction (A : Fp u) (h0 : 0 ≤ u) (h1 : u < 1) (vgap : ℝ) {rn area : ℝ} (hr : rn ≠ 0) (ha : area ≠ 0) :
    ∃ j i, jc A vgap rn area = .ok j ∧ gapCurrent A vgap rn = .ok i ∧
      UpTo u 4 j (vgap / (rn * (area / 10 ^ 12))) ∧ UpTo u 1 i (vgap / rn) := by
  have r : Rel u 3 (rna A rn area) (rn * (area / 10 ^ 12)) := by
    rw [show rn * (area / 10 ^ 12) = rn * area * 1e-12 by norm_num; ring]
    exact rnd_step A h0 h1 ((rnd_rel A h0 h1 _).mul h1 (rnd_rel A h0 h1 _))
  have hne : rna A rn area ≠ 0 := (r.sign h1).2.2.1 (mul_ne_zero hr (div_ne_zero ha (by norm_num)))
  refine ⟨_, _, quot_ok A hne, quot_ok A hr, ?_, (rnd_rel A h0 h1 _).abs_sub_le h1 h0⟩
  have := rnd_step A h0 h1 ((Rel.refl vgap).div h1 r)
  exact (this.mono h0 h1 (by norm_num)).abs_sub_le h1 h0

/-- C198, the window: for a photon voltage below the gap and a fit range between 0 and 1, the ends of the window of the impedance recovery
are `1 - w + w low` and `1 - w + w high` to within five units of roundoff. -/
theorem C198_window (A : Fp u) (h0 : 0 ≤ u) (hu : u ≤ 1 / 10) {w low high : ℝ} (hw : 0 ≤ w ∧ w ≤ 1) (hl : 0 ≤ low ∧ low ≤ 1)
    (hh : 0 ≤ high ∧ high ≤ 1) :
    |(window A w low high).1 - (1 - w + w * low)| ≤ 5 * u ∧ |(window A w low high).2 - (1 - w + w * high)| ≤ 5 * u := by
  have near : ∀ {x y e : ℝ}, |x - y| ≤ e → |y| ≤ 1 → |A.rnd x - y| ≤ e + u * (1 + e) := by
    intro x y e hxy hy
    have h1 := A.rnd_le x
    have h2 : |x| ≤ 1 + e := by
      have := abs_add_le (x - y) y
      rw [sub_add_cancel] at this
      linarith
    have h3 := abs_add_le (A.rnd x - x) (x - y)
    rw [sub_add_sub_cancel] at h3
    have h4 := mul_le_mul_of_nonneg_left h2 h0
    linarith
  obtain ⟨w0, w1⟩ := hw
  obtain ⟨l0, l1⟩ := hl
  obtain ⟨g0, g1⟩ := hh
  have hwl : 0 ≤ w * low ∧ w * low ≤ w := ⟨mul_nonneg w0 l0, by nlinarith⟩
  have hwh : 0 ≤ w * (1 - high) ∧ w * (1 - high) ≤ w := ⟨mul_nonneg w0 (by linarith), by nlinarith⟩
  have z : ∀ y : ℝ, |y - y| ≤ 0 := fun y => by simp
  constructor
  · have a := near (z (1 - w)) (abs_le.2 ⟨by linarith, by linarith⟩)
    have b := near (z (w * low)) (abs_le.2 ⟨by linarith [hwl.1], by linarith [hwl.2]⟩)
    have s : |A.rnd (1 - w) + A.rnd (w * low) - (1 - w + w * low)| ≤ 2 * u := by
      rw [add_sub_add_comm]
      refine (abs_add_le _ _).trans ?_
      linarith
    have c := near s (abs_le.2 ⟨by linarith [hwl.1], by linarith [hwl.2]⟩)
    refine c.trans ?_
    nlinarith
  · have a := near (z (1 - high)) (abs_le.2 ⟨by linarith, by linarith⟩)
    have b : |w * A.rnd (1 - high) - w * (1 - high)| ≤ u := by
      rw [← mul_sub, abs_mul, abs_of_nonneg w0]
      nlinarith [abs_nonneg (A.rnd (1 - high) - (1 - high))]
    have c := near b (abs_le.2 ⟨by linarith [hwh.1], by linarith [hwh.2]⟩)
    have d : |1 - A.rnd (w * A.rnd (1 - high)) - (1 - w + w * high)| ≤ u + u * (1 + u) := by
      rw [show 1 - A.rnd (w * A.rnd (1 - high)) - (1 - w + w * high) = -(A.rnd (w * A.rnd (1 - high)) - w * (1 - high)) by ring, abs_neg]
      exact c
    have e : |1 - w + w * high| ≤ 1 := abs_le.2 ⟨by nlinarith, by nlinarith⟩
    refine (near d e).trans ?_
    nlinarith [mul_nonneg h0 h0, mul_nonneg (mul_nonneg h0 h0) h0]

/-- A measurement at 230 GHz of a junction with a gap of 2.8 mV, in binary64. -/
example : ∃ s w, vphStored fp64 230 (gapFreq fp64 2.8e-3) = .ok s ∧ vphUsed fp64 230 (gapFreq fp64 2.8e-3) = .ok w ∧
    UpTo u64 7 s (photonOf 230 2.8e-3) ∧ UpTo u64 7 w (photonOf 230 2.8e-3) := by
  obtain ⟨s, w, a, b, c, d, -⟩ := C198_photon fp64 u64_pos.le (u64_lt.trans (by norm_num)) (vgap := 2.8e-3) (by norm_num) 230
  exact ⟨s, w, a, b, c, d⟩

/-- A junction of 14 ohms and 1.5 square micrometres. -/
example := C198_junction fp64 u64_pos.le (u64_lt.trans (by norm_num)) 2.8e-3 (rn := 14) (area := 1.5) (by norm_num) (by norm_num)

/-- The default fit range and a photon voltage of 0.34. -/
example := C198_window fp64 u64_pos.le (by unfold u64; norm_num) (w := 0.34) (low := 0.25) (high := 0.8)
  (by norm_num) (by norm_num) (by norm_num)

/-- The same junction in a circuit. -/
example : ∃ c c' w, CctFp.new fp64 1 1 0 2 201 none (some 2.8e-3) none "" = .ok c ∧ CctFp.setFreq fp64 c 230 1 "GHz" = .ok c' ∧
    vphUsed fp64 230 (gapFreq fp64 2.8e-3) = .ok w ∧ pyGet c'.freq 1 = .ok w := by
  have h1 : u64 < 1 := u64_lt.trans (by norm_num)
  have hc : ∃ c, CctFp.new fp64 1 1 0 2 201 none (some 2.8e-3) none "" = .ok c ∧ c.freqW = true ∧ c.freq.length = 2 := by
    unfold CctFp.new
    rw [new_eq (ig := none) (.inl rfl) (by norm_num) (by norm_num) (by norm_num) rfl]
    exact ⟨_, rfl, rfl, rfl⟩
  obtain ⟨c, hc, k1, k2⟩ := hc
  obtain ⟨c', w₀, h, -⟩ := C196_freq_64 fp64 (G := 2.8e-3 * SI.e / SI.h) hc rfl rfl
    ⟨.inr (by simp), fun _ e => by simp at e, fun v e => by simp at e; rw [← e]⟩ (by unfold SI.e SI.h; norm_num) k1 (f := 1)
    (by rw [k2]; norm_num) 230 (s := "GHz") (U := .GHz) (by lower)
  obtain ⟨w, a, b⟩ := C198_circuit fp64 u64_pos.le h1 hc (by norm_num) 230 h
  exact ⟨c, c', w, hc, h, a, b⟩

end QMix.Props
