import Verif.Model.FreqFp
import Verif.Props.CircuitFp

/-!
# C196: frequencies and drive levels survive in floating-point arithmetic
-/

namespace QMix.Props

open QMix.Cct QMix.CctFp QMix.Spec QMix.Rel

variable {u : ℝ}

/-! ## Specification -/

/-- The arguments of the constructor say that the gap frequency is `G` (in hertz): directly, by the gap voltage, or by both. -/
def GapIs (fgap vgap : Option ℝ) (G : ℝ) : Prop :=
  (fgap ≠ none ∨ vgap ≠ none) ∧ (∀ g, fgap = some g → g = G) ∧ ∀ v, vgap = some v → v * SI.e / SI.h = G

/-! ## Lemmas -/

theorem new_gaps (A : Fp u) {numF numP npts : ℤ} {lo hi : ℝ} {fg vg rn : Option ℝ} {name : String} {c : Circuit}
    (h : CctFp.new A numF numP lo hi npts fg vg rn name = .ok c) : c.fgap = CctFp.newFgap A fg vg ∧ c.vgap = CctFp.newVgap A fg vg := by
  unfold CctFp.new at h
  obtain ⟨_, -, h⟩ := bind_ok_iff.1 h
  cases h
  exact ⟨rfl, rfl⟩

theorem gap_rel (A : Fp u) (h0 : 0 ≤ u) (h1 : u < 1) {fg vg : Option ℝ} {G : ℝ} (hG : GapIs fg vg G) :
    ∃ g v, CctFp.newFgap A fg vg = some g ∧ CctFp.newVgap A fg vg = some v ∧ Rel u 4 g G ∧ Rel u 4 v (G * planck / charge) := by
  obtain ⟨hn, hf, hv⟩ := hG
  have hp := planck_pos.ne'
  have hc := charge_pos.ne'
  have step : ∀ x a b : ℝ, Rel u 4 (A.rnd (A.rnd (x * A.rnd a) / A.rnd b)) (x * a / b) := fun x a b =>
    rnd_step A h0 h1 ((rnd_step A h0 h1 ((rnd_rel A h0 h1 a).mulLeft x)).div h1 (rnd_rel A h0 h1 b))
  have z : ∀ x : ℝ, Rel u 4 x x := fun x => (Rel.refl x).mono h0 h1 (by norm_num)
  cases fg with
  | none =>
    cases vg with
    | none => simp at hn
    | some v =>
      have e : v * charge / planck = G := hv v rfl
      refine ⟨_, _, rfl, rfl, e ▸ step _ _ _, ?_⟩
      rw [← e, show v * charge / planck * planck / charge = v by field_simp]
      exact z v
  | some g =>
    obtain rfl := hf g rfl
    cases vg with
    | none => exact ⟨_, _, rfl, rfl, z _, step _ _ _⟩
    | some v =>
      have e : v * charge / planck = g := hv v rfl
      refine ⟨_, _, rfl, rfl, z _, ?_⟩
      rw [← e, show v * charge / planck * planck / charge = v by field_simp]
      exact z v

theorem writeFreq_get {c c' : Circuit} {f : ℤ} {x : ℝ} (h : writeFreq c f x = .ok c') : pyGet c'.freq f = .ok x ∧ c'.fgap = c.fgap := by
  obtain ⟨_, a, ha, rfl⟩ := writeFreq_ok h
  obtain ⟨i, hi, rfl⟩ := pySet_ok ha
  exact ⟨pyGet_ok_of_getElem? (by rw [List.length_set]; exact hi) (by simp [pyIndex_lt hi]), rfl⟩

/-- What `set_freq` stores, for a gap frequency `g` and a gap voltage `v`. -/
noncomputable def stored (A : Fp u) (g v x : ℝ) : FreqUnit → ℝ
  | .Hz => A.rnd (x / g)
  | .MHz => A.rnd (A.rnd (x * A.rnd 1e6) / g)
  | .GHz => A.rnd (A.rnd (x * A.rnd 1e9) / g)
  | .THz => A.rnd (A.rnd (x * A.rnd 1e12) / g)
  | .V => A.rnd (x / v)
  | .mV => A.rnd (A.rnd (x * A.rnd 1e-3) / v)

theorem setFreq_run (A : Fp u) {c : Circuit} {g v : ℝ} (hg : c.fgap = some g) (hv : c.vgap = some v) (g0 : g ≠ 0) (v0 : v ≠ 0)
    (x : ℝ) (f : ℤ) (s : String) (U : FreqUnit) (hs : s.toLower = U.spelling) :
    CctFp.setFreq A c x f s = writeFreq c f (stored A g v x U) := by
  unfold CctFp.setFreq CctFp.normFreq
  rw [hg, hv, pyAssert_pos (by simp)]
  cases U <;> simp [stored, hs, FreqUnit.spelling, CctFp.divOpt, pyDiv, g0, v0, ok_bind', pure, Except.pure]

/-! ## C196 -/

/-- C196. Whatever the unit, and whether the gap frequency or the gap voltage was given, `set_freq` stores the frequency divided by the gap
frequency, up to seven roundings. `c` is any circuit with the gap attributes of the constructor. -/
theorem C196_freq (A : Fp u) (h0 : 0 ≤ u) (h1 : u < 1) {numF numP npts : ℤ} {lo hi : ℝ} {fg vg rn : Option ℝ} {name : String} {c₀ c : Circuit}
    (hn : CctFp.new A numF numP lo hi npts fg vg rn name = .ok c₀) (ef : c.fgap = c₀.fgap) (ev : c.vgap = c₀.vgap) {G : ℝ}
    (hG : GapIs fg vg G) (G0 : G ≠ 0) (hw : c.freqW = true) {f : ℤ} (hf : -(c.freq.length : ℤ) ≤ f ∧ f < c.freq.length)
    (x : ℝ) {s : String} {U : FreqUnit} (hs : s.toLower = U.spelling) :
    ∃ c' w, CctFp.setFreq A c x f s = .ok c' ∧ pyGet c'.freq f = .ok w ∧
      |w - U.hertz (SI.e / SI.h) x / G| ≤ (((1 - u) ^ 7)⁻¹ - 1) * |U.hertz (SI.e / SI.h) x / G| := by
  obtain ⟨g, v, eg, evv, rg, rv⟩ := gap_rel A h0 h1 hG
  obtain ⟨e1, e2⟩ := new_gaps A hn
  rw [e1, eg] at ef
  rw [e2, evv] at ev
  have hp := planck_pos.ne'
  have hc := charge_pos.ne'
  have g0 : g ≠ 0 := (rg.sign h1).2.2.1 G0
  have v0 : v ≠ 0 := (rv.sign h1).2.2.1 (div_ne_zero (mul_ne_zero G0 hp) hc)
  have hq : (SI.e / SI.h : ℝ) = charge / planck := rfl
  have run := setFreq_run A ef ev g0 v0 x f s U hs
  have one : ∀ (y k : ℝ) (n : ℕ), n ≤ 4 → Rel u n y k → Rel u 7 (A.rnd (x / y)) (x / k) := fun y k n h r =>
    (rnd_step A h0 h1 ((Rel.refl x).div h1 r)).mono h0 h1 (by omega)
  have two : ∀ (m y k : ℝ) (n : ℕ), n ≤ 4 → Rel u n y k → Rel u 7 (A.rnd (A.rnd (x * A.rnd m) / y)) (x * m / k) := fun m y k n h r =>
    (rnd_step A h0 h1 ((rnd_step A h0 h1 ((rnd_rel A h0 h1 m).mulLeft x)).div h1 r)).mono h0 h1 (by omega)
  have key : Rel u 7 (stored A g v x U)
      (U.hertz (SI.e / SI.h) x / G) := by
    rw [hq]
    cases U
    case Hz => exact one g G 4 le_rfl rg
    case V =>
      have := one v _ 4 le_rfl rv
      rwa [show x / (G * planck / charge) = FreqUnit.V.hertz (charge / planck) x / G by simp only [FreqUnit.hertz]; field_simp] at this
    case mV =>
      have := two 1e-3 v _ 4 le_rfl rv
      rwa [show x * 1e-3 / (G * planck / charge) = FreqUnit.mV.hertz (charge / planck) x / G by
        simp only [FreqUnit.hertz]; field_simp] at this
    all_goals exact two _ g G 4 le_rfl rg
  obtain ⟨i, hi⟩ := pyIndex_ok_iff.2 hf
  have hok : ∀ y, ∃ c', writeFreq c f y = .ok c' := fun y => by
    unfold writeFreq
    rw [if_pos hw, pySet_eq y hi]
    exact ⟨_, rfl⟩
  obtain ⟨c', h'⟩ := hok _
  exact ⟨c', _, run.trans h', (writeFreq_get h').1, key.abs_sub_le h1 h0⟩

/-- C196. The same frequency in two units: the stored numbers agree up to fourteen roundings. -/
theorem C196_units (A : Fp u) (h0 : 0 ≤ u) (h1 : u < 1) {numF numP npts : ℤ} {lo hi : ℝ} {fg vg rn : Option ℝ} {name : String} {c₀ c : Circuit}
    (hn : CctFp.new A numF numP lo hi npts fg vg rn name = .ok c₀) (ef : c.fgap = c₀.fgap) (ev : c.vgap = c₀.vgap) {G : ℝ}
    (hG : GapIs fg vg G) (G0 : G ≠ 0) (hw : c.freqW = true) {f : ℤ} (hf : -(c.freq.length : ℤ) ≤ f ∧ f < c.freq.length)
    {x y : ℝ} {s t : String} {U W : FreqUnit} (hs : s.toLower = U.spelling) (ht : t.toLower = W.spelling)
    (hxy : U.hertz (SI.e / SI.h) x = W.hertz (SI.e / SI.h) y) :
    ∃ c₁ c₂ w₁ w₂, CctFp.setFreq A c x f s = .ok c₁ ∧ CctFp.setFreq A c y f t = .ok c₂ ∧ pyGet c₁.freq f = .ok w₁ ∧
      pyGet c₂.freq f = .ok w₂ ∧ |w₁ - w₂| ≤ 2 * (((1 - u) ^ 7)⁻¹ - 1) * |U.hertz (SI.e / SI.h) x / G| := by
  obtain ⟨c₁, w₁, a1, b1, d1⟩ := C196_freq A h0 h1 hn ef ev hG G0 hw hf x hs
  obtain ⟨c₂, w₂, a2, b2, d2⟩ := C196_freq A h0 h1 hn ef ev hG G0 hw hf y ht
  refine ⟨c₁, c₂, w₁, w₂, a1, a2, b1, b2, ?_⟩
  rw [← hxy] at d2
  rw [abs_sub_comm] at d2
  have := abs_add_le (w₁ - U.hertz (SI.e / SI.h) x / G) (U.hertz (SI.e / SI.h) x / G - w₂)
  rw [sub_add_sub_cancel] at this
  linarith

/-- C196. A frequency set in GHz is printed in GHz (before the rounding to the printed decimals) up to six roundings. -/
theorem C196_printed (A : Fp u) (h0 : 0 ≤ u) (h1 : u < 1) {c c' : Circuit} {g v : ℝ} (hg : c.fgap = some g) (hv : c.vgap = some v)
    (g0 : g ≠ 0) (v0 : v ≠ 0) {x : ℝ} {f : ℤ} {s : String} (hs : s.toLower = "ghz") (h : CctFp.setFreq A c x f s = .ok c') :
    ∃ y, CctFp.printedGHz A c' f = .ok y ∧ |y - x| ≤ (((1 - u) ^ 6)⁻¹ - 1) * |x| := by
  rw [setFreq_run A hg hv g0 v0 x f s .GHz hs] at h
  obtain ⟨e1, e2⟩ := writeFreq_get h
  refine ⟨_, by unfold CctFp.printedGHz; rw [e2, hg, e1]; rfl, Rel.abs_sub_le h1 h0 ?_⟩
  have r1 : Rel u 3 (A.rnd (A.rnd (x * A.rnd 1e9) / g)) (x * 1e9 / g) :=
    rnd_step A h0 h1 ((rnd_step A h0 h1 ((rnd_rel A h0 h1 1e9).mulLeft x)).divRight g)
  have r2 := rnd_step A h0 h1 ((rnd_step A h0 h1 (r1.mulLeft g)).div h1 (rnd_rel A h0 h1 1e9))
  rw [show g * (x * 1e9 / g) / 1e9 = x by field_simp] at r2
  rw [mul_comm g] at r2
  exact r2

/-- One added to a non-negative number. -/
theorem _root_.QMix.Rel.Rel.add_one (h0 : 0 ≤ u) (h1 : u < 1) {n : ℕ} {x y : ℝ} (h : Rel u n x y) (hy : 0 ≤ y) :
    Rel u n (x + 1) (y + 1) := by
  obtain ⟨c, a, b, rfl⟩ := h
  have p : 0 < (1 - u) ^ n := pow_pos (by linarith) n
  have p1 : (1 - u) ^ n ≤ 1 := pow_le_one₀ (by linarith) (by linarith)
  refine ⟨(y * c + 1) / (y + 1), ?_, ?_, by field_simp⟩
  · rw [le_div_iff₀ (by linarith)]
    nlinarith
  · rw [div_mul_eq_mul_div, div_le_iff₀ (by linarith)]
    nlinarith

/-- Two complex numbers whose parts agree up to roundings. -/
theorem complex_rel (h0 : 0 ≤ u) (h1 : u < 1) {n : ℕ} {z w : ℂ} (hr : Rel u n z.re w.re) (hi : Rel u n z.im w.im) :
    ‖z - w‖ ≤ (((1 - u) ^ n)⁻¹ - 1) * ‖w‖ := by
  have a := hr.abs_sub_le h1 h0
  have b := hi.abs_sub_le h1 h0
  set k := ((1 - u) ^ n)⁻¹ - 1 with hk
  have hk0 : 0 ≤ k := sub_nonneg.2 ((one_le_inv₀ (pow_pos (by linarith) n)).2 (pow_le_one₀ (by linarith) (by linarith)))
  refine le_of_sq_le_sq ?_ (by positivity)
  rw [mul_pow, Complex.sq_norm, Complex.sq_norm, Complex.normSq_apply, Complex.normSq_apply]
  have qa := pow_le_pow_left₀ (abs_nonneg _) a 2
  have qb := pow_le_pow_left₀ (abs_nonneg _) b 2
  rw [sq_abs, mul_pow, sq_abs] at qa qb
  simp only [Complex.sub_re, Complex.sub_im]
  nlinarith

/-- C196. With a source impedance of non-negative resistance and a positive junction impedance, the voltage that `set_alpha` stores puts the
drive level asked for across the junction, up to five roundings. -/
theorem C196_alpha (A : Fp u) (h0 : 0 ≤ u) (h1 : u < 1) {c c' : Circuit} {alpha zj : ℝ} {f p : ℤ} {zt : ℂ} {w : ℝ}
    (h : CctFp.setAlpha A c alpha f p zj = .ok c') (hz : get2 c.zt f p = .ok zt) (hw : pyGet c.freq f = .ok w)
    (hr : 0 ≤ zt.re) (hj : 0 < zj) (w0 : 0 < w) (a0 : 0 ≤ alpha) :
    ∃ vt, get2 c'.vt f p = .ok vt ∧ |driveLevel (divider vt zt zj) w 1 - alpha| ≤ (((1 - u) ^ 5)⁻¹ - 1) * alpha := by
  unfold CctFp.setAlpha at h
  rw [hz, hw] at h
  simp only [ok_bind'] at h
  obtain ⟨_, -, h⟩ := bind_ok_iff.1 h
  obtain ⟨_, -, h⟩ := bind_ok_iff.1 h
  obtain ⟨_, -, h⟩ := bind_ok_iff.1 h
  obtain ⟨_, b, hb, rfl⟩ := writeVt_ok h
  refine ⟨_, get2_set2 hb, ?_⟩
  set vt : ℂ := ⟨A.rnd (A.rnd (alpha * w) * A.rnd (A.rnd (zt.re * A.rnd (1 / zj)) + 1)),
    A.rnd (A.rnd (alpha * w) * A.rnd (zt.im * A.rnd (1 / zj)))⟩ with hvt
  have inv := rnd_rel A h0 h1 (1 / zj)
  have qr : Rel u 2 (A.rnd (zt.re * A.rnd (1 / zj))) (zt.re * (1 / zj)) := rnd_step A h0 h1 (inv.mulLeft zt.re)
  have qi : Rel u 2 (A.rnd (zt.im * A.rnd (1 / zj))) (zt.im * (1 / zj)) := rnd_step A h0 h1 (inv.mulLeft zt.im)
  have sr := rnd_step A h0 h1 (qr.add_one h0 h1 (by positivity))
  have a := rnd_rel A h0 h1 (alpha * w)
  have vr := rnd_step A h0 h1 (a.mul h1 sr)
  have vi := (rnd_step A h0 h1 (a.mul h1 qi)).mono h0 h1 (show 4 ≤ 5 by norm_num)
  have hn : ‖vt - ((alpha * w : ℝ) : ℂ) * (zt / zj + 1)‖ ≤ (((1 - u) ^ 5)⁻¹ - 1) * ‖((alpha * w : ℝ) : ℂ) * (zt / zj + 1)‖ := by
    refine complex_rel h0 h1 ?_ ?_
    · rw [Complex.re_ofReal_mul, Complex.add_re, Complex.div_ofReal_re, Complex.one_re]
      rwa [mul_one_div] at vr
    · rw [Complex.im_ofReal_mul, Complex.add_im, Complex.div_ofReal_im, Complex.one_im, add_zero]
      rwa [mul_one_div] at vi
  have hne : zt + zj ≠ 0 := fun e => by
    have := congrArg Complex.re e
    simp at this
    linarith
  have hjc : (zj : ℂ) ≠ 0 := by exact_mod_cast hj.ne'
  set k := ((1 - u) ^ 5)⁻¹ - 1 with hk
  have e1 : divider (((alpha * w : ℝ) : ℂ) * (zt / zj + 1)) zt zj = ((alpha * w : ℝ) : ℂ) := by
    unfold divider
    rw [div_eq_iff hne]
    field_simp
  have e2 : divider vt zt zj - ((alpha * w : ℝ) : ℂ) = (vt - ((alpha * w : ℝ) : ℂ) * (zt / zj + 1)) * (zj / (zt + zj)) := by
    conv_lhs => rw [← e1]
    unfold divider
    ring
  have e3 : ‖((alpha * w : ℝ) : ℂ) * (zt / zj + 1)‖ * ‖(zj : ℂ) / (zt + zj)‖ = alpha * w := by
    rw [← norm_mul, show ((alpha * w : ℝ) : ℂ) * (zt / zj + 1) * (zj / (zt + zj)) = ((alpha * w : ℝ) : ℂ) by
      field_simp, Complex.norm_real, Real.norm_eq_abs, abs_of_nonneg (by positivity)]
  have e4 : ‖divider vt zt zj - ((alpha * w : ℝ) : ℂ)‖ ≤ k * (alpha * w) := by
    have := mul_le_mul_of_nonneg_right hn (norm_nonneg ((zj : ℂ) / (zt + zj)))
    rw [mul_assoc, e3] at this
    rwa [e2, norm_mul]
  have e5 := (abs_norm_sub_norm_le (divider vt zt zj) ((alpha * w : ℝ) : ℂ)).trans e4
  rw [Complex.norm_real, Real.norm_eq_abs, abs_of_nonneg (by positivity : 0 ≤ alpha * w)] at e5
  unfold driveLevel
  rw [Nat.cast_one, one_mul, show ‖divider vt zt zj‖ / w - alpha = (‖divider vt zt zj‖ - alpha * w) / w by field_simp, abs_div,
    abs_of_pos w0, div_le_iff₀ w0]
  linarith

/-! ## Double precision -/

theorem roundings_64 (n : ℕ) (hn : n ≤ 20) : ((1 - u64) ^ n)⁻¹ - 1 ≤ (n + 1) * 2⁻¹ ^ 53 := by
  have us := u64_small
  have u0 := u64_pos
  have hn' : (n : ℝ) ≤ 20 := by exact_mod_cast hn
  have hb : (n * (n + 1) : ℝ) ≤ 420 := by nlinarith [(n.cast_nonneg : (0 : ℝ) ≤ n)]
  have := inv_pow_le (n := n) u0.le ((mul_le_mul hb us u0.le (by norm_num)).trans (by norm_num))
  simpa [u64] using this

/-- C196. In double precision: eight unit roundoffs. -/
theorem C196_freq_64 (A : Fp u64) {numF numP npts : ℤ} {lo hi : ℝ} {fg vg rn : Option ℝ} {name : String} {c₀ c : Circuit}
    (hn : CctFp.new A numF numP lo hi npts fg vg rn name = .ok c₀) (ef : c.fgap = c₀.fgap) (ev : c.vgap = c₀.vgap) {G : ℝ}
    (hG : GapIs fg vg G) (G0 : G ≠ 0) (hw : c.freqW = true) {f : ℤ} (hf : -(c.freq.length : ℤ) ≤ f ∧ f < c.freq.length)
    (x : ℝ) {s : String} {U : FreqUnit} (hs : s.toLower = U.spelling) :
    ∃ c' w, CctFp.setFreq A c x f s = .ok c' ∧ pyGet c'.freq f = .ok w ∧
      |w - U.hertz (SI.e / SI.h) x / G| ≤ 8 * 2⁻¹ ^ 53 * |U.hertz (SI.e / SI.h) x / G| := by
  obtain ⟨c', w, a, b, d⟩ := C196_freq A u64_pos.le (u64_lt.trans (by norm_num)) hn ef ev hG G0 hw hf x hs
  refine ⟨c', w, a, b, d.trans (mul_le_mul_of_nonneg_right ?_ (abs_nonneg _))⟩
  have := roundings_64 7 (by norm_num)
  norm_num at this ⊢
  linarith

local macro "lower" : tactic => `(tactic| (rw [← String.toList_inj]; simp [String.toLower, FreqUnit.spelling]))

/-- A junction with a gap voltage of 2.8 mV and a tone at 230 GHz. -/
example : ∃ c c' w, CctFp.new fp64 1 1 0 2 201 none (some 2.8e-3) none "" = .ok c ∧ CctFp.setFreq fp64 c 230 1 "GHz" = .ok c' ∧
    pyGet c'.freq 1 = .ok w ∧ |w - 230 * 1e9 / (2.8e-3 * SI.e / SI.h)| ≤ 8 * 2⁻¹ ^ 53 * |230 * 1e9 / (2.8e-3 * SI.e / SI.h)| := by
  have hc : ∃ c, CctFp.new fp64 1 1 0 2 201 none (some 2.8e-3) none "" = .ok c ∧ c.freqW = true ∧ c.freq.length = 2 := by
    unfold CctFp.new
    rw [new_eq (ig := none) (.inl rfl) (by norm_num) (by norm_num) (by norm_num) rfl]
    exact ⟨_, rfl, rfl, rfl⟩
  obtain ⟨c, h, h1, h2⟩ := hc
  obtain ⟨c', w, a, b, d⟩ := C196_freq_64 fp64 (G := 2.8e-3 * SI.e / SI.h) h rfl rfl
    ⟨.inr (by simp), fun _ e => by simp at e, fun v e => by simp at e; rw [← e]⟩ (by unfold SI.e SI.h; norm_num) h1 (f := 1)
    (by rw [h2]; norm_num) 230 (s := "GHz") (U := .GHz) (by lower)
  exact ⟨c, c', w, h, a, b, d⟩

/-- The drive level 1.2 of the test circuit. -/
example : ∃ c' vt, CctFp.setAlpha fp64 demoCct 1.2 1 1 0.66 = .ok c' ∧ get2 c'.vt 1 1 = .ok vt ∧
    |driveLevel (divider vt ⟨0.5, -0.25⟩ (0.66 : ℝ)) 0.3 1 - 1.2| ≤ (((1 - u64) ^ 5)⁻¹ - 1) * 1.2 := by
  have hz : get2 demoCct.zt 1 1 = .ok ⟨0.5, -0.25⟩ := rfl
  have hw : pyGet demoCct.freq 1 = .ok 0.3 := rfl
  have hz0 : (⟨0.5, -0.25⟩ : ℂ) ≠ 0 := by
    intro h
    have := congrArg Complex.re h
    norm_num at this
  have h : ∃ c', CctFp.setAlpha fp64 demoCct 1.2 1 1 0.66 = .ok c' := by
    unfold CctFp.setAlpha
    rw [hz, hw]
    simp only [ok_bind']
    rw [pyAssert_pos hz0, pyAssert_pos (by norm_num), raiseIf_neg (by norm_num)]
    exact ⟨_, rfl⟩
  obtain ⟨c', h⟩ := h
  obtain ⟨vt, a, b⟩ := C196_alpha fp64 u64_pos.le (u64_lt.trans (by norm_num)) h hz hw (by norm_num) (by norm_num) (by norm_num) (by norm_num)
  exact ⟨c', vt, h, a, b⟩

/-- A tone at 345 GHz of the test circuit, printed. -/
example : ∃ c' y, CctFp.setFreq fp64 demoCct 345 1 "GHz" = .ok c' ∧ CctFp.printedGHz fp64 c' 1 = .ok y ∧
    |y - 345| ≤ (((1 - u64) ^ 6)⁻¹ - 1) * |345| := by
  have g0 : (2.8e-3 * charge / planck : ℝ) ≠ 0 := by unfold charge planck; norm_num
  have h : ∃ c', CctFp.setFreq fp64 demoCct 345 1 "GHz" = .ok c' := by
    rw [setFreq_run fp64 (c := demoCct) rfl rfl g0 (by norm_num) 345 1 "GHz" .GHz (by lower)]
    exact ⟨_, rfl⟩
  obtain ⟨c', h⟩ := h
  obtain ⟨y, a, b⟩ := C196_printed fp64 u64_pos.le (u64_lt.trans (by norm_num)) (c := demoCct) rfl rfl g0 (by norm_num) (by lower) h
  exact ⟨c', y, h, a, b⟩

end QMix.Props
