import Verif.Lemmas.TuckerLip
import Verif.Props.ZembRec
import Verif.Lemmas.Bessel3
import Verif.Lemmas.HarmonicBalance2
import Mathlib.Analysis.Calculus.Deriv.MeanValue

/-!
# Recovering the embedding circuit of a simulation
-/

namespace QMix.Props

open Complex Finset QMix.Zemb QMix.Fl

/-! ## Specification -/

/-- The ac current of Tucker theory at bias `vb` and drive level `a`. -/
noncomputable def tuckerAc (idc ikk : ℝ → ℝ) (vb vph : ℝ) (nb : ℤ) (a : ℝ) : ℂ :=
  ∑ k ∈ Icc (-nb) nb,
    (((besselJ k a * besselJ (k - 1) a : ℝ) : ℂ) * (idc (vb + k * vph) + I * ikk (vb + k * vph))
    + ((besselJ k a * besselJ (k + 1) a : ℝ) : ℂ) * (idc (vb + k * vph) - I * ikk (vb + k * vph)))

/-- The drive level `a` at bias `vb` can be found from the dc current. The response is bounded by `B`. -/
structure Recoverable (idc ikk : ℝ → ℝ) (vph alphaMax : ℝ) (nb : ℤ) (B vb a : ℝ) : Prop where
  /-- pumping raises the current -/
  mono : StrictMonoOn (tuckerDc idc vb vph nb) (Set.Icc 0 (a + alphaMax / 2))
  /-- the linear estimate is not too far away -/
  near : |start idc vph alphaMax nb vb (tuckerDc idc vb vph nb a) - a| ≤ alphaMax / 2
  /-- pumping with `alpha_max` has an effect -/
  ne : tuckerDc idc vb vph nb alphaMax ≠ idc vb
  /-- the drive level is above the resolution -/
  above : alphaMax / 2 ^ 16 < a
  /-- the junction absorbs power -/
  absorbs : 4 * B * (alphaMax / 2 ^ 16) < (tuckerAc idc ikk vb vph nb a).re

/-- A measured point (bias voltage, current) that comes from drive level `a`, in a circuit with embedding
impedance `zs` and source voltage `V` (up to `ε`). -/
structure FromCircuit (idc ikk : ℝ → ℝ) (vph : ℝ) (nb : ℤ) (V ε : ℝ) (zs : ℂ) (p : ℝ × ℝ) (a : ℝ) : Prop where
  /-- the measured current -/
  dc : p.2 = tuckerDc idc p.1 vph nb a
  /-- the circuit equation, up to the phase of the source -/
  ac : |‖a * vph + zs * tuckerAc idc ikk p.1 vph nb a‖ - V| ≤ ε

/-! ## Lemmas -/

theorem acCurrent_tucker (idc ikk : ℝ → ℝ) (vb vph : ℝ) (nb : ℤ) (a : ℝ) :
    acCurrent idc ikk vb vph nb a = tuckerAc idc ikk vb vph nb a := by
  rw [acCurrent_pairs]
  rfl

theorem finite_num (x : ℝ) : finite (num x) = some x := by
  simp [finite, num]

/-- What the drive level found gives. -/
theorem found {idc ikk : ℝ → ℝ} {vph alphaMax : ℝ} {nb : ℤ} {B V ε : ℝ} {zs : ℂ} {p : ℝ × ℝ} {a : ℝ}
    (hB : ∀ v, ‖(idc v : ℂ) + I * ikk v‖ ≤ B) (hv : 0 < vph) (hmax : 0 < alphaMax)
    (h : FromCircuit idc ikk vph nb V ε zs p a) (hr : Recoverable idc ikk vph alphaMax nb B p.1 a) :
    ∃ x, findAlpha idc vph alphaMax nb p.1 p.2 = num x ∧ |x - a| ≤ alphaMax / 2 ^ 16 ∧ 0 < x ∧
      0 < (tuckerAc idc ikk p.1 vph nb x).re ∧
      |‖x * vph + zs * tuckerAc idc ikk p.1 vph nb x‖ - V| ≤ (vph + 4 * B * ‖zs‖) * (alphaMax / 2 ^ 16) + ε := by
  have hδ : 0 < alphaMax / 2 ^ 16 := by positivity
  have hB0 : 0 ≤ B := (norm_nonneg _).trans (hB 0)
  have ha : 0 < a := hδ.trans hr.above
  obtain ⟨x, hx, hxa⟩ := C61_increasing idc vph alphaMax nb p.1 p.2 a hmax ha.le hr.ne hr.mono h.dc.symm
    (by rw [h.dc]; exact hr.near)
  have hx0 : 0 < x := by
    have := (abs_le.1 hxa).1
    linarith [hr.above]
  have hl := acCurrent_lip hB p.1 vph nb hx0.le ha.le
  rw [acCurrent_tucker, acCurrent_tucker] at hl
  have hl' : ‖tuckerAc idc ikk p.1 vph nb x - tuckerAc idc ikk p.1 vph nb a‖ ≤ 4 * B * (alphaMax / 2 ^ 16) :=
    hl.trans (mul_le_mul_of_nonneg_left hxa (by positivity))
  refine ⟨x, hx, hxa, hx0, ?_, ?_⟩
  · have := (abs_le.1 ((abs_re_le_norm _).trans hl')).1
    rw [sub_re] at this
    linarith [hr.absorbs]
  · have h1 := abs_norm_sub_norm_le (x * vph + zs * tuckerAc idc ikk p.1 vph nb x : ℂ)
      (a * vph + zs * tuckerAc idc ikk p.1 vph nb a)
    have h2 : ‖(x * vph + zs * tuckerAc idc ikk p.1 vph nb x : ℂ) - (a * vph + zs * tuckerAc idc ikk p.1 vph nb a)‖
        ≤ (vph + 4 * B * ‖zs‖) * (alphaMax / 2 ^ 16) := by
      have e : (x * vph + zs * tuckerAc idc ikk p.1 vph nb x : ℂ) - (a * vph + zs * tuckerAc idc ikk p.1 vph nb a)
          = ((x - a : ℝ) : ℂ) * (vph : ℝ) + zs * (tuckerAc idc ikk p.1 vph nb x - tuckerAc idc ikk p.1 vph nb a) := by
        push_cast
        ring
      rw [e]
      refine (norm_add_le _ _).trans ?_
      rw [norm_mul, norm_mul, norm_real, norm_real, Real.norm_eq_abs, Real.norm_eq_abs, abs_of_pos hv, add_mul]
      refine add_le_add ?_ ?_
      · rw [mul_comm]
        exact mul_le_mul_of_nonneg_left hxa hv.le
      · calc _ ≤ ‖zs‖ * (4 * B * (alphaMax / 2 ^ 16)) := mul_le_mul_of_nonneg_left hl' (norm_nonneg _)
          _ = _ := by ring
    calc _ ≤ |‖(x * vph + zs * tuckerAc idc ikk p.1 vph nb x : ℂ)‖ - ‖(a * vph + zs * tuckerAc idc ikk p.1 vph nb a : ℂ)‖|
          + |‖(a * vph + zs * tuckerAc idc ikk p.1 vph nb a : ℂ)‖ - V| := abs_sub_le _ _ _
      _ ≤ _ := add_le_add (h1.trans h2) h.ac

/-- The voltage divider in terms of the current. -/
theorem divider_norm {v i z : ℂ} (hi : i ≠ 0) : v / i / (z + v / i) = v / (v + z * i) := by
  have : z + v / i = (v + z * i) / i := by field_simp; ring
  rw [this, div_div_div_cancel_right₀ hi]

theorem pos_re_div {y : ℝ} {i : ℂ} (hy : 0 < y) (hi : 0 < i.re) : 0 < ((y : ℂ) / i).re := by
  rw [div_re, ofReal_re, ofReal_im, zero_mul, zero_div, add_zero]
  have : 0 < normSq i := normSq_pos.2 (by rintro rfl; simp at hi)
  positivity

theorem sum_map_le {α : Type} {l : List α} {f : α → ℝ} {c : ℝ} (h : ∀ a ∈ l, f a ≤ c) : (l.map f).sum ≤ l.length * c := by
  have := List.sum_le_card_nsmul (l.map f) c (by simpa using h)
  simpa using this

theorem le_sum_map {α : Type} {l : List α} {f : α → ℝ} (h : ∀ a ∈ l, 0 ≤ f a) {a : α} (ha : a ∈ l) : f a ≤ (l.map f).sum :=
  List.single_le_sum (by simpa using h) _ (List.mem_map_of_mem ha)

/-! ## C147 -/

/-- The recovery when the drive levels found, and the junction voltages that follow from them, nearly satisfy the
circuit equation with an impedance on the search grid. -/
theorem recovery_core (o : ZembOpts) (idc ikk : ℝ → ℝ) (vph : ℝ) (voltage current : List ℝ) {M V D : ℝ}
    (hv : 0 < vph) (hlen : voltage.length = current.length) (hz : o.zemb = none)
    (hne : onStep o.fitLow o.fitHigh vph voltage current ≠ [])
    (hre : 0 ≤ o.remb.1) (hre' : o.remb.1 ≤ o.remb.2) {i₀ j₀ : ℕ} (hi₀ : i₀ < 101) (hj₀ : j₀ < 201)
    (hD0 : 0 ≤ D) (hD : D < V)
    (hfound : ∀ p ∈ onStep o.fitLow o.fitHigh vph voltage current, ∃ x,
      findAlpha idc vph o.alphaMax o.numB p.1 p.2 = num x ∧ x ≤ M ∧ 0 < x ∧
      0 < (tuckerAc idc ikk p.1 vph o.numB x).re ∧
      |‖x * vph + gridPoint o.remb o.xemb i₀ j₀ * tuckerAc idc ikk p.1 vph o.numB x‖ - V| ≤ D) :
    ∃ r w e E, recoverZemb o idc ikk vph voltage current = .ok r ∧ r.vt = some w ∧ 0 ≤ w ∧
      errAt o idc ikk vph (onStep o.fitLow o.fitHigh vph voltage current) r.zt = .ok (some e) ∧
      E = M * vph * D / (V - D) ∧ e ≤ E ^ 2 ∧
      (E ^ 2 ≤ 7 / 10 ^ 7 → r.fitGood = true) ∧
      ∀ p ∈ onStep o.fitLow o.fitHigh vph voltage current, ∃ x,
        findAlpha idc vph o.alphaMax o.numB p.1 p.2 = num x ∧
        |x * vph - w * (x * vph / ‖x * vph + r.zt * tuckerAc idc ikk p.1 vph o.numB x‖)|
          ≤ √((onStep o.fitLow o.fitHigh vph voltage current).length) * E := by
  set l := onStep o.fitLow o.fitHigh vph voltage current with hl
  set zs := gridPoint o.remb o.xemb i₀ j₀ with hzs
  have hgre : ∀ i j, i < 101 → 0 ≤ (gridPoint o.remb o.xemb i j).re := by
    intro i j _
    have : (gridPoint o.remb o.xemb i j).re = o.remb.1 + i * ((o.remb.2 - o.remb.1) / 100) := by
      simp [gridPoint, ofReal_re, ofReal_im]
    rw [this]
    have : 0 ≤ (o.remb.2 - o.remb.1) / 100 := by linarith
    positivity
  choose! x hx hxA hx0 hI hdev using hfound
  obtain ⟨X, hX⟩ : ∃ X : ℝ × ℝ → ℂ, X = fun p => ((x p * vph : ℝ) : ℂ) := ⟨_, rfl⟩
  obtain ⟨Y, hY⟩ : ∃ Y : ℝ × ℝ → ℂ, Y = fun p => tuckerAc idc ikk p.1 vph o.numB (x p) := ⟨_, rfl⟩
  have hX0 : ∀ p ∈ l, X p ≠ 0 := fun p hp => by
    rw [hX]
    exact ofReal_ne_zero.2 (mul_pos (hx0 p hp) hv).ne'
  have hY0 : ∀ p ∈ l, Y p ≠ 0 := fun p hp h => by
    have := hI p hp
    rw [hY] at h
    simp only at h
    rw [h] at this
    simp at this
  have hav : acVolts o idc vph l = (l.map X).map some := by
    unfold acVolts drives
    rw [List.map_map, List.map_map]
    refine List.map_congr_left fun p hp => ?_
    simp only [Function.comp, hx p hp, finite_num, hX, Option.map_some]
  have hai : acImps o idc ikk vph l = (l.map fun p => X p / Y p).map some := by
    unfold acImps
    rw [List.map_map]
    refine List.map_congr_left fun p hp => ?_
    simp only [Function.comp, hx p hp, finite_num, Option.map_some, cdiv, acCurrent_tucker]
    rw [if_neg]
    · rw [hX, hY]
    · have := hY0 p hp
      rw [hY] at this
      exact this
  have hpole : ∀ i j, i < 101 → j < 201 → ∀ z ∈ l.map (fun p => X p / Y p), gridPoint o.remb o.xemb i j + z ≠ 0 := by
    intro i j hi _ z hz h
    obtain ⟨p, hp, rfl⟩ := List.mem_map.1 hz
    have h1 : 0 < (X p / Y p).re := by
      rw [hX, hY]
      exact pos_re_div (mul_pos (hx0 p hp) hv) (hI p hp)
    have h2 := congrArg re h
    rw [add_re, zero_re] at h2
    linarith [hgre i j hi]
  have hnz : ∃ z ∈ l.map (fun p => X p / Y p), z ≠ 0 := by
    obtain ⟨p, hp⟩ := List.exists_mem_of_ne_nil l hne
    exact ⟨_, List.mem_map_of_mem hp, div_ne_zero (hX0 p hp) (hY0 p hp)⟩
  have hls := fun i j hi hj => C60_least_squares (l.map X) (l.map fun p => X p / Y p) (gridPoint o.remb o.xemb i j)
    (by simp) (hpole i j hi hj) hnz
  have hlen0 : (0 : ℝ) < l.length := by exact_mod_cast List.length_pos_iff.2 hne
  have hmis : ∀ z w, mismatch z (l.map X) (l.map fun p => X p / Y p) w
      = (l.map fun p => (‖X p‖ - w * ‖X p / Y p / (z + X p / Y p)‖) ^ 2).sum / l.length := by
    intro z w
    unfold mismatch
    rw [List.zipWith_map, List.zipWith_self, List.length_map]
  obtain ⟨r, i, j, e, hr, hi, hj, hzt, he, hgood, hall⟩ := C63_best_partial o idc ikk vph voltage current hlen hz
    hne (by
      intro i j hi hj
      unfold errAt
      rw [← hl, hav, hai]
      obtain ⟨e, w, h1, -⟩ := hls i j hi hj
      rw [h1]
      simp)
  rw [← hl] at he
  have hE : e ≤ (M * vph * D / (V - D)) ^ 2 := by
    obtain ⟨e', h1, hle, -⟩ := hall i₀ j₀ hi₀ hj₀
    refine hle.trans ?_
    obtain ⟨e2, w2, h2, -, -, -, -, hmin, -⟩ := hls i₀ j₀ hi₀ hj₀
    unfold errAt at h1
    rw [← hl, hav, hai] at h1
    obtain rfl : e' = e2 := Option.some.inj (Except.ok.inj (h1.symm.trans h2))
    refine (hmin V).trans ?_
    rw [hmis, div_le_iff₀ hlen0, mul_comm]
    refine sum_map_le fun p hp => ?_
    rw [divider_norm (hY0 p hp), norm_div]
    have hVD : 0 < V - D := by linarith
    have hd := hdev p hp
    have hXp : ‖X p‖ = x p * vph := by
      rw [hX]
      simp only [norm_real, Real.norm_eq_abs]
      exact abs_of_pos (mul_pos (hx0 p hp) hv)
    have hN : ‖X p + zs * Y p‖ = ‖x p * vph + zs * tuckerAc idc ikk p.1 vph o.numB (x p)‖ := by
      rw [hX, hY]
      push_cast
      rfl
    rw [← hN] at hd
    have hNpos : V - D ≤ ‖X p + zs * Y p‖ := by linarith [(abs_le.1 hd).1]
    have hN0 : 0 < ‖X p + zs * Y p‖ := hVD.trans_le hNpos
    have e1 : ‖X p‖ - V * (‖X p‖ / ‖X p + zs * Y p‖) = ‖X p‖ * (‖X p + zs * Y p‖ - V) / ‖X p + zs * Y p‖ := by
      field_simp
    rw [e1]
    apply sq_le_sq'
    · have := abs_le.1 (show |‖X p‖ * (‖X p + zs * Y p‖ - V) / ‖X p + zs * Y p‖| ≤ M * vph * D / (V - D) from ?_)
      · exact this.1
      · rw [abs_div, abs_mul, abs_of_nonneg (norm_nonneg _), abs_of_pos hN0, hXp]
        have hA0 : 0 ≤ M := (hx0 p hp).le.trans (hxA p hp)
        refine div_le_div₀ (by positivity) ?_ hVD hNpos
        exact mul_le_mul (mul_le_mul_of_nonneg_right (hxA p hp) hv.le) hd (abs_nonneg _) (by positivity)
    · refine (le_abs_self _).trans ?_
      rw [abs_div, abs_mul, abs_of_nonneg (norm_nonneg _), abs_of_pos hN0, hXp]
      have hA0 : 0 ≤ M := (hx0 p hp).le.trans (hxA p hp)
      refine div_le_div₀ (by positivity) ?_ hVD hNpos
      exact mul_le_mul (mul_le_mul_of_nonneg_right (hxA p hp) hv.le) hd (abs_nonneg _) (by positivity)
  obtain ⟨e3, w, h3, hsv, hew, -, hw0, -, -⟩ := hls i j hi hj
  obtain ⟨r', i', j', hr', -, -, -, hsv', -⟩ := C63_result o idc ikk vph voltage current hlen hz hne
  obtain rfl := Except.ok.inj (hr.symm.trans hr')
  rw [← hl, hav, hai, hzt] at hsv'
  have hvt : r.vt = some w := Except.ok.inj (hsv'.symm.trans hsv)
  have he3 : e = e3 := by
    unfold errAt at he
    rw [hav, hai, hzt] at he
    exact Option.some.inj (Except.ok.inj (he.symm.trans h3))
  refine ⟨r, w, e, M * vph * D / (V - D), hr, hvt, hw0, he, rfl, hE, fun h => hgood.2 (hE.trans h), ?_⟩
  intro p hp
  refine ⟨x p, hx p hp, ?_⟩
  have hE0 : 0 ≤ M * vph * D / (V - D) := by
    have hA0 : 0 ≤ M := (hx0 p hp).le.trans (hxA p hp)
    have hVD : 0 < V - D := by linarith
    positivity
  have h5 : (‖X p‖ - w * ‖X p / Y p / (r.zt + X p / Y p)‖) ^ 2 ≤ l.length * e := by
    have := le_sum_map (l := l) (f := fun p => (‖X p‖ - w * ‖X p / Y p / (r.zt + X p / Y p)‖) ^ 2)
      (fun _ _ => sq_nonneg _) hp
    refine this.trans (le_of_eq ?_)
    rw [he3, hew, hmis, hzt]
    field_simp
  rw [divider_norm (hY0 p hp), norm_div] at h5
  have hXp : ‖X p‖ = x p * vph := by
    rw [hX]
    simp only [norm_real, Real.norm_eq_abs]
    exact abs_of_pos (mul_pos (hx0 p hp) hv)
  have hN : ‖X p + r.zt * Y p‖ = ‖x p * vph + r.zt * tuckerAc idc ikk p.1 vph o.numB (x p)‖ := by
    rw [hX, hY]
    push_cast
    rfl
  rw [hXp, hN] at h5
  apply abs_le_of_sq_le_sq _ (by positivity)
  rw [mul_pow, Real.sq_sqrt hlen0.le]
  exact h5.trans (mul_le_mul_of_nonneg_left hE hlen0.le)

/-- C147. If the measured points on the step come from a circuit whose embedding impedance is on the search
grid, then the recovery succeeds. The error of the impedance found is at most the square of
`E = (A + δ) vph D / (V - D)`, where `A` bounds the drive levels and `D` comes from the resolution `δ` of
the drive level; so the fit is reported as good if this is small enough. The impedance and the voltage
found explain all the data within `√N E`, for `N` points. -/
theorem C147_recovery (o : ZembOpts) (idc ikk : ℝ → ℝ) (vph : ℝ) (voltage current : List ℝ) {B A V ε : ℝ}
    (hB : ∀ v, ‖(idc v : ℂ) + I * ikk v‖ ≤ B) (hv : 0 < vph) (hmax : 0 < o.alphaMax) (hε : 0 ≤ ε)
    (hlen : voltage.length = current.length) (hz : o.zemb = none)
    (hne : onStep o.fitLow o.fitHigh vph voltage current ≠ [])
    (hre : 0 ≤ o.remb.1) (hre' : o.remb.1 ≤ o.remb.2) {i₀ j₀ : ℕ} (hi₀ : i₀ < 101) (hj₀ : j₀ < 201)
    (hD : (vph + 4 * B * ‖gridPoint o.remb o.xemb i₀ j₀‖) * (o.alphaMax / 2 ^ 16) + ε < V)
    (hdata : ∀ p ∈ onStep o.fitLow o.fitHigh vph voltage current, ∃ a ≤ A,
      FromCircuit idc ikk vph o.numB V ε (gridPoint o.remb o.xemb i₀ j₀) p a ∧
      Recoverable idc ikk vph o.alphaMax o.numB B p.1 a) :
    ∃ r w e D E, recoverZemb o idc ikk vph voltage current = .ok r ∧ r.vt = some w ∧ 0 ≤ w ∧
      errAt o idc ikk vph (onStep o.fitLow o.fitHigh vph voltage current) r.zt = .ok (some e) ∧
      D = (vph + 4 * B * ‖gridPoint o.remb o.xemb i₀ j₀‖) * (o.alphaMax / 2 ^ 16) + ε ∧
      E = (A + o.alphaMax / 2 ^ 16) * vph * D / (V - D) ∧ e ≤ E ^ 2 ∧
      (E ^ 2 ≤ 7 / 10 ^ 7 → r.fitGood = true) ∧
      ∀ p ∈ onStep o.fitLow o.fitHigh vph voltage current, ∃ x,
        findAlpha idc vph o.alphaMax o.numB p.1 p.2 = num x ∧
        |x * vph - w * (x * vph / ‖x * vph + r.zt * tuckerAc idc ikk p.1 vph o.numB x‖)|
          ≤ √((onStep o.fitLow o.fitHigh vph voltage current).length) * E := by
  set l := onStep o.fitLow o.fitHigh vph voltage current with hl
  set zs := gridPoint o.remb o.xemb i₀ j₀ with hzs
  set D := (vph + 4 * B * ‖zs‖) * (o.alphaMax / 2 ^ 16) + ε with hDdef
  set δ := o.alphaMax / 2 ^ 16 with hδdef
  have hδ : 0 < δ := by positivity
  have hB0 : 0 ≤ B := (norm_nonneg _).trans (hB 0)
  have hD0 : 0 < D := by positivity
  obtain ⟨r, w, e, E, g1, g2, g3, g4, g5, g6, g7, g8⟩ := recovery_core o idc ikk vph voltage current (M := A + δ)
    hv hlen hz hne hre hre' hi₀ hj₀ hD0.le hD (by
      intro p hp
      obtain ⟨a, haA, ha, har⟩ := hdata p hp
      obtain ⟨x, h1, h2, h3, h4, h5⟩ := found hB hv hmax ha har
      exact ⟨x, h1, by linarith [(abs_le.1 h2).2], h3, h4, h5⟩)
  exact ⟨r, w, e, D, E, g1, g2, g3, g4, rfl, g5, g6, g7, g8⟩

/-! ### Simulated data -/

open QMix.Qt

variable {ι : Type}

/-- What `qtcurrent` gives for one tone solves the circuit of the experimental analysis, up to the residual
of the harmonic balance and the Bessel functions that `qtcurrent` leaves out. -/
theorem simulated_point (vj : ℕ → ℕ → Arr ι) (cct : Cct ι) (resp : ℝ → ℂ) (nb : NumB) (n : ℕ) (α : ι → ℝ)
    (h : Valid cct nb) (hF : cct.numF = 1) (hP : cct.numP = 1) (hn : (nb.toTup 1).head? = some n)
    (hw : 1 / 20000 < cct.freq 1) (hv : ∀ i, ‖vj 1 1 i‖ = α i * cct.freq 1) (r0 r1 : Arr ι)
    (h0 : qtcurrentList vj cct resp [0] nb none = .ok [r0])
    (h1 : qtcurrentList vj cct resp [cct.freq 1] nb none = .ok [r1])
    {B tol : ℝ} {vs zs : ℂ} (hB : ∀ v, ‖resp v‖ ≤ B) (i : ι)
    (hsol : ‖vs - zs * r1 i - vj 1 1 i‖ ≤ tol) :
    FromCircuit (fun x => (resp x).im) (fun x => (resp x).re) (cct.freq 1) n ‖vs‖
      (tol + ‖zs‖ * (2 * B * |besselJ n (α i) * besselJ (n + 1) (α i)|)) zs (cct.vb i, (r0 i).re) (α i) := by
  rw [C26_dc vj cct resp nb n α h hF hP hn hw hv] at h0
  rw [C26_ac vj cct resp nb n α h hF hP hn hw hv] at h1
  obtain rfl := List.cons.inj (Except.ok.inj h0) |>.1
  obtain rfl := List.cons.inj (Except.ok.inj h1) |>.1
  refine ⟨by simp [pumpedIv_eq], ?_⟩
  simp only [acCurrent_tucker] at hsol
  set c : ℂ := I * (besselJ n (α i) * besselJ (n + 1) (α i) : ℝ) *
          (resp (cct.vb i + n * cct.freq 1) + (starRingEnd ℂ) (resp (cct.vb i - n * cct.freq 1))) with hc
  set Y := tuckerAc (fun x => (resp x).im) (fun x => (resp x).re) (cct.vb i) (cct.freq 1) n (α i)
  have hcn : ‖c‖ ≤ 2 * B * |besselJ n (α i) * besselJ (n + 1) (α i)| := by
    rw [hc, norm_mul, norm_mul, norm_I, one_mul, norm_real, Real.norm_eq_abs, mul_comm]
    refine mul_le_mul_of_nonneg_right ((norm_add_le _ _).trans ?_) (abs_nonneg _)
    rw [norm_conj]
    linarith [hB (cct.vb i + n * cct.freq 1), hB (cct.vb i - n * cct.freq 1)]
  set φ := arg (vj 1 1 i)
  have hE : ‖exp (I * φ)‖ = 1 := by rw [norm_exp]; simp
  have hvj : vj 1 1 i = exp (I * φ) * (α i * cct.freq 1 : ℝ) := by
    rw [← hv i, mul_comm, mul_comm I]
    exact (norm_mul_exp_arg_mul_I _).symm
  have e : vs - zs * (exp (I * φ) * (Y + c)) - vj 1 1 i
      = vs - exp (I * φ) * ((α i * cct.freq 1 : ℝ) + zs * Y + zs * c) := by
    rw [hvj]
    ring
  rw [e] at hsol
  have h2 := (abs_norm_sub_norm_le vs (exp (I * φ) * ((α i * cct.freq 1 : ℝ) + zs * Y + zs * c))).trans hsol
  rw [norm_mul, hE, one_mul] at h2
  have h3 := abs_norm_sub_norm_le (((α i * cct.freq 1 : ℝ) : ℂ) + zs * Y + zs * c) (((α i * cct.freq 1 : ℝ) : ℂ) + zs * Y)
  rw [add_sub_cancel_left, norm_mul] at h3
  have h4 := h3.trans (mul_le_mul_of_nonneg_left hcn (norm_nonneg zs))
  have e2 : (α i * cct.freq 1 + zs * Y : ℂ) = ((α i * cct.freq 1 : ℝ) : ℂ) + zs * Y := by push_cast; rfl
  change |‖(α i * cct.freq 1 + zs * Y : ℂ)‖ - ‖vs‖| ≤ _
  rw [e2]
  rw [abs_le] at *
  constructor <;> linarith

/-- C147. A simulation is explained by the circuit recovered from it: pump the junction with one tone, from a source `vs` through an
embedding impedance on the search grid, solve the circuit with residual at most `tol`, and give the dc
current of `qtcurrent` to the impedance recovery. Then the recovery finds an impedance and a source voltage
that explain the simulated data: the error is at most `E²`, with `E` in terms of the tolerance, the
resolution of the drive level and the outermost Bessel functions. -/
theorem C147_simulated (vj : ℕ → ℕ → Arr ι) (cct : Cct ι) (resp : ℝ → ℂ) (nb : NumB) (n : ℕ) (α : ι → ℝ)
    (h : Valid cct nb) (hF : cct.numF = 1) (hP : cct.numP = 1) (hn : (nb.toTup 1).head? = some n)
    (hw : 1 / 20000 < cct.freq 1) (hv : ∀ i, ‖vj 1 1 i‖ = α i * cct.freq 1) (r0 r1 : Arr ι)
    (h0 : qtcurrentList vj cct resp [0] nb none = .ok [r0])
    (h1 : qtcurrentList vj cct resp [cct.freq 1] nb none = .ok [r1])
    (o : ZembOpts) (hnb : o.numB = n) (hmax : 0 < o.alphaMax) (hz : o.zemb = none)
    (hre : 0 ≤ o.remb.1) (hre' : o.remb.1 ≤ o.remb.2) {i₀ j₀ : ℕ} (hi₀ : i₀ < 101) (hj₀ : j₀ < 201)
    {B A tol J D : ℝ} {vs : ℂ} (hB : ∀ v, ‖resp v‖ ≤ B) (htol : 0 ≤ tol) (pts : List ι)
    (hne : onStep o.fitLow o.fitHigh (cct.freq 1) (pts.map cct.vb) (pts.map fun i => (r0 i).re) ≠ [])
    (hsol : ∀ i ∈ pts, ‖vs - gridPoint o.remb o.xemb i₀ j₀ * r1 i - vj 1 1 i‖ ≤ tol)
    (hJ : ∀ i ∈ pts, |besselJ n (α i) * besselJ (n + 1) (α i)| ≤ J)
    (hA : ∀ i ∈ pts, α i ≤ A)
    (hrec : ∀ i ∈ pts, Recoverable (fun x => (resp x).im) (fun x => (resp x).re) (cct.freq 1) o.alphaMax n B
      (cct.vb i) (α i))
    (hD : D = (cct.freq 1 + 4 * B * ‖gridPoint o.remb o.xemb i₀ j₀‖) * (o.alphaMax / 2 ^ 16)
      + (tol + ‖gridPoint o.remb o.xemb i₀ j₀‖ * (2 * B * J))) (hDV : D < ‖vs‖) :
    ∃ r w e E, recoverZemb o (fun x => (resp x).im) (fun x => (resp x).re) (cct.freq 1) (pts.map cct.vb)
        (pts.map fun i => (r0 i).re) = .ok r ∧ r.vt = some w ∧ 0 ≤ w ∧
      errAt o (fun x => (resp x).im) (fun x => (resp x).re) (cct.freq 1)
        (onStep o.fitLow o.fitHigh (cct.freq 1) (pts.map cct.vb) (pts.map fun i => (r0 i).re)) r.zt = .ok (some e) ∧
      E = (A + o.alphaMax / 2 ^ 16) * cct.freq 1 * D / (‖vs‖ - D) ∧ e ≤ E ^ 2 ∧
      (E ^ 2 ≤ 7 / 10 ^ 7 → r.fitGood = true) ∧
      ∀ p ∈ onStep o.fitLow o.fitHigh (cct.freq 1) (pts.map cct.vb) (pts.map fun i => (r0 i).re), ∃ x,
        findAlpha (fun x => (resp x).im) (cct.freq 1) o.alphaMax o.numB p.1 p.2 = num x ∧
        |x * cct.freq 1 - w * (x * cct.freq 1 / ‖x * cct.freq 1
            + r.zt * tuckerAc (fun x => (resp x).im) (fun x => (resp x).re) p.1 (cct.freq 1) o.numB x‖)|
          ≤ √((onStep o.fitLow o.fitHigh (cct.freq 1) (pts.map cct.vb) (pts.map fun i => (r0 i).re)).length) * E := by
  have hB' : ∀ v, ‖(((resp v).im : ℝ) : ℂ) + I * ((resp v).re : ℝ)‖ ≤ B := by
    intro v
    have e : (((resp v).im : ℝ) : ℂ) + I * ((resp v).re : ℝ) = I * (starRingEnd ℂ) (resp v) := by
      apply Complex.ext <;> simp
    rw [e, norm_mul, norm_I, one_mul, norm_conj]
    exact hB v
  have hB0 : 0 ≤ B := (norm_nonneg _).trans (hB 0)
  obtain ⟨p0, hp0⟩ := List.exists_mem_of_ne_nil _ hne
  have hmem : ∀ p ∈ onStep o.fitLow o.fitHigh (cct.freq 1) (pts.map cct.vb) (pts.map fun i => (r0 i).re),
      ∃ i ∈ pts, p = (cct.vb i, (r0 i).re) := by
    intro p hp
    have := List.mem_of_mem_filter hp
    rw [List.zip, List.zipWith_map, List.zipWith_self] at this
    obtain ⟨i, hi, rfl⟩ := List.mem_map.1 this
    exact ⟨i, hi, rfl⟩
  have hJ0 : 0 ≤ J := by
    obtain ⟨i, hi, -⟩ := hmem p0 hp0
    exact (abs_nonneg _).trans (hJ i hi)
  obtain ⟨r, w, e, D', E, g1, g2, g3, g4, g5, g6, g7, g8, g9⟩ := C147_recovery o (fun x => (resp x).im) (fun x => (resp x).re)
    (cct.freq 1) (pts.map cct.vb) (pts.map fun i => (r0 i).re) (A := A) (V := ‖vs‖)
    (ε := tol + ‖gridPoint o.remb o.xemb i₀ j₀‖ * (2 * B * J))
    hB' (by linarith) hmax (by positivity) (by simp) hz hne hre hre' hi₀ hj₀ (by rw [← hD]; exact hDV) (by
      intro p hp
      obtain ⟨i, hi, rfl⟩ := hmem p hp
      refine ⟨α i, hA i hi, ?_, by rw [hnb]; exact hrec i hi⟩
      have := simulated_point vj cct resp nb n α h hF hP hn hw hv r0 r1 h0 h1 hB i (hsol i hi)
      rw [hnb]
      refine ⟨this.dc, this.ac.trans ?_⟩
      have := mul_le_mul_of_nonneg_left (mul_le_mul_of_nonneg_left (hJ i hi) (by positivity : 0 ≤ 2 * B))
        (norm_nonneg (gridPoint o.remb o.xemb i₀ j₀))
      linarith)
  rw [← hD] at g5
  subst g5
  exact ⟨r, w, e, E, g1, g2, g3, g4, g6, g7, g8, g9⟩

/-- C147. The same after `harmonic_balance`: it is enough that the voltages pass `check_hb_error`, with a stop
error `stop`; the tolerance is then `stop` times the largest junction voltage. -/
theorem C147_checked {N : ℕ} (vj : ℕ → ℕ → Arr (Fin N)) (cct : HB.HCct N) (resp : ℝ → ℂ) (nb : NumB) (n : ℕ)
    (α : Fin N → ℝ) (h : Valid cct.toCct nb) (hF : cct.numF = 1) (hP : cct.numP = 1)
    (hn : (nb.toTup 1).head? = some n) (hw : 1 / 20000 < cct.freq 1) (hv : ∀ i, ‖vj 1 1 i‖ = α i * cct.freq 1)
    {stop : ℝ} (hstop : 0 ≤ stop) (hchk : HB.checkHbError vj cct resp nb stop = .ok ())
    (o : ZembOpts) (hnb : o.numB = n) (hmax : 0 < o.alphaMax) (hz : o.zemb = none)
    (hre : 0 ≤ o.remb.1) (hre' : o.remb.1 ≤ o.remb.2) {i₀ j₀ : ℕ} (hi₀ : i₀ < 101) (hj₀ : j₀ < 201)
    (hzt : cct.zt 1 1 = gridPoint o.remb o.xemb i₀ j₀)
    {B A J D : ℝ} (hB : ∀ v, ‖resp v‖ ≤ B) (pts : List (Fin N)) (r0 : Arr (Fin N))
    (h0 : qtcurrentList vj cct.toCct resp [0] nb none = .ok [r0])
    (hne : onStep o.fitLow o.fitHigh (cct.freq 1) (pts.map cct.vb) (pts.map fun i => (r0 i).re) ≠ [])
    (hJ : ∀ i ∈ pts, |besselJ n (α i) * besselJ (n + 1) (α i)| ≤ J)
    (hA : ∀ i ∈ pts, α i ≤ A)
    (hrec : ∀ i ∈ pts, Recoverable (fun x => (resp x).im) (fun x => (resp x).re) (cct.freq 1) o.alphaMax n B
      (cct.vb i) (α i))
    (hD : D = (cct.freq 1 + 4 * B * ‖cct.zt 1 1‖) * (o.alphaMax / 2 ^ 16)
      + (stop * (A * cct.freq 1) + ‖cct.zt 1 1‖ * (2 * B * J))) (hDV : D < ‖cct.vt 1 1‖) :
    ∃ r w e E, recoverZemb o (fun x => (resp x).im) (fun x => (resp x).re) (cct.freq 1) (pts.map cct.vb)
        (pts.map fun i => (r0 i).re) = .ok r ∧ r.vt = some w ∧ 0 ≤ w ∧
      errAt o (fun x => (resp x).im) (fun x => (resp x).re) (cct.freq 1)
        (onStep o.fitLow o.fitHigh (cct.freq 1) (pts.map cct.vb) (pts.map fun i => (r0 i).re)) r.zt = .ok (some e) ∧
      E = (A + o.alphaMax / 2 ^ 16) * cct.freq 1 * D / (‖cct.vt 1 1‖ - D) ∧ e ≤ E ^ 2 ∧
      (E ^ 2 ≤ 7 / 10 ^ 7 → r.fitGood = true) := by
  have hc := (HB.check_ok_iff cct resp nb h vj stop).1 hchk
  obtain ⟨r1, h1⟩ : ∃ r1, qtcurrentList vj cct.toCct resp [cct.freq 1] nb none = .ok [r1] := by
    rw [C26_ac vj cct.toCct resp nb n α h hF hP hn hw hv]
    exact ⟨_, rfl⟩
  obtain ⟨p0, hp0⟩ := List.exists_mem_of_ne_nil _ hne
  obtain ⟨i1, hi1⟩ : ∃ i, i ∈ pts := by
    apply List.exists_mem_of_ne_nil
    rintro rfl
    simp [onStep] at hp0
  have hα : ∀ i ∈ pts, 0 < α i := fun i hi => lt_trans (by positivity) (hrec i hi).above
  have hw0 : 0 < cct.freq 1 := by linarith
  have hA0 : 0 ≤ A := (hα i1 hi1).le.trans (hA i1 hi1)
  rw [hzt] at hD
  obtain ⟨r, w, e, E, g1, g2, g3, g4, g5, g6, g7, -⟩ := C147_simulated vj cct.toCct resp nb n α h hF hP hn hw hv r0 r1 h0 h1 o hnb hmax hz hre hre' hi₀ hj₀
    (A := A) (tol := stop * (A * cct.freq 1)) (J := J) (D := D) (vs := cct.vt 1 1) hB (by positivity) pts hne (by
      intro i hi
      have := hc.2 1 1 le_rfl hF.ge le_rfl hP.ge i
      have hvi : 0 < ‖vj 1 1 i‖ := by
        rw [hv]
        exact mul_pos (hα i hi) hw0
      rw [HB.relDiv_lt_iff hvi] at this
      have e1 : HB.resid cct resp nb vj 1 1 i = cct.vt 1 1 - gridPoint o.remb o.xemb i₀ j₀ * r1 i - vj 1 1 i := by
        rw [qtcurrentList_eq vj cct.toCct resp [cct.freq 1] nb h] at h1
        obtain rfl := List.cons.inj (Except.ok.inj h1) |>.1
        unfold HB.resid Spec.residual
        rw [hzt, Nat.cast_one, mul_one]
      rw [← e1]
      refine this.le.trans ?_
      rw [hv]
      exact mul_le_mul_of_nonneg_left (mul_le_mul_of_nonneg_right (hA i hi) hw0.le) hstop) hJ hA hrec hD hDV
  exact ⟨r, w, e, E, g1, g2, g3, g4, g5, g6, g7⟩

/-! ### A concrete case -/

open Classical in
/-- A sharp gap: no current below the gap, unit current above. -/
noncomputable def gapIv (v : ℝ) : ℝ := if 1 ≤ v then 1 else 0

theorem gap_at {vb : ℝ} (h1 : 0.75 ≤ vb) (h2 : vb < 1) (k : ℤ) (hk : k ∈ Icc (-(1 : ℤ)) 1) :
    gapIv (vb + k * 0.3) = if k = 1 then 1 else 0 := by
  rw [mem_Icc] at hk
  unfold gapIv
  obtain rfl | rfl | rfl : k = -1 ∨ k = 0 ∨ k = 1 := by omega
  · rw [if_neg (by push_cast; linarith), if_neg (by norm_num)]
  · rw [if_neg (by push_cast; linarith), if_neg (by norm_num)]
  · rw [if_pos (by push_cast; linarith), if_pos rfl]

theorem gap_dc {vb : ℝ} (h1 : 0.75 ≤ vb) (h2 : vb < 1) (a : ℝ) : tuckerDc gapIv vb 0.3 1 a = besselJ 1 a ^ 2 := by
  unfold tuckerDc
  rw [sum_congr rfl fun k hk => by rw [gap_at h1 h2 k hk]]
  simp

theorem gap_ac {vb : ℝ} (h1 : 0.75 ≤ vb) (h2 : vb < 1) (a : ℝ) :
    tuckerAc gapIv (fun _ => 0) vb 0.3 1 a = ((besselJ 1 a * (besselJ 0 a + besselJ 2 a) : ℝ) : ℂ) := by
  unfold tuckerAc
  rw [sum_congr rfl fun k hk => by rw [gap_at h1 h2 k hk]]
  rw [sum_eq_single 1]
  · push_cast
    norm_num
    ring
  · intro k _ hk
    simp [hk]
  · intro h
    simp at h

theorem j1_mono : StrictMonoOn (fun x => besselJ 1 x ^ 2) (Set.Icc 0 1) := by
  have h : StrictMonoOn (besselJ 1) (Set.Icc 0 1) := by
    refine strictMonoOn_of_deriv_pos (convex_Icc 0 1) (fun x _ => (hasDerivAt_besselJ 1 x).continuousAt.continuousWithinAt) ?_
    intro x hx
    rw [interior_Icc] at hx
    rw [(hasDerivAt_besselJ 1 x).deriv]
    have h0 := (besselJ_zero_bounds x).1
    have h2 := (le_abs_self _).trans (abs_besselJ_two_le x)
    norm_num
    nlinarith [hx.1, hx.2]
  intro x hx y hy hxy
  have h0 : 0 ≤ besselJ 1 x := by
    have := h.monotoneOn (Set.left_mem_Icc.2 zero_le_one) hx hx.1
    rwa [besselJ_zero_right one_ne_zero] at this
  exact pow_lt_pow_left₀ (h hx hy hxy) h0 two_ne_zero

theorem gap_recoverable {vb : ℝ} (h1 : 0.75 ≤ vb) (h2 : vb < 1) :
    Recoverable gapIv (fun _ => 0) 0.3 1 1 1 vb (1 / 2) := by
  have hg : gapIv vb = 0 := if_neg (by linarith)
  have hp : (0 : ℝ) < besselJ 1 1 ^ 2 := by
    have := j1_mono (Set.left_mem_Icc.2 zero_le_one) (Set.right_mem_Icc.2 zero_le_one) one_pos
    exact lt_of_le_of_lt (sq_nonneg _) this
  refine ⟨?_, ?_, ?_, by norm_num, ?_⟩
  · rw [show tuckerDc gapIv vb 0.3 1 = fun a => besselJ 1 a ^ 2 from funext (gap_dc h1 h2)]
    norm_num
    exact j1_mono
  · unfold start
    rw [gap_dc h1 h2, gap_dc h1 h2, hg, sub_zero, sub_zero, mul_one]
    have h3 : besselJ 1 (1 / 2) ^ 2 / besselJ 1 1 ^ 2 ≤ 1 := by
      rw [div_le_one hp]
      exact (j1_mono (by norm_num) (by norm_num) (by norm_num)).le
    rw [max_eq_right (by positivity), abs_le]
    have : 0 ≤ besselJ 1 (1 / 2) ^ 2 / besselJ 1 1 ^ 2 := by positivity
    constructor <;> linarith
  · rw [gap_dc h1 h2, hg]
    exact hp.ne'
  · rw [gap_ac h1 h2, ofReal_re]
    have a1 := (abs_le.1 (abs_besselJ_one_sub (1 / 2))).1
    have a0 := (besselJ_zero_bounds (1 / 2)).1
    have a2 := (abs_le.1 (abs_besselJ_two_le (1 / 2))).1
    rw [abs_of_pos (by norm_num : (0 : ℝ) < 1 / 2)] at a1
    norm_num at a1 a0 a2 ⊢
    nlinarith

/-- The settings. -/
noncomputable def gapOpts : ZembOpts :=
  { fitLow := 0.25, fitHigh := 0.8, remb := (0, 1), xemb := (-1, 1), zemb := none, alphaMax := 1, numB := 1 }

theorem gap_grid : gridPoint gapOpts.remb gapOpts.xemb 50 150 = 1 / 2 + 1 / 2 * I := by
  simp only [gridPoint, gapOpts]
  push_cast
  ring_nf

theorem gap_grid_norm : ‖gridPoint gapOpts.remb gapOpts.xemb 50 150‖ ≤ 1 := by
  rw [gap_grid]
  refine (norm_add_le _ _).trans ?_
  rw [norm_mul, norm_I]
  norm_num

/-- Two points on the step, from a circuit with impedance `1/2 + i/2` and drive level `1/2`: the fit is
reported as good. -/
example : ∃ r w, recoverZemb gapOpts gapIv (fun _ => 0) 0.3 [0.8, 0.9] [besselJ 1 (1 / 2) ^ 2, besselJ 1 (1 / 2) ^ 2]
    = .ok r ∧ r.vt = some w ∧ r.fitGood = true := by
  set J : ℝ := besselJ 1 (1 / 2) * (besselJ 0 (1 / 2) + besselJ 2 (1 / 2)) with hJ
  set V : ℝ := ‖(((1 / 2 : ℝ) : ℂ) * (0.3 : ℝ) + gridPoint gapOpts.remb gapOpts.xemb 50 150 * (J : ℂ))‖ with hVdef
  have hJ0 : 0 < J := by
    have := (gap_recoverable (vb := 0.8) (by norm_num) (by norm_num)).absorbs
    rw [gap_ac (by norm_num) (by norm_num), ofReal_re] at this
    exact lt_trans (by norm_num) this
  have hV : 0.15 ≤ V := by
    refine le_trans ?_ (re_le_norm _)
    rw [gap_grid]
    simp
    norm_num
    linarith
  have hstep : onStep gapOpts.fitLow gapOpts.fitHigh 0.3 [0.8, 0.9] [besselJ 1 (1 / 2) ^ 2, besselJ 1 (1 / 2) ^ 2]
      = [(0.8, besselJ 1 (1 / 2) ^ 2), (0.9, besselJ 1 (1 / 2) ^ 2)] := by
    unfold onStep gapOpts
    norm_num
  have hn := gap_grid_norm
  have hn0 := norm_nonneg (gridPoint gapOpts.remb gapOpts.xemb 50 150)
  have hα : gapOpts.alphaMax = 1 := rfl
  obtain ⟨r, w, e, D, E, h1, h2, -, -, hD, hE, -, h3, -⟩ := C147_recovery gapOpts gapIv (fun _ => 0) 0.3 [0.8, 0.9]
    [besselJ 1 (1 / 2) ^ 2, besselJ 1 (1 / 2) ^ 2] (B := 1) (A := 1 / 2) (V := V) (ε := 0)
    (by
      intro v
      unfold gapIv
      split_ifs <;> simp)
    (by norm_num) one_pos le_rfl rfl rfl (by rw [hstep]; simp) le_rfl zero_le_one (i₀ := 50) (j₀ := 150) (by norm_num)
    (by norm_num) (by
      rw [hα]
      norm_num
      linarith) (by
      intro p hp
      rw [hstep] at hp
      have hb : 0.75 ≤ p.1 ∧ p.1 < 1 ∧ p.2 = besselJ 1 (1 / 2) ^ 2 := by
        simp only [List.mem_cons, List.not_mem_nil, or_false] at hp
        rcases hp with rfl | rfl <;> norm_num
      refine ⟨1 / 2, le_rfl, ⟨?_, ?_⟩, gap_recoverable hb.1 hb.2.1⟩
      · exact hb.2.2.trans (gap_dc hb.1 hb.2.1 _).symm
      · change |‖_ + _ * tuckerAc gapIv (fun _ => 0) p.1 0.3 1 (1 / 2)‖ - V| ≤ 0
        rw [gap_ac hb.1 hb.2.1, ← hJ, hVdef, sub_self, abs_zero])
  refine ⟨r, w, h1, h2, h3 ?_⟩
  rw [hα] at hD hE
  have hD1 : D ≤ 0.0001 := by
    rw [hD]
    norm_num
    linarith
  have hD0 : 0 ≤ D := by
    rw [hD]
    positivity
  have hE1 : E ≤ 0.0002 := by
    rw [hE, div_le_iff₀ (by linarith)]
    norm_num at hV hD1 ⊢
    nlinarith
  have hE0 : 0 ≤ E := by
    rw [hE]
    have : 0 < V - D := by norm_num at hV hD1; linarith
    positivity
  norm_num at hE1 ⊢
  nlinarith

theorem gap_findAlpha {vb : ℝ} (h1 : 0.75 ≤ vb) (h2 : vb < 1) (i : ℝ) :
    findAlpha gapIv 0.3 1 1 vb i = findAlpha gapIv 0.3 1 1 0.8 i := by
  have e : ∀ {vb : ℝ} (_ : 0.75 ≤ vb) (_ : vb < 1), pumpedIv gapIv vb 0.3 1 = fun a => besselJ 1 a ^ 2 := by
    intro vb h1 h2
    funext a
    rw [pumpedIv_eq, gap_dc h1 h2]
  have g1 : gapIv vb = 0 := if_neg (by linarith)
  have g2 : gapIv 0.8 = 0 := if_neg (by norm_num)
  unfold findAlpha
  rw [e h1 h2, e (vb := 0.8) (by norm_num) (by norm_num), g1, g2]

/-- C147. The impedance found need not be the one simulated: in this case, where the junction has the same
impedance at both points, every embedding impedance explains the data, and the recovery takes the first of
its grid, `-i`, although the data comes from `1/2 + i/2`. -/
theorem C147_ambiguous :
    (∃ V, ∀ p ∈ [((0.8 : ℝ), besselJ 1 (1 / 2) ^ 2), (0.9, besselJ 1 (1 / 2) ^ 2)],
      FromCircuit gapIv (fun _ => 0) 0.3 1 V 0 (1 / 2 + 1 / 2 * I) p (1 / 2)) ∧
    ∃ r, recoverZemb gapOpts gapIv (fun _ => 0) 0.3 [0.8, 0.9] [besselJ 1 (1 / 2) ^ 2, besselJ 1 (1 / 2) ^ 2] = .ok r ∧
      r.fitGood = true ∧ r.zt = -I := by
  have hstep : onStep gapOpts.fitLow gapOpts.fitHigh 0.3 [0.8, 0.9] [besselJ 1 (1 / 2) ^ 2, besselJ 1 (1 / 2) ^ 2]
      = [(0.8, besselJ 1 (1 / 2) ^ 2), (0.9, besselJ 1 (1 / 2) ^ 2)] := by
    unfold onStep gapOpts
    norm_num
  have hB : ∀ v, ‖(gapIv v : ℂ) + I * ((0 : ℝ) : ℂ)‖ ≤ 1 := by
    intro v
    unfold gapIv
    split_ifs <;> simp
  have hfc : FromCircuit gapIv (fun _ => 0) 0.3 1
      ‖((1 / 2 : ℝ) : ℂ) * (0.3 : ℝ) + (1 / 2 + 1 / 2 * I) * ((besselJ 1 (1 / 2) * (besselJ 0 (1 / 2) + besselJ 2 (1 / 2)) : ℝ) : ℂ)‖
      0 (1 / 2 + 1 / 2 * I) (0.8, besselJ 1 (1 / 2) ^ 2) (1 / 2) := by
    refine ⟨(gap_dc (by norm_num) (by norm_num) _).symm, ?_⟩
    simp only
    rw [gap_ac (by norm_num) (by norm_num), sub_self, abs_zero]
  have hfc2 : FromCircuit gapIv (fun _ => 0) 0.3 1
      ‖((1 / 2 : ℝ) : ℂ) * (0.3 : ℝ) + (1 / 2 + 1 / 2 * I) * ((besselJ 1 (1 / 2) * (besselJ 0 (1 / 2) + besselJ 2 (1 / 2)) : ℝ) : ℂ)‖
      0 (1 / 2 + 1 / 2 * I) (0.9, besselJ 1 (1 / 2) ^ 2) (1 / 2) := by
    refine ⟨(gap_dc (by norm_num) (by norm_num) _).symm, ?_⟩
    simp only
    rw [gap_ac (by norm_num) (by norm_num), sub_self, abs_zero]
  constructor
  · refine ⟨‖((1 / 2 : ℝ) : ℂ) * (0.3 : ℝ) + (1 / 2 + 1 / 2 * I)
      * ((besselJ 1 (1 / 2) * (besselJ 0 (1 / 2) + besselJ 2 (1 / 2)) : ℝ) : ℂ)‖, fun p hp => ?_⟩
    simp only [List.mem_cons, List.not_mem_nil, or_false] at hp
    rcases hp with rfl | rfl
    · exact hfc
    · exact hfc2
  obtain ⟨x, hx, -, hx0, hI, -⟩ := found hB (by norm_num) one_pos hfc (gap_recoverable (by norm_num) (by norm_num))
  simp only at hx hI
  rw [gap_ac (by norm_num) (by norm_num), ofReal_re] at hI
  obtain ⟨J, hJ⟩ : ∃ J, J = besselJ 1 x * (besselJ 0 x + besselJ 2 x) := ⟨_, rfl⟩
  rw [← hJ] at hI
  have hJ0 : (J : ℂ) ≠ 0 := ofReal_ne_zero.2 hI.ne'
  obtain ⟨X, hX⟩ : ∃ X : ℂ, X = ((x * 0.3 : ℝ) : ℂ) := ⟨_, rfl⟩
  have hX0 : X ≠ 0 := by
    rw [hX]
    exact ofReal_ne_zero.2 (by positivity)
  have h9 := gap_findAlpha (vb := 0.9) (by norm_num) (by norm_num) (besselJ 1 (1 / 2) ^ 2)
  have hav : acVolts gapOpts gapIv 0.3 [(0.8, besselJ 1 (1 / 2) ^ 2), (0.9, besselJ 1 (1 / 2) ^ 2)] = [X, X].map some := by
    simp only [acVolts, drives, List.map_cons, List.map_nil]
    change [Option.map _ (finite (findAlpha gapIv 0.3 1 1 0.8 _)), Option.map _ (finite (findAlpha gapIv 0.3 1 1 0.9 _))] = _
    rw [h9, hx, finite_num, Option.map_some, hX]
  have hai : acImps gapOpts gapIv (fun _ => 0) 0.3 [(0.8, besselJ 1 (1 / 2) ^ 2), (0.9, besselJ 1 (1 / 2) ^ 2)]
      = [X / J, X / J].map some := by
    simp only [acImps, List.map_cons, List.map_nil]
    change [cdiv (Option.map _ (finite (findAlpha gapIv 0.3 1 1 0.8 _))) (Option.map (fun a => acCurrent _ _ 0.8 0.3 1 a)
      (finite (findAlpha gapIv 0.3 1 1 0.8 _))),
      cdiv (Option.map _ (finite (findAlpha gapIv 0.3 1 1 0.9 _))) (Option.map (fun a => acCurrent _ _ 0.9 0.3 1 a)
      (finite (findAlpha gapIv 0.3 1 1 0.9 _)))] = _
    rw [h9, hx, finite_num, Option.map_some, Option.map_some, Option.map_some, acCurrent_tucker, acCurrent_tucker,
      gap_ac (by norm_num) (by norm_num), gap_ac (by norm_num) (by norm_num), ← hJ]
    simp only [cdiv, if_neg hJ0, ← hX]
  have hpole : ∀ i j, i < 101 → gridPoint gapOpts.remb gapOpts.xemb i j + X / J ≠ 0 := by
    intro i j _ h
    have h1 : 0 < (X / J).re := by
      rw [hX]
      exact pos_re_div (by positivity) (by simpa using hI)
    have h2 := congrArg re h
    rw [add_re, zero_re] at h2
    have h3 : 0 ≤ (gridPoint gapOpts.remb gapOpts.xemb i j).re := by
      simp only [gridPoint, gapOpts, add_re, ofReal_re, mul_re, I_re, I_im, ofReal_im]
      norm_num
    linarith
  have hzero : ∀ i j, i < 101 → errAt gapOpts gapIv (fun _ => 0) 0.3
      (onStep gapOpts.fitLow gapOpts.fitHigh 0.3 [0.8, 0.9] [besselJ 1 (1 / 2) ^ 2, besselJ 1 (1 / 2) ^ 2])
      (gridPoint gapOpts.remb gapOpts.xemb i j) = .ok (some 0) := by
    intro i j hi
    rw [hstep]
    unfold errAt
    rw [hav, hai]
    refine (C60_zero_iff [X, X] [X / J, X / J] _ rfl (by simpa using hpole i j hi) ⟨X / J, by simp, div_ne_zero hX0 hJ0⟩).2
      ⟨‖X‖ / ‖X / J / (gridPoint gapOpts.remb gapOpts.xemb i j + X / J)‖, ?_⟩
    intro p hp
    have hp' : p = (X, X / J) := by simpa using hp
    rw [hp']
    have : ‖X / J / (gridPoint gapOpts.remb gapOpts.xemb i j + X / J)‖ ≠ 0 :=
      norm_ne_zero_iff.2 (div_ne_zero (div_ne_zero hX0 hJ0) (hpole i j hi))
    exact (div_mul_cancel₀ _ this).symm
  obtain ⟨r, i, j, e, hr, hi, hj, hzt, he, hgood, hall⟩ := C63_best_partial gapOpts gapIv (fun _ => 0) 0.3 [0.8, 0.9]
    [besselJ 1 (1 / 2) ^ 2, besselJ 1 (1 / 2) ^ 2] rfl rfl (by rw [hstep]; simp) (by
      intro i j hi _
      rw [hzero i j hi]
      simp)
  have he0 : e = 0 := by
    rw [hzt, hzero i j hi] at he
    exact (Option.some.inj (Except.ok.inj he)).symm
  obtain ⟨e', h1, -, h2⟩ := hall 0 0 (by norm_num) (by norm_num)
  rw [hzero 0 0 (by norm_num)] at h1
  obtain rfl : 0 = e' := Option.some.inj (Except.ok.inj h1)
  have hij : i = 0 ∧ j = 0 := by
    by_contra h
    have := h2 (by omega)
    rw [he0] at this
    exact lt_irrefl _ this
  refine ⟨r, hr, hgood.2 (by rw [he0]; norm_num), ?_⟩
  rw [hzt, hij.1, hij.2]
  apply Complex.ext <;> simp [gridPoint, gapOpts]

/-- The circuit simulated: one tone, two bias points on the step. -/
noncomputable def gapCct : Cct (Fin 2) := { numF := 1, numP := 1, freq := fun _ => 0.3, vb := fun i => 0.8 + 0.1 * (i : ℕ) }

theorem gapCct_valid : Valid gapCct (.int 1) where
  tones_pos := le_rfl
  tones_le := by norm_num [gapCct]
  harmonics := le_rfl
  freq_pos := by intro f _ _; simp only [gapCct]; norm_num
  limits := by simp [NumB.toTup]

theorem gap_parts : (fun v => (I * (gapIv v : ℂ)).im) = gapIv ∧ (fun v => (I * (gapIv v : ℂ)).re) = fun _ => 0 :=
  ⟨by funext v; simp, by funext v; simp⟩

theorem gapCct_vb (i : Fin 2) : (0.75 : ℝ) ≤ gapCct.vb i ∧ gapCct.vb i < 1 := by
  fin_cases i <;> norm_num [gapCct]

theorem gap_drive (i : Fin 2) : ‖((0.15 : ℝ) : ℂ)‖ = (fun _ => (1 / 2 : ℝ)) i * gapCct.freq 1 := by
  rw [norm_real, Real.norm_of_nonneg (by norm_num)]
  norm_num [gapCct]

theorem gap_current : qtcurrentList (fun _ _ _ => ((0.15 : ℝ) : ℂ)) gapCct (fun v => I * gapIv v) [gapCct.freq 1] (.int 1) none
    = .ok [fun _ => ((besselJ 1 (1 / 2) * besselJ 0 (1 / 2) : ℝ) : ℂ)] := by
  obtain ⟨him, hre⟩ := gap_parts
  rw [C26_ac _ gapCct _ (.int 1) 1 (fun _ => 1 / 2) gapCct_valid rfl rfl rfl (by norm_num [gapCct]) gap_drive]
  congr 2
  funext i
  have hvb := gapCct_vb
  simp only [him, hre, acCurrent_tucker]
  change exp _ * (tuckerAc gapIv (fun _ => 0) (gapCct.vb i) 0.3 1 (1 / 2) + _) = _
  have g1 : gapIv (gapCct.vb i + ((1 : ℕ) : ℝ) * gapCct.freq 1) = 1 :=
    if_pos (by have := (hvb i).1; norm_num [gapCct] at this ⊢; linarith)
  have g2 : gapIv (gapCct.vb i - ((1 : ℕ) : ℝ) * gapCct.freq 1) = 0 :=
    if_neg (by have := (hvb i).2; norm_num [gapCct] at this ⊢; linarith)
  rw [gap_ac (hvb i).1 (hvb i).2, g1, g2, arg_ofReal_of_nonneg (by norm_num)]
  norm_num
  linear_combination (besselJ 1 (1 / 2) * besselJ 2 (1 / 2) : ℂ) * I_sq

theorem gap_outer : |besselJ ((1 : ℕ) : ℤ) (1 / 2) * besselJ (((1 : ℕ) : ℤ) + 1) (1 / 2)| ≤ 1 / 128 := by
  have a1 := abs_besselJ_le_half 1 (by norm_num : (0 : ℝ) ≤ 1 / 2)
  have a2 := abs_besselJ_le_half 2 (by norm_num : (0 : ℝ) ≤ 1 / 2)
  norm_num [Nat.factorial] at a1 a2 ⊢
  calc _ ≤ (1 / 4 : ℝ) * (1 / 32) := mul_le_mul a1 a2 (abs_nonneg _) (by norm_num)
    _ = _ := by norm_num

/-- The source that drives the junction with level `1/2`. -/
noncomputable def gapSource : ℂ :=
  gridPoint gapOpts.remb gapOpts.xemb 50 150 * ((besselJ 1 (1 / 2) * besselJ 0 (1 / 2) : ℝ) : ℂ) + ((0.15 : ℝ) : ℂ)

theorem gapSource_ge : 0.15 ≤ ‖gapSource‖ := by
  have hJ0 : 0 ≤ besselJ 1 (1 / 2) * besselJ 0 (1 / 2) := by
    have a0 := (besselJ_zero_bounds (1 / 2)).1
    have := besselJ_one_pos (by norm_num : (0 : ℝ) < 1 / 2) (by linarith [Real.pi_gt_three])
    norm_num at a0
    exact mul_nonneg this.le (by linarith)
  refine le_trans ?_ (re_le_norm _)
  rw [gapSource, gap_grid]
  simp
  linarith

/-- The circuit simulated, with its embedding circuit. -/
noncomputable def gapHb : HB.HCct 2 :=
  { gapCct with vt := fun _ _ => gapSource, zt := fun _ _ => gridPoint gapOpts.remb gapOpts.xemb 50 150 }

theorem gap_checked : HB.checkHbError (fun _ _ _ => ((0.15 : ℝ) : ℂ)) gapHb (fun v => I * gapIv v) (.int 1) 0.001 = .ok () := by
  rw [HB.check_ok_iff gapHb _ _ gapCct_valid]
  refine ⟨by norm_num, ?_⟩
  intro f p hf hf' hp hp' i
  have e1 : f = 1 := le_antisymm hf' hf
  have e2 : p = 1 := le_antisymm hp' hp
  subst e1 e2
  have hg := gap_current
  rw [qtcurrentList_eq _ _ _ _ _ gapCct_valid] at hg
  have hq := congrFun (List.cons.inj (Except.ok.inj hg)).1 i
  have e : HB.resid gapHb (fun v => I * gapIv v) (.int 1) (fun _ _ _ => ((0.15 : ℝ) : ℂ)) 1 1 i = 0 := by
    unfold HB.resid Spec.residual
    rw [Nat.cast_one, mul_one]
    change gapSource - gridPoint gapOpts.remb gapOpts.xemb 50 150 * _ - _ = 0
    simp only at hq
    change gapSource - gridPoint gapOpts.remb gapOpts.xemb 50 150 * (Spec.qt (fun v => I * ↑(gapIv v)) (fun f p => ((0.15 : ℝ) : ℂ))
      gapCct.freq gapCct.numF gapCct.numP ((NumB.int 1).toTup gapCct.numF) (gapCct.vb i) (gapCct.freq 1)) - ((0.15 : ℝ) : ℂ) = 0
    rw [hq, gapSource]
    ring
  have h15 : (0 : ℝ) < ‖((0.15 : ℝ) : ℂ)‖ := by
    rw [norm_real, Real.norm_of_nonneg (by norm_num)]
    norm_num
  rw [HB.relDiv_lt_iff h15, e, norm_zero]
  exact mul_pos (by norm_num) h15

/-- A simulation with drive level `1/2` at both bias points, with the source that this takes. -/
example (r0 : Arr (Fin 2))
    (h0 : qtcurrentList (fun _ _ _ => ((0.15 : ℝ) : ℂ)) gapCct (fun v => I * gapIv v) [0] (.int 1) none = .ok [r0]) :
    ∃ r w e, recoverZemb gapOpts (fun v => (I * gapIv v).im) (fun v => (I * gapIv v).re) 0.3 [0.8, 0.9] [(r0 0).re, (r0 1).re]
      = .ok r ∧ r.vt = some w ∧ errAt gapOpts (fun v => (I * gapIv v).im) (fun v => (I * gapIv v).re) 0.3
        [(0.8, (r0 0).re), (0.9, (r0 1).re)] r.zt = .ok (some e) ∧ e ≤ 1 / 1000 := by
  obtain ⟨him, hre⟩ := gap_parts
  have hV := gapSource_ge
  have hn := gap_grid_norm
  have hn0 := norm_nonneg (gridPoint gapOpts.remb gapOpts.xemb 50 150)
  have hpts : (List.map gapCct.vb [0, 1]) = [0.8, 0.9] := by norm_num [gapCct]
  have hstep : ∀ x y, onStep gapOpts.fitLow gapOpts.fitHigh 0.3 [0.8, 0.9] [x, y] = [(0.8, x), (0.9, y)] := by
    intro x y
    unfold onStep gapOpts
    norm_num
  obtain ⟨D, hDd⟩ : ∃ D, D = (gapHb.freq 1 + 4 * 1 * ‖gapHb.zt 1 1‖) * (gapOpts.alphaMax / 2 ^ 16)
      + (0.001 * (1 / 2 * gapHb.freq 1) + ‖gapHb.zt 1 1‖ * (2 * 1 * (1 / 128))) := ⟨_, rfl⟩
  have hα : gapOpts.alphaMax = 1 := rfl
  have hf : gapHb.freq 1 = 0.3 := rfl
  have hzt : gapHb.zt 1 1 = gridPoint gapOpts.remb gapOpts.xemb 50 150 := rfl
  have hvt : gapHb.vt 1 1 = gapSource := rfl
  have hD1 : D ≤ 0.016 := by
    rw [hDd, hα, hf, hzt]
    norm_num
    linarith
  have hD0 : 0 ≤ D := by
    rw [hDd, hα, hf]
    positivity
  obtain ⟨r, w, e, E, g1, g2, -, g4, g5, g6, -⟩ := C147_checked (fun _ _ _ => ((0.15 : ℝ) : ℂ)) gapHb (fun v => I * gapIv v)
    (.int 1) 1 (fun _ => 1 / 2) gapCct_valid rfl rfl rfl (by rw [hf]; norm_num) gap_drive (stop := 0.001) (by norm_num)
    gap_checked gapOpts rfl one_pos rfl le_rfl zero_le_one (i₀ := 50) (j₀ := 150) (by norm_num) (by norm_num) rfl
    (B := 1) (A := 1 / 2) (J := 1 / 128) (D := D) (by
      intro v
      rw [norm_mul, norm_I, one_mul]
      unfold gapIv
      split_ifs <;> simp) [0, 1] r0 h0 (by
      change onStep _ _ 0.3 (List.map gapCct.vb [0, 1]) _ ≠ []
      rw [hpts]
      simp only [List.map_cons, List.map_nil]
      rw [hstep]
      simp) (fun i _ => gap_outer) (fun i _ => le_rfl) (by
      intro i _
      rw [him, hre]
      exact gap_recoverable (gapCct_vb i).1 (gapCct_vb i).2) hDd (by rw [hvt]; norm_num at hV hD1; linarith)
  change recoverZemb _ _ _ _ (List.map gapCct.vb [0, 1]) _ = _ at g1
  change errAt _ _ _ _ (onStep _ _ _ (List.map gapCct.vb [0, 1]) _) _ = _ at g4
  rw [hpts] at g1 g4
  simp only [List.map_cons, List.map_nil, hf] at g1 g4
  rw [hstep] at g4
  refine ⟨r, w, e, g1, g2, g4, g6.trans ?_⟩
  rw [hα, hf, hvt] at g5
  have hE1 : E ≤ 0.02 := by
    rw [g5, div_le_iff₀ (by norm_num at hV hD1; linarith)]
    norm_num at hV hD1 ⊢
    linarith
  have hE0 : 0 ≤ E := by
    rw [g5]
    have : 0 < ‖gapSource‖ - D := by norm_num at hV hD1; linarith
    positivity
  norm_num at hE1 ⊢
  nlinarith

end QMix.Props
