import Verif.Lemmas.Circuit
import Verif.Spec.Circuit
import Verif.Spec.Constants
import Mathlib.Tactic.NormNum
import Mathlib.Tactic.FieldSimp
import Mathlib.Tactic.Positivity

/-!
# Properties C01-C08: the embedding circuit
-/

namespace QMix.Props

open QMix.Cct QMix.Spec

/-- Evaluates `str.lower` on a literal. -/
local macro "lower" : tactic => `(tactic|
  (rw [← String.toList_inj]; simp [String.toLower, PowerUnit.spelling, FreqUnit.spelling]))

/-! ## C01, C02 -/

/-- The circuit used by the examples: `EmbeddingCircuit(2, 2, vgap=2.8e-3, rn=14)` with impedance
`0.5 - 0.25j` on both signals of tone 1 and frequency 0.3. -/
noncomputable def demoCct : Circuit :=
  { numF := 2, numP := 2, fgap := some (2.8e-3 * charge / planck), vgap := some 2.8e-3
    igap := some (2.8e-3 / 14), rn := some 14
    freq := [0, 0.3, 0], vt := [[0, 0, 0], [0, 0, 0], [0, 0, 0]]
    zt := [[0, 0, 0], [0, ⟨0.5, -0.25⟩, ⟨0.5, -0.25⟩], [0, 0, 0]], vb := [0, 1]
    name := "demo", comment := [["", "", ""], ["", "", ""], ["", "", ""]]
    freqW := true, vtW := true, ztW := true, vbW := true }

/-- C01. Reading the power back in the unit it was set in (any letter case) returns the same number.
A negative linear power is refused (the square root would be NaN), so success entails `0 ≤ P`. -/
theorem C01_round_trip {c c' : Circuit} {P : ℝ} {f p : ℤ} {s s' : String}
    (h : setAvailablePower c P f p s = .ok c') (hs : s'.toLower = s.toLower) {rn : ℝ} {zt : ℂ}
    (hr : c.rn = some rn) (hz : get2 c.zt f p = .ok zt) (hR : 0 < zt.re * rn) :
    availablePower c' f p s' = .ok P := by
  obtain ⟨vg, vt, u, hv', hr', hz', hvt, hu, hx, e⟩ := sourcePower_set h hr hz hR
  obtain ⟨y, hy, ey⟩ := availablePower_eq hv' hr' hvt hz' (hs.trans hu) hR (by
    rw [e]
    intro hl
    cases u <;> simp only [PowerUnit.logarithmic] at hl <;> simp only [PowerUnit.watts] <;> positivity)
  rw [hy, watts_injective u (ey.trans e)]

/-- C01, converse direction: the call does succeed for every recognised unit, in-range index, positive
resistance, non-zero gap voltage and (for the linear units) non-negative power. -/
theorem C01_set_succeeds {c : Circuit} {P : ℝ} {f p : ℤ} {s : String} {u : PowerUnit} {vg rn : ℝ}
    {zt : ℂ} (hv : c.vgap = some vg) (hr : c.rn = some rn) (hz : get2 c.zt f p = .ok zt)
    (hvg : vg ≠ 0) (hR : 0 < zt.re * rn) (hs : s.toLower = u.spelling) (hP : 0 ≤ u.watts P)
    (hw : c.vtW = true) (hsh : c.vt.map List.length = c.zt.map List.length) :
    ∃ c', setAvailablePower c P f p s = .ok c' := by
  obtain ⟨a, ha⟩ := set2_of_get2 hz hsh
    (((Real.sqrt (8 * u.watts P * (zt.re * rn)) / vg : ℝ) : ℂ))
  refine ⟨{ c with vt := a }, ?_⟩
  have hz0 : zt ≠ 0 := by rintro rfl; simp at hR
  have hx : ¬ 8 * u.watts P * (zt.re * rn) < 0 := not_lt.2 (by positivity)
  have hwr : writeVt c f p ((Real.sqrt (8 * u.watts P * (zt.re * rn)) / vg : ℝ) : ℂ)
      = .ok { c with vt := a } := by
    unfold writeVt; rw [if_pos hw, ha]; rfl
  unfold setAvailablePower
  rw [hv, hr, hz]
  simp only [getOpt, ok_bind']
  rw [pyAssert_pos hz0, inWatts_eq hs]
  simp only [ok_bind']
  rw [raiseIf_neg hx, raiseIf_neg hvg, ← hv, ← hr]
  exact hwr

/-- C02. Two readings of the same signal in different units stand for the same number of watts,
namely `|V|²/8R`. -/
theorem C02_units_consistent {c : Circuit} {f p : ℤ} {s s' : String} {u u' : PowerUnit} {x y : ℝ}
    (hs : s.toLower = u.spelling) (hs' : s'.toLower = u'.spelling)
    (hx : availablePower c f p s = .ok x) (hy : availablePower c f p s' = .ok y)
    {vg rn : ℝ} {vt zt : ℂ} (hv : c.vgap = some vg) (hr : c.rn = some rn)
    (hvt : get2 c.vt f p = .ok vt) (hz : get2 c.zt f p = .ok zt) (hR : 0 < zt.re * rn) :
    u.watts x = sourcePower (vt * vg) (zt.re * rn) ∧ u.watts x = u'.watts y := by
  have key : ∀ (s : String) (u : PowerUnit) (x : ℝ), s.toLower = u.spelling →
      availablePower c f p s = .ok x → u.watts x = sourcePower (vt * vg) (zt.re * rn) := by
    intro s u x hs hx
    by_cases h0 : u.logarithmic → 0 < sourcePower (vt * vg) (zt.re * rn)
    · obtain ⟨x', h1, h2⟩ := availablePower_eq hv hr hvt hz hs hR h0
      rw [hx] at h1; cases h1
      exact h2
    · exfalso
      have hl : u.logarithmic ∧ ¬ 0 < sourcePower (vt * vg) (zt.re * rn) := by
        by_contra hc; exact h0 fun hl => by by_contra h1; exact hc ⟨hl, h1⟩
      have hP : ‖vt * (vg : ℂ)‖ ^ 2 / (zt.re * rn) / 8 = sourcePower (vt * vg) (zt.re * rn) := by
        unfold sourcePower; rw [div_div]; ring_nf
      unfold availablePower at hx
      rw [hv, hr, hvt, hz] at hx
      simp only [getOpt, pure_bind, ok_bind', ne_eq, hR.ne', not_false_eq_true, if_true, hP] at hx
      unfold fromWatts at hx
      cases u
      case dBm =>
        have h1 : ¬ 0 < sourcePower (vt * vg) (zt.re * rn) * 1e3 := by
          intro h; exact hl.2 (by norm_num at h; linarith)
        simp [hs, PowerUnit.spelling, decibel, h1] at hx
      case dBW => simp [hs, PowerUnit.spelling, decibel, hl.2] at hx
      all_goals exact hl.1.elim
  exact ⟨key s u x hs hx, (key s u x hs hx).trans (key s' u' y hs' hy).symm⟩

/-- C02. A power set in one unit and read in another is converted: both numbers stand for the same
number of watts. -/
theorem C02_set_then_read {c c' : Circuit} {P y : ℝ} {f p : ℤ} {s s' : String} {u u' : PowerUnit}
    (h : setAvailablePower c P f p s = .ok c') (hs : s.toLower = u.spelling)
    (hs' : s'.toLower = u'.spelling) (hy : availablePower c' f p s' = .ok y) {rn : ℝ} {zt : ℂ}
    (hr : c.rn = some rn) (hz : get2 c.zt f p = .ok zt) (hR : 0 < zt.re * rn) :
    u'.watts y = u.watts P := by
  obtain ⟨vg, vt, u0, hv', hr', hz', hvt, hu, hx, e⟩ := sourcePower_set h hr hz hR
  have hread := C01_round_trip h rfl hr hz hR
  exact (C02_units_consistent hs' hs hy hread hv' hr' hvt hz' hR).2

example : ∃ c', setAvailablePower demoCct 10 1 1 "nW" = .ok c' ∧
    availablePower c' 1 1 "NW" = .ok 10 := by
  have hz : get2 demoCct.zt 1 1 = .ok ⟨0.5, -0.25⟩ := rfl
  have hR : (0 : ℝ) < (⟨0.5, -0.25⟩ : ℂ).re * 14 := by norm_num
  obtain ⟨c', h⟩ := C01_set_succeeds (c := demoCct) (P := 10) (s := "nW") (u := .nW) rfl rfl hz
    (by norm_num) hR (by lower) (by norm_num [PowerUnit.watts]) rfl rfl
  exact ⟨c', h, C01_round_trip h (by lower) rfl hz hR⟩

example : ∃ c', setAvailablePower demoCct 10 1 2 "nW" = .ok c' ∧
    ∃ y, availablePower c' 1 2 "dBm" = .ok y ∧ PowerUnit.dBm.watts y = 10 * 1e-9 := by
  have hz : get2 demoCct.zt 1 2 = .ok ⟨0.5, -0.25⟩ := rfl
  have hR : (0 : ℝ) < (⟨0.5, -0.25⟩ : ℂ).re * 14 := by norm_num
  obtain ⟨c', h⟩ := C01_set_succeeds (c := demoCct) (P := 10) (s := "nW") (u := .nW) rfl rfl hz
    (by norm_num) hR (by lower) (by norm_num [PowerUnit.watts]) rfl rfl
  obtain ⟨vg, vt, u0, hv', hr', hz', hvt, hu, hx, e⟩ := sourcePower_set h rfl hz hR
  have h0 := C01_round_trip h rfl rfl hz hR
  obtain ⟨y, hy, _⟩ := availablePower_eq (s := "dBm") (u := .dBm) hv' hr' hvt hz' (by lower) hR (by
    intro _
    have := (C02_units_consistent (s := "nW") (s' := "nW") (u := .nW) (u' := .nW) (by lower)
      (by lower) h0 h0 hv' hr' hvt hz' hR).1
    rw [← this]; norm_num [PowerUnit.watts])
  exact ⟨c', h, y, hy, C02_set_then_read h (u := .nW) (by lower) (by lower) hy rfl hz hR⟩

/-! ## C03 -/

/-- `c'` differs from `c` at most in the entry `(i, j)` of `vt`. -/
def OnlyVt (c c' : Circuit) (i j : ℕ) : Prop :=
  { c' with vt := c.vt } = c ∧ c'.vt.map List.length = c.vt.map List.length ∧
    ∀ i' j', ¬ (i' = i ∧ j' = j) → entry2 c'.vt i' j' = entry2 c.vt i' j'

theorem onlyVt_write {c c' : Circuit} {f p : ℤ} {x : ℂ} (h : writeVt c f p x = .ok c') :
    ∃ i j row, pyIndex c.vt.length f = .ok i ∧ c.vt[i]? = some row ∧
      pyIndex row.length p = .ok j ∧ OnlyVt c c' i j ∧ entry2 c'.vt i j = some x := by
  obtain ⟨_, a, ha, rfl⟩ := writeVt_ok h
  obtain ⟨i, j, row, hi, hrow, hj, rfl⟩ := set2_ok ha
  refine ⟨i, j, row, hi, hrow, hj, ⟨rfl, ?_, fun i' j' hne => entry2_set_ne hrow x hne⟩,
    entry2_set_same hrow (pyIndex_lt hj) x⟩
  apply List.ext_getElem?
  intro k
  rw [List.getElem?_map, List.getElem?_map]
  by_cases hk : k = i
  · subst hk
    have := pyIndex_lt hi
    rw [List.getElem?_set_self this, hrow]; simp
  · rw [List.getElem?_set_ne (fun e => hk e.symm)]

/-- C03. `set_available_power` and `set_alpha` change at most the addressed entry of `vt`. -/
theorem C03_frame_vt {c c' : Circuit} {f p : ℤ} {x : ℝ}
    (h : (∃ s, setAvailablePower c x f p s = .ok c') ∨ ∃ zj, setAlpha c x f p zj = .ok c') :
    ∃ i j row, pyIndex c.vt.length f = .ok i ∧ c.vt[i]? = some row ∧
      pyIndex row.length p = .ok j ∧ OnlyVt c c' i j := by
  have : ∃ y, writeVt c f p y = .ok c' := by
    rcases h with ⟨s, h⟩ | ⟨zj, h⟩
    · obtain ⟨vg, rn, zt, u, _, _, _, _, _, _, _, hw⟩ := setAvailablePower_ok h
      exact ⟨_, hw⟩
    · obtain ⟨zt, w, _, _, _, _, _, hw⟩ := setAlpha_ok h
      exact ⟨_, hw⟩
  obtain ⟨y, hy⟩ := this
  obtain ⟨i, j, row, hi, hrow, hj, ho, _⟩ := onlyVt_write hy
  exact ⟨i, j, row, hi, hrow, hj, ho⟩

/-- C03. `set_freq` changes at most the addressed entry of `freq`. -/
theorem C03_frame_freq {c c' : Circuit} {f : ℤ} {x : ℝ} {s : String}
    (h : setFreq c x f s = .ok c') :
    ∃ i, pyIndex c.freq.length f = .ok i ∧ { c' with freq := c.freq } = c ∧
      c'.freq.length = c.freq.length ∧ ∀ i', i' ≠ i → c'.freq[i']? = c.freq[i']? := by
  obtain ⟨y, hy⟩ := setFreq_ok h
  obtain ⟨_, a, ha, rfl⟩ := writeFreq_ok hy
  obtain ⟨i, hi, rfl⟩ := pySet_ok ha
  exact ⟨i, hi, rfl, by simp, fun i' hne => List.getElem?_set_ne (fun e => hne e.symm)⟩

/-- C03. `set_name` changes exactly the addressed comment. -/
theorem C03_frame_name {c c' : Circuit} {f p : ℤ} {s : String} (h : setName c s f p = .ok c') :
    ∃ i j row, pyIndex c.comment.length f = .ok i ∧ c.comment[i]? = some row ∧
      pyIndex row.length p = .ok j ∧ { c' with comment := c.comment } = c ∧
      entry2 c'.comment i j = some s ∧
      ∀ i' j', ¬ (i' = i ∧ j' = j) → entry2 c'.comment i' j' = entry2 c.comment i' j' := by
  obtain ⟨a, ha, rfl⟩ := setName_ok h
  obtain ⟨i, j, row, hi, hrow, hj, rfl⟩ := set2_ok ha
  exact ⟨i, j, row, hi, hrow, hj, rfl, entry2_set_same hrow (pyIndex_lt hj) s,
    fun i' j' hne => entry2_set_ne hrow s hne⟩

/-- C03. An index outside the array is refused. -/
theorem C03_out_of_range (c : Circuit) (f : ℤ) (x : ℝ) (s : String)
    (hf : f < -(c.freq.length : ℤ) ∨ (c.freq.length : ℤ) ≤ f) : ∃ e, setFreq c x f s = .error e := by
  cases h : setFreq c x f s with
  | error e => exact ⟨e, rfl⟩
  | ok c' =>
    exfalso
    obtain ⟨i, hi, _⟩ := C03_frame_freq h
    have := pyIndex_ok_iff.1 ⟨i, hi⟩
    omega

/-- C03. The same for the setters that address `(f, p)`. -/
theorem C03_out_of_range_fp (c : Circuit) (f p : ℤ) (x : ℝ) (s : String) (zj : ℂ)
    (hvt : ∀ r ∈ c.vt, r.length = c.numP + 1) (hcm : ∀ r ∈ c.comment, r.length = c.numP + 1)
    (hlv : c.vt.length = c.numF + 1) (hlc : c.comment.length = c.numF + 1)
    (hfp : (f < -(c.numF + 1 : ℤ) ∨ (c.numF + 1 : ℤ) ≤ f) ∨
      (p < -(c.numP + 1 : ℤ) ∨ (c.numP + 1 : ℤ) ≤ p)) :
    (∃ e, setAvailablePower c x f p s = .error e) ∧ (∃ e, setAlpha c x f p zj = .error e) ∧
      ∃ e, setName c s f p = .error e := by
  have key : ∀ (n m i j : ℕ), n = c.numF + 1 → m = c.numP + 1 → pyIndex n f = .ok i →
      pyIndex m p = .ok j → False := by
    intro n m i j hn hm hi hj
    have h1 := pyIndex_ok_iff.1 ⟨i, hi⟩
    have h2 := pyIndex_ok_iff.1 ⟨j, hj⟩
    omega
  refine ⟨?_, ?_, ?_⟩
  · cases h : setAvailablePower c x f p s with
    | error e => exact ⟨e, rfl⟩
    | ok c' =>
      obtain ⟨i, j, row, hi, hr, hj, _⟩ := C03_frame_vt (Or.inl ⟨s, h⟩)
      exact (key _ _ i j hlv (hvt row (List.mem_of_getElem? hr)) hi hj).elim
  · cases h : setAlpha c x f p zj with
    | error e => exact ⟨e, rfl⟩
    | ok c' =>
      obtain ⟨i, j, row, hi, hr, hj, _⟩ := C03_frame_vt (Or.inr ⟨zj, h⟩)
      exact (key _ _ i j hlv (hvt row (List.mem_of_getElem? hr)) hi hj).elim
  · cases h : setName c s f p with
    | error e => exact ⟨e, rfl⟩
    | ok c' =>
      obtain ⟨i, j, row, hi, hr, hj, _⟩ := C03_frame_name h
      exact (key _ _ i j hlc (hcm row (List.mem_of_getElem? hr)) hi hj).elim

example : ∃ c', setName demoCct "LO" (-2) 1 = .ok c' ∧ entry2 c'.comment 1 1 = some "LO" ∧
    entry2 c'.comment 2 1 = some "" := by
  refine ⟨_, rfl, ?_, ?_⟩ <;> decide

/-! ## C04 -/

/-- C04. After `set_alpha` the voltage divider of `zt` and `zj` puts exactly `alpha * freq` across the
junction; with a positive frequency and drive level this is drive level `alpha / p` at harmonic `p`
(`alpha` at the fundamental), in the sense of the tunnelling-current calculation. -/
theorem C04_divider {c c' : Circuit} {alpha : ℝ} {f : ℤ} {p : ℕ} {zj zt : ℂ} {w : ℝ}
    (h : setAlpha c alpha f p zj = .ok c') (hz : get2 c.zt f p = .ok zt)
    (hw : pyGet c.freq f = .ok w) (hne : zt + zj ≠ 0) :
    ∃ vt, get2 c'.vt f p = .ok vt ∧ divider vt zt zj = alpha * w ∧
      (0 ≤ alpha → 0 < w → 1 ≤ p → driveLevel (divider vt zt zj) w p = alpha / p) := by
  obtain ⟨zt', w', hz', hw', hz0, hw0, hj0, hwr⟩ := setAlpha_ok h
  rw [hz] at hz'; cases hz'
  rw [hw] at hw'; cases hw'
  obtain ⟨_, a, ha, rfl⟩ := writeVt_ok hwr
  have e : divider (alpha * w * (zt / zj + 1)) zt zj = alpha * w := by
    unfold divider
    rw [div_eq_iff hne]
    field_simp
  refine ⟨_, get2_set2 ha, e, fun h1 h2 h3 => ?_⟩
  unfold driveLevel
  rw [e, ← Complex.ofReal_mul, Complex.norm_real, Real.norm_eq_abs, abs_of_nonneg (by positivity)]
  have : (0 : ℝ) < p := by exact_mod_cast h3
  field_simp

example : ∃ c' vt, setAlpha demoCct 1.2 1 2 0.66 = .ok c' ∧ get2 c'.vt 1 2 = .ok vt ∧
    driveLevel (divider vt ⟨0.5, -0.25⟩ 0.66) 0.3 2 = 1.2 / 2 := by
  have hz : get2 demoCct.zt 1 (2 : ℕ) = .ok ⟨0.5, -0.25⟩ := rfl
  have hw : pyGet demoCct.freq 1 = .ok 0.3 := rfl
  have hz0 : (⟨0.5, -0.25⟩ : ℂ) ≠ 0 := by
    intro h; have := congrArg Complex.re h; norm_num at this
  have h : ∃ c', setAlpha demoCct 1.2 1 (2 : ℕ) 0.66 = .ok c' := by
    unfold setAlpha
    rw [hz, hw]
    simp only [ok_bind']
    rw [pyAssert_pos hz0, pyAssert_pos (by norm_num), raiseIf_neg (by norm_num)]
    exact ⟨_, rfl⟩
  obtain ⟨c', h⟩ := h
  obtain ⟨vt, h1, _, h3⟩ := C04_divider h hz hw (by
    intro h
    have := congrArg Complex.re h
    rw [Complex.add_re, show (0.66 : ℂ) = ((0.66 : ℝ) : ℂ) by norm_num, Complex.ofReal_re] at this
    norm_num at this)
  exact ⟨c', vt, h, h1, by simpa using h3 (by norm_num) (by norm_num) (by norm_num)⟩

/-! ## C05, C06 -/

/-- C05. With the gap voltage and gap frequency related by `h/e`, `set_freq` stores the ratio of the
physical frequency to the gap frequency, whatever unit the frequency is given in. -/
theorem C05_freq_units {c : Circuit} {g vg : ℝ} (hg : c.fgap = some g) (hv : c.vgap = some vg)
    (hgap : vg * SI.e = g * SI.h) (h0 : g ≠ 0) (x : ℝ) (f : ℤ) (s : String) (u : FreqUnit)
    (hs : s.toLower = u.spelling) :
    setFreq c x f s = writeFreq c f (u.hertz (SI.e / SI.h) x / g) := by
  change vg * charge = g * planck at hgap
  change _ = writeFreq c f (u.hertz (charge / planck) x / g)
  have hp := planck_pos
  have hc := charge_pos
  have hv0 : vg ≠ 0 := by
    rintro rfl
    rw [zero_mul] at hgap
    rcases mul_eq_zero.1 hgap.symm with h | h
    · exact h0 h
    · exact hp.ne' h
  have e : ∀ y : ℝ, y / vg = y * (charge / planck) / g := by
    intro y
    rw [div_eq_div_iff hv0 h0, mul_div_assoc', div_mul_eq_mul_div, eq_div_iff hp.ne']
    linear_combination y * (-hgap)
  unfold setFreq normFreq
  rw [hg, hv, pyAssert_pos (by simp)]
  cases u <;> simp [hs, FreqUnit.spelling, FreqUnit.hertz, divOpt, pyDiv, h0, hv0, ok_bind', e]

/-- C05. Hence two settings in different units that mean the same physical frequency have the same
effect. -/
theorem C05_same_frequency {c : Circuit} {g vg : ℝ} (hg : c.fgap = some g) (hv : c.vgap = some vg)
    (hgap : vg * SI.e = g * SI.h) (h0 : g ≠ 0) {x y : ℝ} (f : ℤ) {s t : String}
    {u w : FreqUnit} (hs : s.toLower = u.spelling) (ht : t.toLower = w.spelling)
    (hxy : u.hertz (SI.e / SI.h) x = w.hertz (SI.e / SI.h) y) :
    setFreq c x f s = setFreq c y f t := by
  rw [C05_freq_units hg hv hgap h0 x f s u hs, C05_freq_units hg hv hgap h0 y f t w ht, hxy]

/-- C05. In volts, a frequency of 1 GHz is 4.135667 uV (the inverse of 241.7989 GHz per mV), to seven digits. -/
theorem C05_photon_voltage {c c' : Circuit} {g vg : ℝ} (hg : c.fgap = some g) (hv : c.vgap = some vg)
    (hgap : vg * SI.e = g * SI.h) (h0 : g ≠ 0) (x : ℝ) (f : ℤ) (s : String) (hs : s.toLower = "ghz")
    (h : setFreq c x f s = .ok c') : ∃ w, pyGet c'.freq f = .ok w ∧ |w * vg - x * 4.135667e-6| ≤ 1e-6 * |x * 4.135667e-6| := by
  have hp := planck_pos
  have hc := charge_pos
  rw [C05_freq_units hg hv hgap h0 x f s .GHz hs] at h
  change vg * charge = g * planck at hgap
  change writeFreq c f (FreqUnit.GHz.hertz (charge / planck) x / g) = _ at h
  obtain ⟨_, a, ha, rfl⟩ := writeFreq_ok h
  obtain ⟨i, hi, rfl⟩ := pySet_ok ha
  refine ⟨_, pyGet_ok_of_getElem? (by rw [List.length_set]; exact hi) (by simp [pyIndex_lt hi]; rfl), ?_⟩
  have e : FreqUnit.GHz.hertz (charge / planck) x / g * vg = x * 1e9 * (planck / charge) := by
    have : vg = g * planck / charge := by rw [eq_div_iff hc.ne', hgap]
    rw [this]
    simp only [FreqUnit.hertz]
    field_simp
  rw [e, show x * 1e9 * (planck / charge) - x * 4.135667e-6 = x * (1e9 * (planck / charge) - 4.135667e-6) by ring, abs_mul, abs_mul,
    mul_left_comm]
  refine mul_le_mul_of_nonneg_left ?_ (abs_nonneg _)
  unfold planck charge
  norm_num [abs_le]

/-- C05. `'norm'` stores the value itself (when a gap is known). -/
theorem C05_norm {c : Circuit} (hg : c.fgap ≠ none) (x : ℝ) (f : ℤ) (s : String)
    (hs : s.toLower = "norm") : setFreq c x f s = writeFreq c f x := by
  unfold setFreq normFreq
  rw [pyAssert_pos hg]
  simp [hs]

/-- C05. Any other unit is refused with `ValueError`. -/
theorem C05_unknown_unit {c : Circuit} (hg : c.fgap ≠ none) (x : ℝ) (f : ℤ) (s : String)
    (hs : ∀ u : FreqUnit, s.toLower ≠ u.spelling) (hn : s.toLower ≠ "norm") :
    setFreq c x f s = .error .value := by
  have h1 := hs .Hz; have h2 := hs .MHz; have h3 := hs .GHz; have h4 := hs .THz
  have h5 := hs .V; have h6 := hs .mV
  simp only [FreqUnit.spelling] at *
  unfold setFreq normFreq
  rw [pyAssert_pos hg]
  simp only [h1, h2, h3, h4, h5, h6, hn, if_false]
  rfl

/-- C05. A circuit built from one gap parameter has its gap voltage and frequency related by `h/e`. -/
theorem C05_constructor {numF numP npts : ℤ} {lo hi : ℝ} {fg vgp rn : Option ℝ} {name : String}
    {c : Circuit} (h : Cct.new numF numP lo hi npts fg vgp rn name = .ok c)
    (hone : (fg = none ∧ vgp ≠ none) ∨ (fg ≠ none ∧ vgp = none)) :
    ∃ g vg, c.fgap = some g ∧ c.vgap = some vg ∧ vg * SI.e = g * SI.h := by
  change ∃ g vg, c.fgap = some g ∧ c.vgap = some vg ∧ vg * charge = g * planck
  obtain ⟨_, _, _, _, ig, _, rfl⟩ := new_ok h
  have hp := planck_pos.ne'
  have hc := charge_pos.ne'
  rcases hone with ⟨rfl, hv⟩ | ⟨hf, rfl⟩
  · obtain ⟨v, rfl⟩ := Option.ne_none_iff_exists'.1 hv
    exact ⟨_, _, rfl, rfl, by field_simp⟩
  · obtain ⟨g, rfl⟩ := Option.ne_none_iff_exists'.1 hf
    exact ⟨_, _, rfl, rfl, by field_simp⟩

example : ∃ c c', Cct.new 2 1 0 2 201 (some 700e9) none none "" = .ok c ∧
    setFreq c 230 1 "GHz" = .ok c' ∧ setFreq c 230e9 1 "hz" = .ok c' := by
  have hnew : ∃ c, Cct.new 2 1 0 2 201 (some 700e9) none none "" = .ok c := by
    refine ⟨_, new_eq (by norm_num) (by norm_num) (by norm_num) (by norm_num) rfl⟩
  obtain ⟨c, hc⟩ := hnew
  obtain ⟨g, vg, hg, hv, hgap⟩ := C05_constructor hc (Or.inr ⟨by simp, rfl⟩)
  have hg' : g = 700e9 := by
    obtain ⟨_, _, _, _, ig, _, rfl⟩ := new_ok hc
    simpa [fresh, newFgap] using hg.symm
  have h0 : g ≠ 0 := by rw [hg']; norm_num
  have hw : ∃ c', writeFreq c 1 (FreqUnit.GHz.hertz (SI.e / SI.h) 230 / g) = .ok c' := by
    obtain ⟨_, _, _, _, ig, _, rfl⟩ := new_ok hc
    exact ⟨_, rfl⟩
  obtain ⟨c', hc'⟩ := hw
  refine ⟨c, c', hc, ?_, ?_⟩
  · rw [C05_freq_units hg hv hgap h0 230 1 "GHz" .GHz (by lower), hc']
  · rw [C05_same_frequency hg hv hgap h0 1 (s := "hz") (t := "GHz") (u := .Hz) (w := .GHz) (y := 230)
      (by lower) (by lower) (by norm_num [FreqUnit.hertz]),
      C05_freq_units hg hv hgap h0 230 1 "GHz" .GHz (by lower), hc']

/-- C06 is false: on a circuit without gap parameters `'norm'` is refused, whatever the value. -/
theorem C06_norm_refused (c : Circuit) (hg : c.fgap = none) (x : ℝ) (f : ℤ) (s : String) :
    setFreq c x f s = .error .assertion := by
  unfold setFreq
  rw [pyAssert_neg (not_not.2 hg)]

/-- C06, a concrete witness: the default constructor, then `set_freq(0.5, 1, 'norm')`. -/
theorem C06_false : ∃ c, Cct.new 1 1 0 2 201 none none none "" = .ok c ∧
    setFreq c 0.5 1 "norm" = .error .assertion := by
  have h := new_eq (numF := 1) (numP := 1) (lo := 0) (hi := 2) (npts := 201) (fg := none) (vg := none)
    (rn := none) (name := "") (by norm_num) (by norm_num) (by norm_num) (by norm_num) rfl
  exact ⟨_, h, C06_norm_refused _ rfl _ _ _⟩

/-- C06, what does hold: with a gap parameter, `'norm'` stores the value at every valid index. -/
theorem C06_norm_partial {c : Circuit} (hg : c.fgap ≠ none) (hw : c.freqW = true) (x : ℝ) (f : ℤ)
    (s : String) (hs : s.toLower = "norm") (hf : -(c.freq.length : ℤ) ≤ f ∧ f < c.freq.length) :
    ∃ c', setFreq c x f s = .ok c' ∧ pyGet c'.freq f = .ok x := by
  rw [C05_norm hg x f s hs]
  obtain ⟨i, hi⟩ := pyIndex_ok_iff.2 hf
  refine ⟨{ c with freq := c.freq.set i x }, ?_, ?_⟩
  · unfold writeFreq; rw [if_pos hw, pySet_eq x hi]; rfl
  · exact pyGet_ok_of_getElem? (by rw [List.length_set]; exact hi) (by simp [pyIndex_lt hi])

example : demoCct.fgap ≠ none ∧ demoCct.freqW = true ∧ (-3 : ℤ) ≤ -1 := ⟨by simp [demoCct], rfl, by norm_num⟩

/-! ## C07 -/

/-- C07. The constructor succeeds exactly on valid arguments (and raises `ZeroDivisionError` when
`vgap` is given with `rn = 0`). -/
theorem C07_validates (numF numP npts : ℤ) (lo hi : ℝ) (fg vg rn : Option ℝ) (name : String) :
    (∃ c, Cct.new numF numP lo hi npts fg vg rn name = .ok c) ↔
      (1 ≤ numF ∧ numF ≤ 4) ∧ 1 ≤ numP ∧ 1 ≤ npts ∧ lo ≤ hi ∧ (vg ≠ none → rn ≠ some 0) := by
  constructor
  · rintro ⟨c, h⟩
    obtain ⟨h1, h2, h3, h4, ig, h5, _⟩ := new_ok h
    refine ⟨by omega, h2, h3, h4, ?_⟩
    rintro hv rfl
    obtain ⟨v, rfl⟩ := Option.ne_none_iff_exists'.1 hv
    simp [newIgap, pyDiv, throw_bind] at h5
  · rintro ⟨h1, h2, h3, h4, h5⟩
    have : ∃ ig, newIgap vg rn = .ok ig := by
      cases vg with
      | none => exact ⟨none, by cases rn <;> rfl⟩
      | some v =>
        cases rn with
        | none => exact ⟨none, rfl⟩
        | some r =>
          have hr : r ≠ 0 := fun e => h5 (by simp) (by rw [e])
          exact ⟨some (v / r), by simp [newIgap, pyDiv, hr, ok_bind', pure, Except.pure]⟩
    obtain ⟨ig, hig⟩ := this
    exact ⟨_, new_eq (by omega) h2 h3 h4 hig⟩

/-- C07. The result: zeroed arrays of the right shape, an evenly spaced bias sweep with the requested
end points, writable arrays, the given parameters, and gap voltage and frequency related by `h/e`
when exactly one was given. (The last conjunct of the English property, the gap current, is
`C07_gap_current_partial`.) -/
theorem C07_result {numF numP npts : ℤ} {lo hi : ℝ} {fg vg rn : Option ℝ} {name : String}
    {c : Circuit} (h : Cct.new numF numP lo hi npts fg vg rn name = .ok c) :
    (c.numF : ℤ) = numF ∧ (c.numP : ℤ) = numP ∧ c.rn = rn ∧ c.name = name ∧
    c.freq.length = c.numF + 1 ∧ (∀ x ∈ c.freq, x = 0) ∧
    (c.vt.length = c.numF + 1 ∧ ∀ r ∈ c.vt, r.length = c.numP + 1 ∧ ∀ x ∈ r, x = 0) ∧
    (c.zt.length = c.numF + 1 ∧ ∀ r ∈ c.zt, r.length = c.numP + 1 ∧ ∀ x ∈ r, x = 0) ∧
    (c.vb.length : ℤ) = npts ∧ c.vb[0]? = some lo ∧
    (2 ≤ npts → c.vb[(npts - 1).toNat]? = some hi) ∧
    (∀ i x y, c.vb[i]? = some x → c.vb[i + 1]? = some y → y - x = (hi - lo) / (npts - 1)) ∧
    (∀ v, vg = some v → c.vgap = some v) ∧ (∀ f, fg = some f → c.fgap = some f) ∧
    ((fg = none ↔ vg ≠ none) → ∃ g v, c.fgap = some g ∧ c.vgap = some v ∧ v * SI.e = g * SI.h) ∧
    (fg = none → vg = none → c.fgap = none ∧ c.vgap = none) ∧
    c.freqW ∧ c.vtW ∧ c.ztW ∧ c.vbW := by
  have hcon := fun hone => C05_constructor h hone
  obtain ⟨h1, h2, h3, h4, ig, h5, rfl⟩ := new_ok h
  obtain ⟨n, rfl⟩ := Int.eq_ofNat_of_zero_le (by omega : (0 : ℤ) ≤ npts)
  have hn : 1 ≤ n := by omega
  have hvb : ∀ i, i < n → (linspace lo hi n)[i]? = some (lo + i * ((hi - lo) / (n - 1 : ℝ))) := by
    intro i hi
    unfold linspace
    rw [List.getElem?_map, List.getElem?_range hi]
    by_cases h1 : n = 1
    · subst h1
      have : i = 0 := by omega
      subst this; simp
    · simp [h1, Nat.cast_sub hn]
  have hlen : (linspace lo hi n).length = n := by simp [linspace]
  simp only [fresh]
  refine ⟨by simp; omega, by simp; omega, trivial, trivial, by simp, ?_, ⟨by simp, ?_⟩, ⟨by simp, ?_⟩, by simp [hlen], ?_, ?_, ?_,
    ?_, ?_, ?_, ?_, trivial, trivial, trivial, trivial⟩
  · intro x hx; exact List.eq_of_mem_replicate hx
  · intro r hr
    rw [List.eq_of_mem_replicate hr]
    exact ⟨by simp, fun x hx => List.eq_of_mem_replicate hx⟩
  · intro r hr
    rw [List.eq_of_mem_replicate hr]
    exact ⟨by simp, fun x hx => List.eq_of_mem_replicate hx⟩
  · have := hvb 0 (by omega)
    simpa using this
  · intro h2
    have e : ((n : ℤ) - 1).toNat = n - 1 := by omega
    simp only [Int.ofNat_eq_natCast, Int.toNat_natCast]
    rw [e, hvb (n - 1) (by omega)]
    have hne : (n : ℝ) - 1 ≠ 0 := by
      have : (2 : ℝ) ≤ n := by exact_mod_cast h2
      linarith
    rw [Nat.cast_sub hn]
    congr 1
    push_cast
    field_simp
    ring
  · intro i x y hx hy
    simp only [Int.ofNat_eq_natCast, Int.toNat_natCast] at hx hy
    have hi : i + 1 < n := by
      by_contra hc
      rw [List.getElem?_eq_none (by rw [hlen]; omega)] at hy
      cases hy
    rw [hvb i (by omega)] at hx
    rw [hvb (i + 1) hi] at hy
    cases hx; cases hy
    push_cast
    ring
  · rintro v rfl; cases fg <;> rfl
  · rintro f rfl; cases vg <;> rfl
  · intro hx
    apply hcon
    by_cases hf : fg = none
    · exact Or.inl ⟨hf, hx.1 hf⟩
    · right
      refine ⟨hf, ?_⟩
      by_contra hv
      exact hf (hx.2 hv)
  · rintro rfl rfl; exact ⟨rfl, rfl⟩

/-- C07. The gap current is `vgap / rn` when the gap *voltage* and the resistance are given. Missing:
the case where the gap *frequency* and the resistance are given, for which the claim is false. -/
theorem C07_gap_current_partial {numF numP npts : ℤ} {lo hi : ℝ} {fg : Option ℝ} {v r : ℝ}
    {name : String} {c : Circuit}
    (h : Cct.new numF numP lo hi npts fg (some v) (some r) name = .ok c) :
    r ≠ 0 ∧ c.igap = some (v / r) := by
  obtain ⟨_, _, _, _, ig, h5, rfl⟩ := new_ok h
  simp only [newIgap] at h5
  obtain ⟨x, hx, h5⟩ := bind_ok_iff.1 h5
  unfold pyDiv at hx
  by_cases hr : r = 0
  · rw [if_pos hr] at hx; cases hx
  · rw [if_neg hr] at hx; cases hx; cases h5
    exact ⟨hr, rfl⟩

/-- C07 is false as stated: with the gap given as a frequency the gap current stays unset although gap
voltage and resistance are both known, for all values. -/
theorem C07_gap_current_false (numF numP npts : ℤ) (lo hi g r : ℝ) (name : String) (c : Circuit)
    (h : Cct.new numF numP lo hi npts (some g) none (some r) name = .ok c) :
    c.vgap = some (g * SI.h / SI.e) ∧ c.rn = some r ∧ c.igap = none := by
  obtain ⟨_, _, _, _, ig, h5, rfl⟩ := new_ok h
  refine ⟨rfl, rfl, ?_⟩
  simp only [newIgap] at h5
  cases h5
  rfl

example : (∃ c, Cct.new 2 3 0 2 201 (some 700e9) none (some 14) "x" = .ok c) ∧
    (∃ c, Cct.new 2 3 0 2 201 none (some 2.8e-3) (some 14) "x" = .ok c) ∧
    ¬ ∃ c, Cct.new 5 1 0 2 201 none none none "x" = .ok c := by
  refine ⟨(C07_validates ..).2 ?_, (C07_validates ..).2 ?_, fun h => ?_⟩
  · norm_num
  · norm_num
  · have := (C07_validates ..).1 h; omega

/-! ## C08 -/

/-- All arrays are read-only. -/
def Locked (c : Circuit) : Prop :=
  c.freqW = false ∧ c.vtW = false ∧ c.ztW = false ∧ c.vbW = false

/-- The calls that assign to an array. -/
def Writes : Op → Circuit → Prop
  | .hb, c => ¬ ∀ row ∈ c.zt, ∀ z ∈ row, z = 0
  | .name .., _ => False
  | .lock, _ => False
  | .unlock, _ => False
  | _, _ => True

/-- C08. On a locked circuit every call that would write to an array raises. -/
theorem C08_locked_writes_raise {c : Circuit} (hl : Locked c) (o : Op) (ho : Writes o c) :
    ∃ e, o.call c = .error e := by
  obtain ⟨l1, l2, l3, l4⟩ := hl
  cases hc : o.call c with
  | error e => exact ⟨e, rfl⟩
  | ok c' =>
    exfalso
    cases o with
    | power x f p u =>
      obtain ⟨_, _, _, _, _, _, _, _, _, _, _, hw⟩ := setAvailablePower_ok hc
      rw [(writeVt_ok hw).1] at l2; cases l2
    | alpha x f p zj =>
      obtain ⟨_, _, _, _, _, _, _, hw⟩ := setAlpha_ok hc
      rw [(writeVt_ok hw).1] at l2; cases l2
    | freq x f u =>
      obtain ⟨_, hw⟩ := setFreq_ok hc
      rw [(writeFreq_ok hw).1] at l1; cases l1
    | name s f p => exact ho
    | putFreq f x => rw [(writeFreq_ok hc).1] at l1; cases l1
    | putVt f p x => rw [(writeVt_ok hc).1] at l2; cases l2
    | putZt f p x => simp [Op.call, writeZt, l3, throw, throwThe, MonadExceptOf.throw] at hc
    | putVb i x => simp [Op.call, writeVb, l4, throw, throwThe, MonadExceptOf.throw] at hc
    | hb =>
      simp only [Op.call, hbTouch] at hc
      rw [if_neg ho, l2] at hc
      cases hc
    | lock => exact ho
    | unlock => exact ho

/-- C08. One call on a locked circuit, other than `unlock`: only a comment can change, and the circuit
stays locked. -/
theorem C08_locked_step {c : Circuit} (hl : Locked c) (o : Op) (ho : o ≠ .unlock) :
    { o.step c with comment := c.comment } = c := by
  by_cases hw : Writes o c
  · obtain ⟨e, he⟩ := C08_locked_writes_raise hl o hw
    simp only [Op.step, he]
  · cases o with
    | name s f p =>
      simp only [Op.step, Op.call]
      cases h : setName c s f p with
      | error e => rfl
      | ok c' => obtain ⟨a, _, rfl⟩ := setName_ok h; rfl
    | hb =>
      have : ∀ row ∈ c.zt, ∀ z ∈ row, z = 0 := not_not.1 hw
      simp only [Op.step, Op.call, hbTouch]
      rw [if_pos this]
      rfl
    | lock =>
      obtain ⟨l1, l2, l3, l4⟩ := hl
      cases c
      simp only at l1 l2 l3 l4
      subst l1 l2 l3 l4
      rfl
    | unlock => exact absurd rfl ho
    | _ => exact absurd trivial hw

/-- C08. No history of calls without `unlock`, of any length, changes anything but comments on a
locked circuit; it stays locked. -/
theorem C08_locked_history {c : Circuit} (hl : Locked c) (H : List Op) (hH : Op.unlock ∉ H) :
    { run c H with comment := c.comment } = c ∧ Locked (run c H) := by
  suffices h : { run c H with comment := c.comment } = c by
    refine ⟨h, ?_⟩
    unfold Locked
    rw [← h] at hl
    exact hl
  induction H using List.reverseRecOn with
  | nil => rfl
  | append_singleton H o ih =>
    have ih := ih (fun hm => hH (by simp [hm]))
    have hl' : Locked (run c H) := by
      unfold Locked
      rw [← ih] at hl
      exact hl
    have hs := C08_locked_step hl' o (by rintro rfl; exact hH (by simp))
    have tr : ∀ a b d : Circuit, { b with comment := a.comment } = a →
        { d with comment := b.comment } = b → { d with comment := a.comment } = a := by
      intro a b d h1 h2
      cases a; cases b; cases d
      simp_all
    have e : run c (H ++ [o]) = o.step (run c H) := by simp [run]
    rw [e]
    exact tr _ _ _ ih hs

/-- C08. Locking and unlocking change no value. -/
theorem C08_lock_unlock_values (c : Circuit) :
    Locked (lock c) ∧
    { lock c with freqW := c.freqW, vtW := c.vtW, ztW := c.ztW, vbW := c.vbW } = c ∧
    { unlock c with freqW := c.freqW, vtW := c.vtW, ztW := c.ztW, vbW := c.vbW } = c ∧
    unlock (lock c) = unlock c ∧ (unlock c).freqW ∧ (unlock c).vtW ∧ (unlock c).ztW ∧
    (unlock c).vbW := by
  refine ⟨⟨rfl, rfl, rfl, rfl⟩, rfl, rfl, rfl, rfl, rfl, rfl, rfl⟩

/-- C08. For a writable circuit, lock, any history without `unlock` and `set_name`, then `unlock`: the
circuit is exactly the one before the lock, so every later call behaves as it would have. -/
theorem C08_unlock_restores {c : Circuit} (hw : c.freqW ∧ c.vtW ∧ c.ztW ∧ c.vbW) (H : List Op)
    (hH : Op.unlock ∉ H) (hN : ∀ s f p, Op.name s f p ∉ H) : unlock (run (lock c) H) = c := by
  have h := (C08_locked_history (C08_lock_unlock_values c).1 H hH).1
  have hcom : ∀ H : List Op, (∀ s f p, Op.name s f p ∉ H) → ∀ c, (run c H).comment = c.comment := by
    intro H
    induction H with
    | nil => intro _ c; rfl
    | cons o H ih =>
      intro hN c
      have e : run c (o :: H) = run (o.step c) H := rfl
      rw [e, ih (fun s f p hm => hN s f p (by simp [hm]))]
      unfold Op.step
      cases hc : o.call c with
      | error e => rfl
      | ok c' =>
        cases o with
        | power x f p u =>
          obtain ⟨_, _, _, _, _, _, _, _, _, _, _, hw⟩ := setAvailablePower_ok hc
          obtain ⟨_, _, _, rfl⟩ := writeVt_ok hw; rfl
        | alpha x f p zj =>
          obtain ⟨_, _, _, _, _, _, _, hw⟩ := setAlpha_ok hc
          obtain ⟨_, _, _, rfl⟩ := writeVt_ok hw; rfl
        | freq x f u =>
          obtain ⟨_, hw⟩ := setFreq_ok hc
          obtain ⟨_, _, _, rfl⟩ := writeFreq_ok hw; rfl
        | name s f p => exact absurd (by simp) (hN s f p)
        | putFreq f x => obtain ⟨_, _, _, rfl⟩ := writeFreq_ok hc; rfl
        | putVt f p x => obtain ⟨_, _, _, rfl⟩ := writeVt_ok hc; rfl
        | putZt f p x => obtain ⟨_, _, _, rfl⟩ := writeZt_ok hc; rfl
        | putVb i x => obtain ⟨_, _, _, rfl⟩ := writeVb_ok hc; rfl
        | hb =>
          simp only [Op.call, hbTouch] at hc
          by_cases h0 : ∀ row ∈ c.zt, ∀ z ∈ row, z = 0
          · rw [if_pos h0] at hc; cases hc; rfl
          · rw [if_neg h0] at hc
            by_cases h1 : c.vtW
            · rw [if_pos h1] at hc; cases hc; rfl
            · rw [if_neg h1] at hc; cases hc
        | lock => cases hc; rfl
        | unlock => cases hc; rfl
  have hc : run (lock c) H = lock c := by
    conv_rhs => rw [← h]
    rw [← hcom H hN (lock c)]
  rw [hc]
  obtain ⟨h1, h2, h3, h4⟩ := hw
  cases c
  simp only at h1 h2 h3 h4
  subst h1 h2 h3 h4
  rfl

example : ∃ H : List Op, H.length = 3 ∧ Op.unlock ∉ H ∧ unlock (run (lock demoCct) H) = demoCct ∧
    (∀ o ∈ H, ∃ e, o.call (lock demoCct) = .error e) := by
  have hz : ¬ ∀ row ∈ (lock demoCct).zt, ∀ z ∈ row, z = 0 := by
    intro h
    have := h [0, ⟨0.5, -0.25⟩, ⟨0.5, -0.25⟩] (by simp [lock, demoCct]) ⟨0.5, -0.25⟩ (by simp)
    have := congrArg Complex.re this
    norm_num at this
  refine ⟨[.power 10 1 1 "nW", .putVt 1 1 0.5, .hb], rfl, by simp, ?_, ?_⟩
  · exact C08_unlock_restores ⟨rfl, rfl, rfl, rfl⟩ _ (by simp) (by simp)
  · intro o ho
    apply C08_locked_writes_raise (C08_lock_unlock_values _).1
    simp only [List.mem_cons, List.not_mem_nil, or_false] at ho
    rcases ho with rfl | rfl | rfl
    · trivial
    · trivial
    · exact hz

end QMix.Props
