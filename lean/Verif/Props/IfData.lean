import Verif.Lemmas.IfData
import Verif.Spec.Constants

/-!
# Noise temperature and gain: C57, C58
-/

namespace QMix.IfData

open Np Fl Clean

/-! ### Callen-Welton temperature -/

/-- C58: at positive frequency and temperature the effective temperature exists, is above the physical
temperature and above the zero-point temperature `h f / 2 k`, and below their sum. -/
theorem C58_physical (f t : ℝ) (hf : 0 < f) (ht : 0 < t) :
    ∃ c, tempCw f t = .ok c ∧ t < c ∧ Spec.SI.h * f / (2 * Spec.SI.k) < c ∧
      c < t + Spec.SI.h * f / (2 * Spec.SI.k) := by
  change ∃ c, tempCw f t = .ok c ∧ t < c ∧ planckH * f / (2 * boltzmann) < c ∧
      c < t + planckH * f / (2 * boltzmann)
  have ha := halfPhoton_pos hf
  have e : planckH * f / (2 * boltzmann) = halfPhoton f := by
    unfold halfPhoton
    rw [div_div]
  have hx := div_pos ha ht
  have hp := tanh_pos' hx
  refine ⟨_, tempCw_eq hf ht, ?_, ?_, ?_⟩
  · rw [lt_div_iff₀ hp]
    have := tanh_lt_self hx
    rw [lt_div_iff₀ ht] at this
    linarith
  · rw [e, lt_div_iff₀ hp]
    nlinarith [Real.tanh_lt_one (halfPhoton f / t)]
  · rw [e]
    have h := div_tanh_lt_add hx
    have e2 : halfPhoton f / Real.tanh (halfPhoton f / t)
        = t * (halfPhoton f / t / Real.tanh (halfPhoton f / t)) := by
      field_simp
    rw [e2]
    calc _ < t * (1 + halfPhoton f / t) := mul_lt_mul_of_pos_left h ht
      _ = _ := by field_simp

/-- C58: the effective temperature is that of Planck's law plus half a photon, which is what the name
Callen-Welton stands for. -/
theorem C58_planck (f t : ℝ) (hf : 0 < f) (ht : 0 < t) :
    tempCw f t = .ok (Spec.SI.h * f / Spec.SI.k *
      (1 / (Real.exp (Spec.SI.h * f / (Spec.SI.k * t)) - 1) + 1 / 2)) := by
  change tempCw f t = .ok (planckH * f / boltzmann *
      (1 / (Real.exp (planckH * f / (boltzmann * t)) - 1) + 1 / 2))
  rw [tempCw_eq hf ht]
  refine congrArg Except.ok ?_
  have ha := halfPhoton_pos hf
  have e1 : planckH * f / boltzmann = 2 * halfPhoton f := by
    unfold halfPhoton
    ring
  have e2 : planckH * f / (boltzmann * t) = halfPhoton f / t + halfPhoton f / t := by
    rw [← div_div, e1]
    ring
  have hx := div_pos ha ht
  rw [e1, e2, Real.tanh_eq_sinh_div_cosh, Real.sinh_eq, Real.cosh_eq, Real.exp_add, Real.exp_neg]
  have h1 : 1 < Real.exp (halfPhoton f / t) := Real.one_lt_exp_iff.mpr hx
  generalize Real.exp (halfPhoton f / t) = y at h1
  have h2 : y * y - 1 ≠ 0 := by nlinarith
  have h3 : y ≠ 0 := by linarith
  have h4 : y - y⁻¹ ≠ 0 := by
    intro h
    apply h2
    field_simp at h
    nlinarith
  have h5 : y ^ 2 - 1 ≠ 0 := by nlinarith
  field_simp
  ring

/-- C58: the effective temperature increases with the physical temperature. So a hotter load is hotter
also after the correction. -/
theorem C58_temperature (f s t : ℝ) (hf : 0 < f) (hs : 0 < s) (h : s < t) :
    ∃ a b, tempCw f s = .ok a ∧ tempCw f t = .ok b ∧ a < b := by
  have ha := halfPhoton_pos hf
  have ht := hs.trans h
  refine ⟨_, _, tempCw_eq hf hs, tempCw_eq hf ht, ?_⟩
  apply div_lt_div_of_pos_left ha (tanh_pos' (div_pos ha ht))
  exact tanh_lt_tanh (div_lt_div_of_pos_left ha hs h)

/-- C58: the effective temperature increases with the frequency. -/
theorem C58_frequency (f g t : ℝ) (hf : 0 < f) (h : f < g) (ht : 0 < t) :
    ∃ a b, tempCw f t = .ok a ∧ tempCw g t = .ok b ∧ a < b := by
  have ha := halfPhoton_pos hf
  refine ⟨_, _, tempCw_eq hf ht, tempCw_eq (hf.trans h) ht, ?_⟩
  have h1 := div_tanh_lt (div_pos ha ht) (div_lt_div_of_pos_right (halfPhoton_lt h) ht)
  have e : ∀ f, halfPhoton f / Real.tanh (halfPhoton f / t)
      = t * (halfPhoton f / t / Real.tanh (halfPhoton f / t)) := by
    intro f
    field_simp
  rw [e, e]
  exact mul_lt_mul_of_pos_left h1 ht

/-- The hypotheses hold for the default loads at 230 GHz. -/
example : (∃ a b, tempCw (230 * 1e9) 78 = .ok a ∧ tempCw (230 * 1e9) 293 = .ok b ∧ a < b) :=
  C58_temperature _ _ _ (by norm_num) (by norm_num) (by norm_num)

/-- C58: a zero frequency gives no temperature (the code returns NaN), a zero temperature raises. -/
theorem C58_degenerate (f t : ℝ) (ht : t ≠ 0) :
    tempCw 0 t = .error .nonFinite ∧ tempCw f 0 = .error .zeroDiv := by
  constructor
  · unfold tempCw
    rw [raiseIf_neg ht]
    unfold Np.fdiv
    rw [if_pos (by simp)]
  · unfold tempCw
    rw [raiseIf_pos rfl]

/-! ### Noise temperature and gain -/

/-- Options for which the load temperatures are `th` and `tc` after the Callen-Welton correction. -/
def Loads (o : TnOpts) (th tc : ℝ) : Prop :=
  ∃ f, o.freq = some f ∧ tempCw (f * 1e9) o.tHot = .ok th ∧ tempCw (f * 1e9) o.tCold = .ok tc

/-- Usual options satisfy this, with the hot load hotter than the cold one. -/
theorem loads_exist (o : TnOpts) {f : ℝ} (h : o.freq = some f) (hf : 0 < f) (hc : 0 < o.tCold)
    (hh : o.tCold < o.tHot) : ∃ th tc, Loads o th tc ∧ 0 < tc ∧ tc < th := by
  have hf' : 0 < f * 1e9 := by positivity
  obtain ⟨a, b, ha, hb, hab⟩ := C58_temperature (f * 1e9) o.tCold o.tHot hf' hc hh
  obtain ⟨c, hc1, hc2, -⟩ := C58_physical (f * 1e9) o.tCold hf' hc
  rw [ha] at hc1
  obtain rfl := Except.ok.inj hc1
  exact ⟨b, a, ⟨f, h, hb, ha⟩, hc.trans hc2, hab⟩

/-- A receiver at each bias point: voltage, gain, noise temperature. -/
abbrev Receiver := List (ℝ × ℝ × ℝ)

/-- What the receiver delivers from loads at the temperatures `th` and `tc`. -/
def Receiver.powers (l : Receiver) (th tc : ℝ) : Meas :=
  l.map fun p => (p.1, p.2.1 * (th + p.2.2), p.2.1 * (tc + p.2.2))

theorem recovered {th tc g t : ℝ} (hT : tc < th) (hg : g ≠ 0) (ht : 0 < tc + t) :
    noiseTemp th tc (num (g * (th + t))) (num (g * (tc + t)))
      = num (min t ((th - tc) * 1e10 - tc)) := by
  have hgt : g * (tc + t) ≠ 0 := mul_ne_zero hg ht.ne'
  rw [noiseTemp_num th tc hgt, mul_div_mul_left _ _ hg, num_inj]
  have e : (th + t) / (tc + t) = 1 + (th - tc) / (tc + t) := by
    field_simp
    ring
  by_cases h : (th + t) / (tc + t) ≤ 1 + 1e-10
  · rw [max_eq_right h]
    have h2 : (th - tc) / (tc + t) ≤ 1e-10 := by linarith [e ▸ h]
    rw [div_le_iff₀ ht] at h2
    rw [min_eq_right (by norm_num at h2 ⊢; linarith)]
    norm_num
    ring
  · rw [not_le] at h
    rw [max_eq_left h.le]
    have h2 : 1e-10 < (th - tc) / (tc + t) := by linarith [e ▸ h]
    have hd : 0 < th - tc := by linarith
    rw [lt_div_iff₀ ht] at h2
    rw [min_eq_left (by norm_num at h2 ⊢; linarith)]
    rw [e, div_eq_iff (by have := div_pos hd ht; linarith)]
    field_simp
    ring

/-- C57: hot and cold powers of a receiver with any positive gains, at any bias points: the analysis
returns the gain at every point, and the noise temperature at every point up to the largest value that
the smallest Y-factor allows, `1e10 (th - tc) - tc`. Missing: noise temperatures beyond that, which the
code replaces by it. -/
theorem C57_recovers_partial (o : TnOpts) (vgap th tc : ℝ) (l : Receiver) (ho : Loads o th tc)
    (hT : tc < th) (hl : ∀ p ∈ l, 0 < p.2.1 ∧ 0 < tc + p.2.2) (tn gain : List Flt) (idx : ℕ)
    (h : findTnGain o vgap (hotOf (l.powers th tc)) (coldOf (l.powers th tc)) = .ok (tn, gain, idx)) :
    gain = l.map (fun p => num p.2.1) ∧
    tn = l.map (fun p => num (min p.2.2 ((th - tc) * 1e10 - tc))) ∧
    ((∀ p ∈ l, p.2.2 ≤ (th - tc) * 1e10 - tc) → tn = l.map fun p => num p.2.2) := by
  obtain ⟨f, hf, hh, hc⟩ := ho
  rw [findTnGain_eq o vgap _ hf hh hc] at h
  obtain ⟨i, -, h⟩ := bind_ok_iff.1 h
  have he := pure_ok_iff.1 h
  simp only [Prod.mk.injEq] at he
  obtain ⟨rfl, rfl, -⟩ := he
  have e1 : (l.powers th tc).map (fun p => noiseTemp th tc (num p.2.1) (num p.2.2))
      = l.map (fun p => num (min p.2.2 ((th - tc) * 1e10 - tc))) := by
    unfold Receiver.powers
    rw [List.map_map]
    exact List.map_congr_left fun p hp => recovered hT (hl p hp).1.ne' (hl p hp).2
  refine ⟨?_, e1, fun hb => ?_⟩
  · unfold Receiver.powers
    rw [List.map_map]
    apply List.map_congr_left
    intro p hp
    simp only [Function.comp]
    rw [gainOf_num _ _ _ _ hT.ne', num_inj, div_eq_iff (by linarith)]
    ring
  · rw [e1]
    apply List.map_congr_left
    intro p hp
    rw [min_eq_left (hb p hp)]

/-- C57 is false for a receiver with more noise than that. -/
theorem C57_false_noisy (o : TnOpts) (vgap th tc : ℝ) (ho : Loads o th tc) (h0 : 0 < tc) (hT : tc < th)
    (g t : ℝ) (hg : 0 < g) (ht : (th - tc) * 1e10 < t) (tn gain : List Flt) (idx : ℕ)
    (h : findTnGain o vgap (hotOf (Receiver.powers [(0, g, t)] th tc))
      (coldOf (Receiver.powers [(0, g, t)] th tc)) = .ok (tn, gain, idx)) : tn ≠ [num t] := by
  have ht0 : 0 < t := by
    have : 0 < (th - tc) * 1e10 := mul_pos (by linarith) (by norm_num)
    linarith
  have := (C57_recovers_partial o vgap th tc [(0, g, t)] ho hT (by
    intro p hp
    rw [List.mem_singleton.1 hp]
    exact ⟨hg, by simp only; linarith⟩) tn gain idx h).2.1
  rw [this]
  simp only [List.map_cons, List.map_nil, ne_eq, List.cons.injEq, and_true, num_inj]
  rw [min_eq_right (by linarith)]
  linarith

/-- C57: powers that were not measured at the same bias voltages are refused, and so is a missing bias voltage: if the analysis
succeeds, hot and cold data of the same length have the same voltages, none of them NaN. -/
theorem C57_voltages (o : TnOpts) (vgap : ℝ) (hot cold : List (Flt × Flt)) (hl : hot.length = cold.length)
    (r : List Flt × List Flt × ℕ) (h : findTnGain o vgap hot cold = .ok r) :
    hot.map Prod.fst = cold.map Prod.fst ∧ none ∉ hot.map Prod.fst := by
  have key : ∀ a b : List Flt, a.length = b.length → true ∉ List.zipWith fne a b → a = b ∧ none ∉ a := by
    intro a
    induction a with
    | nil =>
      intro b hl _
      have : b = [] := List.length_eq_zero_iff.1 hl.symm
      subst this
      simp
    | cons x a ih =>
      intro b hl hn
      cases b with
      | nil => simp at hl
      | cons y b =>
        simp only [List.zipWith_cons_cons, List.mem_cons, not_or] at hn
        obtain ⟨i1, i2⟩ := ih b (by simpa using hl) hn.2
        have hxy : x = y ∧ none ≠ x := by
          have := hn.1
          unfold fne at this
          cases x with
          | none => simp at this
          | some x =>
            cases y with
            | none => simp at this
            | some y =>
              simp at this
              rw [this]
              simp
        refine ⟨by rw [hxy.1, i1], ?_⟩
        rw [List.mem_cons, not_or]
        exact ⟨hxy.2, i2⟩
  unfold findTnGain at h
  obtain ⟨f, -, h⟩ := bind_ok_iff.1 h
  obtain ⟨th, -, h⟩ := bind_ok_iff.1 h
  obtain ⟨tc, -, h⟩ := bind_ok_iff.1 h
  obtain ⟨ne, hne, h⟩ := bind_ok_iff.1 h
  obtain ⟨_, ha, -⟩ := bind_ok_iff.1 h
  have hn : true ∉ ne := by
    intro hc
    unfold pyAssert at ha
    rw [if_neg (not_not.2 hc)] at ha
    cases ha
  unfold zip at hne
  rw [if_pos (by simpa using hl)] at hne
  rw [← Except.ok.inj hne] at hn
  exact key _ _ (by simpa using hl) hn

/-- C57: a bias point without any power (outside of the measured range) has no noise temperature. -/
theorem C57_no_power (th tc : ℝ) (hc : 0 < tc) : noiseTemp th tc (num 0) (num 0) = none :=
  noiseTemp_zero_hot le_rfl hc

/-- C57: with the rule "max gain" (in any capitalisation) the reported point is one of the bias points
and no other has more gain. For all powers. -/
theorem C57_max_gain (o : TnOpts) (vgap th tc : ℝ) (l : Meas) (ho : Loads o th tc) (hT : tc < th)
    (hv : o.vbest = none) (hb : MathFn.lower o.bestPt = "max gain".toList) (tn gain : List Flt) (idx : ℕ)
    (h : findTnGain o vgap (hotOf l) (coldOf l) = .ok (tn, gain, idx)) :
    ∃ p, l[idx]? = some p ∧ ∀ q ∈ l, q.2.1 - q.2.2 ≤ p.2.1 - p.2.2 := by
  obtain ⟨f, hf, hh, hc⟩ := ho
  rw [findTnGain_eq o vgap _ hf hh hc] at h
  obtain ⟨i, hi, h⟩ := bind_ok_iff.1 h
  have he := pure_ok_iff.1 h
  simp only [Prod.mk.injEq] at he
  obtain ⟨-, -, rfl⟩ := he
  unfold bestPoint at hi
  rw [hv] at hi
  simp only at hi
  rw [if_pos hb] at hi
  have e : (l.map fun p => gainOf th tc (num p.2.1) (num p.2.2))
      = l.map fun p => num ((p.2.1 - p.2.2) / (th - tc)) :=
    List.map_congr_left fun p _ => gainOf_num _ _ _ _ hT.ne'
  rw [e] at hi
  obtain ⟨b, hb1, hb2⟩ := argmaxF_spec hi (by
    intro hm
    obtain ⟨p, -, hp⟩ := List.mem_map.1 hm
    exact num_ne_none _ hp)
  rw [List.getElem?_map, Option.map_eq_some_iff] at hb1
  obtain ⟨p, hp, rfl⟩ := hb1
  refine ⟨p, hp, fun q hq => ?_⟩
  have := hb2 _ (List.mem_map_of_mem hq)
  rw [flt_num, not_lt, div_le_div_iff_of_pos_right (by linarith)] at this
  exact this

/-- C57: with the rule "min tn" the reported point has a noise temperature, and no other point has a
smaller one. For all powers. -/
theorem C57_min_tn (o : TnOpts) (vgap th tc : ℝ) (l : Meas) (ho : Loads o th tc) (h0 : 0 < tc)
    (hl : ∀ p ∈ l, 0 ≤ p.2.1)
    (hv : o.vbest = none) (hb : MathFn.lower o.bestPt = "min tn".toList) (tn gain : List Flt) (idx : ℕ)
    (h : findTnGain o vgap (hotOf l) (coldOf l) = .ok (tn, gain, idx)) :
    ∃ t : ℝ, tn[idx]? = some (num t) ∧ ∀ s : ℝ, num s ∈ tn → t ≤ s := by
  obtain ⟨f, hf, hh, hc⟩ := ho
  rw [findTnGain_eq o vgap _ hf hh hc] at h
  obtain ⟨i, hi, h⟩ := bind_ok_iff.1 h
  have he := pure_ok_iff.1 h
  simp only [Prod.mk.injEq] at he
  obtain ⟨htn, -, rfl⟩ := he
  rw [htn] at hi
  have hreal : ∀ t ∈ tn, t = none ∨ ∃ a : ℝ, t = num a := by
    intro t ht
    rw [← htn] at ht
    obtain ⟨p, hp, rfl⟩ := List.mem_map.1 ht
    by_cases hz : p.2.2 = 0
    · rw [hz]; exact Or.inl (noiseTemp_zero_hot (hl p hp) h0)
    · exact Or.inr ⟨_, noiseTemp_num th tc hz⟩
  unfold bestPoint at hi
  rw [hv] at hi
  simp only at hi
  rw [if_neg (by rw [hb]; decide), if_pos hb] at hi
  obtain ⟨best, hbest, hi⟩ := bind_ok_iff.1 hi
  obtain ⟨hm, hle⟩ := amin_spec hbest (by simp [notNan])
  obtain ⟨hm', hnn⟩ := List.mem_filter.1 hm
  obtain ⟨b, rfl⟩ : ∃ b : ℝ, best = num b := by
    rcases hreal best hm' with rfl | h
    · cases hnn
    · exact h
  unfold nanargmin at hi
  rw [raiseIf_neg] at hi
  · obtain ⟨c, hc1, hc2⟩ := argminF_spec hi (by simp)
    have hz := hc2 (some 0) (by
      rw [List.mem_map]
      refine ⟨num 0, ?_, rfl⟩
      rw [List.mem_map]
      exact ⟨num b, hm', by rw [fsub_num, sub_self, fabs_num, abs_zero]⟩)
    rw [List.getElem?_map, Option.map_eq_some_iff] at hc1
    obtain ⟨d, hd, rfl⟩ := hc1
    rw [List.getElem?_map, Option.map_eq_some_iff] at hd
    obtain ⟨t, ht, rfl⟩ := hd
    rcases hreal t (List.mem_of_getElem? ht) with rfl | ⟨a, rfl⟩
    · exfalso
      apply hz
      rw [fsub_none_left]
      exact EReal.zero_lt_top
    · have hab : a = b := by
        by_contra hne
        apply hz
        rw [fsub_num, fabs_num]
        change (0 : EReal) < ((|a - b| : ℝ) : EReal)
        exact_mod_cast abs_pos.2 (sub_ne_zero.2 hne)
      refine ⟨a, ht, fun s hs => ?_⟩
      have := hle (num s) (List.mem_filter.2 ⟨hs, rfl⟩)
      rw [fle_num] at this
      rw [hab]; exact this
  · intro hall
    have := hall (fabs (fsub (num b) (num b))) (List.mem_map_of_mem hm')
    rw [fsub_num, fabs_num] at this
    exact num_ne_none _ this

/-- C57: if the user gives a bias voltage, the reported point is the one closest to it, whatever the
rule. -/
theorem C57_vbest (o : TnOpts) (vgap th tc vb : ℝ) (l : Meas) (ho : Loads o th tc)
    (hv : o.vbest = some vb) (tn gain : List Flt) (idx : ℕ)
    (h : findTnGain o vgap (hotOf l) (coldOf l) = .ok (tn, gain, idx)) :
    ∃ p, l[idx]? = some p ∧ ∀ q ∈ l, |p.1 * vgap - vb| ≤ |q.1 * vgap - vb| := by
  obtain ⟨f, hf, hh, hc⟩ := ho
  rw [findTnGain_eq o vgap _ hf hh hc] at h
  obtain ⟨i, hi, h⟩ := bind_ok_iff.1 h
  have he := pure_ok_iff.1 h
  simp only [Prod.mk.injEq] at he
  obtain ⟨-, -, rfl⟩ := he
  unfold bestPoint at hi
  rw [hv] at hi
  simp only [List.map_map] at hi
  have e : (l.map ((fun a => fabs (fsub (fmul a (num vgap)) (num vb))) ∘ fun p => num p.1))
      = l.map fun p => num |p.1 * vgap - vb| :=
    List.map_congr_left fun p _ => by
      simp only [Function.comp]
      rw [fmul_num, fsub_num, fabs_num]
  rw [e] at hi
  obtain ⟨b, hb1, hb2⟩ := argminF_spec hi (by
    intro hm
    obtain ⟨p, -, hp⟩ := List.mem_map.1 hm
    exact num_ne_none _ hp)
  rw [List.getElem?_map, Option.map_eq_some_iff] at hb1
  obtain ⟨p, hp, rfl⟩ := hb1
  refine ⟨p, hp, fun q hq => ?_⟩
  have := hb2 _ (List.mem_map_of_mem hq)
  rw [flt_num, not_lt] at this
  exact this

/-- C57: the analysis returns for every non-empty measurement if the user gives a bias voltage or
chooses the maximum gain; without a frequency it raises `TypeError`, with an unknown rule
`ValueError`. -/
theorem C57_returns (o : TnOpts) (vgap : ℝ) (l : Meas) (hl : l ≠ []) :
    (∀ th tc, Loads o th tc →
      (o.vbest ≠ none ∨ MathFn.lower o.bestPt = "max gain".toList) →
      ∃ r, findTnGain o vgap (hotOf l) (coldOf l) = .ok r) ∧
    (o.freq = none → findTnGain o vgap (hotOf l) (coldOf l) = .error .type) ∧
    (∀ th tc, Loads o th tc → o.vbest = none → MathFn.lower o.bestPt ≠ "max gain".toList →
      MathFn.lower o.bestPt ≠ "min tn".toList →
      findTnGain o vgap (hotOf l) (coldOf l) = .error .value) := by
  refine ⟨?_, ?_, ?_⟩
  · rintro th tc ⟨f, hf, hh, hc⟩ hr
    rw [findTnGain_eq o vgap _ hf hh hc]
    suffices hs : ∀ v tn gain : List Flt, v ≠ [] → gain ≠ [] → ∃ i, bestPoint o vgap v tn gain = .ok i by
      obtain ⟨i, hi⟩ := hs (l.map fun p => num p.1)
        (l.map fun p => noiseTemp th tc (num p.2.1) (num p.2.2))
        (l.map fun p => gainOf th tc (num p.2.1) (num p.2.2)) (by simpa using hl) (by simpa using hl)
      rw [hi]
      exact ⟨_, rfl⟩
    intro v tn gain hv hg
    unfold bestPoint
    cases hvb : o.vbest with
    | some vb => exact argBest_ok (by simpa using hv)
    | none =>
      rcases hr with hr | hr
      · exact absurd hvb hr
      · simp only
        rw [if_pos hr]
        exact argBest_ok hg
  · intro hf
    unfold findTnGain
    dsimp only
    rw [hf]
    rfl
  · rintro th tc ⟨f, hf, hh, hc⟩ hv h1 h2
    rw [findTnGain_eq o vgap _ hf hh hc]
    unfold bestPoint
    rw [hv]
    simp only
    rw [if_neg h1, if_neg h2]
    rfl

/-- The default rule and loads at 230 GHz, three bias points: the hypotheses are met. -/
example : ∃ th tc, Loads ⟨some 230, 293, 78, none, "Max Gain"⟩ th tc ∧ tc < th ∧
    ∃ r, findTnGain ⟨some 230, 293, 78, none, "Max Gain"⟩ 2.8e-3
      (hotOf (Receiver.powers [(0, 1, 50), (1, 2, 40), (2, 0.5, 60)] th tc))
      (coldOf (Receiver.powers [(0, 1, 50), (1, 2, 40), (2, 0.5, 60)] th tc)) = .ok r := by
  obtain ⟨th, tc, h, -, hT⟩ := loads_exist ⟨some 230, 293, 78, none, "Max Gain"⟩ rfl (by norm_num)
    (by norm_num) (by norm_num)
  exact ⟨th, tc, h, hT, (C57_returns _ _ _ (by simp [Receiver.powers])).1 th tc h
    (Or.inr (by decide))⟩

end QMix.IfData
