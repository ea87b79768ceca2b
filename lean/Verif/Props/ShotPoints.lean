import Verif.Lemmas.ShotPoints

/-!
# Which points the shot noise is fitted to (C162)
-/

namespace QMix.IfData

open Np Fl Clean IvData Spec

/-- Samples in calibrated units: voltage in mV, power in K. -/
noncomputable def calibrated (vgap c : ℝ) (x y : List ℝ) (l : List ℕ) : List (ℝ × ℝ) :=
  l.map fun i => (x.getD i 0 * vgap * 1000, y.getD i 0 * c)

/-- The calibration from the samples `l`: the factor `c` is the only one for which the best line through these samples
rises by 5.8 K/mV; this line is returned. -/
structure CalibratedFrom (vgap : ℝ) (x y line : List ℝ) (c : ℝ) (l : List ℕ) : Prop where
  two : ∃ i ∈ l, ∃ j ∈ l, x.getD i 0 ≠ x.getD j 0
  best : ∃ b, LeastSquares (calibrated vgap c x y l) 5.8 b ∧ line = (inMv vgap x).map fun v => 5.8 * v + b
  only : ∀ c' b, LeastSquares (calibrated vgap c' x y l) 5.8 b → c' = c

theorem calibrated_from {R : Routines} {o : IfOpts} {dc : DCIV} {x y : List ℝ} {n c : ℝ} {line : List ℝ}
    {good : Bool} (h : findIfNoise R o dc x y = .ok (n, c, line, good)) {m : List Bool} {f : ℕ → Bool} {l : List ℕ}
    (hm : shotMask R o dc.vgap x y = .ok m) (hf : (if m.count true < 5 then x.map fun t => decide (2 < t) else m) =
      tab x.length f) (hl : l = (List.range x.length).filter f) : CalibratedFrom dc.vgap x y line c l := by
  obtain ⟨mask, m0, h0, h1, l1, l2, ⟨p, hp, q, hq, hne⟩, hs, hg, -, hc, hli, -, -⟩ := findIfNoise_ok h
  rw [hm] at h0
  obtain rfl := Except.ok.inj h0
  rw [hf] at h1
  subst h1
  have hlen : y.length = x.length := by rw [l2, ← l1]
  have hch := chosen_range f x y hlen
  rw [← hl] at hch
  have hcal : ∀ c, calibrated dc.vgap c x y l = inKelvin dc.vgap c (chosen (tab x.length f) x y) := by
    intro c
    rw [hch]
    unfold calibrated inKelvin
    rw [List.map_map]
    rfl
  refine ⟨?_, ⟨(closedForm (chosen (tab x.length f) x y)).2 * c, ?_, ?_⟩, ?_⟩
  · rw [hch] at hp hq
    obtain ⟨i, hi, rfl⟩ := List.mem_map.1 hp
    obtain ⟨j, hj, rfl⟩ := List.mem_map.1 hq
    exact ⟨i, hi, j, hj, hne⟩
  · rw [hcal]
    exact kelvin_best hc hs hg fun r => closedForm_best _ _
  · rw [hli]
    unfold inMv
    rw [List.map_map]
    apply List.map_congr_left
    intro t _
    simp only [Function.comp_apply]
    rw [add_mul]
    congr 1
    rw [hc]
    field_simp
    norm_num
  · intro c' b hb
    rw [hcal] at hb
    by_cases hc0 : c' = 0
    · -- all powers zero: the best line is flat
      exfalso
      subst hc0
      have h3 := hb 0 0
      have z : sumSq (inKelvin dc.vgap 0 (chosen (tab x.length f) x y)) 0 0 = 0 := by
        unfold sumSq inKelvin
        rw [List.map_map]
        apply List.sum_eq_zero
        intro t ht
        obtain ⟨q, -, rfl⟩ := List.mem_map.1 ht
        simp
      rw [z] at h3
      have all : ∀ q ∈ chosen (tab x.length f) x y, 5.8 * (q.1 * dc.vgap * 1000) + b = 0 := by
        intro q hq
        have h4 := List.single_le_sum (l := (inKelvin dc.vgap 0 (chosen (tab x.length f) x y)).map
          fun q => (q.2 - (5.8 * q.1 + b)) ^ 2)
          (by intro t ht; obtain ⟨q, -, rfl⟩ := List.mem_map.1 ht; positivity) _
          (List.mem_map_of_mem (List.mem_map_of_mem hq))
        have h5 : (q.2 * 0 - (5.8 * (q.1 * dc.vgap * 1000) + b)) ^ 2 ≤ 0 := h4.trans h3
        have h6 := pow_eq_zero_iff (two_ne_zero) |>.1 (le_antisymm h5 (sq_nonneg _))
        linarith
      have e1 := all p hp
      have e2 := all q hq
      have : (p.1 - q.1) * dc.vgap = 0 := by linarith
      rcases mul_eq_zero.1 this with h | h
      · exact hne (by linarith)
      · exact hg h
    · have hbest : ∀ r, resid (chosen (tab x.length f) x y) (5.8 * dc.vgap * 1000 / c', b / c') ≤
          resid (chosen (tab x.length f) x y) r := by
        intro r
        have h3 := hb (r.1 * c' / (dc.vgap * 1000)) (r.2 * c')
        rw [sumSq_kelvin _ _ hc0, sumSq_kelvin _ _ hc0] at h3
        have h4 := le_of_mul_le_mul_left h3 (by positivity)
        have e : (r.1 * c' / (dc.vgap * 1000) * dc.vgap * 1000 / c', r.2 * c' / c') = r := by
          apply Prod.ext
          · dsimp only
            field_simp
          · dsimp only
            field_simp
        rw [e] at h4
        exact h4
      have e := best_line_unique (closedForm_best _) hbest ⟨p, hp, q, hq, hne⟩
      have e1 := congrArg Prod.fst e
      dsimp only at e1
      rw [hc, e1]
      field_simp
      norm_num

theorem count_tab (N : ℕ) (f : ℕ → Bool) : (tab N f).count true = ((List.range N).filter f).length := by
  rw [tab_range, List.count, List.countP_map, List.countP_eq_length_filter]
  congr 2
  funext t
  simp

open Classical in
theorem above_tab (x : List ℝ) : (x.map fun t => decide (2 < t)) =
    tab x.length fun i => decide (∃ a, x[i]? = some a ∧ 2 < a) := by
  conv_lhs => rw [eq_tab x 0, map_tab]
  apply tab_ext rfl
  intro i hi
  rw [getElem?_getD hi]
  simp

/-- C162: with ranges given by the user, the calibration uses exactly the samples strictly inside one of them; if there
are fewer than five, those above twice the gap voltage. -/
theorem C162_given (R : Routines) (o : IfOpts) (dc : DCIV) (x y : List ℝ) (l : List (ℝ × ℝ)) (n c : ℝ)
    (line : List ℝ) (good : Bool) (hl : Given o l) (h : findIfNoise R o dc x y = .ok (n, c, line, good)) :
    CalibratedFrom dc.vgap x y line c (usedGiven l dc.vgap x) := by
  classical
  have em : (x.map fun t => decide (Inside l (t * dc.vgap))) = tab x.length fun i =>
      decide (∃ a, x[i]? = some a ∧ ∃ r ∈ l, r.1 < a * dc.vgap ∧ a * dc.vgap < r.2) := by
    conv_lhs => rw [eq_tab x 0, map_tab]
    apply tab_ext rfl
    intro i hi
    rw [getElem?_getD hi]
    simp [Inside]
  have hm := shotMask_given (R := R) hl dc.vgap x y
  rw [em] at hm
  by_cases h5 : ((List.range x.length).filter fun i =>
      decide (∃ a, x[i]? = some a ∧ ∃ r ∈ l, r.1 < a * dc.vgap ∧ a * dc.vgap < r.2)).length < 5
  · refine calibrated_from h hm (by rw [if_pos (by rw [count_tab]; convert h5), above_tab]) ?_
    unfold usedGiven
    rw [if_pos h5]
  · refine calibrated_from h hm (by rw [if_neg (by rw [count_tab]; convert h5)]) ?_
    unfold usedGiven
    rw [if_neg h5]
    congr!

/-- C162: without ranges, the calibration uses the straight part of the curve above 1.7 gap voltages: `d` is the
smoothed slope of the smoothed power, `e` the smoothed size of the slope of `d`, and a sample is used if it and the
next one have a curvature of less than a hundredth of the largest and a slope between zero and twice the median. If
there are fewer than five of them, the samples above twice the gap voltage are used. -/
theorem C162_auto (R : Routines) (o : IfOpts) (dc : DCIV) (x y : List ℝ) (n c : ℝ) (line : List ℝ) (good : Bool)
    (ho : o.vshot = .auto) (h : findIfNoise R o dc x y = .ok (n, c, line, good)) :
    ∃ yf d₀ d e₀ e top med, R.savgol y 21 3 = .ok yf ∧ MathFn.slopeSpanN x yf 11 true = .ok d₀ ∧
      R.savgol d₀ 51 3 = .ok d ∧ MathFn.slopeSpanN x d 11 true = .ok e₀ ∧
      R.savgol (e₀.map fun t => |t|) 51 3 = .ok e ∧ (∃ t ∈ e, |t| = top) ∧ (∀ t ∈ e, |t| ≤ top) ∧
      (∀ l : List ℕ, l.Pairwise (· < ·) → (∀ i, i ∈ l ↔ Flat x e top i) → l ≠ [] →
        MiddleValue (l.map fun i => d.getD i 0) med) ∧
      CalibratedFrom dc.vgap x y line c (usedAuto x d e top med) := by
  classical
  obtain ⟨-, m, hm, -⟩ := findIfNoise_ok h
  have hm' := hm
  unfold shotMask at hm'
  rw [ho] at hm'
  change autoMask R x y = _ at hm'
  unfold autoMask at hm'
  obtain ⟨yf, h1, hm'⟩ := bind_ok_iff.1 hm'
  obtain ⟨d₀, h2, hm'⟩ := bind_ok_iff.1 hm'
  obtain ⟨d, h3, hm'⟩ := bind_ok_iff.1 hm'
  obtain ⟨e₀, h4, hm'⟩ := bind_ok_iff.1 hm'
  obtain ⟨e, h5, hm'⟩ := bind_ok_iff.1 hm'
  obtain ⟨top, h6, hm'⟩ := bind_ok_iff.1 hm'
  have hd : d.length = x.length := by rw [R.savgol_length _ _ _ _ h3, (Props.C49_length_nozeros h2).1]
  have he : e.length = x.length := by
    rw [R.savgol_length _ _ _ _ h5, List.length_map, (Props.C49_length_nozeros h4).1]
  have hN : 1 ≤ x.length := by
    by_contra hh
    have : e = [] := List.length_eq_zero_iff.1 (by omega)
    rw [this] at h6
    cases h6
  have ht := auto_tail hN (x.getD · 0) (d.getD · 0) (e.getD · 0) top (mask := m) (by
    have ex : (tab x.length fun i => x.getD i 0) = x := (eq_tab x 0).symm
    have ed : (tab x.length fun i => d.getD i 0) = d := by rw [← hd]; exact (eq_tab d 0).symm
    have ee : (tab x.length fun i => e.getD i 0) = e := by rw [← he]; exact (eq_tab e 0).symm
    rw [ex, ed, ee]
    exact hm')
  obtain ⟨med, hmed, hmask⟩ := ht
  refine ⟨yf, d₀, d, e₀, e, top, med, h1, h2, h3, h4, h5, ?_, ?_, ?_, ?_⟩
  · obtain ⟨t, ht, he⟩ := List.mem_map.1 (amax_mem h6)
    exact ⟨t, ht, he⟩
  · intro t ht
    exact (amax_le h6 top).1 le_rfl _ (List.mem_map_of_mem ht)
  · intro l hl hiff hne
    have flat : ∀ i, Flat x e top i ↔ i < x.length ∧ 1.7 < x.getD i 0 ∧ |e.getD i 0| < top / 100 := by
      intro i
      unfold Flat
      by_cases hi : i < x.length
      · rw [getElem?_getD hi, getElem?_getD (by omega : i < e.length)]
        simp [hi]
      · rw [List.getElem?_eq_none (by omega)]
        simp [hi]
    have el : l = (List.range x.length).filter fun i => decide (1.7 < x.getD i 0 ∧ |e.getD i 0| < top / 100) := by
      apply List.Pairwise.eq_of_mem_iff (r := (· < ·)) hl
      · exact List.Pairwise.filter _ List.pairwise_lt_range
      · intro i
        rw [hiff, flat, List.mem_filter, List.mem_range, decide_eq_true_iff]
    rw [el]
    apply hmed
    obtain ⟨i, hi⟩ := List.exists_mem_of_ne_nil l hne
    exact ⟨i, (flat i).1 ((hiff i).1 hi)⟩
  · have em : m = tab x.length fun i => decide (Straight x d e top med i ∧ Straight x d e top med (i + 1)) := by
      rw [hmask]
      apply tab_ext rfl
      intro i hi
      rw [decide_eq_decide, straight_iff hd he, straight_iff hd he]
      constructor
      · rintro ⟨a, b, c⟩; exact ⟨⟨hi, b⟩, a, c⟩
      · rintro ⟨⟨-, b⟩, a, c⟩; exact ⟨a, b, c⟩
    rw [em] at hm
    by_cases hc : ((List.range x.length).filter fun i =>
        decide (Straight x d e top med i ∧ Straight x d e top med (i + 1))).length < 5
    · refine calibrated_from h hm (by rw [if_pos (by rw [count_tab]; convert hc), above_tab]) ?_
      unfold usedAuto
      rw [if_pos hc]
    · refine calibrated_from h hm (by rw [if_neg (by rw [count_tab]; convert hc)]) ?_
      unfold usedAuto
      rw [if_neg hc]

/-- C162: `dcif_data` with ranges given by the user is calibrated on the samples of its own result that are inside. -/
theorem C162_dc (R : Routines) (o : IfOpts) (dc : DCIV) (data : IfResp.Input) (l : List (ℝ × ℝ)) (d : List ℝ × List ℝ)
    (out : DCIF) (hl : Given o l) (h : dcifData R o dc data = .ok (d, out)) :
    ∃ raw c line, loadIf R.sorter o dc data = .ok raw ∧ d = (raw.1, raw.2.map (· * c)) ∧ out.corr = some c ∧
      out.shotSlope = raw.1.zip line ∧ CalibratedFrom dc.vgap raw.1 raw.2 line c (usedGiven l dc.vgap raw.1) := by
  unfold dcifData at h
  obtain ⟨raw, hraw, h⟩ := bind_ok_iff.1 h
  obtain ⟨⟨n, c, line, good⟩, hn, h⟩ := bind_ok_iff.1 h
  obtain ⟨vm, hvm, h⟩ := bind_ok_iff.1 h
  have he := pure_ok_iff.1 h
  simp only [Prod.mk.injEq] at he
  obtain ⟨rfl, rfl⟩ := he
  exact ⟨raw, c, line, hraw, rfl, rfl, rfl, C162_given R o dc raw.1 raw.2 l n c line good hl hn⟩

/-- A ramp with the range 2 mV to 1 V given. -/
example (R : Routines) : ∃ n c line good, findIfNoise R above2 (junction 0.003 0) ramp ramp = .ok (n, c, line, good) ∧
    CalibratedFrom 0.003 ramp ramp line c (usedGiven [(0.002, 1)] 0.003 ramp) := by
  obtain ⟨n, good, h, -⟩ := ramp_calibrated R 0
  exact ⟨n, _, _, good, h, C162_given R above2 (junction 0.003 0) ramp ramp [(0.002, 1)] n _ _ good
    (Or.inr ⟨_, _, rfl, rfl⟩) h⟩

/-- A parabola without ranges. -/
example (o : IfOpts) (ho : o.vshot = .auto) : ∃ n c line good l,
    findIfNoise ideal o (junction 0.003 0) eighteen squares = .ok (n, c, line, good) ∧
    CalibratedFrom 0.003 eighteen squares line c l := by
  obtain ⟨n, c, line, good, h⟩ := squares_calibrated o ho
  obtain ⟨_, _, d, _, e, top, med, -, -, -, -, -, -, -, -, hc⟩ :=
    C162_auto ideal o (junction 0.003 0) eighteen squares n c line good ho h
  exact ⟨n, c, line, good, _, h, hc⟩

end QMix.IfData
