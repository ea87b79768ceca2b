import Verif.Props.IfNoise3

/-!
# Properties of `qmix/exp/if_data.py`: smoothing (C88) and calibration (C89)
-/

namespace QMix.IfData

open Np Fl Clean IvData

/-! ## Smoothing -/

/-- C88: smoothing with a width `s` is `gauss_conv` of the result without smoothing, with the width in steps of the
voltage grid. A width above 0.5 is taken as a number of steps. -/
theorem C88_smooth (S : Sorter) (o : IfOpts) (dc : DCIV) (m : Mat) (r : List ℝ × List ℝ) (hc : m.ncol = 2) (hw : m.WF)
    (s : ℝ) (hs : o.sigma = some s) (h : loadIf S o dc (.matrix m) = .ok r) :
    o.vmax ≠ 0 ∧ 2 ≤ o.npts ∧ ∃ q, loadIf S { o with sigma := none } dc (.matrix m) = .ok (r.1, q) ∧
      MathFn.gaussConv q (if 0.5 < s then s else s / (o.vmax / (o.npts - 1 : ℤ))) 3 = .ok r.2 := by
  have hgrid := C88_grid S o dc m r hc hw h
  rw [loadIf_eq S _ dc hc hw] at h ⊢
  obtain ⟨u, hu, h⟩ := bind_ok_iff.1 h
  obtain ⟨x, hs1, h⟩ := bind_ok_iff.1 h
  obtain ⟨v, hv, h⟩ := bind_ok_iff.1 h
  obtain ⟨p, hp, h⟩ := bind_ok_iff.1 h
  dsimp only
  rw [hu, py_bind, hs1, py_bind, hv, py_bind, hp, py_bind]
  unfold resample at h ⊢
  obtain ⟨v1, hv1, h⟩ := bind_ok_iff.1 h
  obtain ⟨vn, hvn, h⟩ := bind_ok_iff.1 h
  obtain ⟨top, ht, h⟩ := bind_ok_iff.1 h
  obtain ⟨vout, hv, h⟩ := bind_ok_iff.1 h
  obtain ⟨pout, hp1, h⟩ := bind_ok_iff.1 h
  obtain ⟨ps, hps, h⟩ := bind_ok_iff.1 h
  obtain rfl := Except.ok.inj h
  dsimp only
  rw [hv1, py_bind, hvn, py_bind, ht, py_bind, hv, py_bind, hp1, py_bind]
  rw [hs] at hps
  unfold smoothIf at hps
  dsimp only at hps
  obtain ⟨a1, ha1, hps⟩ := bind_ok_iff.1 hps
  obtain ⟨a0, ha0, hps⟩ := bind_ok_iff.1 hps
  obtain ⟨w, hw, hps⟩ := bind_ok_iff.1 hps
  obtain ⟨hg, l1, -, hk⟩ := hgrid
  obtain ⟨hn, rfl⟩ := linspace_ok hv
  dsimp only at l1 hk
  have h2 : 1 < o.npts.toNat := by
    by_contra hlt
    have hi : ¬ ∃ i, pyIndex (tab o.npts.toNat fun i : ℕ => 0 + (i : ℝ) * ((top - 0) / (o.npts - 1 : ℤ))).length 1 = .ok i := by
      rw [pyIndex_ok_iff, tab_length]
      omega
    unfold pyGet at ha1
    split at ha1
    · cases ha1
    · next i hi' => exact hi ⟨i, hi'⟩
  rw [pyGet_tab _ (pyIndex_nonneg (by omega) (by omega))] at ha1 ha0
  obtain rfl := Except.ok.inj ha1
  obtain rfl := Except.ok.inj ha0
  obtain ⟨htop, rfl⟩ := fdiv_inv ht
  obtain ⟨hz, rfl⟩ := fdiv_inv hw
  have e : (0 + ((1 : ℤ).toNat : ℝ) * ((o.vmax / dc.vgap - 0) / (o.npts - 1 : ℤ)) -
      (0 + ((0 : ℤ).toNat : ℝ) * ((o.vmax / dc.vgap - 0) / (o.npts - 1 : ℤ)))) * dc.vgap =
      o.vmax / (o.npts - 1 : ℤ) := by
    simp only [Int.toNat_one, Int.toNat_zero, Nat.cast_one, Nat.cast_zero]
    field_simp
    ring
  rw [e] at hz hps
  have hv0 : o.vmax ≠ 0 := by
    intro h0
    rw [h0, zero_div] at hz
    exact hz rfl
  refine ⟨hv0, by omega, pout, rfl, ?_⟩
  rw [← hps]
  congr 1
  split_ifs
  · rw [mul_div_cancel_right₀ _ hz]
  · rfl

/-! ## Calibration (C89) -/

/-- C89: what the dc analysis returns is the loaded data times the correction factor; the points it was fitted to
now rise by 5.8 K per mV; and the metadata describes this line and the largest voltage. -/
theorem C89_dc (R : Routines) (o : IfOpts) (dc : DCIV) (data : IfResp.Input) (d : List ℝ × List ℝ) (out : DCIF)
    (h : dcifData R o dc data = .ok (d, out)) :
    ∃ c raw P b, loadIf R.sorter o dc data = .ok raw ∧ d = (raw.1, raw.2.map (· * c)) ∧ out.corr = some c ∧
      P.Sublist ((inMv dc.vgap d.1).zip d.2) ∧ (∃ p ∈ P, ∃ q ∈ P, p.1 ≠ q.1) ∧ LeastSquares P 5.8 b ∧
      out.shotSlope = d.1.zip ((inMv dc.vgap d.1).map fun v => 5.8 * v + b) ∧
      (out.ifFit = true ↔ 0 < out.ifNoise ∧ out.ifNoise < 50) ∧
      ∃ v ∈ d.1, out.vmax = v * dc.vgap ∧ ∀ w ∈ d.1, w ≤ v := by
  unfold dcifData at h
  obtain ⟨raw, hraw, h⟩ := bind_ok_iff.1 h
  obtain ⟨⟨n, c, line, good⟩, hn, h⟩ := bind_ok_iff.1 h
  obtain ⟨vm, hvm, h⟩ := bind_ok_iff.1 h
  have he := pure_ok_iff.1 h
  simp only [Prod.mk.injEq] at he
  obtain ⟨rfl, rfl⟩ := he
  obtain ⟨P, b, h1, h2, h3, h4, h5⟩ := C59_slope R o dc raw.1 raw.2 n c line good hn
  dsimp only
  refine ⟨c, raw, P, b, hraw, rfl, rfl, h1, h2, h3, ?_, h5, vm, amax_mem hvm, rfl, fun w hw => (amax_le hvm vm).1 le_rfl w hw⟩
  rw [h4]

/-- C89: without a calibration from dc data the average of the calibrated hot and cold data rises by 5.8 K per
mV. -/
theorem C89_average (R : Routines) (o : IfOpts) (t : TnOpts) (dc : DCIV) (dcif : Option DCIF)
    (hot cold : Mat) (h1 : hot.ncol = 2) (w1 : hot.WF) (h2 : cold.ncol = 2) (w2 : cold.WF) (res : IfResult) (idx : ℕ)
    (out : DCIF) (hd : ∀ d, dcif = some d → d.corr = none)
    (h : ifData R o t dc dcif (.matrix hot) (.matrix cold) = .ok (res, idx, out)) :
    ∃ c a b P i, loadIf R.sorter o dc (.matrix hot) = .ok (res.v, a) ∧
      loadIf R.sorter o dc (.matrix cold) = .ok (res.v, b) ∧ res.hot = a.map (· * c) ∧ res.cold = b.map (· * c) ∧
      out.corr = some c ∧
      P.Sublist ((inMv dc.vgap res.v).zip (List.zipWith (fun x y => (x + y) / 2) res.hot res.cold)) ∧
      (∃ p ∈ P, ∃ q ∈ P, p.1 ≠ q.1) ∧ LeastSquares P 5.8 i ∧
      out.shotSlope = res.v.zip ((inMv dc.vgap res.v).map fun v => 5.8 * v + i) ∧
      (out.ifFit = true ↔ 0 < out.ifNoise ∧ out.ifNoise < 50) ∧
      ∃ v ∈ res.v, out.vmax = v * dc.vgap ∧ ∀ w ∈ res.v, w ≤ v := by
  unfold ifData at h
  obtain ⟨⟨v, a⟩, ha, h⟩ := bind_ok_iff.1 h
  obtain ⟨⟨v', b⟩, hb, h⟩ := bind_ok_iff.1 h
  obtain ⟨⟨n, c, line, good⟩, hcal, h⟩ := bind_ok_iff.1 h
  obtain ⟨r, hr, h⟩ := bind_ok_iff.1 h
  obtain ⟨vm, hvm, h⟩ := bind_ok_iff.1 h
  have he := pure_ok_iff.1 h
  simp only [Prod.mk.injEq] at he
  obtain ⟨rfl, -, rfl⟩ := he
  obtain rfl : v = v' := C88_match R.sorter o dc hot cold _ _ h1 w1 h2 w2 ha hb
  have l1 := loadIf_length h1 w1 ha
  have l2 := loadIf_length h2 w2 hb
  dsimp only at l1 l2 hvm ⊢
  have hav : (do
      let x ← zip (fun a b => (a + b) / 2) v v
      let y ← zip (fun a b => (a + b) / 2) a b
      let n ← findIfNoise R o dc x y
      return (n.1, n.2.1, v.zip n.2.2.1, n.2.2.2)) = .ok (n, c, line, good) := by
    unfold calibration at hcal
    cases dcif with
    | none => exact hcal
    | some d =>
      dsimp only at hcal
      rw [hd d rfl] at hcal
      exact hcal
  obtain ⟨x, hx, hav⟩ := bind_ok_iff.1 hav
  obtain ⟨y, hy, hav⟩ := bind_ok_iff.1 hav
  obtain ⟨⟨n', c', line', good'⟩, hn, hav⟩ := bind_ok_iff.1 hav
  have he := pure_ok_iff.1 hav
  simp only [Prod.mk.injEq] at he
  obtain ⟨rfl, rfl, rfl, rfl⟩ := he
  have ex : x = v := by
    unfold Np.zip at hx
    rw [if_pos rfl] at hx
    rw [← Except.ok.inj hx, List.zipWith_self]
    conv_rhs => rw [← List.map_id v]
    apply List.map_congr_left
    intro t _
    simp
  have ey : y = List.zipWith (fun x y => (x + y) / 2) a b := by
    unfold Np.zip at hy
    rw [if_pos (by omega)] at hy
    exact (Except.ok.inj hy).symm
  obtain rfl := ex
  obtain ⟨P, i, h1, h2, h3, h4, h5⟩ := C59_slope R o dc x y n' c' line' good' hn
  refine ⟨c', a, b, P, i, ha, hb, rfl, rfl, rfl, ?_, h2, h3, ?_, h5, vm, amax_mem hvm, rfl,
    fun w hw => (amax_le hvm vm).1 le_rfl w hw⟩
  · have : (List.zipWith (fun x y => (x + y) / 2) (a.map (· * c')) (b.map (· * c'))) = y.map (· * c') := by
      rw [ey, List.zipWith_map, List.map_zipWith]
      congr 1
      funext s t
      ring
    rw [this]
    exact h1
  · rw [h4]

/-- C89: with a calibration from dc data, the same correction factor, noise and line are used and reported. -/
theorem C89_calibrated (R : Routines) (o : IfOpts) (t : TnOpts) (dc : DCIV) (d : DCIF) (c : ℝ) (hot cold : IfResp.Input)
    (res : IfResult) (idx : ℕ) (out : DCIF) (hd : d.corr = some c)
    (h : ifData R o t dc (some d) hot cold = .ok (res, idx, out)) :
    ∃ a b, loadIf R.sorter o dc hot = .ok (res.v, a) ∧ loadIf R.sorter o dc cold = .ok b ∧
      res.hot = a.map (· * c) ∧ res.cold = b.2.map (· * c) ∧ out.corr = some c ∧ out.ifNoise = d.ifNoise ∧
      out.shotSlope = d.shotSlope ∧ out.ifFit = d.ifFit ∧
      ∃ v ∈ res.v, out.vmax = v * dc.vgap ∧ ∀ w ∈ res.v, w ≤ v := by
  unfold ifData at h
  obtain ⟨⟨v, a⟩, ha, h⟩ := bind_ok_iff.1 h
  obtain ⟨b, hb, h⟩ := bind_ok_iff.1 h
  obtain ⟨⟨n, c, line, good⟩, hcal, h⟩ := bind_ok_iff.1 h
  obtain ⟨r, hr, h⟩ := bind_ok_iff.1 h
  obtain ⟨vm, hvm, h⟩ := bind_ok_iff.1 h
  have he := pure_ok_iff.1 h
  simp only [Prod.mk.injEq] at he
  obtain ⟨rfl, -, rfl⟩ := he
  unfold calibration at hcal
  dsimp only at hcal
  rw [hd] at hcal
  have hc := Except.ok.inj hcal
  simp only [Prod.mk.injEq] at hc
  obtain ⟨rfl, rfl, rfl, rfl⟩ := hc
  exact ⟨a, b, ha, hb, rfl, rfl, rfl, rfl, rfl, rfl, vm, amax_mem hvm, rfl, fun w hw => (amax_le hvm vm).1 le_rfl w hw⟩

/-- The hypotheses are met by the measurement of C87; here the calibration of the dc data is used. -/
example (R : Routines) (th tc : ℝ) (hl : Loads sampleTn th tc) : ∃ res idx out,
    ifData R sampleIf sampleTn sampleDc (some ⟨7, some 3, true, [], 0.003⟩) (.matrix (delivered sampleGain 10 th))
      (.matrix (delivered sampleGain 10 tc)) = .ok (res, idx, out) ∧ out.ifNoise = 7 ∧ out.corr = some 3 := by
  obtain ⟨⟨res, idx, out⟩, h⟩ := C87_returns R sampleIf sampleTn sampleDc ⟨7, some 3, true, [], 0.003⟩ 3 sampleGain 10
    th tc hl (Or.inl (by simp [sampleTn])) rfl (by simp [sampleGain]) (by simp [sampleIf]) rfl rfl
    (by norm_num [sampleIf]) (by norm_num [sampleDc])
  obtain ⟨a, b, -, -, -, -, h1, h2, -⟩ := C89_calibrated R _ _ _ _ 3 _ _ res idx out rfl h
  exact ⟨res, idx, out, h, h2, h1⟩

/-! ## Shot noise, end to end -/

/-- Interpolation between points of a straight line. -/
theorem interpAt_between {L : List (ℝ × ℝ)} (hL : Incr L) {p q : ℝ × ℝ} (hp : p ∈ L) (hq : q ∈ L) {s i : ℝ}
    (hline : ∀ a ∈ L, p.1 ≤ a.1 → a.1 ≤ q.1 → a.2 = s * a.1 + i) {x : ℝ} (h1 : p.1 ≤ x) (h2 : x ≤ q.1) :
    interpAt L x = s * x + i := by
  have hne : L ≠ [] := by rintro rfl; cases hp
  rcases h2.eq_or_lt with rfl | h2
  · rw [interpAt_sample L hL q hq, hline q hq h1 le_rfl]
  rcases interpAt_cases L hL hne x with ⟨a, l, rfl, hx, e⟩ | ⟨l, a, rfl, hx, e⟩ | ⟨l, a, b, l', rfl, hx, hx', e⟩
  · exfalso
    rcases List.mem_cons.1 hp with rfl | hp
    · linarith
    · have := List.rel_of_pairwise_cons hL hp
      linarith
  · have hqa : q.1 ≤ a.1 := by
      rcases List.mem_append.1 hq with hq | hq
      · exact ((List.pairwise_append.1 hL).2.2 q hq a (by simp)).le
      · rw [List.mem_singleton.1 hq]
    linarith
  · have hL' := hL
    unfold Incr at hL'
    rw [List.pairwise_append, List.pairwise_cons, List.pairwise_cons] at hL'
    obtain ⟨-, ⟨ha, hb, -⟩, hla⟩ := hL'
    have hab : a.1 < b.1 := ha b (by simp)
    have hpa : p.1 ≤ a.1 := by
      rcases List.mem_append.1 hp with hp | hp
      · exact (hla p hp a (by simp)).le
      · rcases List.mem_cons.1 hp with rfl | hp
        · exact le_rfl
        · rcases List.mem_cons.1 hp with rfl | hp
          · linarith
          · have := hb p hp
            linarith
    have hbq : b.1 ≤ q.1 := by
      rcases List.mem_append.1 hq with hq | hq
      · have := hla q hq a (by simp)
        linarith
      · rcases List.mem_cons.1 hq with rfl | hq
        · linarith
        · rcases List.mem_cons.1 hq with rfl | hq
          · exact le_rfl
          · exact (hb q hq).le
    rw [e, hline a (by simp) hpa (by linarith), hline b (by simp) (by linarith) hbq]
    have : b.1 - a.1 ≠ 0 := by linarith
    field_simp
    ring

/-- C88: where the measured powers are on a straight line, the result is on this line. -/
theorem C88_straight (S : Sorter) (o : IfOpts) (dc : DCIV) (m : Mat) (r : List ℝ × List ℝ) (hc : m.ncol = 2)
    (hw : m.WF) (h : loadIf S o dc (.matrix m) = .ok r) (hr : o.rseries = none) (hs0 : o.sigma = none)
    (hm : 0 < o.vMult) (hg : 0 < dc.vgap) (p q : ℝ × ℝ) (hp : Measured o dc m p) (hq : Measured o dc m q) (s i : ℝ)
    (hline : ∀ a, Measured o dc m a → p.1 ≤ a.1 → a.1 ≤ q.1 → a.2 = s * (a.1 * 1000) + i)
    (k : ℕ) (hk : k < r.1.length) (h1 : p.1 ≤ r.1.getD k 0 * dc.vgap) (h2 : r.1.getD k 0 * dc.vgap ≤ q.1) :
    r.2.getD k 0 = s * (r.1.getD k 0 * dc.vgap * 1000) + i := by
  obtain ⟨L, f, hne, hL, hmem, hall, hf, hs⟩ := loaded_if h hc hw hr hm hg
  rw [hs0] at hs
  obtain rfl := Except.ok.inj hs
  obtain ⟨p', hp', ep⟩ := hall p hp
  obtain ⟨q', hq', eq⟩ := hall q hq
  have e1 := interp0_inside hf hk ⟨p'.1 / dc.vgap, by
      simp only [List.map_map, List.mem_map, Function.comp_apply]; exact ⟨p', hp', rfl⟩, by
      rw [div_le_iff₀ hg, ep]; exact h1⟩ ⟨q'.1 / dc.vgap, by
      simp only [List.map_map, List.mem_map, Function.comp_apply]; exact ⟨q', hq', rfl⟩, by
      rw [le_div_iff₀ hg, eq]; exact h2⟩
  rw [e1]
  have := interpAt_between (s := s * dc.vgap * 1000) (i := i) (incr_scaled hL hg) (List.mem_map.2 ⟨p', hp', rfl⟩)
    (List.mem_map.2 ⟨q', hq', rfl⟩) (x := r.1.getD k 0) (by
      intro a ha h3 h4
      obtain ⟨a', ha', rfl⟩ := List.mem_map.1 ha
      simp only at h3 h4 ⊢
      rw [div_le_div_iff_of_pos_right hg] at h3 h4
      rw [hline a' (hmem a' ha') (by rw [← ep]; exact h3) (by rw [← eq]; exact h4)]
      field_simp) (by simp only; rw [div_le_iff₀ hg, ep]; exact h1) (by simp only; rw [le_div_iff₀ hg, eq]; exact h2)
  exact this.trans (by ring)

open Classical in
/-- C89: shot noise, end to end. The measured powers are on a straight line of slope `s` per mV between two measured
voltages; the user gives voltage ranges between these two with at least five of the voltages of the result, and no
smoothing. Whatever the powers are elsewhere, the correction factor is `5.8 / s`, the calibrated line is this line in
kelvin, and the IF noise is its value at the voltage `vint` (or at 0, or at the largest voltage, if `vint` is outside). -/
theorem C89_shot (R : Routines) (o : IfOpts) (dc : DCIV) (m : Mat) (l : List (ℝ × ℝ)) (hc : m.ncol = 2)
    (hw : m.WF) (hl : Given o l) (hv : o.vFmt ∈ ["uV", "mV", "V"]) (hr : o.rseries = none) (hs0 : o.sigma = none)
    (hm : 0 < o.vMult) (hg : 0 < dc.vgap) (hvm : 0 < o.vmax)
    (hreal : ∀ w ∈ m.rows, ∃ x y : ℝ, w.getD 0 none = num x ∧ w.getD 1 none = num y)
    (p q : ℝ × ℝ) (hp : Measured o dc m p) (hq : Measured o dc m q) (hpq : p ≠ q) (s i : ℝ) (hs : s ≠ 0)
    (hline : ∀ a, Measured o dc m a → p.1 ≤ a.1 → a.1 ≤ q.1 → a.2 = s * (a.1 * 1000) + i)
    (hin : ∀ r ∈ l, p.1 ≤ r.1 ∧ r.2 ≤ q.1)
    (h5 : 5 ≤ ((List.range o.npts.toNat).filter
      fun k : ℕ => decide (Inside l (k * (o.vmax / (o.npts - 1 : ℤ))))).length) :
    ∃ d out, dcifData R o dc (.matrix m) = .ok (d, out) ∧ out.corr = some (5.8 / s) ∧
      out.shotSlope = d.1.zip ((inMv dc.vgap d.1).map fun v => 5.8 * v + 5.8 * i / s) ∧
      out.ifNoise = 5.8 * (max 0 (min o.vmax dc.vint) * 1000) + 5.8 * i / s ∧
      (out.ifFit = true ↔ 0 < out.ifNoise ∧ out.ifNoise < 50) ∧ out.vmax = o.vmax := by
  have hn5 : 5 ≤ o.npts.toNat := by
    have := List.length_filter_le (fun k : ℕ => decide (Inside l (k * (o.vmax / (o.npts - 1 : ℤ))))) (List.range o.npts.toNat)
    rw [List.length_range] at this
    omega
  have h2 : 2 ≤ m.rows.length := by
    obtain ⟨w, hw1, x, y, e1, e2, rfl⟩ := hp
    obtain ⟨w', hw2, x', y', e3, e4, rfl⟩ := hq
    by_contra hlt
    have hne : m.rows ≠ [] := List.ne_nil_of_mem hw1
    obtain ⟨z, hz⟩ : ∃ z, m.rows = [z] := by
      rw [← List.length_eq_one_iff]
      have := List.length_pos_iff.2 hne
      omega
    rw [hz, List.mem_singleton] at hw1 hw2
    subst hw1 hw2
    have a := Fl.num_inj.1 (e1.symm.trans e3)
    have b := Fl.num_inj.1 (e2.symm.trans e4)
    rw [a, b] at hpq
    exact hpq rfl
  obtain ⟨r, hload⟩ := C88_accepted R.sorter o dc m hc hw hv hr hs0 (by omega) hg.ne' hreal h2
  obtain ⟨-, l1, l2, hgrid⟩ := C88_grid R.sorter o dc m r hc hw hload
  set st : ℝ := o.vmax / (o.npts - 1 : ℤ) with hst
  have hnc : (0 : ℝ) < ((o.npts - 1 : ℤ) : ℝ) := by exact_mod_cast (by omega : 0 < o.npts - 1)
  have hst0 : 0 < st := div_pos hvm hnc
  have ex : r.1 = (List.range o.npts.toNat).map fun k : ℕ => k * st / dc.vgap := by
    apply List.ext_getElem
    · simp [l1]
    · intro k hk1 hk2
      have := hgrid k hk1
      rw [getD_lt _ _ hk1] at this
      rw [List.getElem_map, List.getElem_range, eq_div_iff hg.ne', this]
  have hin' : ∀ t, Inside l (t * dc.vgap) → p.1 ≤ t * dc.vgap ∧ t * dc.vgap ≤ q.1 := by
    rintro t ⟨a, ha, a1, a2⟩
    obtain ⟨b1, b2⟩ := hin a ha
    constructor <;> linarith
  have hcount : ¬ (r.1.filter fun t => decide (Inside l (t * dc.vgap))).length < 5 := by
    rw [ex, List.filter_map, List.length_map, not_lt]
    refine h5.trans (le_of_eq ?_)
    congr 2
    funext k
    simp only [Function.comp_apply]
    rw [div_mul_cancel₀ _ hg.ne']
  have hfit : ∀ t, Fitted l dc.vgap r.1 t ↔ Inside l (t * dc.vgap) := by
    intro t
    unfold Fitted
    rw [if_neg hcount]
  have hmemx : ∀ k : ℕ, k < o.npts.toNat → k * st / dc.vgap ∈ r.1 := by
    intro k hk
    rw [ex]
    exact List.mem_map.2 ⟨k, List.mem_range.2 hk, rfl⟩
  have hcast : ((o.npts - 1 : ℤ) : ℝ) = ((o.npts.toNat - 1 : ℕ) : ℝ) := by
    have : o.npts - 1 = ((o.npts.toNat - 1 : ℕ) : ℤ) := by omega
    rw [this]
    push_cast
    rfl
  have hend : ((o.npts.toNat - 1 : ℕ) : ℝ) * st = o.vmax := by
    rw [hst, ← hcast, mul_div_cancel₀ _ hnc.ne']
  have hbig : o.vmax / dc.vgap ∈ r.1 := by
    have := hmemx (o.npts.toNat - 1) (by omega)
    rwa [hend] at this
  have hle : ∀ t ∈ r.1, 0 ≤ t ∧ t ≤ o.vmax / dc.vgap := by
    intro t ht
    rw [ex] at ht
    obtain ⟨k, hk, rfl⟩ := List.mem_map.1 ht
    rw [List.mem_range] at hk
    refine ⟨by positivity, ?_⟩
    rw [div_le_div_iff_of_pos_right hg, ← hend]
    exact mul_le_mul_of_nonneg_right (by exact_mod_cast (by omega)) hst0.le
  have hzero : (0 : ℝ) ∈ r.1 := by
    have := hmemx 0 (by omega)
    simpa using this
  have hinc : r.1.Pairwise (· < ·) := by
    rw [ex, List.pairwise_map]
    refine List.pairwise_lt_range.imp fun {a b} hab => ?_
    rw [div_lt_div_iff_of_pos_right hg]
    exact mul_lt_mul_of_pos_right (by exact_mod_cast hab) hst0
  have hlin : ∀ p ∈ r.1.zip r.2, Fitted l dc.vgap r.1 p.1 → p.2 = s * (p.1 * dc.vgap * 1000) + i := by
    rintro ⟨t, u⟩ ht hfit'
    obtain ⟨k, hk⟩ := List.mem_iff_getElem?.1 ht
    obtain ⟨k1, k2⟩ := List.getElem?_zip_eq_some.1 hk
    have hk1 : k < r.1.length := (List.getElem?_eq_some_iff.1 k1).1
    have et : r.1.getD k 0 = t := by rw [List.getD_eq_getElem?_getD, k1]; rfl
    have eu : r.2.getD k 0 = u := by rw [List.getD_eq_getElem?_getD, k2]; rfl
    obtain ⟨b1, b2⟩ := hin' t ((hfit t).1 hfit')
    have := C88_straight R.sorter o dc m r hc hw hload hr hs0 hm hg p q hp hq s i hline k hk1 (by rw [et]; exact b1)
      (by rw [et]; exact b2)
    rwa [et, eu] at this
  have htwo : ∃ t ∈ r.1, ∃ u ∈ r.1, t ≠ u ∧ Fitted l dc.vgap r.1 t ∧ Fitted l dc.vgap r.1 u := by
    obtain ⟨a, b, c, hfl⟩ : ∃ a b c, (r.1.filter fun t => decide (Inside l (t * dc.vgap))) = a :: b :: c := by
      match h : (r.1.filter fun t => decide (Inside l (t * dc.vgap))) with
      | [] => rw [h] at hcount; simp at hcount
      | [a] => rw [h] at hcount; simp at hcount
      | a :: b :: c => exact ⟨a, b, c, rfl⟩
    have hmem : ∀ t ∈ a :: b :: c, t ∈ r.1 ∧ Inside l (t * dc.vgap) := by
      intro t ht
      rw [← hfl, List.mem_filter] at ht
      exact ⟨ht.1, by simpa using ht.2⟩
    have hp2 := hinc.filter (fun t => decide (Inside l (t * dc.vgap)))
    rw [hfl, List.pairwise_cons] at hp2
    obtain ⟨a1, a2⟩ := hmem a (by simp)
    obtain ⟨b1, b2⟩ := hmem b (by simp)
    exact ⟨a, a1, b, b1, (hp2.1 b (by simp)).ne, (hfit a).2 a2, (hfit b).2 b2⟩
  obtain ⟨n, good, hfind, hn, hgood⟩ := C59_line R o dc r.1 r.2 l s i 0 (o.vmax / dc.vgap) hl (by omega) hinc hg hs hlin
    htwo hzero (fun t ht => (hle t ht).1) hbig fun t ht => (hle t ht).2
  have hmax : amax r.1 = .ok (o.vmax / dc.vgap) := by
    obtain ⟨M, hM⟩ := amax_ok (l := r.1) (List.ne_nil_of_mem hbig)
    rw [hM]
    congr 1
    exact le_antisymm (hle _ (amax_mem hM)).2 ((amax_le hM M).1 le_rfl _ hbig)
  refine ⟨_, _, by
    unfold dcifData
    rw [hload, py_bind, hfind, py_bind, hmax, py_bind]
    rfl, rfl, rfl, ?_, hgood, ?_⟩
  · dsimp only
    rw [hn, zero_mul, div_mul_cancel₀ _ hg.ne']
  · exact div_mul_cancel₀ _ hg.ne'

/-- Options: 13 voltages up to 6 mV, line fitted between 3 mV and 6 mV. -/
noncomputable def above3 : IfOpts where
  vMult := 1
  sigma := none
  vmax := 0.006
  npts := 13
  rseries := none
  vFmt := "mV"
  vshot := .flat [0.003, 0.006]

/-- A power of 2 per mV plus 6 above 3 mV, and a spike below. -/
noncomputable def spike : Mat where
  ncol := 2
  rows := [[num 3, num 12], [num 0, num 1], [num 1, num 99], [num 6, num 18]]

theorem spike_measured {dc : DCIV} (hd : dc.offset = (0, 0)) {o : IfOpts} (h1 : o.vFmt = "mV") (h2 : o.vMult = 1)
    (p : ℝ × ℝ) : Measured o dc spike p ↔ p ∈ [((3 : ℝ) * 1e-3, (12 : ℝ)), (0, 1), (1 * 1e-3, 99), (6 * 1e-3, 18)] := by
  have hv : voltUnit "mV" = 1e-3 := by simp [voltUnit]
  have inj : ∀ a b : ℝ, num a = num b → a = b := fun a b h => Fl.num_inj.1 h
  unfold Measured
  rw [h1, h2, hd, hv]
  constructor
  · rintro ⟨r, hr, x, y, e1, e2, rfl⟩
    simp only [spike, List.mem_cons, List.not_mem_nil, or_false] at hr
    rcases hr with rfl | rfl | rfl | rfl <;>
    · obtain rfl := inj _ _ e1
      obtain rfl := inj _ _ e2
      simp
  · intro hp
    simp only [List.mem_cons, List.not_mem_nil, or_false] at hp
    rcases hp with rfl | rfl | rfl | rfl
    · exact ⟨[num 3, num 12], by simp [spike], 3, 12, rfl, rfl, by norm_num⟩
    · exact ⟨[num 0, num 1], by simp [spike], 0, 1, rfl, rfl, by norm_num⟩
    · exact ⟨[num 1, num 99], by simp [spike], 1, 99, rfl, rfl, by norm_num⟩
    · exact ⟨[num 6, num 18], by simp [spike], 6, 18, rfl, rfl, by norm_num⟩

open Classical in
/-- The hypotheses of `C89_shot` are met: the IF noise is 17.4 K plus 5.8 K/mV times `vint`. -/
theorem spike_shot (R : Routines) (o : IfOpts) (ho : o = above3) (dc : DCIV) (hg : 0 < dc.vgap) (hd : dc.offset = (0, 0)) :
    ∃ d out, dcifData R o dc (.matrix spike) = .ok (d, out) ∧ out.corr = some (5.8 / 2) ∧
      out.ifNoise = 5.8 * (max 0 (min 0.006 dc.vint) * 1000) + 17.4 := by
  subst ho
  obtain ⟨d, out, h1, h2, -, h3, -⟩ := C89_shot R above3 dc spike [(0.003, 0.006)] rfl
    (by intro r hr; simp only [spike, List.mem_cons, List.not_mem_nil, or_false] at hr
        rcases hr with rfl | rfl | rfl | rfl <;> rfl)
    (Or.inr ⟨_, _, rfl, rfl⟩) (by simp [above3]) rfl rfl (by norm_num [above3]) hg (by norm_num [above3])
    (by intro r hr; simp only [spike, List.mem_cons, List.not_mem_nil, or_false] at hr
        rcases hr with rfl | rfl | rfl | rfl <;> exact ⟨_, _, rfl, rfl⟩)
    (3 * 1e-3, 12) (6 * 1e-3, 18) ((spike_measured hd rfl rfl _).2 (by simp))
    ((spike_measured hd rfl rfl _).2 (by simp)) (by norm_num) 2 6 (by norm_num)
    (by
      intro a ha
      rw [spike_measured hd rfl rfl] at ha
      simp only [List.mem_cons, List.not_mem_nil, or_false] at ha
      rcases ha with rfl | rfl | rfl | rfl <;> norm_num)
    (by intro r hr; rw [List.mem_singleton.1 hr]; norm_num)
    (by
      have : (above3.npts - 1 : ℤ) = 12 := rfl
      rw [this]
      show 5 ≤ ((List.range 13).filter fun k : ℕ => decide (Inside [(0.003, 0.006)] (k * (0.006 / (12 : ℤ))))).length
      simp only [List.range_succ, List.range_zero, Inside, List.mem_singleton, exists_eq_left]
      norm_num [List.filter_append, List.filter_cons])
  refine ⟨d, out, h1, h2, ?_⟩
  rw [h3]
  norm_num [above3]

end QMix.IfData
