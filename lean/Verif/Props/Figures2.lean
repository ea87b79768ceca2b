import Verif.Props.Figures

/-!
# The figures of the pumped and of the IF data (C113)
-/

namespace QMix.Exp

open QMix Np Fl IvData IfData Opt Spec

/-- The vertical lines of a figure. -/
def vlines (fig : Drawing) : List (ℕ × ℝ) :=
  fig.cmds.filterMap fun c => match c with
    | .vline a x => some (a, x)
    | _ => none

/-- The pumped current–voltage curve, in volts and amperes. -/
noncomputable def siPumped (r : PumpedData) : List (ℝ × ℝ) :=
  (r.voltage.zip r.current).map fun p => (p.1 * r.dc.vgap, p.2 * r.dc.igap)

/-- IF data over the voltage in mV. -/
noncomputable def overMv (vgap : ℝ) (pts : List (ℝ × ℝ)) : List (ℝ × ℝ) := pts.map fun p => (p.1 * vgap * 1e3, p.2)

/-- `h f / e` for a frequency in GHz, in volts. -/
noncomputable def photonVolts (f : ℝ) : ℝ := 6.62607015e-34 * (f * 1e9) / 1.602176634e-19

theorem zip_points (L : List (ℝ × ℝ)) : (L.map Prod.fst).zip (L.map Prod.snd) = L := by
  rw [← List.unzip_fst, ← List.unzip_snd, List.zip_unzip]

theorem zip_numPts (L : List (ℝ × ℝ)) : ((L.map Prod.fst).map num).zip ((L.map Prod.snd).map num) = numPts L := by
  rw [List.zip_map, zip_points]
  rfl

theorem draw_points (a : ℕ) (l : Label) (L : List (ℝ × ℝ)) : draw a l (L.map Prod.fst) (L.map Prod.snd) =
    .ok (.plot a l ((L.map Prod.fst).map num) ((L.map Prod.snd).map num)) := draw_eq (by simp)

theorem masked_snd {β : Type} (c : β → Bool) (L : List (ℝ × β)) :
    masked ((L.map Prod.snd).map c) (L.map Prod.fst) (L.map Prod.snd) =
      .ok ((L.filter fun p => c p.2).map Prod.fst, (L.filter fun p => c p.2).map Prod.snd) := by
  unfold masked
  rw [List.map_map]
  have e : (c ∘ Prod.snd : ℝ × β → Bool) = fun p => c p.2 := rfl
  rw [e, Clean.select_map, py_bind, Clean.select_map, py_bind]
  rfl

/-- The parts of a `PumpedData` object that the figures need. -/
theorem pumped_facts {R : Routines} {h : Heap} (hh : h ≠ []) (hP : deref h sharedAt = PARAMS)
    {data : IfResp.Input} {d : DCData} {hot cold : Option IfResp.Input} {kw : Dict} {r : PumpedData}
    (e : (pumpedData R h data d hot cold kw).1 = .ok r) : r.dc = d.dc ∧ r.voltage.length = r.current.length := by
  obtain ⟨-, hdc, -, -, -, ⟨o, ho, hc⟩, -⟩ := pumpedInit_parts (pumpedData_ok hh hP e)
  exact ⟨hdc, ivCurve_length hc⟩

/-- A measured curve as points. -/
theorem dc_points_of {d : DCData} (hl : d.current.length = d.voltage.length) (hne : d.voltage ≠ []) :
    ∃ L : List (ℝ × ℝ), L ≠ [] ∧ d.voltage = L.map Prod.fst ∧ d.current = L.map Prod.snd ∧
    d.voltage.map (· * (d.dc.vgap * 1e3)) = (shownMvUa (siCurve d)).map Prod.fst ∧
    d.current.map (· * (d.dc.igap * 1e6)) = (shownMvUa (siCurve d)).map Prod.snd ∧ shownMvUa (siCurve d) ≠ [] := by
  obtain ⟨L, e1, e2⟩ := exists_points hl.symm
  have hLne : L ≠ [] := by rintro rfl; exact hne e1.symm
  refine ⟨L, hLne, e1.symm, e2.symm, ?_, ?_, ?_⟩
  · unfold shownMvUa siCurve
    rw [← e1, ← e2, zip_points, List.map_map, List.map_map, List.map_map]
    apply List.map_congr_left
    intro q _
    simp only [Function.comp_apply, mul_assoc]
  · unfold shownMvUa siCurve
    rw [← e1, ← e2, zip_points, List.map_map, List.map_map, List.map_map]
    apply List.map_congr_left
    intro q _
    simp only [Function.comp_apply, mul_assoc]
  · unfold shownMvUa siCurve
    rw [← e1, ← e2, zip_points]
    simpa using hLne

/-- Pumped points that are drawn. -/
theorem pumped_points_of {d : DCData} {r : PumpedData} (hdc : r.dc = d.dc) (hl : r.voltage.length = r.current.length)
    (hi0 : d.dc.igap ≠ 0) : ∃ m : List ℝ × List ℝ,
    masked (r.current.map fun c => decide (c ≠ 0)) r.voltage r.current = .ok m ∧
    m.1.map (· * (d.dc.vgap * 1e3)) = (shownMvUa ((siPumped r).filter fun p => decide (p.2 ≠ 0))).map Prod.fst ∧
    m.2.map (· * (d.dc.igap * 1e6)) = (shownMvUa ((siPumped r).filter fun p => decide (p.2 ≠ 0))).map Prod.snd := by
  obtain ⟨M, e1, e2⟩ := exists_points hl
  have hf : (siPumped r).filter (fun p => decide (p.2 ≠ 0)) =
      (M.filter fun p => decide (p.2 ≠ 0)).map fun p => (p.1 * d.dc.vgap, p.2 * d.dc.igap) := by
    unfold siPumped
    rw [← e1, ← e2, zip_points, hdc, List.filter_map]
    congr 1
    apply List.filter_congr
    intro q _
    simp [hi0]
  refine ⟨_, by rw [← e1, ← e2]; exact masked_snd (fun c => decide (c ≠ 0)) M, ?_, ?_⟩
  · rw [hf]
    unfold shownMvUa
    rw [List.map_map, List.map_map, List.map_map]
    apply List.map_congr_left
    intro q _
    simp only [Function.comp_apply, mul_assoc]
  · rw [hf]
    unfold shownMvUa
    rw [List.map_map, List.map_map, List.map_map]
    apply List.map_congr_left
    intro q _
    simp only [Function.comp_apply, mul_assoc]

section
variable (R : Routines) (S : RespFn.Splines) (h h' : Heap) (hh : h ≠ []) (hP : deref h sharedAt = PARAMS)
  (hh' : h' ≠ []) (hP' : deref h' sharedAt = PARAMS)
  (dcdata data : IfResp.Input) (dcif : Option IfResp.Input) (kd kw : Dict) (d : DCData)
  (hot cold : Option IfResp.Input) (r : PumpedData)
  (ed : (dcData R S h' dcdata dcif kd).1 = .ok d)
  (e : (pumpedData R h data d hot cold kw).1 = .ok r)

include hh' hP' ed in
/-- The measured curve as points. -/
theorem dc_points : ∃ L : List (ℝ × ℝ), L ≠ [] ∧ d.voltage = L.map Prod.fst ∧ d.current = L.map Prod.snd ∧
    d.voltage.map (· * (d.dc.vgap * 1e3)) = (shownMvUa (siCurve d)).map Prod.fst ∧
    d.current.map (· * (d.dc.igap * 1e6)) = (shownMvUa (siCurve d)).map Prod.snd ∧ shownMvUa (siCurve d) ≠ [] := by
  obtain ⟨hl, hne, -⟩ := dc_facts hh' hP' ed
  exact dc_points_of hl hne

include hh hP hh' hP' ed e in
/-- The pumped points that are drawn. -/
theorem pumped_points : ∃ m : List ℝ × List ℝ,
    masked (r.current.map fun c => decide (c ≠ 0)) r.voltage r.current = .ok m ∧
    m.1.map (· * (d.dc.vgap * 1e3)) = (shownMvUa ((siPumped r).filter fun p => decide (p.2 ≠ 0))).map Prod.fst ∧
    m.2.map (· * (d.dc.igap * 1e6)) = (shownMvUa ((siPumped r).filter fun p => decide (p.2 ≠ 0))).map Prod.snd := by
  obtain ⟨-, -, hrn, hg, hig, -⟩ := dc_facts hh' hP' ed
  obtain ⟨hdc, hl⟩ := pumped_facts hh hP e
  have hi0 : d.dc.igap ≠ 0 := by
    intro h0
    rw [h0, zero_mul] at hig
    exact hg hig.symm
  exact pumped_points_of hdc hl hi0

include hh hP ed e in
/-- The photon step in mV. -/
theorem photon_mv : d.dc.vgap * 1e3 - r.vph * (d.dc.vgap * 1e3) = (d.dc.vgap - photonVolts r.freq) * 1e3 := by
  obtain ⟨-, h2⟩ := C96_photon R S h h' hh hP dcdata data dcif kd kw d hot cold r ed e
  have : r.vph * (d.dc.vgap * 1e3) = r.vph * d.dc.vgap * 1e3 := by ring
  rw [this, h2]
  unfold photonVolts
  ring

include hh' hP' ed in
/-- The upper limit of the current axis is the current of the unpumped junction at `vmax`. -/
theorem top_current (vmax vm : ℝ) (hu : Uses kd "vmax" asReal 6e-3 vm) (hg : 0 < d.dc.vgap) (hvm : 0 < vm)
    (h1 : |vmax| ≤ vm * 1e3) (hn : 2 ≤ d.voltage.length) :
    OnLine (shownMvUa (siCurve d)) vmax (interpAt (shownMvUa (siCurve d)) vmax) := by
  obtain ⟨hI, -, hx⟩ := siCurve_grid hh' hP' ed hg hu hvm hn
  obtain ⟨a1, a2⟩ := abs_le.1 h1
  obtain ⟨⟨p, hp, hpx⟩, ⟨q, hq, hqx⟩⟩ := hx (vmax * 1e-3) (by linarith) (by linarith)
  refine interpAt_onLine ?_ ⟨_, List.mem_map.2 ⟨_, List.mem_map.2 ⟨p, hp, rfl⟩, rfl⟩, ?_⟩
    ⟨_, List.mem_map.2 ⟨_, List.mem_map.2 ⟨q, hq, rfl⟩, rfl⟩, ?_⟩
  · unfold shownMvUa Incr
    rw [List.pairwise_map]
    exact hI.imp fun hab => mul_lt_mul_of_pos_right hab (by norm_num)
  · rw [le_div_iff₀ hg] at hpx
    show p.1 * d.dc.vgap * 1e3 ≤ vmax
    linarith
  · rw [div_le_iff₀ hg] at hqx
    show vmax ≤ q.1 * d.dc.vgap * 1e3
    linarith

include hh hP hh' hP' ed e in
/-- C113: the figure of the pumped curve is always drawn. It has the unpumped curve and the pumped curve (points without
current left out) in mV and µA, vertical lines at the gap voltage and `h f / e` below it, and ends at the current
that the unpumped junction has at `vmax`. -/
theorem C113_iv (vmax : ℝ) (new : ℕ) (ax : Option ℕ) :
    ∃ fig a imax, plotIv r d vmax new ax = .ok fig ∧ (∀ x, ax = some x → a = x) ∧ (ax = none → a = new) ∧
      fig.axes = [a] ∧
      curves fig = [(a, .text "Unpumped", numPts (shownMvUa (siCurve d))),
        (a, .text "Pumped", numPts (shownMvUa ((siPumped r).filter fun p => decide (p.2 ≠ 0))))] ∧
      vlines fig = [(a, d.dc.vgap * 1e3), (a, (d.dc.vgap - photonVolts r.freq) * 1e3)] ∧
      Cmd.xlim a (some 0) (some vmax) ∈ fig.cmds ∧ Cmd.ylim a (some 0) (some (num imax)) ∈ fig.cmds ∧
      ∀ vm, Uses kd "vmax" asReal 6e-3 vm → 0 < d.dc.vgap → 0 < vm → |vmax| ≤ vm * 1e3 → 2 ≤ d.voltage.length →
        OnLine (shownMvUa (siCurve d)) vmax imax := by
  obtain ⟨L, hLne, -, -, f1, f2, hSne⟩ := dc_points R S h' hh' hP' dcdata dcif kd d ed
  obtain ⟨m, hm, m1, m2⟩ := pumped_points R S h h' hh hP hh' hP' dcdata data dcif kd kw d hot cold r ed e
  obtain ⟨hdc, -⟩ := pumped_facts hh hP e
  have g1 : interpVal vmax ((shownMvUa (siCurve d)).map Prod.fst) ((shownMvUa (siCurve d)).map Prod.snd) =
      .ok (interpAt (shownMvUa (siCurve d)) vmax) :=
    interpVal_ok.2 ⟨by simp, by simpa using hSne, by rw [zip_points]⟩
  unfold plotIv
  simp only [f1, f2, g1, py_bind, draw_points, hm, m1, m2, hdc,
    photon_mv R S h h' hh hP dcdata data dcif kd kw d hot cold r ed e]
  refine ⟨_, ax.getD new, interpAt (shownMvUa (siCurve d)) vmax, rfl, ?_, ?_, rfl, ?_, rfl, ?_, ?_,
    fun vm hu hg hvm h1 hn => top_current R S h' hh' hP' dcdata dcif kd d ed vmax vm hu hg hvm h1 hn⟩
  · rintro x rfl; rfl
  · rintro rfl; rfl
  · simp only [curves, List.filterMap_cons, List.filterMap_nil, zip_numPts]
  · simp
  · simp

include hh' hP' ed in
/-- C113: the figure of the origin is always drawn; it has exactly the points of the measured curve with voltages of less
than 0.2 mV. -/
theorem C113_offset (new : ℕ) (ax : Option ℕ) :
    ∃ fig a, plotOffset d new ax = .ok fig ∧ (∀ x, ax = some x → a = x) ∧ (ax = none → a = new) ∧ fig.axes = [a] ∧
      curves fig = [(a, .text "", numPts ((shownMvUa (siCurve d)).filter fun p => decide (|p.1| < 0.2)))] ∧
      Cmd.xlim a (some (-0.2)) (some 0.2) ∈ fig.cmds := by
  obtain ⟨-, -, hrn, hg, hig, -⟩ := dc_facts hh' hP' ed
  obtain ⟨L, hLne, -, -, f1, f2, hSne⟩ := dc_points R S h' hh' hP' dcdata dcif kd d ed
  have g0 : Np.fdiv d.dc.vgap d.dc.rn = .ok d.dc.igap := fdiv_ok.2 ⟨hrn, by rw [← hig]; field_simp⟩
  unfold plotOffset
  simp only [g0, py_bind, f1, f2, masked_points, draw_points]
  refine ⟨_, ax.getD new, rfl, ?_, ?_, rfl, ?_, ?_⟩
  · rintro x rfl; rfl
  · rintro rfl; rfl
  · simp only [curves, List.filterMap_cons, List.filterMap_nil, zip_numPts, List.cons.injEq, Prod.mk.injEq, and_true,
      true_and]
    congr 1
    apply List.filter_congr
    intro p _
    rw [decide_eq_decide, abs_lt]
  · simp

include hh' hP' ed in
/-- The IF noise is the value of the line at `vint`, if there are IF data on both sides of it. -/
theorem noise_on_line (m : Clean.Mat) (hc : m.ncol = 2) (hw : m.WF) (hdc : dcif = some (.matrix m)) (v w : List ℝ)
    (out : DCIF) (b : ℝ) (hs : d.ifs = some ((v, w), out))
    (hl : out.shotSlope = v.zip ((inMv d.dc.vgap v).map fun v => 5.8 * v + b)) (hg : 0 < d.dc.vgap)
    (ho : ∀ o, ifOpts PARAMS (update PARAMS kd) = .ok o → 0 < o.vmax) (h0 : 0 ≤ d.dc.vint)
    (h1 : ∃ x ∈ v, d.dc.vint ≤ x * d.dc.vgap) : out.ifNoise = 5.8 * (d.dc.vint * 1e3) + b := by
  obtain ⟨-, -, -, -, -, -, -, -, -, -, -, -, hi⟩ := dcInit_parts (dcData_ok hh' hP' ed)
  rw [hdc, hs] at hi
  simp only [dcIf, bind_ok_iff] at hi
  obtain ⟨-, -, o, hoo, q, hq, hi⟩ := hi
  have hi := pure_ok_iff.1 hi
  obtain rfl := Option.some.inj hi
  unfold dcifData at hq
  obtain ⟨raw, hraw, hq⟩ := bind_ok_iff.1 hq
  obtain ⟨⟨n, c, line, good⟩, hn, hq⟩ := bind_ok_iff.1 hq
  obtain ⟨vm, -, hq⟩ := bind_ok_iff.1 hq
  have hq := pure_ok_iff.1 hq
  simp only [Prod.mk.injEq] at hq
  obtain ⟨⟨rfl, rfl⟩, rfl⟩ := hq
  obtain ⟨-, l1, l2, hgrid⟩ := C88_grid R.sorter o d.dc m raw hc hw hraw
  obtain ⟨x, hx, hxv⟩ := h1
  obtain ⟨mask, m0, -, -, -, -, -, -, -, -, -, hline, -, -⟩ := findIfNoise_ok hn
  have hlen : line.length = raw.1.length := by rw [hline, List.length_map]
  have hl' : line = (inMv d.dc.vgap raw.1).map fun v => 5.8 * v + b := by
    have := congrArg (List.map Prod.snd) hl
    rwa [List.map_snd_zip (by omega), List.map_snd_zip (by simp [inMv])] at this
  set s := o.vmax / (o.npts - 1 : ℤ) / d.dc.vgap with hsd
  have htab : raw.1 = tab raw.1.length fun k => k * s := by
    conv_lhs => rw [eq_tab raw.1 0]
    apply tab_ext rfl
    intro k hk
    rw [eq_div_of_mul_eq hg.ne' (hgrid k hk), hsd]
    ring
  have hpos : 2 ≤ raw.1.length → 0 < s := by
    intro h2
    have : (0 : ℝ) < (o.npts - 1 : ℤ) := by exact_mod_cast (by omega : 0 < o.npts - 1)
    exact div_pos (div_pos (ho o hoo) this) hg
  have hmono : ∀ i j : ℕ, i < j → j < raw.1.length → (i : ℝ) * s < j * s := by
    intro i j hij hj
    exact mul_lt_mul_of_pos_right (by exact_mod_cast hij) (hpos (by omega))
  have h1l : 0 < raw.1.length := List.length_pos_of_mem hx
  have mm : ∀ k : ℕ, k < raw.1.length → (k : ℝ) * s ∈ raw.1 := by
    intro k hk
    have := (mem_tab (n := raw.1.length) (f := fun k => (k : ℝ) * s)).2 ⟨k, hk, rfl⟩
    rwa [← htab] at this
  have key := C59_noise R o d.dc raw.1 raw.2 n c line good hn
    (by
      rw [htab, List.pairwise_iff_getElem]
      intro i j hi hj hij
      rw [tab_length] at hi hj
      simp only [tab, List.getElem_map, List.getElem_range]
      exact hmono i j hij hj) hg
    (a := 0) (b := ((raw.1.length - 1 : ℕ) : ℝ) * s)
    (by rw [htab]; exact mem_tab.2 ⟨0, h1l, by simp⟩)
    (by
      intro t ht
      rw [htab] at ht
      obtain ⟨k, hk, rfl⟩ := mem_tab.1 ht
      rcases Nat.eq_zero_or_pos k with rfl | h0
      · simp
      · have := hmono 0 k h0 hk
        simpa using this.le)
    (mm _ (by omega))
    (by
      intro t ht
      rw [htab] at ht
      obtain ⟨k, hk, rfl⟩ := mem_tab.1 ht
      rcases Nat.lt_or_ge k (raw.1.length - 1) with h | h
      · exact (hmono k _ h (by omega)).le
      · rw [show k = raw.1.length - 1 by omega]) hl'
  have hle : x ≤ ((raw.1.length - 1 : ℕ) : ℝ) * s := by
    rw [htab] at hx
    obtain ⟨k, hk, rfl⟩ := mem_tab.1 hx
    rcases Nat.lt_or_ge k (raw.1.length - 1) with h | h
    · exact (hmono k _ h (by omega)).le
    · rw [show k = raw.1.length - 1 by omega]
  rw [min_eq_right (hxv.trans (mul_le_mul_of_nonneg_right hle hg.le)), zero_mul, max_eq_right h0] at key
  rw [show (1e3 : ℝ) = 1000 by norm_num]
  exact key

include hh' hP' ed in
/-- C113: the figure of the IF data of the junction. Without IF data nothing is drawn and nothing is raised. With them it
shows the measured curve and the line of the normal resistance on the first axes; on the second the calibrated IF
power, the line that rises by 5.8 K/mV, and a marker at `vint` with the IF noise; the marker is on that line if
`vint` is within the voltages of the IF data. -/
theorem C113_if_noise (new : ℕ) (ax : Option (ℕ × ℕ)) :
    (d.ifs = none ↔ dcif = none) ∧ (d.ifs = none → plotIfNoise d new ax = .ok none) ∧
    ∀ v w out fig, d.ifs = some ((v, w), out) → plotIfNoise d new ax = .ok fig →
      ∃ f a1 a2 b, fig = some f ∧ (∀ x, ax = some x → (a1, a2) = x) ∧ (ax = none → a1 ≠ a2) ∧ f.axes = [a1, a2] ∧
        curves f = [(a1, .text "I-V curve", numPts (shownMvUa (siCurve d))),
          (a1, .text "Normal-state", numPts (shownMvUa ((siCurve d).map fun p => (p.1, (p.1 - d.dc.vint) / d.dc.rn)))),
          (a2, .text "IF Power", numPts (overMv d.dc.vgap (v.zip w))),
          (a2, .text "5.8 K/mV", numPts (v.map fun x => (x * d.dc.vgap * 1e3, 5.8 * (x * d.dc.vgap * 1e3) + b))),
          (a2, .num "IF noise: " 2 (num out.ifNoise) " K", numPts [(d.dc.vint * 1e3, out.ifNoise)])] ∧
        vlines f = [(a1, d.dc.vint * 1e3), (a2, d.dc.vint * 1e3)] ∧ v.length = w.length ∧
        ∀ m : Clean.Mat, dcif = some (.matrix m) → m.ncol = 2 → m.WF → 0 < d.dc.vgap →
          (∀ o, ifOpts PARAMS (update PARAMS kd) = .ok o → 0 < o.vmax) → 0 ≤ d.dc.vint →
          (∃ x ∈ v, d.dc.vint ≤ x * d.dc.vgap) → out.ifNoise = 5.8 * (d.dc.vint * 1e3) + b := by
  obtain ⟨hif, hdata⟩ := C103_dc R S h' hh' hP' dcdata dcif kd d ed
  obtain ⟨-, -, hrn, hg, hig, -⟩ := dc_facts hh' hP' ed
  obtain ⟨L, hLne, e1, e2, f1, f2, hSne⟩ := dc_points R S h' hh' hP' dcdata dcif kd d ed
  refine ⟨?_, ?_, ?_⟩
  · cases hx : d.ifs <;> cases hy : dcif <;> simp_all
  · intro h0
    unfold plotIfNoise
    rw [h0]
  · intro v w out fig hs hf
    obtain ⟨y, hy⟩ := Option.isSome_iff_exists.1 (hif.1 (by rw [hs]; rfl))
    obtain ⟨-, -, raw, -, b, -, -, -, -, -, -, -, hslope, -⟩ := hdata y _ _ hy hs
    have g0 : Np.fdiv d.dc.vint d.dc.rn = .ok (d.dc.vint / d.dc.rn) := fdiv_ok.2 ⟨hrn, rfl⟩
    have g1 : (d.voltage.mapM fun t => do
        let y ← Np.fdiv (t * d.dc.vgap) d.dc.rn
        return (y - d.dc.vint / d.dc.rn) * 1e6 : Py (List ℝ)) =
        .ok ((shownMvUa ((siCurve d).map fun p => (p.1, (p.1 - d.dc.vint) / d.dc.rn))).map Prod.snd) := by
      have hz : ∀ l : List ℝ, (l.mapM fun t => do
        let y ← Np.fdiv (t * d.dc.vgap) d.dc.rn
        return (y - d.dc.vint / d.dc.rn) * 1e6 : Py (List ℝ)) =
        .ok (l.map fun t => (t * d.dc.vgap - d.dc.vint) / d.dc.rn * 1e6) := by
        intro l
        induction l with
        | nil => rfl
        | cons t l ih =>
          rw [List.mapM_cons, ih, fdiv_ok.2 ⟨hrn, rfl⟩]
          simp only [py_bind, pure, Except.pure, List.map_cons]
          rw [sub_div]
      rw [hz]
      unfold shownMvUa siCurve
      rw [e1, e2, zip_points]
      simp only [List.map_map]
      rfl
    have f1' : (shownMvUa (siCurve d)).map Prod.fst =
        (shownMvUa ((siCurve d).map fun p => (p.1, (p.1 - d.dc.vint) / d.dc.rn))).map Prod.fst := by
      unfold shownMvUa
      simp only [List.map_map]
      rfl
    unfold plotIfNoise at hf
    rw [hs] at hf
    simp only [g0, py_bind, f1, f2, g1, draw_points] at hf
    rw [f1'] at hf
    simp only [draw_points, py_bind] at hf
    obtain ⟨c3, h3, hf⟩ := bind_ok_iff.1 hf
    obtain ⟨l3, rfl⟩ := draw_ok.1 h3
    rw [List.length_map] at l3
    rw [draw_eq (by simp), py_bind, draw_eq (by simp), py_bind] at hf
    obtain ⟨xm, -, hf⟩ := bind_ok_iff.1 hf
    have hf := pure_ok_iff.1 hf
    refine ⟨_, (ax.getD (new, new + 1)).1, (ax.getD (new, new + 1)).2, b, hf.symm, ?_, ?_, rfl, ?_, rfl, l3,
      fun m hm hc hw hg ho h0 h1 => noise_on_line R S h' hh' hP' dcdata dcif kd d ed m hc hw hm v w out b hs hslope hg ho h0 h1⟩
    · rintro x rfl; rfl
    · rintro rfl; simp
    · have z1 : ((v.map (· * (d.dc.vgap * 1e3))).map num).zip (w.map num) = numPts (overMv d.dc.vgap (v.zip w)) := by
        unfold numPts overMv
        rw [List.map_map, List.zip_map, List.map_map]
        apply List.map_congr_left
        rintro ⟨x, y⟩ _
        simp only [Function.comp_apply, Prod.map_apply, mul_assoc]
      have z2 : ((out.shotSlope.map fun q => q.1 * d.dc.vgap * 1e3).map num).zip ((out.shotSlope.map Prod.snd).map num) =
          numPts (v.map fun x => (x * d.dc.vgap * 1e3, 5.8 * (x * d.dc.vgap * 1e3) + b)) := by
        have shot : out.shotSlope = v.map fun x => (x, 5.8 * (x * d.dc.vgap * 1e3) + b) := by
          rw [hslope]
          unfold inMv
          simp only [List.map_map]
          have : (1e3 : ℝ) = 1000 := by norm_num
          rw [this]
          generalize v = l
          induction l with
          | nil => rfl
          | cons x l ih => simp only [List.map_cons, List.zip_cons_cons, ih, Function.comp_apply]
        rw [shot]
        unfold numPts
        simp only [List.map_map]
        generalize v = l
        induction l with
        | nil => rfl
        | cons x l ih => simp only [List.map_cons, List.zip_cons_cons, ih, Function.comp_apply]
      simp only [curves, List.filterMap_cons, List.filterMap_nil, zip_numPts, ← f1', z1, z2]
      simp only [f1', zip_numPts]
      rfl

end

end QMix.Exp
