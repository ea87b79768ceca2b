import Verif.Props.Figures5
import Verif.Props.Tucker
import Verif.Props.HarmonicBalance

/-!
# The figure of the simulated curve (C114)
-/

namespace QMix.Exp

open QMix Np Fl IvData IfData Opt Spec

/-- The circuit of the figure can be simulated. -/
theorem simCircuit_valid {vph : ℝ} (h0 : 0 < vph) (zt : ℂ) (vt : ℝ) :
    Qt.Valid (simCircuit vph zt vt).toCct (.int 30) where
  tones_pos := le_refl 1
  tones_le := by show 1 ≤ 4; norm_num
  harmonics := le_refl 1
  freq_pos := by
    intro f h1 h2
    have : f = 1 := le_antisymm h2 h1
    subst this
    simpa [simCircuit] using h0
  limits := by simp [simCircuit, Qt.NumB.toTup]

/-- The simulated dc current: the dc current of Tucker theory at the drive level of the junction voltages that the
harmonic balance found. -/
theorem simCurrent_ok {resp : ℝ → ℂ} {vph vt : ℝ} {zt : ℂ} (hw : 1 / 20000 < vph) {cur : List ℝ}
    (h : simCurrent resp (simCircuit vph zt vt) = .ok cur) :
    ∃ run vj, HB.harmonicBalance (simCircuit vph zt vt) resp (.int 30) 10 0.001 none 1 .o 0.67 = .ok run ∧
      run.res = .vj vj ∧
      cur = List.ofFn fun k : Fin 201 =>
        Zemb.tuckerDc (fun x => (resp x).im) (k / 100) vph 30 (‖vj 1 1 k‖ / vph) := by
  have h0 : 0 < vph := by linarith
  unfold simCurrent at h
  simp only [bind_ok_iff] at h
  obtain ⟨run, hrun, vj, hvj, rows, hrows, row, hrow, h⟩ := h
  have hres : run.res = .vj vj := by
    unfold resVj at hvj
    split at hvj
    · rename_i v hv; rw [hv, Except.ok.inj hvj]
    · cases hvj
  refine ⟨run, vj, hrun, hres, ?_⟩
  rw [pure_ok_iff] at h
  have hcc : run.cct.toCct = (simCircuit vph zt vt).toCct :=
    (Props.C32_inputs_unchanged_partial _ _ _ _ _ _ _ _ _ _ hrun).2.1.1
  have hV := simCircuit_valid h0 zt vt
  have hf1 : (simCircuit vph zt vt).freq 1 = vph := by simp [simCircuit]
  have hdc := Props.C26_dc vj (simCircuit vph zt vt).toCct resp (.int 30) 30 (fun k => ‖vj 1 1 k‖ / vph) hV rfl rfl rfl
    (by rw [hf1]; exact hw) (by intro k; rw [hf1]; field_simp)
  rw [hcc, Props.C14_mtsda _ _ _ _ _ hV] at hrows
  rw [Props.C14_mtsda _ _ _ _ _ hV] at hdc
  obtain rfl := Except.ok.inj hrows
  simp only [List.map_cons, List.map_nil, Except.ok.injEq, List.cons.injEq, and_true] at hdc
  have hrow' : row = _ := (Except.ok.inj (show Except.ok _ = Except.ok row from hrow)).symm
  rw [← h]
  congr 1
  funext k
  rw [hrow']
  refine (congrArg Complex.re (congrFun hdc k)).trans ?_
  rw [Complex.ofReal_re, Zemb.pumpedIv_eq, hf1]
  have : (simCircuit vph zt vt).vb k = k / 100 := by
    simp only [simCircuit]
    ring
  rw [this]
  rfl

/-- The simulated curve, in volts and amperes. -/
noncomputable def simPts (d : DCData) (vph : ℝ) (vj : Fin 201 → ℂ) : List (ℝ × ℝ) :=
  List.ofFn fun k : Fin 201 =>
    (k / 100 * d.dc.vgap, Zemb.tuckerDc d.respSmear.idc (k / 100) vph 30 (‖vj k‖ / vph) * d.dc.igap)

/-- C114: the figure of the simulated curve. The simulated points are those of a junction with the smeared response
function, at 201 voltages from zero to twice the gap voltage, driven by voltages `vj`. These voltages are the
source voltage if the impedance is zero; and if the harmonic balance has converged, they solve the circuit equation of the
recovered source to 0.1 %. The markers of the fit interval are on the simulated curve. -/
theorem C114_simulated (kw : Dict) (d : DCData) (r : PumpedData) (hl : d.current.length = d.voltage.length)
    (hne : d.voltage ≠ []) (hi0 : d.dc.igap ≠ 0) (hg : 0 < d.dc.vgap) (hdc : r.dc = d.dc)
    (hlr : r.voltage.length = r.current.length) (hph : r.vph = r.freq / d.dc.fgap * 1e9) (hw : 1 / 20000 < r.vph)
    (z : Zemb.Result) (hz : r.zemb = some z) (vmax : ℝ) (new : ℕ) (ax : Option ℕ) (fig : Drawing)
    (hfig : plotSimulated PARAMS (update PARAMS kw) r d vmax new ax = .ok fig) :
    ∃ (vt : ℝ) (vj : ℕ → ℕ → Qt.Arr (Fin 201)) (run : _) (fit : ℝ × ℝ) (y1 y2 : ℝ),
      fig.axes = [ax.getD new] ∧ z.vt = some vt ∧ fitRangePlot PARAMS (update PARAMS kw) = .ok fit ∧
      curves fig = [(ax.getD new, .text "Unpumped", numPts (shownMvUa (siCurve d))),
        (ax.getD new, .text "Pumped", numPts (shownMvUa ((siPumped r).filter fun p => decide (p.2 ≠ 0)))),
        (ax.getD new, .text "Simulated", numPts (shownMvUa (simPts d r.vph (vj 1 1)))),
        (ax.getD new, .text "Fit Interval", numPts
          [((1 - r.vph + fit.1 * r.vph) * d.dc.vgap * 1e3, y1), ((1 - r.vph + fit.2 * r.vph) * d.dc.vgap * 1e3, y2)])] ∧
      (0 ≤ 1 - r.vph + fit.1 * r.vph → 1 - r.vph + fit.1 * r.vph ≤ 2 →
        OnLine (shownMvUa (simPts d r.vph (vj 1 1))) ((1 - r.vph + fit.1 * r.vph) * d.dc.vgap * 1e3) y1) ∧
      (0 ≤ 1 - r.vph + fit.2 * r.vph → 1 - r.vph + fit.2 * r.vph ≤ 2 →
        OnLine (shownMvUa (simPts d r.vph (vj 1 1))) ((1 - r.vph + fit.2 * r.vph) * d.dc.vgap * 1e3) y2) ∧
      HB.harmonicBalance (simCircuit r.vph z.zt vt) d.respSmear.resp (.int 30) 10 0.001 none 1 .o 0.67 = .ok run ∧
      (z.zt = 0 → ∀ k, vj 1 1 k = vt) ∧
      (1 / 10 ^ 10 ≤ vt → ∀ s, run.stopped = some s → s.exit = .target → ∀ k : Fin 201,
        ‖(vt : ℂ) - z.zt * Spec.qt d.respSmear.resp (fun f p => vj f p k) (fun f => if f = 1 then r.vph else 0) 1 1 [30]
          (k / 100) r.vph - vj 1 1 k‖ ≤ 0.001 * ‖vj 1 1 k‖) ∧
      .vline (ax.getD new) (d.dc.vgap * 1e3) ∈ fig.cmds ∧
      .vline (ax.getD new) ((1 - r.vph) * d.dc.vgap * 1e3) ∈ fig.cmds ∧
      .title (ax.getD new) [.num "LO: " 1 (num r.freq) " GHz", .num "$V_{ph}$ = " 2 (num (r.vph * d.dc.vgap * 1e3)) " mV",
        .num "$V_T$ = " 2 (num (vt * d.dc.vgap * 1e3)) " mV",
        .cnum "$Z_T$ = " 2 (z.zt * (d.dc.rn : ℂ)) " $\\Omega$"] ∈ fig.cmds := by
  unfold plotSimulated at hfig
  simp only [bind_ok_iff] at hfig
  obtain ⟨vph, hvph, fit, hfit, z', hz', vt, hvt, cur, hcur, c1, h1, m, hm, c2, h2, c3, h3, y, hy, c4, h4, im, him, hfig⟩ := hfig
  have hz'' : z' = z := by
    rw [hz] at hz'
    exact (Except.ok.inj (show Except.ok z = Except.ok z' from hz')).symm
  subst hz''
  have hvt' : z'.vt = some vt := by
    cases hc : z'.vt with
    | none => rw [hc] at hvt; cases hvt
    | some w => rw [hc] at hvt; exact congrArg some (Except.ok.inj (show Except.ok w = Except.ok vt from hvt))
  have hvphe : vph = r.vph := by
    obtain ⟨-, e⟩ := fdiv_ok.1 hvph
    rw [e, hph]
    ring
  subst hvphe
  obtain ⟨run, vj, hrun, hres, hcur'⟩ := simCurrent_ok hw hcur
  obtain ⟨L, -, -, -, f1, f2, hSne⟩ := dc_points_of hl hne
  obtain ⟨m', hm', m1, m2⟩ := pumped_points_of hdc hlr hi0
  rw [hm] at hm'
  obtain rfl := Except.ok.inj hm'
  have hidc : (fun x => (d.respSmear.resp x).im) = d.respSmear.idc := by
    funext x
    simp [RespFn.Obj.resp, RespFn.Obj.idc]
  rw [hidc] at hcur'
  have sx : (List.ofFn (simCircuit r.vph z'.zt vt).vb).map (· * (d.dc.vgap * 1e3)) =
      (shownMvUa (simPts d r.vph (vj 1 1))).map Prod.fst := by
    unfold shownMvUa simPts
    rw [List.map_ofFn, List.map_ofFn, List.map_ofFn]
    congr 1
    funext k
    simp only [Function.comp_apply, simCircuit]
    ring
  have sy : cur.map (· * (d.dc.igap * 1e6)) = (shownMvUa (simPts d r.vph (vj 1 1))).map Prod.snd := by
    unfold shownMvUa simPts
    rw [hcur', List.map_ofFn, List.map_ofFn, List.map_ofFn]
    congr 1
    funext k
    simp only [Function.comp_apply]
    ring
  set P := shownMvUa (simPts d r.vph (vj 1 1)) with hP
  have hPne : P ≠ [] := by
    intro h0
    have := congrArg List.length h0
    rw [hP, shownMvUa, List.length_map, simPts, List.length_ofFn] at this
    cases this
  have hInc : Incr P := by
    unfold Incr
    rw [hP]
    unfold shownMvUa simPts
    rw [List.pairwise_map, List.pairwise_ofFn]
    intro i j hij
    have : ((i : ℕ) : ℝ) < (j : ℕ) := by exact_mod_cast hij
    simp only
    have h3 : (0 : ℝ) < 1 / 100 * d.dc.vgap * 1e3 := by positivity
    nlinarith
  have e0 : (0 : ℝ) * d.dc.vgap * 1e3 ∈ P.map Prod.fst := by
    refine List.mem_map.2 ⟨_, List.mem_map.2 ⟨_, List.mem_ofFn.2 ⟨⟨0, by norm_num⟩, rfl⟩, rfl⟩, ?_⟩
    norm_num
  have e2 : (2 : ℝ) * d.dc.vgap * 1e3 ∈ P.map Prod.fst := by
    refine List.mem_map.2 ⟨_, List.mem_map.2 ⟨_, List.mem_ofFn.2 ⟨⟨200, by norm_num⟩, rfl⟩, rfl⟩, ?_⟩
    norm_num
  rw [hdc] at h1 h2 h3 h4 hy hfig
  rw [f1, f2, draw_points] at h1
  rw [m1, m2, draw_points] at h2
  rw [sx, sy, draw_points] at h3
  rw [sx, sy, interp_points hPne] at hy
  obtain rfl := Except.ok.inj h1
  obtain rfl := Except.ok.inj h2
  obtain rfl := Except.ok.inj h3
  obtain rfl := Except.ok.inj hy
  simp only [List.map_cons, List.map_nil] at h4
  rw [draw_eq (by simp)] at h4
  obtain rfl := Except.ok.inj h4
  rw [pure_ok_iff] at hfig
  subst hfig
  have x1 : (1 - r.vph + r.vph * fit.1) * d.dc.vgap * 1e3 = (1 - r.vph + fit.1 * r.vph) * d.dc.vgap * 1e3 := by ring
  have x2 : (1 - r.vph * (1 - fit.2)) * d.dc.vgap * 1e3 = (1 - r.vph + fit.2 * r.vph) * d.dc.vgap * 1e3 := by ring
  have online : ∀ t : ℝ, 0 ≤ t → t ≤ 2 → OnLine P (t * d.dc.vgap * 1e3) (interpAt P (t * d.dc.vgap * 1e3)) := by
    intro t t0 t2
    obtain ⟨p, hp, hp'⟩ := List.mem_map.1 e0
    obtain ⟨q, hq, hq'⟩ := List.mem_map.1 e2
    refine interpAt_onLine hInc ⟨p, hp, ?_⟩ ⟨q, hq, ?_⟩
    · rw [hp']; gcongr
    · rw [hq']; gcongr
  refine ⟨vt, vj, run, fit, interpAt P ((1 - r.vph + fit.1 * r.vph) * d.dc.vgap * 1e3),
    interpAt P ((1 - r.vph + fit.2 * r.vph) * d.dc.vgap * 1e3), rfl, hvt', hfit, ?_, fun a b => ?_, fun a b => ?_, hrun, ?_, ?_, ?_, ?_, ?_⟩
  · simp only [curves, List.filterMap_cons, List.filterMap_nil, zip_numPts]
    rw [x1, x2]
    rfl
  · exact online _ a b
  · exact online _ a b
  · intro h0 k
    have hzt : HB.ztZero (simCircuit r.vph z'.zt vt) := by
      intro f p _ _
      simp [simCircuit, h0]
    rw [HB.hb_zero _ _ _ _ _ _ _ _ hzt] at hrun
    obtain rfl := Except.ok.inj hrun
    simp only [HB.Res.vj.injEq] at hres
    rw [← hres]
    simp [simCircuit]
  · intro hv0 s hs ht k
    have h0 : 0 < r.vph := by linarith
    have := (Props.C27_last_signal _ _ _ _ _ _ _ _ _ (simCircuit_valid h0 z'.zt vt) run hrun s hs ht vj
      (by rw [hres]; rfl) k).1
    have hcl : run.cct = (simCircuit r.vph z'.zt vt).clamp := by
      by_cases h0 : HB.ztZero (simCircuit r.vph z'.zt vt)
      · rw [HB.hb_zero _ _ _ _ _ _ _ _ h0] at hrun
        rw [← Except.ok.inj hrun] at hs
        cases hs
      · obtain ⟨_, _, _, hE⟩ := HB.hb_entered h0 hrun
        exact hE.cct_eq
    rw [hcl] at this
    have hb : (simCircuit r.vph z'.zt vt).vb k = k / 100 := by
      simp only [simCircuit]
      ring
    have hc : HB.clampVt (simCircuit r.vph z'.zt vt).vt 1 1 = vt := by
      have hn : ¬ ‖(vt : ℂ)‖ < 1 / 10 ^ 10 := by
        rw [not_lt, Complex.norm_real, Real.norm_eq_abs]
        exact hv0.trans (le_abs_self _)
      have hv1 : (simCircuit r.vph z'.zt vt).vt 1 1 = vt := by simp [simCircuit]
      unfold HB.clampVt
      rw [if_neg (by norm_num), hv1, if_neg hn]
    have hres' : HB.resid (simCircuit r.vph z'.zt vt).clamp d.respSmear.resp (.int 30) vj 1 1 k =
        (vt : ℂ) - z'.zt * Spec.qt d.respSmear.resp (fun f p => vj f p k) (fun f => if f = 1 then r.vph else 0) 1 1 [30]
          (k / 100) r.vph - vj 1 1 k := by
      unfold HB.resid Spec.residual
      show HB.clampVt (simCircuit r.vph z'.zt vt).vt 1 1 - _ * Spec.qt _ _ _ _ _ _ ((simCircuit r.vph z'.zt vt).vb k) _ - _ = _
      rw [hc, hb]
      simp [simCircuit, HB.HCct.clamp, Qt.NumB.toTup]
    rw [← hres']
    exact this
  · simp
  · have : d.dc.vgap * 1e3 - r.vph * (d.dc.vgap * 1e3) = (1 - r.vph) * d.dc.vgap * 1e3 := by ring
    rw [← this]
    simp
  · rw [mul_assoc r.vph]
    simp

/-- C114: the fit interval of the figure is that of the impedance recovery, unless `fit_range=None` is given together with
the old names `cut_low` and `cut_high`: see `C114_false_interval`. -/
theorem C114_interval_partial (kw : Dict) (o : Zemb.ZembOpts) (fit : ℝ × ℝ)
    (ho : zembOpts PARAMS (update PARAMS kw) = .ok o) (hk : kw "fit_range" ≠ some .none)
    (hf : fitRangePlot PARAMS (update PARAMS kw) = .ok fit) : fit = (o.fitLow, o.fitHigh) := by
  have hn : getD (update PARAMS kw) "fit_range" .none ≠ .none := by
    unfold getD update
    cases hv : kw "fit_range" with
    | none =>
      intro h0
      cases (show Val.seq _ = Val.none from h0)
    | some v =>
      intro h0
      apply hk
      rw [hv]
      exact congrArg some h0
  simp only [zembOpts, bind_ok_iff] at ho
  obtain ⟨f, hf', re, -, xe, -, ze, -, al, -, nb, -, eo⟩ := ho
  rw [pure_ok_iff] at eo
  have : fitRange PARAMS (update PARAMS kw) = fitRangePlot PARAMS (update PARAMS kw) := by
    unfold fitRange fitRangePlot
    split
    · rename_i h0; exact absurd h0 hn
    · rfl
  rw [this, hf] at hf'
  rw [← eo, ← Except.ok.inj hf']

/-- Options that use the old names of the fit interval. -/
noncomputable def oldNames : Dict :=
  fun k => List.lookup k [("fit_range", .none), ("cut_low", .num 0.2), ("cut_high", .num 0.3)]

/-- C114 fails for the old names: the recovery fits 20 % to 70 % of the step and the figure marks 20 % to 30 %. -/
theorem C114_false_interval : ∃ o fit, zembOpts PARAMS (update PARAMS oldNames) = .ok o ∧
    fitRangePlot PARAMS (update PARAMS oldNames) = .ok fit ∧ o.fitLow = 0.2 ∧ o.fitHigh = 0.7 ∧ fit = (0.2, 0.3) := by
  have e1 : Opt.read PARAMS (update PARAMS oldNames) "remb_range" = .ok (.seq [.int 0, .int 1]) := rfl
  have e2 : Opt.read PARAMS (update PARAMS oldNames) "xemb_range" = .ok (.seq [.int (-1), .int 1]) := rfl
  have e3 : Opt.read PARAMS (update PARAMS oldNames) "zemb" = .ok .none := rfl
  have g1 : update PARAMS oldNames "fit_range" = some .none := rfl
  have g2 : update PARAMS oldNames "cut_low" = some (.num 0.2) := rfl
  have g3 : update PARAMS oldNames "cut_high" = some (.num 0.3) := rfl
  have g4 : update PARAMS oldNames "alpha_max" = some (.num 1.5) := rfl
  have g5 : update PARAMS oldNames "num_b" = some (.int 20) := rfl
  simp only [zembOpts, fitRange, fitRangePlot, getD, e1, e2, e3, g1, g2, g3, g4, g5, Option.getD_some, py_bind, asReal, asInt,
    asPair, asOptReal, asOptCplx, pure, Except.pure]
  exact ⟨_, _, rfl, rfl, rfl, by norm_num, rfl⟩

end QMix.Exp
