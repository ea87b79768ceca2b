import Verif.Props.Figures6
import Verif.Props.IvData5

/-!
# The figures of the embedding circuit can be drawn (C114, C115)
-/

namespace QMix.Exp

open QMix Np Fl IvData IfData Opt Spec

/-- C114: the figure is drawn whenever the recovery found a source voltage, the harmonic balance returns and the options give
a fit interval. -/
theorem C114_returns (kw : Dict) (d : DCData) (r : PumpedData) (hl : d.current.length = d.voltage.length)
    (hne : d.voltage ≠ []) (hi0 : d.dc.igap ≠ 0) (hf0 : d.dc.fgap ≠ 0) (hdc : r.dc = d.dc)
    (hlr : r.voltage.length = r.current.length) (hph : r.vph = r.freq / d.dc.fgap * 1e9) (hw : 0 < r.vph)
    (z : Zemb.Result) (hz : r.zemb = some z) (vt : ℝ) (hvt : z.vt = some vt) (fit : ℝ × ℝ)
    (hfit : fitRangePlot PARAMS (update PARAMS kw) = .ok fit) (run : _) (vj : _)
    (hrun : HB.harmonicBalance (simCircuit r.vph z.zt vt) d.respSmear.resp (.int 30) 10 0.001 none 1 .o 0.67 = .ok run)
    (hvj : run.res = .vj vj) (vmax : ℝ) (new : ℕ) (ax : Option ℕ) :
    ∃ fig, plotSimulated PARAMS (update PARAMS kw) r d vmax new ax = .ok fig := by
  have hvph : simVph r d = .ok r.vph := by
    unfold simVph
    rw [fdiv_ok]
    refine ⟨hf0, ?_⟩
    rw [hph]
    ring
  obtain ⟨L, -, -, -, f1, f2, hSne⟩ := dc_points_of hl hne
  obtain ⟨m, hm, m1, m2⟩ := pumped_points_of hdc hlr hi0
  have hcc : run.cct.toCct = (simCircuit r.vph z.zt vt).toCct :=
    (Props.C32_inputs_unchanged_partial _ _ _ _ _ _ _ _ _ _ hrun).2.1.1
  obtain ⟨cur, hcur, lcur⟩ : ∃ cur, simCurrent d.respSmear.resp (simCircuit r.vph z.zt vt) = .ok cur ∧ cur.length = 201 := by
    unfold simCurrent
    rw [hrun]
    simp only [py_bind, hvj, resVj, hcc]
    rw [Props.C14_mtsda _ _ _ _ _ (simCircuit_valid hw z.zt vt)]
    simp only [List.map_cons, List.map_nil, py_bind]
    exact ⟨_, rfl, List.length_ofFn⟩
  unfold plotSimulated
  have lx : ((List.ofFn (simCircuit r.vph z.zt vt).vb).map (· * (d.dc.vgap * 1e3))).length =
      (cur.map (· * (d.dc.igap * 1e6))).length := by
    rw [List.length_map, List.length_map, List.length_ofFn, lcur]
  obtain ⟨P, p1, p2⟩ := exists_points lx
  have hPne : P ≠ [] := by
    rintro rfl
    have := congrArg List.length p2
    rw [List.length_map, List.length_map, lcur] at this
    cases this
  simp only [hvph, hfit, hz, hvt, getOpt, hcur, py_bind, hdc, hm]
  rw [f1, f2, m1, m2, ← p1, ← p2, draw_points, draw_points, draw_points, interp_points hPne]
  simp only [py_bind]
  rw [draw_eq (by simp), interpVal_ok.2 ⟨by simp, by simpa using hSne, rfl⟩]
  exact ⟨_, rfl⟩

/-- A junction whose response does not depend on the voltage: `idc = ikk = -1`. -/
noncomputable def flatResp : RespFn.Obj where
  fIdc _ := -1
  fIkk _ := -1
  fDidc := none
  fDikk := none
  voltage := []
  current := []
  currentKk := []

/-- A pumped curve of constant current: that of this junction at the drive level `1/2`. -/
noncomputable def flatCurve : Clean.Mat where
  ncol := 2
  rows := [[num (-10), num (-besselJ 0 (1 / 2) ^ 2 * 0.28)], [num 10, num (-besselJ 0 (1 / 2) ^ 2 * 0.28)]]

/-- The recovery from this curve: every point of the step has an ac voltage and a reactive impedance. -/
theorem flat_recovery (S : RespFn.Splines) (kw : Dict) (o : Opts) (oz : Zemb.ZembOpts)
    (ho : ivOpts PARAMS (update PARAMS kw) = .ok o) (hoz : zembOpts PARAMS (update PARAMS kw) = .ok oz)
    (hkw : ∀ k ∈ ["dc", "ivdata", "volt_v", "curr_a", "vmeas", "imeas", "vdc_exp", "idc_exp", "vph", "resp", "vb",
      "alpha"], kw k = none) (hfreq : kw "freq" = some (.num 230)) (hiv : kw "analyze_iv" = none)
    (o1 : o.vFmt = "mV") (o2 : o.iFmt = "mA") (o3 : o.vMult = 1) (o3' : o.iMult = 1) (o4 : o.npts = 6001)
    (o5 : o.vmax = 6e-3) (o6 : o.filterData = false) (o7 : o.rseries = none) (o8 : o.voffset = none)
    (z1 : oz.fitLow ≤ 0.39) (z2 : 0.42 ≤ oz.fitHigh) (z3 : oz.alphaMax = 1) (z4 : oz.numB = 0) :
    ∃ (d : DCData) (r : PumpedData) (z : Zemb.Result) (v zi : List ℂ),
      (dcData ideal S [PARAMS] (.matrix tenOhm) none gapOnly).1 = .ok d ∧
      (pumpedData ideal [PARAMS] (.matrix flatCurve) { d with resp := flatResp, respSmear := flatResp } none none kw).1 = .ok r ∧
      r.zemb = some z ∧ r.vph = 230 / d.dc.fgap * 1e9 ∧ 0.33 < r.vph ∧ d.dc.rn = 10 ∧ d.dc.vgap = 2.8e-3 ∧ d.dc.igap ≠ 0 ∧
      d.dc.fgap ≠ 0 ∧
      Zemb.acVolts oz flatResp.idc r.vph (Zemb.onStep oz.fitLow oz.fitHigh r.vph r.voltage r.current) = v.map some ∧
      Zemb.acImps oz flatResp.idc flatResp.ikk r.vph (Zemb.onStep oz.fitLow oz.fitHigh r.vph r.voltage r.current) =
        zi.map some ∧ zi ≠ [] ∧ v.length = zi.length ∧ ∀ x ∈ zi, x.re = 0 ∧ x ≠ 0 := by
  obtain ⟨d, hd, d1, -, d2, d3, -⟩ := tenOhm_returns S
  have hd' := hd
  simp only [dcData, mergeOptions_eq, deref_append] at hd'
  obtain ⟨-, -, ⟨o', -, hc⟩, -⟩ := dcInit_parts hd'
  obtain ⟨-, -, -, -, -, -, hrn, hig, hfg, -⟩ := C81_metadata ideal o' _ _ _ _ hc
  have hfg' : d.dc.fgap ≠ 0 := by rw [hfg, d2]; norm_num
  have hig2 : d.dc.igap = 2.8e-4 := by 
    rw [d1, d2] at hig
    linarith
  have hig' : d.dc.igap ≠ 0 := by rw [hig2]; norm_num
  have hvph : 0.33 < 230 / d.dc.fgap * 1e9 ∧ 230 / d.dc.fgap * 1e9 < 0.34 := by
    rw [hfg, d2]
    norm_num
  set d' : DCData := { d with resp := flatResp, respSmear := flatResp } with hd'def
  have hreal : ∀ w ∈ flatCurve.rows, ∃ x y : ℝ, w.getD 0 none = num x ∧ w.getD 1 none = num y := by
    intro w hw
    simp only [flatCurve, List.mem_cons, List.not_mem_nil, or_false] at hw
    rcases hw with rfl | rfl
    · exact ⟨_, _, rfl, rfl⟩
    · exact ⟨_, _, rfl, rfl⟩
  obtain ⟨r, z, h1, h2, h3, h4⟩ := (C98_returns ideal [PARAMS] (by simp) rfl flatCurve d' kw o oz (.num 230) 230 ho hoz
    hkw hfreq rfl hiv rfl (by rw [o1]; simp) (by rw [o2]; simp) (by rw [o3]; norm_num) hreal
    ⟨_, by simp only [flatCurve]; exact List.mem_cons_self, [num 10, num (-besselJ 0 (1 / 2) ^ 2 * 0.28)],
      by simp [flatCurve], by simp only [List.getD_cons_zero, ne_eq, Fl.num_inj]; norm_num⟩ o6 o7 (by rw [o4]; norm_num)
    (by show d.dc.vgap ≠ 0; rw [d2]; norm_num) hig' hfg').1
    ⟨4120, by rw [o4]; norm_num, by
      show 1 - 230 / d.dc.fgap * 1e9 + _ * (230 / d.dc.fgap * 1e9) ≤ _ / d.dc.vgap
      rw [o4, o5, d2]
      norm_num
      nlinarith [hvph.1, hvph.2], by
      show _ / d.dc.vgap ≤ 1 - 230 / d.dc.fgap * 1e9 + _ * (230 / d.dc.fgap * 1e9)
      rw [o4, o5, d2]
      norm_num
      nlinarith [hvph.1, hvph.2]⟩
  have h3' : r.vph = 230 / d.dc.fgap * 1e9 := h3
  have h4' : ivCurve ideal o (.matrix flatCurve) d.dc = .ok (r.voltage, r.current) := h4
  rw [← h3'] at hvph
  have hv : voltUnit "mV" = 1e-3 := by simp [voltUnit]
  have hi : ampUnit "mA" = 1e-3 := by simp [ampUnit]
  have hoff : pumpedOffset o d.dc = (0, 0) := by
    unfold pumpedOffset
    rw [o8, d3]
  have hcor : ∀ p, Corrected o flatCurve (0, 0) p → p.2 = -besselJ 0 (1 / 2) ^ 2 * d.dc.igap := by
    rintro p ⟨w, hw, x, y, hx, hy, rfl⟩
    have hy' : y = -besselJ 0 (1 / 2) ^ 2 * 0.28 := by
      simp only [flatCurve, List.mem_cons, List.not_mem_nil, or_false] at hw
      rcases hw with rfl | rfl
      · exact ((Fl.num_inj).1 hy).symm
      · exact ((Fl.num_inj).1 hy).symm
    simp only [hy', o2, hi, o3', hig2]
    norm_num
    ring
  have h2r : ∃ w ∈ flatCurve.rows, ∃ w' ∈ flatCurve.rows, w.getD 0 none ≠ w'.getD 0 none :=
    ⟨_, by simp only [flatCurve]; exact List.mem_cons_self, [num 10, num (-besselJ 0 (1 / 2) ^ 2 * 0.28)],
      by simp [flatCurve], by simp only [List.getD_cons_zero, ne_eq, Fl.num_inj]; norm_num⟩
  obtain ⟨v, i, hcur, lv, li, ev⟩ := ivCurve_returns ideal o flatCurve d.dc rfl (by rw [o1]; simp) (by rw [o2]; simp)
    (by rw [o3]; norm_num) hreal h2r o6 o7 (by rw [o4]; norm_num) (by rw [d2]; norm_num) hig'
  rw [h4'] at hcur
  simp only [Except.ok.injEq, Prod.mk.injEq] at hcur
  obtain ⟨rfl, rfl⟩ := hcur
  have lv' : r.voltage.length = 6001 := by rw [lv, o4]; rfl
  have hflat : ∀ p ∈ Zemb.onStep oz.fitLow oz.fitHigh r.vph r.voltage r.current, p.2 = -besselJ 0 (1 / 2) ^ 2 := by
    intro p hp
    obtain ⟨k, hk⟩ := List.mem_iff_getElem?.1 (List.mem_of_mem_filter hp)
    obtain ⟨k1, k2⟩ := List.getElem?_zip_eq_some.1 hk
    have hk' : k < 6001 := by rw [← lv']; exact (List.getElem?_eq_some_iff.1 k1).1
    have hk2 : ((k : ℕ) : ℝ) ≤ 6000 := by exact_mod_cast (by omega : k ≤ 6000)
    have hk0 : (0 : ℝ) ≤ k := Nat.cast_nonneg k
    have hpv : p.1 * d.dc.vgap = -6e-3 + k * (2 * 6e-3 / 6000) := by
      have k1' := k1
      rw [ev, List.getElem?_map, tab_get?, if_pos (by rw [o4]; exact hk'), o4, o5] at k1'
      rw [← Option.some.inj k1', d2]
      push_cast
      ring
    have g1 : r.voltage.getD k 0 = p.1 := by rw [List.getD_eq_getElem?_getD, k1]; rfl
    have g2 : r.current.getD k 0 = p.2 := by rw [List.getD_eq_getElem?_getD, k2]; rfl
    obtain ⟨a, b, t, ha, hb, -, -, -, -, h5⟩ := C84_inside_pumped ideal o flatCurve r.voltage r.current d.dc h4' o6 o7
      (by rw [o3]; norm_num) (by rw [d2]; norm_num) k (by rw [lv']; exact hk')
      ⟨_, ⟨[num (-10), num (-besselJ 0 (1 / 2) ^ 2 * 0.28)], by simp [flatCurve], -10, _, rfl, rfl, rfl⟩, by
        rw [g1, hpv, hoff, o1, hv, o3]
        norm_num
        nlinarith⟩
      ⟨_, ⟨[num 10, num (-besselJ 0 (1 / 2) ^ 2 * 0.28)], by simp [flatCurve], 10, _, rfl, rfl, rfl⟩, by
        rw [g1, hpv, hoff, o1, hv, o3]
        norm_num
        nlinarith⟩
    rw [hoff] at ha hb
    rw [g2, hcor a ha, hcor b hb, sub_self, mul_zero, add_zero] at h5
    exact mul_right_cancel₀ hig' h5
  have hv0 : 0 < r.vph := by linarith [hvph.1]
  have hpt : ∀ p ∈ Zemb.onStep oz.fitLow oz.fitHigh r.vph r.voltage r.current, ∃ v z : ℂ, z.re = 0 ∧ z ≠ 0 ∧
      (Zemb.finite (Zemb.findAlpha flatResp.idc r.vph oz.alphaMax oz.numB p.1 p.2)).map
        (fun a => ((a * r.vph : ℝ) : ℂ)) = some v ∧
      Zemb.cdiv ((Zemb.finite (Zemb.findAlpha flatResp.idc r.vph oz.alphaMax oz.numB p.1 p.2)).map
        fun a => ((a * r.vph : ℝ) : ℂ))
        ((Zemb.finite (Zemb.findAlpha flatResp.idc r.vph oz.alphaMax oz.numB p.1 p.2)).map
          fun a => Zemb.acCurrent flatResp.idc flatResp.ikk p.1 r.vph oz.numB a) = some z := by
    intro p hp
    obtain ⟨a, ha, hclose⟩ := Zemb.demo_alpha p.1 r.vph
    rw [abs_le] at hclose
    have h0 : 0 < a := by norm_num at hclose; linarith [hclose.1]
    have h1 : a ≤ 1 := by norm_num at hclose; linarith [hclose.2]
    have p0 := Zemb.besselJ_zero_pos h0.le h1
    have p1 := besselJ_one_pos h0 (by linarith [Real.pi_gt_three])
    have pr : 0 < 2 * besselJ 0 a * besselJ 1 a := by positivity
    have hne : Complex.I * ((2 * besselJ 0 a * besselJ 1 a : ℝ) : ℂ) ≠ 0 :=
      mul_ne_zero Complex.I_ne_zero (Complex.ofReal_ne_zero.2 pr.ne')
    have hac : Zemb.acCurrent flatResp.idc flatResp.ikk p.1 r.vph 0 a =
        Complex.I * ((2 * besselJ 0 a * besselJ 1 a : ℝ) : ℂ) := by
      have h : besselJ (-1) a = -besselJ 1 a := by rw [besselJ_neg]; simp
      simp [Zemb.acCurrent, pyRange, h, RespFn.Obj.idc, RespFn.Obj.ikk, flatResp]
      ring
    have ha' : Zemb.findAlpha flatResp.idc r.vph oz.alphaMax oz.numB p.1 p.2 = num a := by
      rw [hflat p hp, z3, z4]
      exact ha
    rw [ha', Zemb.finite_num, Option.map_some, Option.map_some, z4, hac]
    refine ⟨_, ((a * r.vph : ℝ) : ℂ) / (Complex.I * ((2 * besselJ 0 a * besselJ 1 a : ℝ) : ℂ)), ?_, ?_, rfl, ?_⟩
    · rw [mul_comm Complex.I, ← div_div, Complex.div_I, ← Complex.ofReal_div, Complex.neg_re, Complex.mul_I_re,
        Complex.ofReal_im]
      simp
    · exact div_ne_zero (Complex.ofReal_ne_zero.2 (by positivity)) hne
    · unfold Zemb.cdiv
      simp only [if_neg hne]
  have hne : Zemb.onStep oz.fitLow oz.fitHigh r.vph r.voltage r.current ≠ [] := by
    obtain ⟨hl, o2, ho2, hrec⟩ := pumped_zemb (h := [PARAMS]) (by simp) rfl h1 h2
    rw [hoz] at ho2
    obtain rfl := Except.ok.inj ho2
    intro h0
    rw [Zemb.C63_no_data _ _ _ _ _ _ hl h0] at hrec
    cases hrec
  have lists : ∀ l : List (ℝ × ℝ), (∀ p ∈ l, ∃ v z : ℂ, z.re = 0 ∧ z ≠ 0 ∧
      (Zemb.finite (Zemb.findAlpha flatResp.idc r.vph oz.alphaMax oz.numB p.1 p.2)).map
        (fun a => ((a * r.vph : ℝ) : ℂ)) = some v ∧
      Zemb.cdiv ((Zemb.finite (Zemb.findAlpha flatResp.idc r.vph oz.alphaMax oz.numB p.1 p.2)).map
        fun a => ((a * r.vph : ℝ) : ℂ))
        ((Zemb.finite (Zemb.findAlpha flatResp.idc r.vph oz.alphaMax oz.numB p.1 p.2)).map
          fun a => Zemb.acCurrent flatResp.idc flatResp.ikk p.1 r.vph oz.numB a) = some z) →
      ∃ v zi : List ℂ, Zemb.acVolts oz flatResp.idc r.vph l = v.map some ∧
        Zemb.acImps oz flatResp.idc flatResp.ikk r.vph l = zi.map some ∧ zi.length = l.length ∧ v.length = zi.length ∧
        ∀ x ∈ zi, x.re = 0 ∧ x ≠ 0 := by
    intro l
    induction l with
    | nil => intro _; exact ⟨[], [], rfl, rfl, rfl, rfl, by simp⟩
    | cons p l ih =>
      intro hl
      obtain ⟨v, zi, e1, e2, e3, e4, e5⟩ := ih fun q hq => hl q (List.mem_cons_of_mem _ hq)
      obtain ⟨w, z, f1, f2, f3, f4⟩ := hl p List.mem_cons_self
      refine ⟨w :: v, z :: zi, ?_, ?_, by simp [e3], by simp [e4], ?_⟩
      · rw [List.map_cons, ← e1, ← f3]
        rfl
      · rw [List.map_cons, ← e2, ← f4]
        rfl
      · intro x hx
        rcases List.mem_cons.1 hx with rfl | hx
        · exact ⟨f1, f2⟩
        · exact e5 x hx
  obtain ⟨v, zi, e1, e2, e3, e4, e5⟩ := lists _ hpt
  refine ⟨d, r, z, v, zi, hd, h1, h2, h3', hvph.1, d1, d2, hig', hfg', e1, e2, ?_, e4, e5⟩
  rintro rfl
  exact hne (List.length_eq_zero_iff.1 e3.symm)

/-- The keywords of the first example. -/
noncomputable def searchKw : Dict :=
  fun k => List.lookup k [("freq", .num 230), ("filter_data", .bool false), ("num_b", .int 0), ("alpha_max", .num 1),
    ("remb_range", .seq [.int 1, .int 2])]

theorem searchKw_opts : (∃ o, ivOpts PARAMS (update PARAMS searchKw) = .ok o ∧ o.vFmt = "mV" ∧ o.iFmt = "mA" ∧
    o.vMult = 1 ∧ o.iMult = 1 ∧ o.npts = 6001 ∧ o.vmax = 6e-3 ∧ o.filterData = false ∧ o.rseries = none ∧ o.voffset = none) ∧
    ∃ o, zembOpts PARAMS (update PARAMS searchKw) = .ok o ∧ o.fitLow = 0.25 ∧ o.fitHigh = 0.8 ∧ o.alphaMax = 1 ∧
      o.numB = 0 ∧ o.remb = (1, 2) ∧ o.xemb = (-1, 1) := by
  have e : ∀ k v, Opt.read PARAMS (update PARAMS searchKw) k = .ok v → Opt.read PARAMS (update PARAMS searchKw) k = .ok v :=
    fun _ _ h => h
  constructor
  · simp only [ivOpts, e "filter_data" (.bool false) rfl, e "v_fmt" _ rfl, e "i_fmt" _ rfl, e "v_multiplier" _ rfl,
      e "i_multiplier" _ rfl, e "rseries" _ rfl, e "vmax" _ rfl,
      e "npts" _ rfl, e "voffset" _ rfl, e "ioffset" _ rfl,
      e "voffset_range" _ rfl, e "filter_nwind" _ rfl, e "filter_npoly" _ rfl,
      e "filter_theta" _ rfl, e "vgap" _ rfl, e "vrn" _ rfl,
      e "vrsg" _ rfl, py_bind, asReal, asOptReal, asInt, asUnit, asVRange, asPair, truth, pure, Except.pure]
    exact ⟨_, rfl, rfl, rfl, by norm_num, by norm_num, rfl, rfl, rfl, rfl, rfl⟩
  · have g : ∀ k v, update PARAMS searchKw k = some v → update PARAMS searchKw k = some v := fun _ _ h => h
    simp only [zembOpts, fitRange, getD, e "remb_range" _ rfl, e "xemb_range" _ rfl,
      e "zemb" _ rfl, g "fit_range" _ rfl, g "alpha_max" _ rfl,
      g "num_b" _ rfl, Option.getD_some, py_bind, asReal, asInt, asPair, asOptCplx, pure, Except.pure]
    exact ⟨_, rfl, rfl, rfl, by norm_num, by norm_num, by norm_num, by norm_num⟩

/-- The hypotheses of `C115_minimum_partial` are met. -/
example (S : RespFn.Splines) : ∃ d r fig cells l x y,
    (pumpedData ideal [PARAMS] (.matrix flatCurve) d none none searchKw).1 = .ok r ∧
    plotErrorSurface PARAMS (update PARAMS searchKw) r 0 none = .ok fig ∧ .mesh 0 cells ∈ fig.cmds ∧
    .note 0 l x y ∈ fig.cmds ∧ (∀ row ∈ cells, ∀ c ∈ row, c.2.2 ≠ none) ∧
    ∃ row ∈ cells, ∃ c ∈ row, x = num c.1 ∧ y = num c.2.1 ∧ ∀ row' ∈ cells, ∀ c' ∈ row', fle c.2.2 c'.2.2 := by
  obtain ⟨⟨o, ho, o1, o2, o3, o3', o4, o5, o6, o7, o8⟩, oz, hoz, z1, z2, z3, z4, z5, z6⟩ := searchKw_opts
  obtain ⟨d, r, z, v, zi, -, h1, h2, -, -, -, -, -, -, e1, e2, e3, e4, e5⟩ := flat_recovery S searchKw o oz ho hoz
    (fun k hk => by fin_cases hk <;> rfl) rfl rfl o1 o2 o3 o3' o4 o5 o6 o7 o8 (by rw [z1]; norm_num) (by rw [z2]; norm_num)
    z3 z4
  obtain ⟨fig, cells, o', remb, xemb, f1, -, f2, u1, u2, hc, hl, hrow, hcell⟩ :=
    C115_surface ideal [PARAMS] (by simp) rfl _ searchKw _ none none r h1 z h2 0 none
  rw [hoz] at f2
  obtain rfl := Except.ok.inj f2
  have hm : .mesh 0 cells ∈ fig.cmds := by rw [hc]; exact List.mem_cons_self
  obtain ⟨l, x, y, hn⟩ : ∃ l x y, .note 0 l x y ∈ fig.cmds :=
    ⟨_, _, _, by rw [hc]; exact List.mem_cons_of_mem _ List.mem_cons_self⟩
  have hnum : ∀ row ∈ cells, ∀ c ∈ row, c.2.2 ≠ none := by
    intro row hr c hc
    obtain ⟨j, hj⟩ := List.mem_iff_getElem?.1 hr
    obtain ⟨i, hi⟩ := List.mem_iff_getElem?.1 hc
    have lj : j < 201 := by rw [← hl]; exact (List.getElem?_eq_some_iff.1 hj).1
    have li : i < 101 := by rw [← hrow row hr]; exact (List.getElem?_eq_some_iff.1 hi).1
    obtain ⟨row2, er2, y2, q1, q2, q3, q4⟩ := hcell i j li lj
    rw [hj] at q1
    obtain rfl := Option.some.inj q1
    rw [hi] at q2
    rw [Option.some.inj q2]
    have er : remb = (1, 2) := by
      rw [← z5]
      exact uses_unique u1 (C41_zemb searchKw oz hoz).1
    obtain ⟨x, hx⟩ := List.exists_mem_of_ne_nil _ e3
    obtain ⟨e, w, he, -, -, h0, -⟩ := Zemb.C60_least_squares v zi (Zemb.gridPoint remb xemb i j) e4 (by
      intro x hx h0
      have h0 := congrArg Complex.re h0
      simp [Zemb.gridPoint, er, (e5 x hx).1] at h0
      have : (0 : ℝ) ≤ i := Nat.cast_nonneg i
      linarith) ⟨x, hx, (e5 x hx).2⟩
    have he' : Zemb.errAt oz flatResp.idc flatResp.ikk r.vph
        (Zemb.onStep oz.fitLow oz.fitHigh r.vph r.voltage r.current) (Zemb.gridPoint remb xemb i j) = .ok (some e) := by
      unfold Zemb.errAt
      rw [e1, e2]
      exact he
    rw [he'] at q3
    obtain rfl := Except.ok.inj q3
    show y2 ≠ none
    rcases eq_or_lt_of_le h0 with rfl | h0
    · rw [q4.2.1 rfl]; simp
    · obtain ⟨b, rfl, -⟩ := q4.1 _ rfl h0
      simp [num]
  exact ⟨_, r, fig, cells, l, x, y, h1, f1, hm, hn, hnum,
    C115_minimum_partial ideal [PARAMS] (by simp) rfl _ searchKw _ none none r h1 z h2 rfl 0 none fig f1 cells _ _ _ hm hn hnum⟩

/-- The keywords of the second example: the impedance zero is given. -/
noncomputable def shortKw : Dict :=
  fun k => List.lookup k [("freq", .num 230), ("filter_data", .bool false), ("num_b", .int 0), ("alpha_max", .num 1),
    ("zemb", .num 0)]

theorem shortKw_opts : (∃ o, ivOpts PARAMS (update PARAMS shortKw) = .ok o ∧ o.vFmt = "mV" ∧ o.iFmt = "mA" ∧
    o.vMult = 1 ∧ o.iMult = 1 ∧ o.npts = 6001 ∧ o.vmax = 6e-3 ∧ o.filterData = false ∧ o.rseries = none ∧ o.voffset = none) ∧
    ∃ o, zembOpts PARAMS (update PARAMS shortKw) = .ok o ∧ o.fitLow = 0.25 ∧ o.fitHigh = 0.8 ∧ o.alphaMax = 1 ∧
      o.numB = 0 ∧ o.zemb = some 0 := by
  have e : ∀ k v, Opt.read PARAMS (update PARAMS shortKw) k = .ok v → Opt.read PARAMS (update PARAMS shortKw) k = .ok v :=
    fun _ _ h => h
  constructor
  · simp only [ivOpts, e "filter_data" (.bool false) rfl, e "v_fmt" _ rfl, e "i_fmt" _ rfl, e "v_multiplier" _ rfl,
      e "i_multiplier" _ rfl, e "rseries" _ rfl, e "vmax" _ rfl,
      e "npts" _ rfl, e "voffset" _ rfl, e "ioffset" _ rfl,
      e "voffset_range" _ rfl, e "filter_nwind" _ rfl, e "filter_npoly" _ rfl,
      e "filter_theta" _ rfl, e "vgap" _ rfl, e "vrn" _ rfl,
      e "vrsg" _ rfl, py_bind, asReal, asOptReal, asInt, asUnit, asVRange, asPair, truth, pure, Except.pure]
    exact ⟨_, rfl, rfl, rfl, by norm_num, by norm_num, rfl, rfl, rfl, rfl, rfl⟩
  · have g : ∀ k v, update PARAMS shortKw k = some v → update PARAMS shortKw k = some v := fun _ _ h => h
    simp only [zembOpts, fitRange, getD, e "remb_range" _ rfl, e "xemb_range" _ rfl,
      e "zemb" _ rfl, g "fit_range" _ rfl, g "alpha_max" _ rfl,
      g "num_b" _ rfl, Option.getD_some, py_bind, asReal, asInt, asPair, asOptCplx, pure, Except.pure]
    exact ⟨_, rfl, rfl, rfl, by norm_num, by norm_num, by norm_num⟩

/-- The hypotheses of `C114_returns` and `C114_simulated` are met. -/
example (S : RespFn.Splines) : ∃ (d : DCData) (r : PumpedData) (z : Zemb.Result) (fig : Drawing) (vt : ℝ),
    (pumpedData ideal [PARAMS] (.matrix flatCurve) d none none shortKw).1 = .ok r ∧ r.zemb = some z ∧ z.vt = some vt ∧
    d.current.length = d.voltage.length ∧ d.voltage ≠ [] ∧ d.dc.igap ≠ 0 ∧ 0 < d.dc.vgap ∧ r.dc = d.dc ∧
    r.voltage.length = r.current.length ∧ r.vph = r.freq / d.dc.fgap * 1e9 ∧ 1 / 20000 < r.vph ∧
    plotSimulated PARAMS (update PARAMS shortKw) r d 4 0 none = .ok fig ∧
    .vline 0 ((1 - r.vph) * d.dc.vgap * 1e3) ∈ fig.cmds := by
  obtain ⟨⟨o, ho, o1, o2, o3, o3', o4, o5, o6, o7, o8⟩, oz, hoz, z1, z2, z3, z4, z5⟩ := shortKw_opts
  obtain ⟨d, r, z, v, zi, hd, h1, h2, h3, h4, -, d2, hig, hfg, e1, e2, e3, e4, e5⟩ := flat_recovery S shortKw o oz ho hoz
    (fun k hk => by fin_cases hk <;> rfl) rfl rfl o1 o2 o3 o3' o4 o5 o6 o7 o8 (by rw [z1]; norm_num) (by rw [z2]; norm_num)
    z3 z4
  obtain ⟨hl, hne⟩ : d.current.length = d.voltage.length ∧ d.voltage ≠ [] := by
    obtain ⟨a, b, -⟩ := dc_facts (h := [PARAMS]) (by simp) rfl hd
    exact ⟨a, b⟩
  obtain ⟨hdc, hlr⟩ := pumped_facts (h := [PARAMS]) (by simp) rfl h1
  obtain ⟨hlen, o', ho', hrec⟩ := pumped_zemb (h := [PARAMS]) (by simp) rfl h1 h2
  rw [hoz] at ho'
  obtain rfl := Except.ok.inj ho'
  have hne' : Zemb.onStep oz.fitLow oz.fitHigh r.vph r.voltage r.current ≠ [] := by
    intro h0
    rw [Zemb.C63_no_data _ _ _ _ _ _ hlen h0] at hrec
    cases hrec
  obtain ⟨N, hN⟩ : ∃ N, N = 101 * 201 := ⟨_, rfl⟩
  obtain ⟨mid, best, err, vt, pm, -, -, -, -, -, -, hsv, hr⟩ := Zemb.recover_eq oz flatResp.idc flatResp.ikk r.vph r.voltage
    r.current hlen hN hne'
  have hrec' : Zemb.recoverZemb oz flatResp.idc flatResp.ikk r.vph r.voltage r.current = .ok z := hrec
  rw [hr] at hrec'
  have hz := Except.ok.inj hrec'
  have hzt : z.zt = 0 := by rw [← hz]; simp [z5]
  have hzv : z.vt = vt := by rw [← hz]
  rw [e1, e2, z5, Option.getD_some] at hsv
  obtain ⟨x, hx⟩ := List.exists_mem_of_ne_nil _ e3
  obtain ⟨e, w, -, hw, -⟩ := Zemb.C60_least_squares v zi 0 e4 (fun x hx => by rw [zero_add]; exact (e5 x hx).2)
    ⟨x, hx, (e5 x hx).2⟩
  rw [hw] at hsv
  obtain rfl := Except.ok.inj hsv
  have hph : r.vph = r.freq / d.dc.fgap * 1e9 :=
    (pumpedInit_parts (pumpedData_ok (h := [PARAMS]) (by simp) rfl h1)).2.2.2.2.1
  set d' : DCData := { d with resp := flatResp, respSmear := flatResp } with hd'
  have hfit : fitRangePlot PARAMS (update PARAMS shortKw) = .ok (0.25, 0.8) := by
    have g : update PARAMS shortKw "fit_range" = some (.seq [.num 0.25, .num 0.8]) := rfl
    simp only [fitRangePlot, getD, g, Option.getD_some, asPair, asReal, py_bind, pure, Except.pure]
  obtain ⟨fig, hfig⟩ := C114_returns shortKw d' r hl hne hig hfg hdc hlr hph (by linarith) z h2 w hzv _ hfit _ _
    (HB.hb_zero _ _ _ _ _ _ _ _ (by intro f p _ _; simp [simCircuit, hzt])) rfl 4 0 none
  have hg : 0 < d'.dc.vgap := by show 0 < d.dc.vgap; rw [d2]; norm_num
  obtain ⟨_, _, _, _, _, _, -, -, -, -, -, -, -, -, -, -, hline, -⟩ := C114_simulated shortKw d' r hl hne hig hg hdc hlr hph (by linarith) z h2 4 0 none fig hfig
  exact ⟨d', r, z, fig, w, h1, h2, hzv, hl, hne, hig, hg, hdc, hlr, hph, by linarith, hfig, hline⟩

end QMix.Exp
