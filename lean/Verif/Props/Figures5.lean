import Verif.Props.Figures2
import Verif.Props.ExpData3

/-!
# The figure of the error surface (C115)
-/

namespace QMix.Exp

open QMix Np Fl IvData IfData Opt Spec

/-- `y` is the logarithm (base 10) of `x` as a floating-point number: minus infinity for zero, NaN for negative numbers
and for NaN. -/
def IsLog10 (x : Option ℝ) (y : Flt) : Prop :=
  (∀ a, x = some a → 0 < a → ∃ b : ℝ, y = num b ∧ (10 : ℝ) ^ b = a) ∧ (x = some 0 → y = some ⊥) ∧
  (∀ a, x = some a → a < 0 → y = none) ∧ (x = none → y = none)

theorem logErr_isLog (x : Option ℝ) : IsLog10 x (logErr x) := by
  have e : ∀ a : ℝ, logErr (some a) = flog10 (num a) := fun _ => rfl
  refine ⟨?_, ?_, ?_, ?_⟩
  · rintro a rfl h0
    rw [e]
    simp only [flog10, num]
    rw [if_neg (EReal.coe_ne_top a), if_neg (by rw [not_lt]; exact_mod_cast h0.le), if_neg (by exact_mod_cast h0.ne')]
    refine ⟨Real.logb 10 a, rfl, ?_⟩
    rw [Real.rpow_logb (by norm_num) (by norm_num) h0]
  · rintro rfl
    rw [e]
    simp only [flog10, num]
    rw [if_neg (EReal.coe_ne_top 0), if_neg (by simp), if_pos (by simp)]
  · rintro a rfl h0
    rw [e]
    simp only [flog10, num]
    rw [if_neg (EReal.coe_ne_top a), if_pos (by exact_mod_cast h0)]
  · rintro rfl
    rfl

theorem isLog_mono {x x' : ℝ} {y y' : Flt} (h : IsLog10 (some x) y) (h' : IsLog10 (some x') y') (hle : x ≤ x')
    (h0 : 0 ≤ x) : fle y y' := by
  rcases eq_or_lt_of_le h0 with rfl | h0
  · rw [h.2.1 rfl]
    rcases eq_or_lt_of_le hle with rfl | hx
    · rw [h'.2.1 rfl]
      exact le_refl (⊥ : EReal)
    · obtain ⟨b, rfl, -⟩ := h'.1 _ rfl hx
      exact bot_le (a := (b : EReal))
  · obtain ⟨b, rfl, hb⟩ := h.1 _ rfl h0
    obtain ⟨b', rfl, hb'⟩ := h'.1 _ rfl (h0.trans_le hle)
    show (b : EReal) ≤ (b' : EReal)
    rw [EReal.coe_le_coe_iff]
    rwa [← Real.rpow_le_rpow_left_iff (x := 10) (by norm_num), hb, hb']

/-- The error of an impedance is never negative. -/
theorem errorFunction_nonneg {o : Zemb.ZembOpts} {idc ikk : ℝ → ℝ} {vph : ℝ} {l : List (ℝ × ℝ)} {zs : ℂ} {x : ℝ}
    (h : Zemb.errAt o idc ikk vph l zs = .ok (some x)) : 0 ≤ x := by
  unfold Zemb.errAt at h
  set v := Zemb.acVolts o idc vph l with hv
  set z := Zemb.acImps o idc ikk vph l with hz
  have hlen : v.length = z.length := by simp [hv, hz, Zemb.acVolts, Zemb.acImps, Zemb.drives]
  clear_value v z
  by_cases hbad : none ∈ v ∨ none ∈ z ∨ some (-zs) ∈ z ∨ ∀ x ∈ z, x = some 0
  · rw [Zemb.C60_nan v z zs hlen hbad] at h
    cases h
  · push Not at hbad
    obtain ⟨h1, h2, h3, h4⟩ := hbad
    have some_list : ∀ l : List (Option ℂ), none ∉ l → ∃ l' : List ℂ, l = l'.map some := by
      intro l
      induction l with
      | nil => intro _; exact ⟨[], rfl⟩
      | cons a l ih =>
        intro hn
        simp only [List.mem_cons, not_or] at hn
        obtain ⟨l', rfl⟩ := ih hn.2
        cases a with
        | none => exact absurd rfl hn.1
        | some a => exact ⟨a :: l', rfl⟩
    obtain ⟨v, rfl⟩ := some_list v h1
    obtain ⟨z, rfl⟩ := some_list z h2
    simp only [List.length_map] at hlen
    obtain ⟨y, hy, hy0⟩ := h4
    obtain ⟨y, hy', rfl⟩ := List.mem_map.1 hy
    obtain ⟨e, w, he, -, -, h0, -⟩ := Zemb.C60_least_squares v z zs hlen (fun x hx h0 => h3 (List.mem_map.2
      ⟨x, hx, by rw [eq_neg_of_add_eq_zero_right h0]⟩)) ⟨y, hy', fun h0 => hy0 (by rw [h0])⟩
    rw [he] at h
    cases h
    exact h0

section
variable (R : Routines) (h : Heap) (hh : h ≠ []) (hP : deref h sharedAt = PARAMS)
  (data : IfResp.Input) (kw : Dict) (d : DCData) (hot cold : Option IfResp.Input) (r : PumpedData)
  (e : (pumpedData R h data d hot cold kw).1 = .ok r)

include hh hP e in
/-- C115: with a recovered impedance the figure of the error surface is always drawn. It has 201 rows of 101 cells; the
cell in row `j` and column `i` is at the impedance `i` of 101 between the limits of `remb_range` and `j` of 201 between the
limits of `xemb_range`, in ohm, and shows the logarithm of the error of this impedance. The note is at the reported
impedance. -/
theorem C115_surface (z : Zemb.Result) (hz : r.zemb = some z) (new : ℕ) (ax : Option ℕ) :
    ∃ (fig : Drawing) (cells : List (List (ℝ × ℝ × Flt))) (o : Zemb.ZembOpts) (remb xemb : ℝ × ℝ),
      plotErrorSurface PARAMS (update PARAMS kw) r new ax = .ok fig ∧ fig.axes = [ax.getD new] ∧
      zembOpts PARAMS (update PARAMS kw) = .ok o ∧
      Uses kw "remb_range" asPair (0, 1) remb ∧ Uses kw "xemb_range" asPair (-1, 1) xemb ∧
      fig.cmds = [.mesh (ax.getD new) cells,
        .note (ax.getD new) (.cnum "Minimum Error at\n$Z_\\mathrm{T}$=" 2 (z.zt * (d.dc.rn : ℂ)) " $\\Omega$")
          (num (z.zt.re * d.dc.rn)) (num (z.zt.im * d.dc.rn)),
        .xlabel (ax.getD new) "$R_\\mathrm{{T}}$ ($\\Omega$)", .ylabel (ax.getD new) "$X_\\mathrm{{T}}$ ($\\Omega$)"] ∧
      cells.length = 201 ∧ (∀ row ∈ cells, row.length = 101) ∧
      ∀ i j : ℕ, i < 101 → j < 201 → ∃ row err y, cells[j]? = some row ∧
        row[i]? = some ((remb.1 + i * ((remb.2 - remb.1) / 100)) * d.dc.rn,
          (xemb.1 + j * ((xemb.2 - xemb.1) / 200)) * d.dc.rn, y) ∧
        Zemb.errAt o d.resp.idc d.resp.ikk r.vph (Zemb.onStep o.fitLow o.fitHigh r.vph r.voltage r.current)
          (Zemb.gridPoint remb xemb i j) = .ok err ∧ IsLog10 err y := by
  obtain ⟨hdc, -⟩ := pumped_facts hh hP e
  obtain ⟨hl, o, ho, hrec⟩ := pumped_zemb hh hP e hz
  obtain ⟨u1, u2, -⟩ := C41_zemb kw o ho
  have hne : Zemb.onStep o.fitLow o.fitHigh r.vph r.voltage r.current ≠ [] := by
    intro h0
    rw [Zemb.C63_no_data _ _ _ _ _ _ hl h0] at hrec
    cases hrec
  obtain ⟨N, hN⟩ : ∃ N, N = 101 * 201 := ⟨_, rfl⟩
  obtain ⟨mid, best, err, vt, pm, -, -, -, herr, -, -, -, h1⟩ := Zemb.recover_eq o d.resp.idc d.resp.ikk r.vph r.voltage
    r.current hl hN hne
  rw [hrec] at h1
  have hsurf : z.errSurf = tab N err := by rw [Except.ok.inj h1]
  have ho' := ho
  simp only [zembOpts, bind_ok_iff] at ho'
  obtain ⟨f, -, re, h2, xe, h3, ze, -, al, -, nb, -, eo⟩ := ho'
  rw [pure_ok_iff] at eo
  have e1 : o.remb = re := by rw [← eo]
  have e2 : o.xemb = xe := by rw [← eo]
  have h2' := bind_ok_iff.2 h2
  have h3' := bind_ok_iff.2 h3
  subst e1 e2
  set A := (tab 101 fun i => o.remb.1 + i * ((o.remb.2 - o.remb.1) / 100)).map (· * d.dc.rn) with hA
  set B := (tab 201 fun i => o.xemb.1 + i * ((o.xemb.2 - o.xemb.1) / 200)).map (· * d.dc.rn) with hB
  have la : linspace o.remb.1 o.remb.2 101 = .ok (tab 101 fun i => o.remb.1 + i * ((o.remb.2 - o.remb.1) / 100)) := by
    rw [linspace_eq (by norm_num)]
    refine congrArg Except.ok (congrArg (tab _) (funext fun i => ?_))
    norm_num
  have lb : linspace o.xemb.1 o.xemb.2 201 = .ok (tab 201 fun i => o.xemb.1 + i * ((o.xemb.2 - o.xemb.1) / 200)) := by
    rw [linspace_eq (by norm_num)]
    refine congrArg Except.ok (congrArg (tab _) (funext fun i => ?_))
    norm_num
  have lA : A.length = 101 := by rw [hA, List.length_map, tab_length]
  have lB : B.length = 201 := by rw [hB, List.length_map, tab_length]
  refine ⟨⟨_, _⟩, B.zipIdx.map fun y => A.zipIdx.map fun x =>
    (x.1, y.1, logErr (z.errSurf.getD (201 * x.2 + y.2) none)), o, o.remb, o.xemb, ?_, Eq.refl [ax.getD new], ho, u1, u2,
    Eq.refl (List.cons _ _), ?_, ?_, ?_⟩
  · unfold plotErrorSurface
    simp only [h2', h3', la, lb, py_bind, hz, getOpt, hdc]
    simp only [Complex.mul_re, Complex.mul_im, Complex.ofReal_re, Complex.ofReal_im, mul_zero, sub_zero, zero_add]
    rfl
  · simp [lB]
  · intro row hrow
    obtain ⟨y, -, rfl⟩ := List.mem_map.1 hrow
    simp [lA]
  · intro i j hi hj
    have gA : A[i]? = some ((o.remb.1 + i * ((o.remb.2 - o.remb.1) / 100)) * d.dc.rn) := by
      rw [hA, List.getElem?_map, tab_get?, if_pos hi]; rfl
    have gB : B[j]? = some ((o.xemb.1 + j * ((o.xemb.2 - o.xemb.1) / 200)) * d.dc.rn) := by
      rw [hB, List.getElem?_map, tab_get?, if_pos hj]; rfl
    have hk : 201 * i + j < N := by omega
    refine ⟨_, err (201 * i + j), logErr (err (201 * i + j)), by
      rw [List.getElem?_map, List.getElem?_zipIdx, gB]; rfl, ?_, ?_, logErr_isLog _⟩
    · rw [List.getElem?_map, List.getElem?_zipIdx, gA]
      simp only [Option.map_some, zero_add, hsurf]
      rw [tab_getD hk]
    · have := herr (201 * i + j)
      rw [(Zemb.row_col hj).1, (Zemb.row_col hj).2] at this
      exact this

/-- C115: without a recovered impedance there is no such figure. -/
theorem C115_no_impedance (hz : r.zemb = none) (new : ℕ) (ax : Option ℕ) (fig : Drawing) :
    plotErrorSurface PARAMS (update PARAMS kw) r new ax ≠ .ok fig := by
  intro h1
  unfold plotErrorSurface at h1
  simp only [bind_ok_iff, hz] at h1
  obtain ⟨_, -, _, -, _, -, _, -, z, hz', -⟩ := h1
  cases hz'

include hh hP e in
/-- C115: if no impedance was given by the user and all errors are numbers, the note "Minimum Error at" points at a
cell of the figure, and no cell shows a smaller error. (Missing: a given impedance, see `C115_false_forced`, and errors
that are NaN, see C63 and C98.) -/
theorem C115_minimum_partial (z : Zemb.Result) (hz : r.zemb = some z) (hk : kw "zemb" = none) (new : ℕ) (ax : Option ℕ)
    (fig : Drawing) (hfig : plotErrorSurface PARAMS (update PARAMS kw) r new ax = .ok fig)
    (cells : List (List (ℝ × ℝ × Flt))) (l : Label) (x y : Flt)
    (hmesh : .mesh (ax.getD new) cells ∈ fig.cmds) (hnote : .note (ax.getD new) l x y ∈ fig.cmds)
    (hnum : ∀ row ∈ cells, ∀ c ∈ row, c.2.2 ≠ none) :
    ∃ row ∈ cells, ∃ c ∈ row, x = num c.1 ∧ y = num c.2.1 ∧ ∀ row' ∈ cells, ∀ c' ∈ row', fle c.2.2 c'.2.2 := by
  obtain ⟨fig', cells', o, remb, xemb, h1, -, ho, u1, u2, hc, hl, hrow, hcell⟩ :=
    C115_surface R h hh hP data kw d hot cold r e z hz new ax
  rw [hfig] at h1
  obtain rfl := Except.ok.inj h1
  rw [hc] at hmesh hnote
  simp only [List.mem_cons, List.not_mem_nil, or_false, Cmd.mesh.injEq, true_and, reduceCtorEq, false_or,
    Cmd.note.injEq] at hmesh hnote
  subst hmesh
  obtain ⟨-, rfl, rfl⟩ := hnote
  obtain ⟨v1, v2, v3, -⟩ := C41_zemb kw o ho
  obtain ⟨hlen, o', ho', hrec⟩ := pumped_zemb hh hP e hz
  rw [ho] at ho'
  obtain rfl := Except.ok.inj ho'
  have e1 : o.remb = remb := uses_unique v1 u1
  have e2 : o.xemb = xemb := uses_unique v2 u2
  subst e1 e2
  have hne : Zemb.onStep o.fitLow o.fitHigh r.vph r.voltage r.current ≠ [] := by
    intro h0
    rw [Zemb.C63_no_data _ _ _ _ _ _ hlen h0] at hrec
    cases hrec
  obtain ⟨z', i, j, er, hz', hi, hj, hg, her, -, hmin⟩ := Zemb.C63_best_partial o d.resp.idc d.resp.ikk r.vph r.voltage
    r.current hlen (v3.2 hk) hne (by
      intro i j hi hj h0
      obtain ⟨row, er, y, r1, r2, r3, r4⟩ := hcell i j hi hj
      rw [h0] at r3
      obtain rfl := Except.ok.inj r3
      exact hnum row (List.mem_of_getElem? r1) _ (List.mem_of_getElem? r2) (r4.2.2.2 rfl))
  rw [hrec] at hz'
  obtain rfl := Except.ok.inj hz'
  obtain ⟨row, er', y, r1, r2, r3, r4⟩ := hcell i j hi hj
  rw [← hg, her] at r3
  obtain rfl := Except.ok.inj r3
  refine ⟨row, List.mem_of_getElem? r1, _, List.mem_of_getElem? r2, ?_, ?_, ?_⟩
  · rw [hg]; simp [Zemb.gridPoint]
  · rw [hg]; simp [Zemb.gridPoint]
  · intro row' hr' c' hc'
    obtain ⟨j', hj'⟩ := List.mem_iff_getElem?.1 hr'
    obtain ⟨i', hi'⟩ := List.mem_iff_getElem?.1 hc'
    have lj : j' < 201 := by rw [← hl]; exact (List.getElem?_eq_some_iff.1 hj').1
    have li : i' < 101 := by rw [← hrow row' hr']; exact (List.getElem?_eq_some_iff.1 hi').1
    obtain ⟨row2, er2, y2, q1, q2, q3, q4⟩ := hcell i' j' li lj
    rw [hj'] at q1
    obtain rfl := Option.some.inj q1
    rw [hi'] at q2
    obtain rfl := Option.some.inj q2
    obtain ⟨e2, hm1, hm2, -⟩ := hmin i' j' li lj
    rw [q3] at hm1
    obtain rfl := Except.ok.inj hm1
    exact isLog_mono r4 q4 hm2 (errorFunction_nonneg her)

end

/-- The keywords of the example: the impedance is given. -/
noncomputable def givenImpedance : Dict :=
  fun k => List.lookup k [("freq", .num 230), ("filter_data", .bool false), ("zemb", .num 7)]

theorem givenImpedance_opts : (∃ o, ivOpts PARAMS (update PARAMS givenImpedance) = .ok o ∧ o.vFmt = "mV" ∧ o.iFmt = "mA" ∧
    o.vMult = 1 ∧ o.npts = 6001 ∧ o.vmax = 6e-3 ∧ o.filterData = false ∧ o.rseries = none ∧ o.voffset = none) ∧
    ∃ o, zembOpts PARAMS (update PARAMS givenImpedance) = .ok o ∧ o.fitLow = 0.25 ∧ o.fitHigh = 0.8 := by
  have hnone : ∀ k, k ∉ ["freq", "filter_data", "zemb"] → givenImpedance k = none := by
    intro k hk
    simp only [List.mem_cons, List.not_mem_nil, or_false, not_or] at hk
    simp [givenImpedance, List.lookup, beq_false_of_ne hk.1, beq_false_of_ne hk.2.1, beq_false_of_ne hk.2.2]
  have e : ∀ k v, PARAMS k = some v → k ∉ ["freq", "filter_data", "zemb"] →
      Opt.read PARAMS (update PARAMS givenImpedance) k = .ok v := by
    intro k v hv hk
    simp only [Opt.read, item, hv, getOpt, py_bind, getD, update, hnone k hk, Option.orElse_none]
    rfl
  have e0 : Opt.read PARAMS (update PARAMS givenImpedance) "filter_data" = .ok (.bool false) := rfl
  have e1 : Opt.read PARAMS (update PARAMS givenImpedance) "zemb" = .ok (.num 7) := rfl
  constructor
  · simp only [ivOpts, e0, e "v_fmt" _ rfl (by decide), e "i_fmt" _ rfl (by decide), e "v_multiplier" _ rfl (by decide),
      e "i_multiplier" _ rfl (by decide), e "rseries" _ rfl (by decide), e "vmax" _ rfl (by decide),
      e "npts" _ rfl (by decide), e "voffset" _ rfl (by decide), e "ioffset" _ rfl (by decide),
      e "voffset_range" _ rfl (by decide), e "filter_nwind" _ rfl (by decide), e "filter_npoly" _ rfl (by decide),
      e "filter_theta" _ rfl (by decide), e "vgap" _ rfl (by decide), e "vrn" _ rfl (by decide),
      e "vrsg" _ rfl (by decide), py_bind, asReal, asOptReal, asInt, asUnit, asVRange, asPair, truth, pure, Except.pure]
    exact ⟨_, rfl, rfl, rfl, by norm_num, rfl, rfl, rfl, rfl, rfl⟩
  · have g : ∀ k v, PARAMS k = some v → k ∉ ["freq", "filter_data", "zemb"] → update PARAMS givenImpedance k = some v := by
      intro k v hv hk
      simp only [update, hnone k hk, hv, Option.orElse_none]
    simp only [zembOpts, fitRange, getD, e "remb_range" _ rfl (by decide), e "xemb_range" _ rfl (by decide),
      e1, g "fit_range" _ rfl (by decide), g "alpha_max" _ rfl (by decide),
      g "num_b" _ rfl (by decide), Option.getD_some, py_bind, asReal, asInt, asPair, asOptCplx, pure, Except.pure]
    exact ⟨_, rfl, rfl, rfl⟩

/-- C115 fails for an impedance given by the user: the note "Minimum Error at" is put there, even far outside of the
figure. Here it is at 70 Ω, and the cells end at 10 Ω. -/
theorem C115_false_forced (S : RespFn.Splines) (new : ℕ) (ax : Option ℕ) :
    ∃ d r fig cells, (dcData ideal S [PARAMS] (.matrix tenOhm) none gapOnly).1 = .ok d ∧
      (pumpedData ideal [PARAMS] (.matrix cutShort) d none none givenImpedance).1 = .ok r ∧
      plotErrorSurface PARAMS (update PARAMS givenImpedance) r new ax = .ok fig ∧
      .mesh (ax.getD new) cells ∈ fig.cmds ∧
      .note (ax.getD new) (.cnum "Minimum Error at\n$Z_\\mathrm{T}$=" 2 70 " $\\Omega$") (num 70) (num 0) ∈ fig.cmds ∧
      cells.length = 201 ∧ ∀ row ∈ cells, row.length = 101 ∧ ∀ c ∈ row, c.1 ≤ 10 := by
  obtain ⟨d, hd, d1, -, d2, d3, -⟩ := tenOhm_returns S
  obtain ⟨⟨o, ho, o1, o2, o3, o4, o5, o6, o7, o8⟩, oz, hoz, z1, z2⟩ := givenImpedance_opts
  have hd' := hd
  simp only [dcData, mergeOptions_eq, deref_append] at hd'
  obtain ⟨-, -, ⟨o', -, hc⟩, -⟩ := dcInit_parts hd'
  obtain ⟨-, -, -, -, -, -, hrn, hig, hfg, -⟩ := C81_metadata ideal o' _ _ _ _ hc
  have hfg' : d.dc.fgap ≠ 0 := by rw [hfg, d2]; norm_num
  have hig' : d.dc.igap ≠ 0 := by
    intro h0
    rw [h0, d2] at hig
    norm_num at hig
  have hvph : 0.33 < 230 / d.dc.fgap * 1e9 ∧ 230 / d.dc.fgap * 1e9 < 0.34 := by
    rw [hfg, d2]
    norm_num
  obtain ⟨r, z, h1, h2, -⟩ := (C98_returns ideal [PARAMS] (by simp) rfl cutShort d givenImpedance o oz (.num 230) 230 ho hoz
    (fun k hk => by fin_cases hk <;> rfl) rfl rfl rfl rfl (by rw [o1]; simp) (by rw [o2]; simp) (by rw [o3]; norm_num)
    (by
      intro w hw
      simp only [cutShort, List.mem_cons, List.not_mem_nil, or_false] at hw
      rcases hw with rfl | rfl
      · exact ⟨2.7, 0.2, rfl, rfl⟩
      · exact ⟨8, 0.5, rfl, rfl⟩)
    ⟨_, by simp only [cutShort]; exact List.mem_cons_self, [num 8, num 0.5], by simp [cutShort], by
      simp only [List.getD_cons_zero, ne_eq, Fl.num_inj]; norm_num⟩ o6 o7 (by rw [o4]; norm_num)
    (by rw [d2]; norm_num) hig' hfg').1
    ⟨4120, by rw [o4]; norm_num, by
      rw [z1, o4, o5, d2]
      norm_num
      linarith [hvph.1], by
      rw [z2, o4, o5, d2]
      norm_num
      linarith [hvph.2]⟩
  obtain ⟨fig, cells, o2, remb, xemb, f1, -, f2, u1, u2, hc, hl, hrow, hcell⟩ :=
    C115_surface ideal [PARAMS] (by simp) rfl _ givenImpedance d none none r h1 z h2 new ax
  have hzt : z.zt = 7 := by
    exact (C98_range ideal [PARAMS] (by simp) rfl _ d none none givenImpedance r z remb xemb (some 7) h1 h2 u1 u2
      ⟨fun v hv => by
        obtain rfl := Option.some.inj (show some (Val.num 7) = some v from hv)
        simp [asOptCplx, asReal, py_bind, pure, Except.pure], fun hv => by cases hv⟩).1 7 rfl
  have er : remb = (0, 1) := u1.2 rfl
  refine ⟨d, r, fig, cells, hd, h1, f1, by rw [hc]; exact List.mem_cons_self, ?_, hl, ?_⟩
  · rw [hc, hzt, d1]
    have e1 : (7 : ℂ) * ((10 : ℝ) : ℂ) = 70 := by norm_num
    have e2 : (7 : ℂ).re * 10 = 70 := by norm_num
    have e3 : (7 : ℂ).im * 10 = 0 := by simp
    rw [e1, e2, e3]
    exact List.mem_cons_of_mem _ List.mem_cons_self
  · intro row hr
    refine ⟨hrow row hr, fun c hc => ?_⟩
    obtain ⟨j, hj⟩ := List.mem_iff_getElem?.1 hr
    obtain ⟨i, hi⟩ := List.mem_iff_getElem?.1 hc
    have lj : j < 201 := by rw [← hl]; exact (List.getElem?_eq_some_iff.1 hj).1
    have li : i < 101 := by rw [← hrow row hr]; exact (List.getElem?_eq_some_iff.1 hi).1
    obtain ⟨row2, er2, y2, q1, q2, -⟩ := hcell i j li lj
    rw [hj] at q1
    obtain rfl := Option.some.inj q1
    rw [hi] at q2
    rw [Option.some.inj q2, er, d1]
    have : (i : ℝ) ≤ 100 := by exact_mod_cast (by omega : i ≤ 100)
    simp only
    linarith

end QMix.Exp
