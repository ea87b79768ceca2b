import Verif.Lemmas.Figures
import Verif.Lemmas.CircuitIO2

/-!
# The figure of the dc current-voltage curve (C112)
-/

namespace QMix.Exp

open QMix Np Fl IvData IfData Opt Spec

/-- The points of the curve around `vleak`, in millivolts and microamperes. -/
noncomputable def aroundLeak (d : DCData) : List (ℝ × ℝ) :=
  (shownMvUa (siCurve d)).filter fun q =>
    decide (d.vleak - 0.2e-3 < q.1 / 1000 ∧ q.1 / 1000 < d.vleak + 0.2e-3)

/-- The commands of `plot_dciv`. -/
noncomputable def dcivCmds (d : DCData) (a : ℕ) (p q : ℝ × ℝ) : List Cmd :=
  [.plot a (.text "DC I-V") ((shownMvUa (siCurve d)).map fun q => num q.1)
     ((shownMvUa (siCurve d)).map fun q => num q.2),
   .plot a (.num "$V_\\mathrm{{gap}}$ = " 2 (num (d.dc.vgap * 1e3)) " mV") [num (d.dc.vgap * 1e3)]
     [num (interpAt (d.voltage.zip d.current) 1 * d.dc.igap * 1e6)],
   .plot a (.num "$I_\\mathrm{{leak}}$ = " 2
       (num (interpAt (d.voltage.zip d.current) (d.vleak / d.dc.vgap) * d.dc.igap * 1e6)) " $\\mu$A") [num 2]
     [num (interpAt (d.voltage.zip d.current) (d.vleak / d.dc.vgap) * d.dc.igap * 1e6)],
   .plot a (.num "$R_\\mathrm{{n}}$ = " 2 (num d.dc.rn) " $\\Omega$")
     ((shownMvUa (siCurve d)).map fun q => num q.1)
     ((siCurve d).map fun q => num ((q.1 - d.dc.vint) / d.dc.rn * 1e6)),
   .plot a (.num "$R_\\mathrm{{sg}}$ = " 1 (num d.dc.rsg) " $\\Omega$")
     ((shownMvUa (siCurve d)).map fun q => num q.1)
     ((shownMvUa (siCurve d)).map fun q => num (p.1 * q.1 + p.2)),
   .xlim a (some 0) (some q.1), .ylim a (some 0) (some (num q.2)),
   .xlabel a "Bias Voltage (mV)", .ylabel a "Current ($\\mu$A)"]

/-- What `plot_dciv` does. -/
theorem plotDciv_eq (R : Routines) (d : DCData) (vmax : ℝ) (new : ℕ) (ax : Option ℕ)
    (hl : d.current.length = d.voltage.length) (hne : d.voltage ≠ []) (hrn : d.dc.rn ≠ 0) (hg : d.dc.vgap ≠ 0)
    (hig : d.dc.igap * d.dc.rn = d.dc.vgap) :
    ∃ q ∈ shownMvUa (siCurve d), (∀ q' ∈ shownMvUa (siCurve d), |vmax - q.1| ≤ |vmax - q'.1|) ∧
    plotDciv R d vmax new ax =
      (polyfit R ((aroundLeak d).map Prod.fst) ((aroundLeak d).map Prod.snd)).map fun p =>
        { axes := [ax.getD new], cmds := dcivCmds d (ax.getD new) p q } := by
  have hig' : d.dc.vgap / d.dc.rn = d.dc.igap := by rw [← hig]; field_simp
  obtain ⟨L, e1, e2⟩ := exists_points hl.symm
  have hz : d.voltage.zip d.current = L := by
    rw [← e1, ← e2, ← List.unzip_fst, ← List.unzip_snd, List.zip_unzip]
  have hLne : L ≠ [] := by rintro rfl; exact hne e1.symm
  have hS : shownMvUa (siCurve d) = L.map fun q => (q.1 * (d.dc.vgap * 1e3), q.2 * (d.dc.igap * 1e6)) := by
    unfold shownMvUa siCurve
    rw [hz, List.map_map]
    apply List.map_congr_left
    intro q _
    simp only [Function.comp_apply, mul_assoc]
  set M := L.map fun q => (q.1 * (d.dc.vgap * 1e3), q.2 * (d.dc.igap * 1e6)) with hM
  have hMne : M ≠ [] := by simpa [hM] using hLne
  have f1 : d.voltage.map (· * (d.dc.vgap * 1e3)) = M.map Prod.fst := by
    rw [← e1, hM, List.map_map, List.map_map]; rfl
  have f2 : d.current.map (· * (d.dc.igap * 1e6)) = M.map Prod.snd := by
    rw [← e2, hM, List.map_map, List.map_map]; rfl
  obtain ⟨i, hi⟩ := argmin_ok (l := (M.map Prod.fst).map fun v => |vmax - v|) (by simpa using hMne)
  obtain ⟨w, hw, hmin, -⟩ := argmin_spec hi
  obtain ⟨q, hq, hqw⟩ : ∃ q, M[i]? = some q ∧ |vmax - q.1| = w := by
    rw [List.map_map, List.getElem?_map] at hw
    obtain ⟨q, hq, e⟩ := Option.map_eq_some_iff.1 hw
    exact ⟨q, hq, e⟩
  rw [hS]
  refine ⟨q, List.mem_of_getElem? hq, ?_, ?_⟩
  · intro q' hq'
    rw [hqw]
    apply hmin
    simp only [List.mem_map]
    exact ⟨_, ⟨q', hq', rfl⟩, rfl⟩
  have g0 : Np.fdiv d.dc.vgap d.dc.rn = .ok d.dc.igap := fdiv_ok.2 ⟨hrn, hig'.symm⟩
  have g1 : Np.fdiv (-d.dc.vint) d.dc.rn = .ok (-d.dc.vint / d.dc.rn) := fdiv_ok.2 ⟨hrn, rfl⟩
  have g2 : Np.fdiv d.vleak d.dc.vgap = .ok (d.vleak / d.dc.vgap) := fdiv_ok.2 ⟨hg, rfl⟩
  have g3 : interp [1] d.voltage d.current = .ok [interpAt L 1] := by
    rw [← e1, ← e2, interp_points hLne]; rfl
  have g4 : interpVal (d.vleak / d.dc.vgap) d.voltage d.current = .ok (interpAt L (d.vleak / d.dc.vgap)) :=
    interpVal_ok.2 ⟨hl.symm, hne, by rw [hz]⟩
  have g5 : ∀ c : ℝ → Bool, masked (((M.map Prod.fst).map (· / 1000)).map c) (M.map Prod.fst) (M.map Prod.snd) =
      .ok ((M.filter fun p => c (p.1 / 1000)).map Prod.fst, (M.filter fun p => c (p.1 / 1000)).map Prod.snd) := by
    intro c
    rw [List.map_map]
    exact masked_points (fun t => c (t / 1000)) M
  have g6 : pyGet (M.map Prod.fst) i = .ok q.1 := IO.pyGet_of (by rw [List.getElem?_map, hq]; rfl)
  have g7 : pyGet (M.map Prod.snd) i = .ok q.2 := IO.pyGet_of (by rw [List.getElem?_map, hq]; rfl)
  have hA : aroundLeak d = M.filter fun p => decide (d.vleak - 0.2e-3 < p.1 / 1000 ∧ p.1 / 1000 < d.vleak + 0.2e-3) := by
    unfold aroundLeak
    rw [hS]
  unfold plotDciv
  simp only [g0, py_bind, f1, f2, g1, g3, g2, g4, g5, hA, hi, g6, g7]
  cases polyfit R ((M.filter fun p => decide (d.vleak - 0.2e-3 < p.1 / 1000 ∧ p.1 / 1000 < d.vleak + 0.2e-3)).map Prod.fst)
      ((M.filter fun p => decide (d.vleak - 0.2e-3 < p.1 / 1000 ∧ p.1 / 1000 < d.vleak + 0.2e-3)).map Prod.snd) with
  | error x => rfl
  | ok p =>
    rw [py_bind, draw_eq (by simp), py_bind, draw_eq (by simp), py_bind, draw_eq (by simp), py_bind,
      draw_eq (by simp [hM, ← e1]), py_bind, draw_eq (by simp), py_bind]
    unfold dcivCmds
    have h4 : (d.voltage.map fun v => -d.dc.vint / d.dc.rn * 1e6 + v * (d.dc.igap * 1e6)).map num =
        (siCurve d).map fun q => num ((q.1 - d.dc.vint) / d.dc.rn * 1e6) := by
      unfold siCurve
      rw [hz, ← e1, List.map_map, List.map_map, List.map_map]
      apply List.map_congr_left
      intro t _
      simp only [Function.comp_apply]
      congr 1
      rw [← hig']
      field_simp
      ring
    rw [h4, hS, hz]
    simp only [List.map_map, List.map_cons, List.map_nil, mul_assoc]
    rfl

/-! ## The figure (C112) -/

/-- The parts of a `DCData` object that the figures need. -/
theorem dc_facts {R : Routines} {S : RespFn.Splines} {h : Heap} (hh : h ≠ []) (hP : deref h sharedAt = PARAMS)
    {data : IfResp.Input} {dcif : Option IfResp.Input} {kw : Dict} {d : DCData}
    (e : (dcData R S h data dcif kw).1 = .ok d) :
    d.current.length = d.voltage.length ∧ d.voltage ≠ [] ∧ d.dc.rn ≠ 0 ∧ d.dc.vgap ≠ 0 ∧
    d.dc.igap * d.dc.rn = d.dc.vgap ∧
    d.ileak = interpAt (d.voltage.zip d.current) (d.vleak / d.dc.vgap) * d.dc.igap := by
  obtain ⟨-, -, ⟨o, ho, hc⟩, -, -, -, ⟨l, y, hl, hy, hil⟩, -⟩ := dcInit_parts (dcData_ok hh hP e)
  obtain ⟨-, -, l1, l2, -, hg, hrn, hig, -⟩ := C81_metadata R o data _ _ _ hc
  have : interpVal (d.vleak / d.dc.vgap) d.voltage d.current = .ok y := by
    unfold interpVal
    rw [hl]
    exact hy
  obtain ⟨hlen, hne, hy'⟩ := interpVal_ok.1 this
  exact ⟨hlen.symm, hne, hrn, hg, hig, by rw [hil, hy']⟩

theorem aroundLeak_eq (d : DCData) :
    aroundLeak d = ((siCurve d).filter fun p => decide (|p.1 - d.vleak| < 0.2e-3)).map
      fun p => (p.1 * 1e3, p.2 * 1e6) := by
  unfold aroundLeak shownMvUa
  rw [List.filter_map]
  congr 1
  apply List.filter_congr
  intro q _
  simp only [Function.comp_apply, decide_eq_decide, abs_lt]
  have : q.1 * 1e3 / 1000 = q.1 := by ring
  rw [this]
  constructor
  · rintro ⟨h1, h2⟩; constructor <;> linarith
  · rintro ⟨h1, h2⟩; constructor <;> linarith

/-- The line of the figure in volts and amperes. -/
theorem leastSquares_si {R : Routines} {d : DCData} {p : ℝ × ℝ}
    (hp : polyfit R ((aroundLeak d).map Prod.fst) ((aroundLeak d).map Prod.snd) = .ok p) :
    LeastSquares ((siCurve d).filter fun p => decide (|p.1 - d.vleak| < 0.2e-3)) (p.1 * 1e-3) (p.2 * 1e-6) := by
  have hb := polyfit_best hp
  rw [aroundLeak_eq] at hb
  intro a b
  have key : ∀ a b : ℝ, sumSq ((siCurve d).filter fun p => decide (|p.1 - d.vleak| < 0.2e-3)) a b =
      1e-12 * resid (((siCurve d).filter fun p => decide (|p.1 - d.vleak| < 0.2e-3)).map
        fun p => (p.1 * 1e3, p.2 * 1e6)) (a * 1e3, b * 1e6) := by
    intro a b
    unfold sumSq resid
    rw [List.map_map, ← List.sum_map_mul_left]
    congr 1
    apply List.map_congr_left
    intro q _
    simp only [Function.comp_apply]
    ring
  rw [key, key]
  apply mul_le_mul_of_nonneg_left _ (by norm_num)
  have e1 : (p.1 * 1e-3 * 1e3, p.2 * 1e-6 * 1e6) = p := by
    apply Prod.ext <;> simp only <;> ring
  rw [e1]
  exact hb _

/-- C112: the curves of the dc figure, all on the axes that are returned, which are the ones given (or new
ones): the measured curve in mV and µA; a marker at the gap voltage, on the curve; a marker at 2 mV
with the leakage current; a line through the intercept voltage with the slope of the normal resistance; and the
best straight line through the points closer than 0.2 mV to `vleak`, labelled with the subgap resistance. The figure
ends at the point of the curve that is nearest to `vmax`. -/
theorem C112_curves (R : Routines) (S : RespFn.Splines) (h : Heap) (hh : h ≠ []) (hP : deref h sharedAt = PARAMS)
    (data : IfResp.Input) (dcif : Option IfResp.Input) (kw : Dict) (d : DCData)
    (e : (dcData R S h data dcif kw).1 = .ok d) (vmax : ℝ) (new : ℕ) (ax : Option ℕ) (fig : Drawing)
    (hf : plotDciv R d vmax new ax = .ok fig) :
    ∃ (a : ℕ) (ig s b : ℝ), (∀ x, ax = some x → a = x) ∧ (ax = none → a = new) ∧ fig.axes = [a] ∧
      curves fig =
        [(a, .text "DC I-V", numPts (shownMvUa (siCurve d))),
         (a, .num "$V_\\mathrm{{gap}}$ = " 2 (num (d.dc.vgap * 1e3)) " mV", numPts (shownMvUa [(d.dc.vgap, ig)])),
         (a, .num "$I_\\mathrm{{leak}}$ = " 2 (num (d.ileak * 1e6)) " $\\mu$A", [(num 2, num (d.ileak * 1e6))]),
         (a, .num "$R_\\mathrm{{n}}$ = " 2 (num d.dc.rn) " $\\Omega$",
           numPts (shownMvUa ((siCurve d).map fun p => (p.1, (p.1 - d.dc.vint) / d.dc.rn)))),
         (a, .num "$R_\\mathrm{{sg}}$ = " 1 (num d.dc.rsg) " $\\Omega$",
           numPts (shownMvUa ((siCurve d).map fun p => (p.1, s * p.1 + b))))] ∧
      LeastSquares ((siCurve d).filter fun p => decide (|p.1 - d.vleak| < 0.2e-3)) s b ∧
      (∀ vm, Uses kw "vmax" asReal 6e-3 vm → 0 < d.dc.vgap → d.dc.vgap ≤ vm → 2 ≤ d.voltage.length →
        OnLine (siCurve d) d.dc.vgap ig) ∧
      ∃ q ∈ shownMvUa (siCurve d), (∀ q' ∈ shownMvUa (siCurve d), |vmax - q.1| ≤ |vmax - q'.1|) ∧
        Cmd.xlim a (some 0) (some q.1) ∈ fig.cmds ∧ Cmd.ylim a (some 0) (some (num q.2)) ∈ fig.cmds := by
  obtain ⟨hl, hne, hrn, hg, hig, hleak⟩ := dc_facts hh hP e
  obtain ⟨q, hq, hmin, heq⟩ := plotDciv_eq R d vmax new ax hl hne hrn hg hig
  rw [heq] at hf
  cases hp : polyfit R ((aroundLeak d).map Prod.fst) ((aroundLeak d).map Prod.snd) with
  | error x => rw [hp] at hf; cases hf
  | ok p =>
    rw [hp] at hf
    obtain rfl := Except.ok.inj hf
    have zn : ∀ (L : List (ℝ × ℝ)) (f g : ℝ × ℝ → Flt), (L.map f).zip (L.map g) = L.map fun q => (f q, g q) := by
      intro L f g
      rw [List.zip_map, List.zip_eq_zipWith]
      simp [List.zipWith_self]
    refine ⟨ax.getD new, interpAt (d.voltage.zip d.current) 1 * d.dc.igap, p.1 * 1e-3, p.2 * 1e-6, ?_, ?_, rfl, ?_, ?_,
      ?_, q, hq, hmin, ?_, ?_⟩
    · rintro x rfl; rfl
    · rintro rfl; rfl
    · unfold curves dcivCmds
      simp only [List.filterMap_cons, List.filterMap_nil, ← hleak, zn]
      have h4 : ((shownMvUa (siCurve d)).map fun q => num q.1).zip
          ((siCurve d).map fun q => num ((q.1 - d.dc.vint) / d.dc.rn * 1e6)) =
          numPts (shownMvUa ((siCurve d).map fun p => (p.1, (p.1 - d.dc.vint) / d.dc.rn))) := by
        unfold shownMvUa numPts
        rw [List.map_map, zn, List.map_map, List.map_map]
        rfl
      have h5 : ((shownMvUa (siCurve d)).map fun q => (num q.1, num (p.1 * q.1 + p.2))) =
          numPts (shownMvUa ((siCurve d).map fun q => (q.1, p.1 * 1e-3 * q.1 + p.2 * 1e-6))) := by
        unfold shownMvUa numPts
        rw [List.map_map, List.map_map, List.map_map]
        apply List.map_congr_left
        intro q _
        simp only [Function.comp_apply]
        congr 2
        ring
      rw [h4, h5]
      rfl
    · exact leastSquares_si hp
    · intro vm hu h0 h1 hn
      obtain ⟨-, hI, hx⟩ := siCurve_grid hh hP e h0 hu (h0.trans_le h1) hn
      obtain ⟨x1, x2⟩ := hx d.dc.vgap (by linarith) h1
      rw [div_self hg] at x1 x2
      have := onLine_scale d.dc.vgap d.dc.igap (interpAt_onLine hI x1 x2)
      rwa [one_mul] at this
    · simp [dcivCmds]
    · simp [dcivCmds]

/-- C112: the figure of a junction is drawn exactly if the curve has a point closer than 0.2 mV to `vleak`; otherwise
`TypeError` is raised. -/
theorem C112_returns (R : Routines) (S : RespFn.Splines) (h : Heap) (hh : h ≠ []) (hP : deref h sharedAt = PARAMS)
    (data : IfResp.Input) (dcif : Option IfResp.Input) (kw : Dict) (d : DCData)
    (e : (dcData R S h data dcif kw).1 = .ok d) (vmax : ℝ) (new : ℕ) (ax : Option ℕ) :
    ((∃ p ∈ siCurve d, |p.1 - d.vleak| < 0.2e-3) → ∃ fig, plotDciv R d vmax new ax = .ok fig) ∧
    ((∀ p ∈ siCurve d, ¬ |p.1 - d.vleak| < 0.2e-3) → plotDciv R d vmax new ax = .error .type) := by
  obtain ⟨hl, hne, hrn, hg, hig, -⟩ := dc_facts hh hP e
  obtain ⟨q, -, -, heq⟩ := plotDciv_eq R d vmax new ax hl hne hrn hg hig
  rw [heq, aroundLeak_eq]
  constructor
  · rintro ⟨p, hp, hpl⟩
    have tot : ∀ L : List (ℝ × ℝ), L ≠ [] → ∃ w, polyfit R (L.map Prod.fst) (L.map Prod.snd) = .ok w := by
      intro L hL
      unfold polyfit
      rw [raiseIf_neg (by simpa using hL), raiseIf_neg (by simp)]
      exact ⟨_, rfl⟩
    obtain ⟨w, hw⟩ := tot (((siCurve d).filter fun p => decide (|p.1 - d.vleak| < 0.2e-3)).map
      fun p => (p.1 * 1e3, p.2 * 1e6)) (by
        intro hnil
        rw [List.map_eq_nil_iff] at hnil
        exact List.ne_nil_of_mem (List.mem_filter.2 ⟨hp, by simpa using hpl⟩) hnil)
    exact ⟨_, by rw [hw]; rfl⟩
  · intro hno
    have : (siCurve d).filter (fun p => decide (|p.1 - d.vleak| < 0.2e-3)) = [] := by
      rw [List.filter_eq_nil_iff]
      intro p hp
      simpa using hno p hp
    rw [this]
    rfl

/-- C112: the leakage current in the legend is the current of the curve at `vleak`. -/
theorem C112_leak (R : Routines) (S : RespFn.Splines) (h : Heap) (hh : h ≠ []) (hP : deref h sharedAt = PARAMS)
    (data : IfResp.Input) (dcif : Option IfResp.Input) (kw : Dict) (d : DCData)
    (e : (dcData R S h data dcif kw).1 = .ok d) (vm : ℝ) (hu : Uses kw "vmax" asReal 6e-3 vm) (hg : 0 < d.dc.vgap)
    (hvm : 0 < vm) (h1 : -vm ≤ d.vleak) (h2 : d.vleak ≤ vm) (hn : 2 ≤ d.voltage.length) :
    OnLine (siCurve d) d.vleak d.ileak := by
  obtain ⟨-, -, -, -, -, hleak⟩ := dc_facts hh hP e
  obtain ⟨-, hI, hx⟩ := siCurve_grid hh hP e hg hu hvm hn
  obtain ⟨x1, x2⟩ := hx d.vleak h1 h2
  have := onLine_scale d.dc.vgap d.dc.igap (interpAt_onLine hI x1 x2)
  rw [div_mul_cancel₀ _ hg.ne', ← hleak] at this
  exact this

/-- C112, what is true of the leakage marker: it lies on the curve if `vleak` has its default value 2 mV. Missing: any
other value of `vleak`, see `C112_false_leak`. -/
theorem C112_leak_marker_partial (R : Routines) (S : RespFn.Splines) (h : Heap) (hh : h ≠ [])
    (hP : deref h sharedAt = PARAMS) (data : IfResp.Input) (dcif : Option IfResp.Input) (kw : Dict) (d : DCData)
    (e : (dcData R S h data dcif kw).1 = .ok d) (hk : kw "vleak" = none) (vm : ℝ)
    (hu : Uses kw "vmax" asReal 6e-3 vm) (hg : 0 < d.dc.vgap) (hvm : 2e-3 ≤ vm) (hn : 2 ≤ d.voltage.length) :
    OnLine (shownMvUa (siCurve d)) 2 (d.ileak * 1e6) := by
  obtain ⟨-, -, -, -, -, -, hl, -⟩ := C41_dc R S h hh hP data dcif kw d e
  have hv : d.vleak = 2e-3 := hl.2 hk
  have := onLine_scale 1e3 1e6 (C112_leak R S h hh hP data dcif kw d e vm hu hg
    (by norm_num at hvm; linarith) (by rw [hv]; norm_num at hvm ⊢; linarith) (by rw [hv]; exact hvm) hn)
  rw [hv, show (2e-3 : ℝ) * 1e3 = 2 by norm_num] at this
  exact this

/-! ## A junction with a kink -/

/-- A broken line with increasing voltages is a function. -/
theorem onLine_unique {L : List (ℝ × ℝ)} (hL : Incr L) {x y : ℝ} (h : OnLine L x y) : y = interpAt L x := by
  rcases h with h | ⟨a, b, t, ⟨s, u, e⟩, h0, h1, hx, hy⟩
  · exact (interpAt_sample L hL _ h).symm
  · have hab : a.1 < b.1 := by
      rw [← e] at hL
      have h1 := (List.pairwise_append.1 hL).1
      have h2 := (List.pairwise_append.1 h1).2.1
      exact (List.pairwise_cons.1 h2).1 b (by simp)
    have hno : ∀ c ∈ L, c.1 ≤ a.1 ∨ b.1 ≤ c.1 := by
      intro c hc
      rw [← e] at hL hc
      have h1 := List.pairwise_append.1 hL
      have h2 := List.pairwise_append.1 h1.1
      rcases List.mem_append.1 hc with hc | hc
      · rcases List.mem_append.1 hc with hc | hc
        · exact Or.inl (h2.2.2 c hc a (by simp)).le
        · simp only [List.mem_cons, List.not_mem_nil, or_false] at hc
          rcases hc with rfl | rfl
          · exact Or.inl le_rfl
          · exact Or.inr le_rfl
      · exact Or.inr (h1.2.2 b (by simp) c hc).le
    have ma : a ∈ L := by rw [← e]; simp
    have mb : b ∈ L := by rw [← e]; simp
    rw [interpAt_neighbours hL ma mb hab hno (by rw [hx]; nlinarith) (by rw [hx]; nlinarith), hx, hy]
    have : b.1 - a.1 ≠ 0 := by linarith
    field_simp
    ring

/-- The measured points of a junction with a kink at 2 mV: 10 ohms, 1 ohm between 1.95 and 2.05 mV, and 10 ohms
again. In mV and mA. -/
noncomputable def kinked : List (ℝ × ℝ) := [(0, 0), (1.95, 0.195), (2.05, 0.295), (4, 0.49), (5, 0.59)]

/-- Gap voltage, no filter, 121 points, and the voltage of the leakage current. -/
noncomputable def kinkKw (vleak : ℝ) : Dict := fun k =>
  List.lookup k [("vgap", .num 2.8e-3), ("filter_data", .bool false), ("npts", .int 121), ("vleak", .num vleak)]

theorem kink_opts (vl : ℝ) : ∃ o, ivOpts PARAMS (update PARAMS (kinkKw vl)) = .ok o ∧ o.vFmt = "mV" ∧ o.iFmt = "mA" ∧
    o.vMult = 1 ∧ o.iMult = 1 ∧ o.npts = 121 ∧ o.vmax = 6e-3 ∧ o.filterData = false ∧ o.rseries = none ∧
    o.voffset = none ∧ o.ioffset = none ∧ o.vgap = some 2.8e-3 ∧ o.vrn = (3.5e-3, 5e3) ∧ o.vrsg = 2e-3 ∧
    o.voffsetRange.pair = (-1e-3, 1e-3) := by
  have e : ∀ k v, PARAMS k = some v → k ∉ ["vgap", "filter_data", "npts", "vleak"] →
      Opt.read PARAMS (update PARAMS (kinkKw vl)) k = .ok v := by
    intro k v hv hk
    have : kinkKw vl k = none := by
      simp only [List.mem_cons, List.not_mem_nil, or_false, not_or] at hk
      obtain ⟨h1, h2, h3, h4⟩ := hk
      simp [kinkKw, List.lookup, beq_false_of_ne h1, beq_false_of_ne h2, beq_false_of_ne h3, beq_false_of_ne h4]
    simp only [Opt.read, item, hv, getOpt, py_bind, getD, update, this, Option.orElse_none]
    rfl
  have e0 : Opt.read PARAMS (update PARAMS (kinkKw vl)) "filter_data" = .ok (.bool false) := rfl
  have e1 : Opt.read PARAMS (update PARAMS (kinkKw vl)) "vgap" = .ok (.num 2.8e-3) := rfl
  have e2 : Opt.read PARAMS (update PARAMS (kinkKw vl)) "npts" = .ok (.int 121) := rfl
  simp only [ivOpts, e0, e1, e2, e "v_fmt" _ rfl (by decide), e "i_fmt" _ rfl (by decide),
    e "v_multiplier" _ rfl (by decide),
    e "i_multiplier" _ rfl (by decide), e "rseries" _ rfl (by decide), e "vmax" _ rfl (by decide),
    e "voffset" _ rfl (by decide), e "ioffset" _ rfl (by decide),
    e "voffset_range" _ rfl (by decide), e "filter_nwind" _ rfl (by decide), e "filter_npoly" _ rfl (by decide),
    e "filter_theta" _ rfl (by decide), e "vrn" _ rfl (by decide),
    e "vrsg" _ rfl (by decide), py_bind, asReal, asOptReal, asInt, asUnit, asVRange, asPair, truth, pure, Except.pure]
  exact ⟨_, rfl, rfl, rfl, by norm_num, by norm_num, rfl, rfl, rfl, rfl, rfl, rfl, rfl, rfl, rfl, rfl⟩

/-- The same points in volts and amperes. -/
noncomputable def kinkSi : List (ℝ × ℝ) :=
  [(0, 0), (1.95e-3, 0.195e-3), (2.05e-3, 0.295e-3), (4e-3, 0.49e-3), (5e-3, 0.59e-3)]

theorem kinkSi_incr : Incr kinkSi := by
  unfold Incr kinkSi
  simp only [List.pairwise_cons, List.mem_cons, List.not_mem_nil, or_false, forall_eq_or_imp, forall_eq,
    List.Pairwise.nil, and_true, IsEmpty.forall_iff, implies_true]
  norm_num

/-- `DCData` for this junction: its resistances, and the 121 points of the curve. -/
theorem kink_dc (R : Routines) (S : RespFn.Splines) (vl : ℝ) :
    ∃ d, (dcData R S [PARAMS] (.matrix (sweep kinked)) none (kinkKw vl)).1 = .ok d ∧ d.dc.rsg = 1 ∧ d.dc.rn = 10 ∧
      d.dc.vgap = 2.8e-3 ∧ d.vleak = vl ∧ d.voltage.length = 121 ∧
      siCurve d = tab 121 fun k => ((-6e-3 + k * 1e-4 : ℝ), interpAt kinkSi (-6e-3 + k * 1e-4)) := by
  obtain ⟨o, ho, o1, o2, o3, o4, o5, o6, o7, o8, o9, o10, o11, o12, o13, o14⟩ := kink_opts vl
  have hv : voltUnit "mV" = 1e-3 := by simp [voltUnit]
  have hi : ampUnit "mA" = 1e-3 := by simp [ampUnit]
  have hsi : kinkSi = kinked.map fun p => (p.1 * voltUnit o.vFmt * o.vMult, p.2 * ampUnit o.iFmt * o.iMult) := by
    rw [o1, o2, o3, o4, hv, hi]
    simp only [kinkSi, kinked, List.map_cons, List.map_nil]
    norm_num
  have ex : ∀ Q : ℝ × ℝ → Prop, (∀ p ∈ kinkSi, Q p) ↔ Q (0, 0) ∧ Q (1.95e-3, 0.195e-3) ∧ Q (2.05e-3, 0.295e-3) ∧
      Q (4e-3, 0.49e-3) ∧ Q (5e-3, 0.59e-3) := by
    intro Q
    simp [kinkSi]
  obtain ⟨v, i, dc, hc, c1, c2, c3, c4, c5, c6, c7⟩ := C85_junction R o kinked (by simp [kinked]) 10 (-0.9e-3) 1 1.755e-3 2.8e-3
    (by
      simp only [kinked, List.pairwise_cons, List.mem_cons, List.not_mem_nil, or_false, forall_eq_or_imp, forall_eq,
        List.Pairwise.nil, and_true, IsEmpty.forall_iff, implies_true]
      norm_num) kinked (Or.inl rfl) (by rw [o1]; simp) (by rw [o2]; simp) (by rw [o3]; norm_num) kinkSi hsi
    (by rw [o14, ex]; norm_num) o9 o10 o8 o11 (by norm_num) o7 (by rw [o5]; norm_num) (by norm_num) (by norm_num)
    (by rw [o12, ex]; norm_num)
    (by
      rw [o12]
      exact ⟨(4e-3, 0.49e-3), by simp [kinkSi], (5e-3, 0.59e-3), by simp [kinkSi], by norm_num, by norm_num, by norm_num,
        by norm_num, by norm_num⟩)
    (by rw [o13, ex]; norm_num [abs_lt])
    (by
      rw [o13]
      exact ⟨(1.95e-3, 0.195e-3), by simp [kinkSi], (2.05e-3, 0.295e-3), by simp [kinkSi], by norm_num,
        by norm_num [abs_lt], by norm_num [abs_lt]⟩)
  obtain ⟨-, -, l1, l2, hgr, -⟩ := C81_metadata R o _ _ _ _ hc
  rw [o5] at l1 l2
  have l1' : v.length = 121 := by exact_mod_cast l1
  have l2' : i.length = 121 := by exact_mod_cast l2
  have hgr' : ∀ k, k < 121 → v.getD k 0 * dc.vgap = -6e-3 + k * 1e-4 := by
    intro k hk
    rw [hgr k (by omega), o6, o5]
    norm_num
  obtain ⟨d, hd, d1, d2, d3, d4, -⟩ := C94_returns R S [PARAMS] (by simp) rfl (sweep kinked) (kinkKw vl) o v i dc 1.5 vl
    (some 0.020) ho hc (by intro k hk; simp only [List.mem_cons, List.not_mem_nil, or_false] at hk; rcases hk with rfl | rfl | rfl | rfl | rfl <;> rfl) ⟨(fun v (hv : _ = some v) => nomatch hv), fun _ => rfl⟩
    ⟨fun v hv => by cases hv; rfl, fun h => by cases h⟩ ⟨(fun v (hv : _ = some v) => nomatch hv), fun _ => rfl⟩
    (by intro x hx; cases hx; norm_num)
    ⟨61, by omega, by
      have := hgr' 61 (by norm_num)
      rw [c6] at this
      norm_num at this ⊢
      constructor <;> linarith⟩
  refine ⟨d, hd, by rw [d3, c3], by rw [d3, c1], by rw [d3, c6], d4, by rw [d1, l1'], ?_⟩
  unfold siCurve
  rw [d1, d2, d3]
  apply List.ext_getElem?
  intro k
  rw [List.getElem?_map]
  by_cases hk : k < 121
  · rw [tab_get?, if_pos hk, List.zip_eq_zipWith, List.getElem?_zipWith, List.getElem?_eq_getElem (by omega), List.getElem?_eq_getElem (by omega)]
    have e1 := hgr' k hk
    have e2 := c7 k (by omega)
    rw [List.getD_eq_getElem?_getD, List.getElem?_eq_getElem (by omega), Option.getD_some] at e1
    rw [List.getD_eq_getElem?_getD, List.getElem?_eq_getElem (by omega), Option.getD_some,
      List.getD_eq_getElem?_getD, List.getElem?_eq_getElem (by omega), Option.getD_some, e1] at e2
    simp only [Option.map_some]
    rw [e1, e2]
  · rw [List.getElem?_eq_none (by simp; omega), List.getElem?_eq_none (by simp; omega)]
    rfl

theorem kink_mid {x : ℝ} (h1 : 1.95e-3 ≤ x) (h2 : x ≤ 2.05e-3) : interpAt kinkSi x = x - 1.755e-3 := by
  rw [interpAt_neighbours kinkSi_incr (p := (1.95e-3, 0.195e-3)) (q := (2.05e-3, 0.295e-3)) (by simp [kinkSi])
    (by simp [kinkSi]) (by norm_num) (by simp only [kinkSi, List.mem_cons, List.not_mem_nil, or_false, forall_eq_or_imp, forall_eq]; norm_num) h1 h2]
  norm_num
  ring

theorem kink_low {x : ℝ} (h1 : 0 ≤ x) (h2 : x ≤ 1.95e-3) : interpAt kinkSi x = x / 10 := by
  rw [interpAt_neighbours kinkSi_incr (p := (0, 0)) (q := (1.95e-3, 0.195e-3)) (by simp [kinkSi])
    (by simp [kinkSi]) (by norm_num) (by simp only [kinkSi, List.mem_cons, List.not_mem_nil, or_false, forall_eq_or_imp, forall_eq]; norm_num) h1 h2]
  norm_num
  ring

theorem kink_high {x : ℝ} (h1 : 2.05e-3 ≤ x) (h2 : x ≤ 4e-3) : interpAt kinkSi x = (x + 0.9e-3) / 10 := by
  rw [interpAt_neighbours kinkSi_incr (p := (2.05e-3, 0.295e-3)) (q := (4e-3, 0.49e-3)) (by simp [kinkSi])
    (by simp [kinkSi]) (by norm_num) (by simp only [kinkSi, List.mem_cons, List.not_mem_nil, or_false, forall_eq_or_imp, forall_eq]; norm_num) h1 h2]
  norm_num
  ring

/-- C112 is false of the leakage marker: with `vleak` = 1 mV, the marker of the leakage current is not on the curve.
It is drawn at 2 mV with the current at 1 mV. -/
theorem C112_false_leak (R : Routines) (S : RespFn.Splines) (new : ℕ) (ax : Option ℕ) :
    ∃ d fig a, (dcData R S [PARAMS] (.matrix (sweep kinked)) none (kinkKw 1e-3)).1 = .ok d ∧
      plotDciv R d 4 new ax = .ok fig ∧
      (a, Label.num "$I_\\mathrm{{leak}}$ = " 2 (num (d.ileak * 1e6)) " $\\mu$A", [(num 2, num (d.ileak * 1e6))]) ∈ curves fig ∧
      d.ileak = 1e-4 ∧ ¬ OnLine (shownMvUa (siCurve d)) 2 (d.ileak * 1e6) := by
  obtain ⟨d, hd, -, -, hg, hl, hn, hs⟩ := kink_dc R S 1e-3
  have hu : Uses (kinkKw 1e-3) "vmax" asReal 6e-3 6e-3 := ⟨(fun v (hv : _ = some v) => nomatch hv), fun _ => rfl⟩
  have hg0 : 0 < d.dc.vgap := by rw [hg]; norm_num
  have hI := (siCurve_grid (by simp) rfl hd hg0 hu (by norm_num) (by omega)).1
  have mem : ∀ k : ℕ, k < 121 → ((-6e-3 + k * 1e-4 : ℝ), interpAt kinkSi (-6e-3 + k * 1e-4)) ∈ siCurve d := by
    intro k hk
    rw [hs]
    exact List.mem_of_getElem? (by rw [tab_get?, if_pos hk])
  obtain ⟨fig, hf⟩ := (C112_returns R S [PARAMS] (by simp) rfl _ none _ d hd 4 new ax).1
    ⟨_, mem 70 (by norm_num), by rw [hl]; norm_num⟩
  obtain ⟨a, ig, s, b, -, -, -, hcv, -⟩ := C112_curves R S [PARAMS] (by simp) rfl _ none _ d hd 4 new ax fig hf
  have h1 := onLine_unique hI (C112_leak R S [PARAMS] (by simp) rfl _ none _ d hd 6e-3 hu hg0 (by norm_num)
    (by rw [hl]; norm_num) (by rw [hl]; norm_num) (by omega))
  have at1 : d.ileak = 1e-4 := by
    have := interpAt_sample _ hI _ (mem 70 (by norm_num))
    norm_num at this
    rw [h1, hl]
    norm_num
    rw [this, kink_low (by norm_num) (by norm_num)]
    norm_num
  refine ⟨d, fig, a, hd, hf, by rw [hcv]; simp, at1, ?_⟩
  intro hon
  have h2 := onLine_scale 1e-3 1e-6 hon
  have e : (shownMvUa (siCurve d)).map (fun p => (p.1 * 1e-3, p.2 * 1e-6)) = siCurve d := by
    unfold shownMvUa
    rw [List.map_map]
    conv_rhs => rw [← List.map_id (siCurve d)]
    apply List.map_congr_left
    intro p _
    ext <;> simp <;> ring
  rw [e] at h2
  have h3 := onLine_unique hI h2
  have := interpAt_sample _ hI _ (mem 80 (by norm_num))
  norm_num at this
  rw [at1] at h3
  norm_num at h3
  rw [this, kink_mid (by norm_num) (by norm_num)] at h3
  norm_num at h3

/-- C112 is false of the line of the subgap resistance: its slope is not the conductance written beside it. With the
default options the line has slope 0.55 A/V, and the legend 1 ohm. -/
theorem C112_false_subgap (R : Routines) (S : RespFn.Splines) (new : ℕ) (ax : Option ℕ) :
    ∃ d fig a, (dcData R S [PARAMS] (.matrix (sweep kinked)) none (kinkKw 2e-3)).1 = .ok d ∧
      plotDciv R d 4 new ax = .ok fig ∧ d.dc.rsg = 1 ∧
      ∃ b, (a, Label.num "$R_\\mathrm{{sg}}$ = " 1 (num 1) " $\\Omega$",
        numPts (shownMvUa ((siCurve d).map fun p => (p.1, 0.55 * p.1 + b)))) ∈ curves fig := by
  obtain ⟨d, hd, hr, -, hg, hl, hn, hs⟩ := kink_dc R S 2e-3
  have mem : ∀ k : ℕ, k < 121 → ((-6e-3 + k * 1e-4 : ℝ), interpAt kinkSi (-6e-3 + k * 1e-4)) ∈ siCurve d := by
    intro k hk
    rw [hs]
    exact List.mem_of_getElem? (by rw [tab_get?, if_pos hk])
  obtain ⟨fig, hf⟩ := (C112_returns R S [PARAMS] (by simp) rfl _ none _ d hd 4 new ax).1
    ⟨_, mem 80 (by norm_num), by rw [hl]; norm_num⟩
  obtain ⟨a, ig, s, b, -, -, -, hcv, hls, -⟩ := C112_curves R S [PARAMS] (by simp) rfl _ none _ d hd 4 new ax fig hf
  refine ⟨d, fig, a, hd, hf, hr, b, ?_⟩
  have hsb : (s, b) = (0.55, -0.855e-3) := by
    refine best_unique (L := (siCurve d).filter fun p => decide (|p.1 - d.vleak| < 0.2e-3)) (fun q => hls q.1 q.2) ?_ ?_
    · intro q hq
      obtain ⟨hq1, hq2⟩ := List.mem_filter.1 hq
      rw [hs] at hq1
      obtain ⟨k, hk, rfl⟩ := mem_tab.1 hq1
      have hq2 : |(-6e-3 + k * 1e-4 : ℝ) - d.vleak| < 0.2e-3 := by simpa using hq2
      rw [hl, abs_lt] at hq2
      have k1 : 78 < k := by
        have : (78 : ℝ) < k := by linarith [hq2.1]
        exact_mod_cast this
      have k2 : k < 82 := by
        have : (k : ℝ) < 82 := by linarith [hq2.2]
        exact_mod_cast this
      have : k = 79 ∨ k = 80 ∨ k = 81 := by omega
      rcases this with rfl | rfl | rfl
      · dsimp only
        rw [kink_low (by norm_num) (by norm_num)]; norm_num
      · dsimp only
        rw [kink_mid (by norm_num) (by norm_num)]; norm_num
      · dsimp only
        rw [kink_high (by norm_num) (by norm_num)]; norm_num
    · refine ⟨_, List.mem_filter.2 ⟨mem 79 (by norm_num), ?_⟩, _, List.mem_filter.2 ⟨mem 80 (by norm_num), ?_⟩, ?_⟩
      · rw [hl, decide_eq_true_iff]; norm_num [abs_lt]
      · rw [hl, decide_eq_true_iff]; norm_num [abs_lt]
      · norm_num
  rw [Prod.mk.injEq] at hsb
  rw [hcv, hr, ← hsb.1]
  simp

end QMix.Exp
