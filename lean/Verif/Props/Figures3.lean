import Verif.Props.Figures2
import Verif.Props.MathFn

/-!
# The figures of the IF data of pumped junctions (C113)
-/

namespace QMix.Exp

open QMix Np Fl IvData IfData Opt Spec

/-- What is known of the IF results: the cold powers are given over the voltages of the hot ones. -/
theorem ifs_facts {R : Routines} {h : Heap} (hh : h ≠ []) (hP : deref h sharedAt = PARAMS)
    {data : IfResp.Input} {d : DCData} {hot cold : Option IfResp.Input} {kw : Dict} {r : PumpedData} {f : PumpedIf}
    (e : (pumpedData R h data d hot cold kw).1 = .ok r) (hf : r.ifs = some f) :
    (f.hot.length = f.cold.length → f.hot.map Prod.fst = f.cold.map Prod.fst) ∧
    f.tn[f.idxBest]? = some f.tnBest ∧ f.gain[f.idxBest]? = some f.gainBest ∧
    ∀ q, f.hot[f.idxBest]? = some q → q.1 = f.vBest := by
  obtain ⟨-, -, -, -, -, -, -, -, hi⟩ := pumpedInit_parts (pumpedData_ok hh hP e)
  rw [hf] at hi
  obtain ⟨a, b, -, -, hi⟩ := pumpedIfs_some hi
  obtain ⟨o, t, q, -, -, -, e1, e2, -⟩ := pumpedIf_parts hi
  obtain ⟨h1, h2, h3, -⟩ := C95_point R h hh hP data d hot cold kw r f e hf
  refine ⟨?_, h1, h2, h3⟩
  rw [e1, e2]
  intro hl
  apply List.ext_getElem?
  intro k
  rw [List.getElem?_map, List.getElem?_map]
  by_cases hk : k < (q.v.zip q.hot).length
  · have hk' : k < (q.v.zip q.cold).length := by omega
    rw [List.getElem?_eq_getElem hk, List.getElem?_eq_getElem hk']
    simp
  · rw [List.getElem?_eq_none (by omega), List.getElem?_eq_none (by omega)]

theorem pyGet_at {α : Type} {l : List α} {k : ℕ} {a : α} (h : pyGet l (k : ℤ) = .ok a) : l[k]? = some a := by
  obtain ⟨i, hi, ha⟩ := Cct.pyGet_ok h
  have hlt : k < l.length := by
    have := (pyIndex_ok_iff (n := l.length) (k := (k : ℤ))).1 ⟨i, hi⟩
    omega
  rw [pyIndex_nonneg (by omega) (by omega)] at hi
  cases hi
  simpa using ha

theorem ifVolts_eq (r : PumpedData) (f : PumpedIf) : ifVolts r f = (f.hot.map Prod.fst).map fun x => x * r.dc.vgap * 1e3 := by
  unfold ifVolts
  rw [List.map_map]
  rfl

theorem zip_overMv (g : ℝ) (P : List (ℝ × ℝ)) :
    (((P.map Prod.fst).map fun x => x * g * 1e3).map num).zip ((P.map Prod.snd).map num) = numPts (overMv g P) := by
  unfold numPts overMv
  rw [List.map_map, List.map_map, List.map_map, List.map_map, List.zip_map, List.zip_eq_zipWith, List.zipWith_self,
    List.map_map]
  rfl

theorem zip_over2 (g : ℝ) {F : List (ℝ × ℝ)} {w : List ℝ} (hw : F.length = w.length) :
    ((F.map fun q => q.1 * g * 1e3).map num).zip (w.map num) = numPts (overMv g ((F.map Prod.fst).zip w)) := by
  have := zip_overMv g ((F.map Prod.fst).zip w)
  rw [List.map_fst_zip (by simp [hw]), List.map_snd_zip (by simp [hw])] at this
  rw [← this, List.map_map, List.map_map, List.map_map]
  rfl

theorem num_volts (g : ℝ) (F : List (ℝ × ℝ)) : (F.map fun q => q.1 * g * 1e3).map num =
    F.map fun q => num (q.1 * g * 1e3) := by rw [List.map_map]; rfl

theorem zip_get {α β : Type} {a : List α} {b : List β} {k : ℕ} {x : α} {y : β} (h1 : a[k]? = some x) (h2 : b[k]? = some y) :
    (a.zip b)[k]? = some (x, y) := List.getElem?_zip_eq_some.2 ⟨h1, h2⟩

section
variable (R : Routines) (S : RespFn.Splines) (h h' : Heap) (hh : h ≠ []) (hP : deref h sharedAt = PARAMS)
  (hh' : h' ≠ []) (hP' : deref h' sharedAt = PARAMS)
  (dcdata data : IfResp.Input) (dcif : Option IfResp.Input) (kd kw : Dict) (d : DCData)
  (hot cold : Option IfResp.Input) (r : PumpedData)
  (ed : (dcData R S h' dcdata dcif kd).1 = .ok d)
  (e : (pumpedData R h data d hot cold kw).1 = .ok r)

include hh hP e in
/-- C113: the figure of the IF powers: hot and cold over the bias voltage in mV; and without LO, if that was measured. -/
theorem C113_if (f : PumpedIf) (hf : r.ifs = some f) (vmax : ℝ) (new : ℕ) (ax : Option ℕ) (fig : Drawing)
    (hfig : plotIf r d vmax new ax = .ok fig) :
    ∃ a, (∀ x, ax = some x → a = x) ∧ (ax = none → a = new) ∧ fig.axes = [a] ∧
      curves fig = [(a, .text "Hot", numPts (overMv d.dc.vgap f.hot)), (a, .text "Cold", numPts (overMv d.dc.vgap f.cold))] ++
        (d.ifs.toList.map fun q => (a, .text "No LO", numPts (overMv d.dc.vgap (q.1.1.zip q.1.2)))) := by
  obtain ⟨hdc, -⟩ := pumped_facts hh hP e
  obtain ⟨hv, -⟩ := ifs_facts hh hP e hf
  unfold plotIf theIf at hfig
  rw [hf] at hfig
  simp only [getOpt, py_bind, ifVolts_eq, hdc] at hfig
  obtain ⟨c1, h1, hfig⟩ := bind_ok_iff.1 hfig
  obtain ⟨c2, h2, hfig⟩ := bind_ok_iff.1 hfig
  obtain ⟨c3, h3, hfig⟩ := bind_ok_iff.1 hfig
  obtain ⟨l1, rfl⟩ := draw_ok.1 h1
  obtain ⟨l2, rfl⟩ := draw_ok.1 h2
  have hv := hv (by simpa using l2)
  obtain rfl := pure_ok_iff.1 hfig
  refine ⟨ax.getD new, ?_, ?_, rfl, ?_⟩
  · rintro x rfl; rfl
  · rintro rfl; rfl
  · unfold noLo at h3
    simp only [hdc] at h3
    have z1 := zip_overMv d.dc.vgap f.hot
    have z2 := zip_overMv d.dc.vgap f.cold
    rw [← hv] at z2
    cases hi : d.ifs with
    | none =>
      rw [hi] at h3
      obtain rfl := Except.ok.inj h3
      simp only [curves, List.cons_append, List.nil_append, List.filterMap_cons, List.filterMap_nil, z1, z2,
        Option.toList_none, List.map_nil]
    | some q =>
      obtain ⟨⟨v, w⟩, out⟩ := q
      rw [hi] at h3
      obtain ⟨c, hc, h3⟩ := bind_ok_iff.1 h3
      obtain ⟨l3, rfl⟩ := draw_ok.1 hc
      obtain rfl := pure_ok_iff.1 h3
      have z3 : ((v.map fun x => x * d.dc.vgap * 1e3).map num).zip (w.map num) = numPts (overMv d.dc.vgap (v.zip w)) := by
        have := zip_overMv d.dc.vgap (v.zip w)
        rw [List.length_map] at l3
        rwa [List.map_fst_zip (by omega), List.map_snd_zip (by omega)] at this
      simp only [curves, List.cons_append, List.nil_append, List.filterMap_cons, List.filterMap_nil, z1, z2, z3,
        Option.toList_some, List.map_cons, List.map_nil]

include hh hP hh' hP' ed e in
/-- C113: the figure of both the pumped curve and the IF powers (where they are not zero), the curves on the first axes
and the powers on the second. -/
theorem C113_ivif (f : PumpedIf) (hf : r.ifs = some f) (vmax : ℝ) (new : ℕ) (ax : Option (ℕ × ℕ)) (fig : Drawing)
    (hfig : plotIvif r d vmax new ax = .ok fig) :
    ∃ a1 a2, (∀ x, ax = some x → a1 = x.1) ∧ (ax = none → a1 = new) ∧ fig.axes = [a1, a2] ∧
      curves fig = [(a1, .text "Unpumped", numPts (shownMvUa (siCurve d))),
        (a1, .text "Pumped", numPts (shownMvUa ((siPumped r).filter fun p => decide (p.2 ≠ 0)))),
        (a2, .text "Hot", numPts (overMv d.dc.vgap (f.hot.filter fun p => decide (p.2 ≠ 0)))),
        (a2, .text "Cold", numPts (overMv d.dc.vgap (f.cold.filter fun p => decide (p.2 ≠ 0))))] ∧
      vlines fig = [(a1, d.dc.vgap * 1e3), (a1, (d.dc.vgap - photonVolts r.freq) * 1e3)] ∧
      Cmd.ylim a1 (some 0) (some (num (interpAt (shownMvUa (siCurve d)) vmax))) ∈ fig.cmds ∧
      Cmd.xlim a2 (some 0) (some vmax) ∈ fig.cmds := by
  obtain ⟨-, -, hrn, hg, hig, -⟩ := dc_facts hh' hP' ed
  obtain ⟨L, hLne, -, -, f1, f2, hSne⟩ := dc_points R S h' hh' hP' dcdata dcif kd d ed
  obtain ⟨m, hm, m1, m2⟩ := pumped_points R S h h' hh hP hh' hP' dcdata data dcif kd kw d hot cold r ed e
  obtain ⟨hdc, -⟩ := pumped_facts hh hP e
  obtain ⟨hv, -⟩ := ifs_facts hh hP e hf
  have g0 : Np.fdiv d.dc.vgap d.dc.rn = .ok d.dc.igap := fdiv_ok.2 ⟨hrn, by rw [← hig]; field_simp⟩
  have g1 : interpVal vmax ((shownMvUa (siCurve d)).map Prod.fst) ((shownMvUa (siCurve d)).map Prod.snd) =
      .ok (interpAt (shownMvUa (siCurve d)) vmax) :=
    interpVal_ok.2 ⟨by simp, by simpa using hSne, by rw [zip_points]⟩
  have over : ∀ P : List (ℝ × ℝ),
      masked (P.map fun q => decide (q.2 ≠ 0)) ((P.map Prod.fst).map fun x => x * d.dc.vgap * 1e3) (P.map Prod.snd) =
      .ok (((P.filter fun q => decide (q.2 ≠ 0)).map Prod.fst).map (fun x => x * d.dc.vgap * 1e3),
        (P.filter fun q => decide (q.2 ≠ 0)).map Prod.snd) := by
    intro P
    unfold masked
    rw [List.map_map, Clean.select_map, py_bind, Clean.select_map, py_bind, List.map_map]
    rfl
  unfold plotIvif theIf at hfig
  simp only [hf, hdc, g0, getOpt, py_bind, ifVolts_eq, f1, f2, g1, draw_points, hm, m1, m2, over,
    photon_mv R S h h' hh hP dcdata data dcif kd kw d hot cold r ed e] at hfig
  obtain ⟨c1, h1, hfig⟩ := bind_ok_iff.1 hfig
  obtain ⟨-, rfl⟩ := draw_ok.1 h1
  obtain ⟨c, hc, hfig⟩ := bind_ok_iff.1 hfig
  have hlen : f.hot.length = f.cold.length := by simpa using (masked_ok hc).1
  rw [hv hlen, over] at hc
  obtain rfl := Except.ok.inj hc
  obtain ⟨c2, h2, hfig⟩ := bind_ok_iff.1 hfig
  obtain ⟨-, rfl⟩ := draw_ok.1 h2
  obtain rfl := pure_ok_iff.1 hfig
  refine ⟨_, _, ?_, ?_, rfl, ?_, rfl, ?_, ?_⟩
  · rintro x rfl; rfl
  · rintro rfl; rfl
  · simp only [curves, List.filterMap_cons, List.filterMap_nil, zip_numPts, zip_overMv]
  · simp
  · simp

omit hh hP hh' hP' ed e in
/-- C113 is false of the axes given to `plot_ivif`: the second axes are not used, and others are returned. -/
theorem C113_false_axes (vmax : ℝ) (new a1 a2 : ℕ) (hn : a2 < new) (fig : Drawing)
    (hfig : plotIvif r d vmax new (some (a1, a2)) = .ok fig) : fig.axes = [a1, new] ∧ fig.axes ≠ [a1, a2] := by
  have : fig.axes = [a1, new] := by
    unfold plotIvif at hfig
    obtain ⟨_, -, hfig⟩ := bind_ok_iff.1 hfig
    obtain ⟨_, -, hfig⟩ := bind_ok_iff.1 hfig
    obtain ⟨_, -, hfig⟩ := bind_ok_iff.1 hfig
    obtain ⟨_, -, hfig⟩ := bind_ok_iff.1 hfig
    obtain ⟨_, -, hfig⟩ := bind_ok_iff.1 hfig
    obtain ⟨_, -, hfig⟩ := bind_ok_iff.1 hfig
    obtain ⟨_, -, hfig⟩ := bind_ok_iff.1 hfig
    obtain ⟨_, -, hfig⟩ := bind_ok_iff.1 hfig
    obtain ⟨_, -, hfig⟩ := bind_ok_iff.1 hfig
    obtain ⟨_, -, hfig⟩ := bind_ok_iff.1 hfig
    rw [← pure_ok_iff.1 hfig]
  refine ⟨this, ?_⟩
  rw [this]
  intro h
  simp at h
  omega

include hh hP e in
/-- C113: the figure of the noise temperature: the smoothed hot and cold powers and the noise temperature, all at the
bias points where there is hot power; and the best point, which is one of them if there is power there. -/
theorem C113_noise (f : PumpedIf) (hf : r.ifs = some f) (vmax : ℝ) (new : ℕ) (ax : Option (ℕ × ℕ)) (fig : Drawing)
    (hfig : plotNoiseTemp r vmax new ax = .ok fig) :
    ∃ a1 a2 hs cs tn, (∀ x, ax = some x → (a1, a2) = x) ∧ (ax = none → a1 ≠ a2) ∧ fig.axes = [a1, a2] ∧
      MathFn.gaussConv ((f.hot.filter fun p => decide (p.2 ≠ 0)).map Prod.snd) 5 3 = .ok hs ∧
      MathFn.gaussConv (((f.hot.zip f.cold).filter fun p => decide (p.1.2 ≠ 0)).map fun p => p.2.2) 5 3 = .ok cs ∧
      tn = (((f.hot.zip f.tn).filter fun p => decide (p.1.2 ≠ 0)).map fun p => (num (p.1.1 * d.dc.vgap * 1e3), p.2)) ∧
      curves fig =
        [(a1, .text "Hot IF", numPts (overMv d.dc.vgap (((f.hot.filter fun p => decide (p.2 ≠ 0)).map Prod.fst).zip hs))),
         (a1, .text "Cold IF", numPts (overMv d.dc.vgap (((f.hot.filter fun p => decide (p.2 ≠ 0)).map Prod.fst).zip cs))),
         (a2, .text "Noise Temp.", tn),
         (a2, .num "$T_\\mathrm{n}=" 1 f.tnBest "$ K", [(num (f.vBest * d.dc.vgap * 1e3), f.tnBest)])] ∧
      ∀ q, f.hot[f.idxBest]? = some q → q.2 ≠ 0 → (num (f.vBest * d.dc.vgap * 1e3), f.tnBest) ∈ tn := by
  obtain ⟨hdc, -⟩ := pumped_facts hh hP e
  obtain ⟨hv, ht, -, hb⟩ := ifs_facts hh hP e hf
  have sel : ∀ {β : Type} (l : List β) (x : List β), select l (f.hot.map fun q => decide (q.2 ≠ 0)) = .ok x →
      l.length = f.hot.length ∧ x = ((f.hot.zip l).filter fun p => decide (p.1.2 ≠ 0)).map Prod.snd := by
    intro β l x hx
    have hl : l.length = f.hot.length := by
      unfold select at hx
      split at hx
      · rename_i h; simpa using h
      · cases hx
    refine ⟨hl, ?_⟩
    have := Clean.select_map (f.hot.zip l) Prod.snd fun p => decide (p.1.2 ≠ 0)
    rw [List.map_snd_zip (by omega)] at this
    have e2 : ((f.hot.zip l).map fun p => decide (p.1.2 ≠ 0)) = f.hot.map fun q => decide (q.2 ≠ 0) := by
      conv_rhs => rw [← List.map_fst_zip (l₁ := f.hot) (l₂ := l) (by omega), List.map_map]
      rfl
    rw [e2, hx] at this
    exact Except.ok.inj this
  have selh : select f.hot (f.hot.map fun q => decide (q.2 ≠ 0)) = .ok (f.hot.filter fun q => decide (q.2 ≠ 0)) := by
    have := Clean.select_map f.hot id fun q => decide (q.2 ≠ 0)
    simpa using this
  unfold plotNoiseTemp theIf at hfig
  simp only [hf, hdc, getOpt, py_bind, selh] at hfig
  obtain ⟨hs, h1, hfig⟩ := bind_ok_iff.1 hfig
  obtain ⟨c, h2, hfig⟩ := bind_ok_iff.1 hfig
  obtain ⟨cs, h3, hfig⟩ := bind_ok_iff.1 hfig
  obtain ⟨c1, h4, hfig⟩ := bind_ok_iff.1 hfig
  obtain ⟨c2, h5, hfig⟩ := bind_ok_iff.1 hfig
  obtain ⟨ym, -, hfig⟩ := bind_ok_iff.1 hfig
  obtain ⟨tn, h6, hfig⟩ := bind_ok_iff.1 hfig
  obtain ⟨c3, h7, hfig⟩ := bind_ok_iff.1 hfig
  obtain ⟨best, h8, hfig⟩ := bind_ok_iff.1 hfig
  obtain ⟨c4, h9, hfig⟩ := bind_ok_iff.1 hfig
  obtain ⟨l4, rfl⟩ := draw_ok.1 h4
  obtain ⟨l5, rfl⟩ := draw_ok.1 h5
  obtain ⟨l7, rfl⟩ := drawF_ok.1 h7
  obtain ⟨l9, rfl⟩ := drawF_ok.1 h9
  obtain rfl := pure_ok_iff.1 hfig
  obtain ⟨hlc, hc⟩ := sel _ _ h2
  obtain ⟨hlt, htn⟩ := sel _ _ h6
  rw [List.length_map] at l4 l5
  have hbest := pyGet_at h8
  have hv' := hb _ hbest
  refine ⟨(ax.getD (new, new + 1)).1, (ax.getD (new, new + 1)).2, hs, cs, _, ?_, ?_, rfl, h1, ?_, rfl, ?_, ?_⟩
  · rintro x rfl; rfl
  · rintro rfl; simp
  · rw [hc, List.map_map] at h3
    exact h3
  · simp only [curves, List.filterMap_cons, List.filterMap_nil, zip_over2 _ l4, zip_over2 _ l5, hv',
      List.zip_cons_cons, List.zip_nil_right, List.cons.injEq, Prod.mk.injEq, true_and, and_true]
    rw [htn, List.map_map]
    have e2 : (f.hot.filter fun q => decide (q.2 ≠ 0)) =
        ((f.hot.zip f.tn).filter fun p => decide (p.1.2 ≠ 0)).map Prod.fst := by
      have := List.filter_map (f := Prod.fst) (p := fun q : ℝ × ℝ => decide (q.2 ≠ 0)) (l := f.hot.zip f.tn)
      rw [List.map_fst_zip (by omega)] at this
      rw [this]
      rfl
    rw [e2, List.map_map, List.zip_map, List.zip_eq_zipWith, List.zipWith_self, List.map_map]
    rfl
  · intro q hq hq0
    refine List.mem_map.2 ⟨(q, f.tnBest), List.mem_filter.2 ⟨List.mem_of_getElem? (i := f.idxBest) ?_, by simpa using hq0⟩, ?_⟩
    · rw [List.getElem?_zip_eq_some]
      exact ⟨hq, ht⟩
    · rw [hb q hq]

include hh hP e in
/-- C113: the figure of the Y-factor: the smoothed hot powers over the smoothed cold ones; the noise temperature at every
bias point, and the best point, which is one of them. The horizontal line is at 293 K / 77 K whatever the loads. -/
theorem C113_yfac (f : PumpedIf) (hf : r.ifs = some f) (hl : f.hot.length = f.cold.length) (vmax : ℝ) (new : ℕ) (ax : Option (ℕ × ℕ)) (fig : Drawing)
    (hfig : plotYfac r vmax new ax = .ok fig) :
    ∃ a1 a2 hs cs, (∀ x, ax = some x → (a1, a2) = x) ∧ (ax = none → a1 ≠ a2) ∧ fig.axes = [a1, a2] ∧
      MathFn.gaussConv (f.hot.map Prod.snd) 5 3 = .ok hs ∧ MathFn.gaussConv (f.cold.map Prod.snd) 5 3 = .ok cs ∧
      ∃ Y T, curves fig = [(a1, .text "Y-factor", Y), (a2, .text "Noise Temp.", T),
          (a2, .text "", [(num (f.vBest * d.dc.vgap * 1e3), f.tnBest)])] ∧
        Y.length = f.hot.length ∧ T.length = f.hot.length ∧
        (∀ (k : ℕ) (q : ℝ × ℝ), f.hot[k]? = some q → ∃ x y t, hs[k]? = some x ∧ cs[k]? = some y ∧ f.tn[k]? = some t ∧
          Y[k]? = some (num (q.1 * d.dc.vgap * 1e3), Fl.fdiv (num x) (num y)) ∧
          T[k]? = some (num (q.1 * d.dc.vgap * 1e3), t)) ∧
        (num (f.vBest * d.dc.vgap * 1e3), f.tnBest) ∈ T ∧ Cmd.hline a1 (293 / 77) ∈ fig.cmds := by
  obtain ⟨hdc, -⟩ := pumped_facts hh hP e
  obtain ⟨hv, ht, -, hb⟩ := ifs_facts hh hP e hf
  unfold plotYfac theIf at hfig
  simp only [hf, hdc, getOpt, py_bind, ifVolts] at hfig
  obtain ⟨hs, h1, hfig⟩ := bind_ok_iff.1 hfig
  obtain ⟨cs, h2, hfig⟩ := bind_ok_iff.1 hfig
  obtain ⟨yf, h3, hfig⟩ := bind_ok_iff.1 hfig
  obtain ⟨c1, h4, hfig⟩ := bind_ok_iff.1 hfig
  obtain ⟨c2, h5, hfig⟩ := bind_ok_iff.1 hfig
  obtain ⟨x, h6, hfig⟩ := bind_ok_iff.1 hfig
  obtain ⟨c3, h7, hfig⟩ := bind_ok_iff.1 hfig
  obtain ⟨l4, rfl⟩ := drawF_ok.1 h4
  obtain ⟨l5, rfl⟩ := drawF_ok.1 h5
  obtain ⟨l7, rfl⟩ := drawF_ok.1 h7
  obtain rfl := pure_ok_iff.1 hfig
  have hx := pyGet_at h6
  rw [List.getElem?_map] at hx
  obtain ⟨q, hq, rfl⟩ := Option.map_eq_some_iff.1 hx
  have lh := QMix.Props.C46_length h1
  have lc := QMix.Props.C46_length h2
  rw [List.length_map] at lh lc
  have hyf : yf = List.zipWith Fl.fdiv (hs.map num) (cs.map num) := by
    unfold Np.zip at h3
    rw [if_pos (by rw [List.length_map, List.length_map]; omega)] at h3
    exact (Except.ok.inj h3).symm
  rw [num_volts] at l4 l5
  rw [List.length_map] at l4 l5
  refine ⟨(ax.getD (new, new + 1)).1, (ax.getD (new, new + 1)).2, hs, cs, ?_, ?_, rfl, h1, h2,
    (f.hot.map fun q => num (q.1 * d.dc.vgap * 1e3)).zip yf, (f.hot.map fun q => num (q.1 * d.dc.vgap * 1e3)).zip f.tn, ?_, ?_, ?_, ?_, ?_, ?_⟩
  rotate_left 2
  · simp only [curves, List.filterMap_cons, List.filterMap_nil, hb q hq, num_volts, List.zip_cons_cons, List.zip_nil_right]
  · rw [List.length_zip, List.length_map, ← l4, min_self]
  · rw [List.length_zip, List.length_map, ← l5, min_self]
  · intro k p hk
    have hk' := (List.getElem?_eq_some_iff.1 hk).1
    have gx := List.getElem?_eq_getElem (l := hs) (i := k) (by omega)
    have gy := List.getElem?_eq_getElem (l := cs) (i := k) (by omega)
    have gt := List.getElem?_eq_getElem (l := f.tn) (i := k) (by omega)
    have gv : (f.hot.map fun q => num (q.1 * d.dc.vgap * 1e3))[k]? = some (num (p.1 * d.dc.vgap * 1e3)) := by
      rw [List.getElem?_map, hk]; rfl
    obtain ⟨x, gx⟩ : ∃ x, hs[k]? = some x := ⟨_, gx⟩
    obtain ⟨y, gy⟩ : ∃ x, cs[k]? = some x := ⟨_, gy⟩
    refine ⟨_, _, _, gx, gy, gt, zip_get gv ?_, zip_get gv gt⟩
    rw [hyf, List.getElem?_zipWith, List.getElem?_map, List.getElem?_map, gx, gy]
    rfl
  · refine List.mem_of_getElem? (i := f.idxBest) (zip_get ?_ ht)
    rw [List.getElem?_map, hq, ← hb q hq]; rfl
  · simp
  · rintro x rfl; rfl
  · rintro rfl; simp

include hh hP e in
/-- C113: the figure of the gain and the noise temperature, both at every bias point, with the best point marked in both
and written beside the marks. -/
theorem C113_gain_noise (f : PumpedIf) (hf : r.ifs = some f) (vmax : ℝ) (new : ℕ) (ax : Option (ℕ × ℕ)) (fig : Drawing)
    (hfig : plotGainNoise r vmax new ax = .ok fig) :
    ∃ a1 a2 G T, (∀ x, ax = some x → (a1, a2) = x) ∧ (ax = none → a1 ≠ a2) ∧ fig.axes = [a1, a2] ∧
      curves fig = [(a1, .text "Gain", G), (a1, .text "", [(num (f.vBest * d.dc.vgap * 1e3), f.gainBest)]),
        (a2, .text "Noise Temp.", T), (a2, .text "", [(num (f.vBest * d.dc.vgap * 1e3), f.tnBest)])] ∧
      G.length = f.hot.length ∧ T.length = f.hot.length ∧
      (∀ (k : ℕ) (q : ℝ × ℝ), f.hot[k]? = some q → ∃ g t, f.gain[k]? = some g ∧ f.tn[k]? = some t ∧
        G[k]? = some (num (q.1 * d.dc.vgap * 1e3), g) ∧ T[k]? = some (num (q.1 * d.dc.vgap * 1e3), t)) ∧
      (num (f.vBest * d.dc.vgap * 1e3), f.gainBest) ∈ G ∧ (num (f.vBest * d.dc.vgap * 1e3), f.tnBest) ∈ T ∧
      Cmd.note a1 (.num "$G_\\mathrm{c}=" 2 f.gainBest "$") (num (f.vBest * d.dc.vgap * 1e3)) f.gainBest ∈ fig.cmds ∧
      Cmd.note a2 (.num "$T_\\mathrm{N}=" 1 f.tnBest "$ K") (num (f.vBest * d.dc.vgap * 1e3)) f.tnBest ∈ fig.cmds := by
  obtain ⟨hdc, -⟩ := pumped_facts hh hP e
  obtain ⟨hv, ht, hgb, hb⟩ := ifs_facts hh hP e hf
  unfold plotGainNoise theIf at hfig
  simp only [hf, hdc, getOpt, py_bind, ifVolts] at hfig
  obtain ⟨c1, h1, hfig⟩ := bind_ok_iff.1 hfig
  obtain ⟨x, h2, hfig⟩ := bind_ok_iff.1 hfig
  obtain ⟨g, h3, hfig⟩ := bind_ok_iff.1 hfig
  obtain ⟨c2, h4, hfig⟩ := bind_ok_iff.1 hfig
  obtain ⟨c3, h5, hfig⟩ := bind_ok_iff.1 hfig
  obtain ⟨c4, h6, hfig⟩ := bind_ok_iff.1 hfig
  obtain ⟨l1, rfl⟩ := drawF_ok.1 h1
  obtain ⟨l4, rfl⟩ := drawF_ok.1 h4
  obtain ⟨l5, rfl⟩ := drawF_ok.1 h5
  obtain ⟨l6, rfl⟩ := drawF_ok.1 h6
  obtain rfl := pure_ok_iff.1 hfig
  have hx := pyGet_at h2
  rw [List.getElem?_map] at hx
  obtain ⟨q, hq, rfl⟩ := Option.map_eq_some_iff.1 hx
  have hg' := pyGet_at h3
  rw [hgb] at hg'
  obtain rfl := Option.some.inj hg'
  rw [num_volts, List.length_map] at l1 l5
  refine ⟨(ax.getD (new, new + 1)).1, (ax.getD (new, new + 1)).2, (f.hot.map fun q => num (q.1 * d.dc.vgap * 1e3)).zip f.gain,
    (f.hot.map fun q => num (q.1 * d.dc.vgap * 1e3)).zip f.tn, ?_, ?_, rfl, ?_, ?_, ?_, ?_, ?_, ?_, ?_, ?_⟩
  rotate_left 2
  · simp only [curves, List.filterMap_cons, List.filterMap_nil, hb q hq, num_volts, List.zip_cons_cons, List.zip_nil_right]
  · rw [List.length_zip, List.length_map, ← l1, min_self]
  · rw [List.length_zip, List.length_map, ← l5, min_self]
  · intro k p hk
    have hk' := (List.getElem?_eq_some_iff.1 hk).1
    have gg := List.getElem?_eq_getElem (l := f.gain) (i := k) (by omega)
    have gt := List.getElem?_eq_getElem (l := f.tn) (i := k) (by omega)
    have gv : (f.hot.map fun q => num (q.1 * d.dc.vgap * 1e3))[k]? = some (num (p.1 * d.dc.vgap * 1e3)) := by
      rw [List.getElem?_map, hk]; rfl
    exact ⟨_, _, gg, gt, zip_get gv gg, zip_get gv gt⟩
  · refine List.mem_of_getElem? (i := f.idxBest) (zip_get ?_ hgb)
    rw [List.getElem?_map, hq, ← hb q hq]; rfl
  · refine List.mem_of_getElem? (i := f.idxBest) (zip_get ?_ ht)
    rw [List.getElem?_map, hq, ← hb q hq]; rfl
  · simp [hb q hq]
  · simp [hb q hq]
  · rintro x rfl; rfl
  · rintro rfl; simp

include hh hP e in
/-- C113: the figure of the gain in percent. -/
theorem C113_gain (f : PumpedIf) (hf : r.ifs = some f) (vmax : ℝ) (new : ℕ) (ax : Option ℕ) (fig : Drawing)
    (hfig : plotGain r vmax new ax = .ok fig) :
    ∃ a G, (∀ x, ax = some x → a = x) ∧ (ax = none → a = new) ∧ fig.axes = [a] ∧
      curves fig = [(a, .text "$G_{{c}}$", G)] ∧ G.length = f.hot.length ∧
      ∀ (k : ℕ) (q : ℝ × ℝ), f.hot[k]? = some q → ∃ g, f.gain[k]? = some g ∧
        G[k]? = some (num (q.1 * d.dc.vgap * 1e3), fmul g (num 100)) := by
  obtain ⟨hdc, -⟩ := pumped_facts hh hP e
  unfold plotGain theIf at hfig
  simp only [hf, hdc, getOpt, py_bind, ifVolts] at hfig
  obtain ⟨c1, h1, hfig⟩ := bind_ok_iff.1 hfig
  obtain ⟨l1, rfl⟩ := drawF_ok.1 h1
  obtain rfl := pure_ok_iff.1 hfig
  rw [num_volts, List.length_map, List.length_map] at l1
  refine ⟨ax.getD new, (f.hot.map fun q => num (q.1 * d.dc.vgap * 1e3)).zip (f.gain.map fun x => fmul x (num 100)), ?_, ?_, rfl, ?_, ?_, ?_⟩
  rotate_left 2
  · simp only [curves, List.filterMap_cons, List.filterMap_nil, num_volts]
  · rw [List.length_zip, List.length_map, List.length_map, ← l1, min_self]
  · intro k p hk
    have hk' := (List.getElem?_eq_some_iff.1 hk).1
    have gg := List.getElem?_eq_getElem (l := f.gain) (i := k) (by omega)
    refine ⟨_, gg, zip_get ?_ ?_⟩
    · rw [List.getElem?_map, hk]; rfl
    · rw [List.getElem?_map, gg]; rfl
  · rintro x rfl; rfl
  · rintro rfl; rfl

include hh hP hh' hP' ed e in
/-- C113: without IF data every figure of them raises `TypeError`, although `PumpedData` accepts such data. -/
theorem C113_no_if (h0 : r.ifs = none) (vmax : ℝ) (new : ℕ) (ax : Option ℕ) (ax2 : Option (ℕ × ℕ)) :
    plotIf r d vmax new ax = .error .type ∧ plotIvif r d vmax new ax2 = .error .type ∧
    plotNoiseTemp r vmax new ax2 = .error .type ∧ plotYfac r vmax new ax2 = .error .type ∧
    plotGainNoise r vmax new ax2 = .error .type ∧ plotGain r vmax new ax = .error .type := by
  have hn : theIf r = .error .type := by unfold theIf; rw [h0]; rfl
  refine ⟨?_, ?_, ?_, ?_, ?_, ?_⟩
  · unfold plotIf; rw [hn]; rfl
  · obtain ⟨-, -, hrn, hg, hig, -⟩ := dc_facts hh' hP' ed
    obtain ⟨L, hLne, -, -, f1, f2, hSne⟩ := dc_points R S h' hh' hP' dcdata dcif kd d ed
    obtain ⟨m, hm, m1, m2⟩ := pumped_points R S h h' hh hP hh' hP' dcdata data dcif kd kw d hot cold r ed e
    obtain ⟨hdc, -⟩ := pumped_facts hh hP e
    have g0 : Np.fdiv d.dc.vgap d.dc.rn = .ok d.dc.igap := fdiv_ok.2 ⟨hrn, by rw [← hig]; field_simp⟩
    have g1 : interpVal vmax ((shownMvUa (siCurve d)).map Prod.fst) ((shownMvUa (siCurve d)).map Prod.snd) =
        .ok (interpAt (shownMvUa (siCurve d)) vmax) :=
      interpVal_ok.2 ⟨by simp, by simpa using hSne, by rw [zip_points]⟩
    unfold plotIvif
    simp only [hdc, g0, py_bind, f1, f2, g1, draw_points, hm, m1, m2, hn]
    rfl
  · unfold plotNoiseTemp; rw [hn]; rfl
  · unfold plotYfac; rw [hn]; rfl
  · unfold plotGainNoise; rw [hn]; rfl
  · unfold plotGain; rw [hn]; rfl

end

end QMix.Exp
