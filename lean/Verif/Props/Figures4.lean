import Verif.Props.Figures3
import Verif.Lemmas.MathFn2

/-!
# When the figures of the IF data are drawn (C113)
-/

namespace QMix.Exp

open QMix Np Fl IvData IfData Opt Spec

/-- C113: the IF results of two files with two columns: one hot power, one cold power, one noise temperature and one gain
for every voltage; and the best point is one of them. -/
theorem C113_lengths (R : Routines) (h : Heap) (hh : h ≠ []) (hP : deref h sharedAt = PARAMS) (data : IfResp.Input)
    (d : DCData) (m m' : Clean.Mat) (kw : Dict) (r : PumpedData) (f : PumpedIf)
    (e : (pumpedData R h data d (some (.matrix m)) (some (.matrix m')) kw).1 = .ok r) (hf : r.ifs = some f)
    (c1 : m.ncol = 2) (c2 : m.WF) (c3 : m'.ncol = 2) (c4 : m'.WF) :
    f.cold.length = f.hot.length ∧ f.tn.length = f.hot.length ∧ f.gain.length = f.hot.length ∧
      f.idxBest < f.hot.length := by
  obtain ⟨-, -, -, -, -, -, -, -, hi⟩ := pumpedInit_parts (pumpedData_ok hh hP e)
  rw [hf] at hi
  obtain ⟨a, b, ha, hb, hi⟩ := pumpedIfs_some hi
  obtain rfl := Option.some.inj ha
  obtain rfl := Option.some.inj hb
  obtain ⟨o, t, q, -, -, hq, e1, e2, e3, e4, -⟩ := pumpedIf_parts hi
  obtain ⟨k1, k2, k3⟩ := ifData_index c1 c2 c3 c4 hq
  have hl : q.hot.length = q.v.length ∧ q.cold.length = q.v.length := by
    simp only [ifData, bind_ok_iff] at hq
    obtain ⟨H, hH, C, hC, c', -, res, hres, vm, -, h⟩ := hq
    obtain rfl := (Prod.mk.inj (pure_ok_iff.1 h)).1
    obtain ⟨-, l1, l2, -⟩ := C88_grid R.sorter o d.dc m H c1 c2 hH
    obtain ⟨-, l3, l4, -⟩ := C88_grid R.sorter o d.dc m' C c3 c4 hC
    simp only [findTnGain, bind_ok_iff] at hres
    obtain ⟨f, -, th, -, tc, -, ne, -, -, -, tn, htn, gain, hgain, idx, hbest, hres⟩ := hres
    obtain rfl := pure_ok_iff.1 hres
    simp [l1, l2, l4]
  have : f.hot.length = q.v.length := by rw [e1, List.length_zip, hl.1, min_self]
  have : f.cold.length = q.v.length := by rw [e2, List.length_zip, hl.2, min_self]
  rw [e3, e4]
  omega

theorem gauss15 (l : List ℝ) : (31 ≤ l.length → ∃ y, MathFn.gaussConv l 5 3 = .ok y ∧ y.length = l.length) ∧
    (l.length < 31 → MathFn.gaussConv l 5 3 = .error .assertion) := by
  have hw : MathFn.winLen 5 3 = 31 := MathFn.winLen_int (r := 15) (by norm_num)
  constructor
  · intro h
    exact ⟨_, MathFn.gaussConv_eq (by norm_num) (by omega), tab_length _ _⟩
  · intro h
    unfold MathFn.gaussConv
    rw [pyAssert_pos (by norm_num), MathFn.gauss_eq (by norm_num), py_bind]
    dsimp only
    rw [tab_length, hw, pyAssert_neg (by omega)]

theorem pyGet_lt {α : Type} {l : List α} {k : ℕ} (h : k < l.length) : ∃ a, pyGet l (k : ℤ) = .ok a :=
  ⟨_, pyGet_ok_of_getElem? (i := k) (by rw [pyIndex_nonneg (by omega) (by omega)]; simp) (List.getElem?_eq_getElem h)⟩

theorem select_len {α : Type} {l : List α} {mask : List Bool} (h : l.length = mask.length) :
    ∃ x, select l mask = .ok x ∧ x.length = (mask.filter id).length := by
  unfold select
  rw [if_pos h]
  refine ⟨_, rfl, ?_⟩
  induction l generalizing mask with
  | nil => cases mask with
    | nil => rfl
    | cons b m => simp at h
  | cons a l ih => cases mask with
    | nil => simp at h
    | cons b m =>
      have := ih (mask := m) (by simpa using h)
      cases b <;> simpa using this

section
variable (R : Routines) (S : RespFn.Splines) (h h' : Heap) (hh : h ≠ []) (hP : deref h sharedAt = PARAMS)
  (hh' : h' ≠ []) (hP' : deref h' sharedAt = PARAMS)
  (dcdata data : IfResp.Input) (dcif : Option IfResp.Input) (kd kw : Dict) (d : DCData)
  (m m' : Clean.Mat) (r : PumpedData)
  (ed : (dcData R S h' dcdata dcif kd).1 = .ok d)
  (e : (pumpedData R h data d (some (.matrix m)) (some (.matrix m')) kw).1 = .ok r)
  (c1 : m.ncol = 2) (c2 : m.WF) (c3 : m'.ncol = 2) (c4 : m'.WF)

include hh hP hh' hP' ed e c1 c2 c3 c4 in
/-- C113: with IF data (of two columns) for both loads, the figures are drawn. The two with smoothed powers need at least
31 points (31 points with hot power for the noise temperature), otherwise `AssertionError` is raised. -/
theorem C113_returns (f : PumpedIf) (hf : r.ifs = some f) (vmax : ℝ) (new : ℕ) (ax : Option ℕ) (ax2 : Option (ℕ × ℕ)) :
    (∃ fig, plotIvif r d vmax new ax2 = .ok fig) ∧ (∃ fig, plotGainNoise r vmax new ax2 = .ok fig) ∧
    (∃ fig, plotGain r vmax new ax = .ok fig) ∧
    ((∀ q, d.ifs = some q → q.1.1.length = q.1.2.length) → ∃ fig, plotIf r d vmax new ax = .ok fig) ∧
    (31 ≤ f.hot.length → ∃ fig, plotYfac r vmax new ax2 = .ok fig) ∧
    (f.hot.length < 31 → plotYfac r vmax new ax2 = .error .assertion) ∧
    (31 ≤ (f.hot.filter fun q : ℝ × ℝ => decide (q.2 ≠ 0)).length → ∃ fig, plotNoiseTemp r vmax new ax2 = .ok fig) ∧
    ((f.hot.filter fun q : ℝ × ℝ => decide (q.2 ≠ 0)).length < 31 → plotNoiseTemp r vmax new ax2 = .error .assertion) := by
  obtain ⟨l1, l2, l3, hb⟩ := C113_lengths R h hh hP data d m m' kw r f e hf c1 c2 c3 c4
  obtain ⟨hdc, -⟩ := pumped_facts hh hP e
  have hlv : (ifVolts r f).length = f.hot.length := by unfold ifVolts; rw [List.length_map]
  have hlv' : ((ifVolts r f).map num).length = f.hot.length := by rw [List.length_map, hlv]
  obtain ⟨x, hx⟩ := pyGet_lt (l := ifVolts r f) (k := f.idxBest) (by omega)
  obtain ⟨b, hb'⟩ := pyGet_lt (l := f.hot) (k := f.idxBest) hb
  obtain ⟨g, hg⟩ := pyGet_lt (l := f.gain) (k := f.idxBest) (by omega)
  have hth : theIf r = .ok f := by unfold theIf; rw [hf]; rfl
  have selh : select f.hot (f.hot.map fun q => decide (q.2 ≠ 0)) = .ok (f.hot.filter fun q : ℝ × ℝ => decide (q.2 ≠ 0)) := by
    have := Clean.select_map f.hot id fun q => decide (q.2 ≠ 0)
    simpa using this
  have hml : (((f.hot.map fun q => decide (q.2 ≠ 0))).filter id).length = (f.hot.filter fun q : ℝ × ℝ => decide (q.2 ≠ 0)).length := by
    rw [List.filter_map, List.length_map]
    rfl
  refine ⟨?_, ?_, ?_, ?_, ?_, ?_, ?_, ?_⟩
  · obtain ⟨-, -, hrn, hgp, hig, -⟩ := dc_facts hh' hP' ed
    obtain ⟨L, hLne, -, -, f1, f2, hSne⟩ := dc_points R S h' hh' hP' dcdata dcif kd d ed
    obtain ⟨m, hm, m1, m2⟩ := pumped_points R S h h' hh hP hh' hP' dcdata data dcif kd kw d _ _ r ed e
    have g0 : Np.fdiv d.dc.vgap d.dc.rn = .ok d.dc.igap := fdiv_ok.2 ⟨hrn, by rw [← hig]; field_simp⟩
    have g1 : interpVal vmax ((shownMvUa (siCurve d)).map Prod.fst) ((shownMvUa (siCurve d)).map Prod.snd) =
        .ok (interpAt (shownMvUa (siCurve d)) vmax) :=
      interpVal_ok.2 ⟨by simp, by simpa using hSne, by rw [zip_points]⟩
    have mk : ∀ P : List (ℝ × ℝ), P.length = f.hot.length → ∃ y : List ℝ × List ℝ,
        masked (P.map fun q => decide (q.2 ≠ 0)) (ifVolts r f) (P.map Prod.snd) = .ok y ∧ y.1.length = y.2.length := by
      intro P hP
      obtain ⟨y1, h1, k1⟩ := select_len (l := ifVolts r f) (mask := P.map fun q : ℝ × ℝ => decide (q.2 ≠ 0)) (by rw [List.length_map]; omega)
      obtain ⟨y2, h2, k2⟩ := select_len (l := P.map Prod.snd) (mask := P.map fun q : ℝ × ℝ => decide (q.2 ≠ 0))
        (by rw [List.length_map, List.length_map])
      refine ⟨(y1, y2), ?_, k1.trans k2.symm⟩
      unfold masked
      rw [h1, py_bind, h2]
      rfl
    obtain ⟨y, hy, ly⟩ := mk f.hot rfl
    obtain ⟨z, hz, lz⟩ := mk f.cold l1
    unfold plotIvif
    simp only [hdc, g0, py_bind, f1, f2, g1, draw_points, hm, m1, m2, hth, hy, hz, draw_eq ly, draw_eq lz]
    exact ⟨_, rfl⟩
  · unfold plotGainNoise
    simp only [hth, py_bind, hx, hg, drawF_eq (hlv'.trans l3.symm), drawF_eq (hlv'.trans l2.symm),
      drawF_eq (show [num x].length = [g].length from rfl), drawF_eq (show [num x].length = [f.tnBest].length from rfl)]
    exact ⟨_, rfl⟩
  · unfold plotGain
    simp only [hth, py_bind, drawF_eq (show ((ifVolts r f).map num).length =
      (f.gain.map fun g => fmul g (num 100)).length by rw [hlv', List.length_map, l3])]
    exact ⟨_, rfl⟩
  · intro hq
    have hn : ∃ cs, noLo r d (ax.getD new) = .ok cs := by
      unfold noLo
      cases hd : d.ifs with
      | none => exact ⟨_, rfl⟩
      | some q =>
        obtain ⟨⟨v, w⟩, o⟩ := q
        have := hq _ hd
        dsimp only at this ⊢
        rw [draw_eq (by rw [List.length_map]; exact this)]
        exact ⟨_, rfl⟩
    obtain ⟨cs, hn⟩ := hn
    unfold plotIf
    simp only [hth, py_bind, hn, draw_eq (show (ifVolts r f).length = (f.hot.map Prod.snd).length by rw [List.length_map, hlv]),
      draw_eq (show (ifVolts r f).length = (f.cold.map Prod.snd).length by rw [List.length_map, hlv, l1])]
    exact ⟨_, rfl⟩
  · intro hn
    obtain ⟨hs, h1, k1⟩ := (gauss15 (f.hot.map Prod.snd)).1 (by rwa [List.length_map])
    obtain ⟨cs, h2, k2⟩ := (gauss15 (f.cold.map Prod.snd)).1 (by rw [List.length_map]; omega)
    rw [List.length_map] at k1 k2
    have h3 : Np.zip Fl.fdiv (hs.map num) (cs.map num) = .ok (List.zipWith Fl.fdiv (hs.map num) (cs.map num)) := by
      unfold Np.zip
      rw [if_pos (by rw [List.length_map, List.length_map]; omega)]
    unfold plotYfac
    simp only [hth, py_bind, h1, h2, h3, hx, drawF_eq (hlv'.trans l2.symm),
      drawF_eq (show [num x].length = [f.tnBest].length from rfl),
      drawF_eq (show ((ifVolts r f).map num).length = (List.zipWith Fl.fdiv (hs.map num) (cs.map num)).length by
        rw [List.length_zipWith, hlv', List.length_map, List.length_map]; omega)]
    exact ⟨_, rfl⟩
  · intro hn
    unfold plotYfac
    simp only [hth, py_bind, (gauss15 (f.hot.map Prod.snd)).2 (by rwa [List.length_map])]
    rfl
  · intro hn
    obtain ⟨hs, h1, k1⟩ := (gauss15 ((f.hot.filter fun q : ℝ × ℝ => decide (q.2 ≠ 0)).map Prod.snd)).1 (by rwa [List.length_map])
    obtain ⟨c, hc, kc⟩ := select_len (l := f.cold) (mask := f.hot.map fun q : ℝ × ℝ => decide (q.2 ≠ 0)) (by rw [List.length_map]; omega)
    obtain ⟨t, ht, kt⟩ := select_len (l := f.tn) (mask := f.hot.map fun q : ℝ × ℝ => decide (q.2 ≠ 0)) (by rw [List.length_map]; omega)
    rw [hml] at kc kt
    obtain ⟨cs, h2, k2⟩ := (gauss15 (c.map Prod.snd)).1 (by rw [List.length_map]; omega)
    rw [List.length_map] at k1 k2
    obtain ⟨ym, hym⟩ : ∃ ym, amax hs = .ok ym := by
      cases hs with
      | nil => exfalso; simp only [List.length_nil] at k1; omega
      | cons a l => exact ⟨_, rfl⟩
    unfold plotNoiseTemp
    simp only [hth, py_bind, selh, h1, hc, h2, hym, ht, hb',
      draw_eq (show ((f.hot.filter fun q : ℝ × ℝ => decide (q.2 ≠ 0)).map fun q => q.1 * r.dc.vgap * 1e3).length = hs.length by
        rw [List.length_map]; omega),
      draw_eq (show ((f.hot.filter fun q : ℝ × ℝ => decide (q.2 ≠ 0)).map fun q => q.1 * r.dc.vgap * 1e3).length = cs.length by
        rw [List.length_map]; omega),
      drawF_eq (show (((f.hot.filter fun q : ℝ × ℝ => decide (q.2 ≠ 0)).map fun q => q.1 * r.dc.vgap * 1e3).map num).length = t.length by
        rw [List.length_map, List.length_map]; omega),
      drawF_eq (show [num (b.1 * r.dc.vgap * 1e3)].length = [f.tnBest].length from rfl)]
    exact ⟨_, rfl⟩
  · intro hn
    unfold plotNoiseTemp
    simp only [hth, py_bind, selh, (gauss15 ((f.hot.filter fun q : ℝ × ℝ => decide (q.2 ≠ 0)).map Prod.snd)).2 (by rwa [List.length_map])]
    rfl

end

/-- A receiver with a noise temperature of 100 K, measured with a hot and a cold load: there are results for all the
theorems about its figures. -/
theorem receiver_returns (S : RespFn.Splines) : ∃ d r f th tc x out,
    (dcData ideal S [PARAMS] (.matrix tenOhm) (some (.matrix spike)) gapAndShot).1 = .ok d ∧
    (pumpedData ideal [PARAMS] (.matrix twentyOhm) d (some (.matrix (delivered [(0, 1), (2, 2), (6, 1)] 100 th)))
      (some (.matrix (delivered [(0, 1), (2, 2), (6, 1)] 100 tc))) pumpedBoth).1 = .ok r ∧ r.ifs = some f ∧
    d.ifs = some (x, out) ∧ d.dc.vgap = 2.8e-3 ∧ out.corr = some 2.9 ∧ d.dc.offset = (0, 0) ∧ 0 < th := by
  obtain ⟨d, x, out, hd, dif, dcorr, d2, d1, d0⟩ := spike_returns S
  obtain ⟨⟨o, ho, o1, o2, o3, o4, o5, o6⟩, ⟨oi, hoi, i1, i2, i3, i4⟩, ot, hot, t1, t2, t3, t4⟩ := pumpedBoth_opts
  obtain ⟨-, -, ⟨o', -, hc⟩, -⟩ := dcInit_parts (dcData_ok (by simp) rfl hd)
  obtain ⟨-, -, -, -, -, -, hrn, hig, hfg, -⟩ := C81_metadata ideal o' _ _ _ _ hc
  obtain ⟨th, tc, hl, c0, c1⟩ := loads_exist ot t1 (by norm_num) (by rw [t3]; norm_num) (by rw [t2, t3]; norm_num)
  have hvg : d.dc.vgap ≠ 0 := by rw [d2]; norm_num
  have hcal := C87_returns ideal oi ot d.dc out 2.9 [(0, 1), (2, 2), (6, 1)] 100 th tc hl
    (Or.inr (by rw [t4]; decide)) dcorr (by simp) (by rw [i1]; simp) i2 i3 i4 hvg
  obtain ⟨r, p, h1, h2⟩ := C95_returns ideal [PARAMS] (by simp) rfl twentyOhm
    (delivered [(0, 1), (2, 2), (6, 1)] 100 th) (delivered [(0, 1), (2, 2), (6, 1)] 100 tc)
    d pumpedBoth o oi ot (.num 230) 230 ho hoi hot
    (fun k hk => by fin_cases hk <;> rfl) rfl rfl ⟨.bool false, rfl, rfl⟩ rfl rfl (by rw [o1]; simp) (by rw [o2]; simp)
    (by rw [o3]; norm_num)
    (by
      intro w hw
      simp only [twentyOhm, List.mem_cons, List.not_mem_nil, or_false] at hw
      rcases hw with rfl | rfl
      · exact ⟨-8, -0.3, rfl, rfl⟩
      · exact ⟨8, 0.5, rfl, rfl⟩)
    ⟨[num (-8), num (-0.3)], by simp [twentyOhm], [num 8, num 0.5], by simp [twentyOhm], by
      simp [num]
      intro h
      have : ((-8 : ℝ) : EReal) = ((8 : ℝ) : EReal) := by exact_mod_cast h
      rw [EReal.coe_eq_coe_iff] at this
      norm_num at this⟩
    o5 o6 (by rw [o4]; norm_num) hvg (fun h => hvg (by rw [← hig, h, zero_mul])) (by rw [hfg, d2]; norm_num) rfl (delivered_wf _ _ _) rfl
    (delivered_wf _ _ _) (by rw [dif]; exact hcal)
  exact ⟨d, r, p, th, tc, x, out, hd, h1, h2, dif, d2, dcorr, d0, c0.trans c1⟩

/-- The figures of this receiver that do not need smoothing. -/
example (S : RespFn.Splines) (vmax : ℝ) (new : ℕ) (ax : Option ℕ) (ax2 : Option (ℕ × ℕ)) : ∃ d r f f2 f3 f4,
    (dcData ideal S [PARAMS] (.matrix tenOhm) (some (.matrix spike)) gapAndShot).1 = .ok d ∧ r.ifs = some f ∧
    plotIvif r d vmax new ax2 = .ok f2 ∧ plotGainNoise r vmax new ax2 = .ok f3 ∧ plotGain r vmax new ax = .ok f4 := by
  obtain ⟨d, r, f, th, tc, x, out, hd, hr, hf, hx, hg, -⟩ := receiver_returns S
  obtain ⟨⟨f2, h2⟩, ⟨f3, h3⟩, ⟨f4, h4⟩, -⟩ := C113_returns ideal S [PARAMS] [PARAMS] (by simp) rfl (by simp) rfl _ _ _ _ _ d _ _ r
    hd hr rfl (delivered_wf _ _ _) rfl (delivered_wf _ _ _) f hf vmax new ax ax2
  exact ⟨d, r, f, f2, f3, f4, hd, hf, h2, h3, h4⟩

end QMix.Exp
