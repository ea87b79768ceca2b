import Verif.Props.ExpData3
import Verif.Props.IfNoise4

/-!
# The IF data of `DCData` and `PumpedData` (C103)
-/

namespace QMix.Exp

open QMix Np Fl IvData IfData Opt

theorem dcData_ok {R : Routines} {S : RespFn.Splines} {h : Heap} (hh : h ≠ []) (hP : deref h sharedAt = PARAMS)
    {data : IfResp.Input} {dcif : Option IfResp.Input} {kw : Dict} {r : DCData}
    (e : (dcData R S h data dcif kw).1 = .ok r) :
    dcInit R S PARAMS (update PARAMS kw) h.length data dcif = .ok r := by
  simpa only [dcData, mergeOptions_eq, deref_append, deref_shared hh, hP] using e

/-- C103: `DCData` has IF data exactly if it was given some. They are on the normalised voltages of the file, times
one factor, which makes the slope of their best straight line over some of the points 5.8 K/mV; the line, its
factor, and whether the noise is reasonable are what is reported. -/
theorem C103_dc (R : Routines) (S : RespFn.Splines) (h : Heap) (hh : h ≠ []) (hP : deref h sharedAt = PARAMS)
    (data : IfResp.Input) (dcif : Option IfResp.Input) (kw : Dict) (r : DCData)
    (e : (dcData R S h data dcif kw).1 = .ok r) :
    (r.ifs.isSome ↔ dcif.isSome) ∧
    ∀ x d out, dcif = some x → r.ifs = some (d, out) →
      ∃ o c raw P b, ifOpts PARAMS (update PARAMS kw) = .ok o ∧ loadIf R.sorter o r.dc x = .ok raw ∧
        d = (raw.1, raw.2.map (· * c)) ∧ out.corr = some c ∧ P.Sublist ((inMv r.dc.vgap d.1).zip d.2) ∧
        (∃ p ∈ P, ∃ q ∈ P, p.1 ≠ q.1) ∧ LeastSquares P 5.8 b ∧
        out.shotSlope = d.1.zip ((inMv r.dc.vgap d.1).map fun v => 5.8 * v + b) ∧
        (out.ifFit = true ↔ 0 < out.ifNoise ∧ out.ifNoise < 50) := by
  obtain ⟨-, -, -, -, -, -, -, -, -, -, -, -, hi⟩ := dcInit_parts (dcData_ok hh hP e)
  cases dcif with
  | none =>
    have : (none : Option ((List ℝ × List ℝ) × DCIF)) = r.ifs := Except.ok.inj hi
    rw [← this]
    exact ⟨by simp, by simp⟩
  | some y =>
    simp only [dcIf, bind_ok_iff] at hi
    obtain ⟨-, -, o, ho, q, hq, hi⟩ := hi
    rw [pure_ok_iff] at hi
    rw [← hi]
    refine ⟨by simp, fun x d out hx hd => ?_⟩
    obtain rfl := Option.some.inj hx
    obtain rfl := Option.some.inj hd
    obtain ⟨c, raw, P, b, h1, h2, h3, h4, h5, h6, h7, h8, -⟩ := C89_dc R o r.dc y d out hq
    exact ⟨o, c, raw, P, b, ho, h1, h2, h3, h4, h5, h6, h7, h8⟩

/-- C103: `DCData` with IF data returns whenever the curve and the IF data can be analysed, with the result of this
analysis. -/
theorem C103_returns (R : Routines) (S : RespFn.Splines) (h : Heap) (hh : h ≠ []) (hP : deref h sharedAt = PARAMS)
    (m : Clean.Mat) (x : IfResp.Input) (kw : Dict) (o : Opts) (oi : IfOpts) (v i : List ℝ) (dc : DCIV) (area vleak : ℝ)
    (smear : Option ℝ) (ho : ivOpts PARAMS (update PARAMS kw) = .ok o) (hc : dcivCurve R o (.matrix m) = .ok (v, i, dc))
    (hoi : ifOpts PARAMS (update PARAMS kw) = .ok oi)
    (hkw : ∀ k ∈ ["ivdata", "volt_v", "curr_a", "vmeas", "imeas", "ifdata", "dc", "if_data"], kw k = none)
    (ha : Uses kw "area" asReal 1.5 area) (hl : Uses kw "vleak" asReal 2e-3 vleak)
    (hs : Uses kw "v_smear" asOptReal (some 0.020) smear)
    (hs' : ∀ x, smear = some x → 1 / 600 ≤ x ∧ x ≤ 5)
    (hk : ∃ k, k < v.length ∧ 0 < v.getD k 0 ∧ v.getD k 0 < 1.8) (q : (List ℝ × List ℝ) × DCIF)
    (hq : dcifData R oi dc x = .ok q) :
    ∃ d, (dcData R S h (.matrix m) (some x) kw).1 = .ok d ∧ d.voltage = v ∧ d.current = i ∧ d.dc = dc ∧
      d.vleak = vleak ∧ d.ifs = some q := by
  refine dc_core R S h hh hP m (some x) kw o v i dc area vleak smear (some q) ?_ ho hc
    (fun k hk => hkw k (by fin_cases hk <;> simp)) ha hl hs hs' hk
  have hno : noClash (update PARAMS kw) ["ifdata", "dc", "if_data"] = .ok () := by
    rw [noClash_ok]
    intro k hk
    simp only [update, hkw k (by fin_cases hk <;> simp), Option.orElse_none]
    fin_cases hk <;> rfl
  simp only [dcIf, hno, hoi, hq, py_bind]
  rfl

/-- Options for the IF data of an unpumped junction. -/
noncomputable def gapAndShot : Dict := fun k =>
  List.lookup k [("vgap", .num 2.8e-3), ("ifdata_sigma", .none), ("ifdata_npts", .int 13),
    ("vshot", .seq [.num 0.003, .num 0.006])]

/-- The hypotheses of C103 are met: ten ohm, shot noise of 2 per mV above 3 mV, and a spike below. -/
theorem spike_returns (S : RespFn.Splines) : ∃ d x out,
    (dcData ideal S [PARAMS] (.matrix tenOhm) (some (.matrix spike)) gapAndShot).1 = .ok d ∧
    d.ifs = some (x, out) ∧ out.corr = some 2.9 ∧ d.dc.vgap = 2.8e-3 ∧ d.dc.rn = 10 ∧ d.dc.offset = (0, 0) := by
  obtain ⟨d, hd, d1, -, d2, d3, -⟩ := tenOhm_returns S
  obtain ⟨-, -, ⟨o, ho, hc⟩, -⟩ := dcInit_parts (dcData_ok (by simp) rfl hd)
  obtain ⟨x, out, hq, hcorr, -⟩ := spike_shot ideal above3 rfl d.dc (by rw [d2]; norm_num) d3
  have hoi : ifOpts PARAMS (update PARAMS gapAndShot) = .ok above3 := by
    have e : ∀ k v, PARAMS k = some v → k ∉ ["vgap", "ifdata_sigma", "ifdata_npts", "vshot"] →
        Opt.read PARAMS (update PARAMS gapAndShot) k = .ok v := by
      intro k v hv hk
      have : gapAndShot k = none := by
        simp only [List.mem_cons, List.not_mem_nil, or_false, not_or] at hk
        obtain ⟨h1, h2, h3, h4⟩ := hk
        simp [gapAndShot, List.lookup, beq_false_of_ne h1, beq_false_of_ne h2, beq_false_of_ne h3, beq_false_of_ne h4]
      simp only [Opt.read, item, hv, getOpt, py_bind, getD, update, this, Option.orElse_none]
      rfl
    have e1 : Opt.read PARAMS (update PARAMS gapAndShot) "ifdata_sigma" = .ok .none := rfl
    have e2 : Opt.read PARAMS (update PARAMS gapAndShot) "ifdata_npts" = .ok (.int 13) := rfl
    have e3 : Opt.read PARAMS (update PARAMS gapAndShot) "vshot" = .ok (.seq [.num 0.003, .num 0.006]) := rfl
    simp only [ifOpts, e1, e2, e3, e "v_fmt" _ rfl (by decide), e "v_multiplier" _ rfl (by decide),
      e "rseries" _ rfl (by decide), e "vmax" _ rfl (by decide), py_bind, asReal,
      asOptReal, asInt, asUnit, asVshot, pure, Except.pure]
    simp [above3, pure, Except.pure, asReal, py_bind]
  have ho' : ivOpts PARAMS (update PARAMS gapAndShot) = .ok o := by
    rw [← ho]
    rfl
  have hk : ∃ k, k < d.voltage.length ∧ 0 < d.voltage.getD k 0 ∧ d.voltage.getD k 0 < 1.8 := by
    obtain ⟨o', ho', -, -, -, -, o5, o6⟩ := gapOnly_opts
    obtain rfl := Except.ok.inj (ho.symm.trans ho')
    obtain ⟨-, -, l1, -, hv, -⟩ := C81_metadata ideal o _ _ _ _ hc
    rw [o5] at l1
    have h3 := hv 3001 (by omega)
    rw [d2, o5, o6] at h3
    have e : (-6e-3 + ((3001 : ℕ) : ℝ) * (2 * 6e-3 / ((6001 - 1 : ℤ) : ℝ)) : ℝ) = 2e-6 := by norm_num
    rw [e] at h3
    exact ⟨3001, by omega, by linarith, by linarith⟩
  obtain ⟨d', h1, -, -, h3, -, h2⟩ := C103_returns ideal S [PARAMS] (by simp) rfl tenOhm (.matrix spike) gapAndShot o above3
    d.voltage d.current d.dc 1.5 2e-3 (some 0.020) ho' hc hoi (fun k hk => by fin_cases hk <;> rfl)
    ⟨fun v hv => (by cases hv), fun _ => rfl⟩ ⟨fun v hv => (by cases hv), fun _ => rfl⟩
    ⟨fun v hv => (by cases hv), fun _ => rfl⟩ (by rintro y hy; obtain rfl := Option.some.inj hy; norm_num) hk _ hq
  exact ⟨d', x, out, h1, h2, by rw [hcorr]; norm_num, by rw [h3, d2], by rw [h3, d1], by rw [h3, d3]⟩

/-- C103: the calibration of `DCData` is used for `PumpedData`: its hot and cold powers are those of the hot and of
the cold file, times the factor found with the unpumped junction, whose IF noise and line are reported again. -/
theorem C103_calibration (R : Routines) (h : Heap) (hh : h ≠ []) (hP : deref h sharedAt = PARAMS) (data : IfResp.Input)
    (d : DCData) (hot cold : IfResp.Input) (kw : Dict) (r : PumpedData) (p : PumpedIf) (x : List ℝ × List ℝ)
    (k : DCIF) (c : ℝ) (e : (pumpedData R h data d (some hot) (some cold) kw).1 = .ok r) (hp : r.ifs = some p)
    (hd : d.ifs = some (x, k)) (hc : k.corr = some c) :
    ∃ o a b, ifOpts PARAMS (update PARAMS kw) = .ok o ∧ loadIf R.sorter o d.dc hot = .ok a ∧
      loadIf R.sorter o d.dc cold = .ok b ∧ p.hot = a.1.zip (a.2.map (· * c)) ∧
      p.cold = a.1.zip (b.2.map (· * c)) ∧ p.dcif.corr = some c ∧ p.dcif.ifNoise = k.ifNoise ∧
      p.dcif.shotSlope = k.shotSlope ∧ p.dcif.ifFit = k.ifFit := by
  obtain ⟨-, -, -, -, -, -, -, -, hi⟩ := pumpedInit_parts (pumpedData_ok hh hP e)
  rw [hp] at hi
  obtain ⟨y, z, hy, hz, hi⟩ := pumpedIfs_some hi
  obtain rfl := Option.some.inj hy
  obtain rfl := Option.some.inj hz
  obtain ⟨o, t, q, ho, -, hq, e1, e2, -⟩ := pumpedIf_parts hi
  rw [hd] at hq
  obtain ⟨a, b, h1, h2, h3, h4, h5, h6, h7, h8, -⟩ := C89_calibrated R o t d.dc k c hot cold q _ _ hc hq
  exact ⟨o, (q.v, a), b, ho, h1, h2, by rw [e1, h3], by rw [e2, h4], h5, h6, h7, h8⟩

/-- C103: a receiver measured with a hot and a cold load, end to end. If it has the noise temperature `T` at every
bias point, then this is what `PumpedData` reports wherever there is power, and NaN where there is none; the gain is the
cold power divided by `T` plus the temperature of the cold load. Whether the junction was calibrated or not makes no
difference to this noise temperature. -/
theorem C103_receiver (R : Routines) (h : Heap) (hh : h ≠ []) (hP : deref h sharedAt = PARAMS) (data : IfResp.Input)
    (d : DCData) (kw : Dict) (r : PumpedData) (p : PumpedIf) (l : List (ℝ × ℝ)) (T th tc : ℝ)
    (hl : ∀ t, tnOpts PARAMS (update PARAMS kw) = .ok t → Loads t th tc) (hT : tc < th) (hpos : 0 < tc + T)
    (hmax : T ≤ (th - tc) * 1e10 - tc)
    (e : (pumpedData R h data d (some (.matrix (delivered l T th))) (some (.matrix (delivered l T tc))) kw).1 = .ok r)
    (hp : r.ifs = some p) :
    p.tn.length = p.cold.length ∧ p.gain.length = p.cold.length ∧
    (∀ k, k < p.cold.length →
      ((p.cold.getD k (0, 0)).2 ≠ 0 → p.tn.getD k none = num T) ∧
      ((p.cold.getD k (0, 0)).2 = 0 → p.tn.getD k none = none) ∧
      p.gain.getD k none = num ((p.cold.getD k (0, 0)).2 / (tc + T))) ∧
    (p.tnBest = num T ∨ p.tnBest = none) := by
  obtain ⟨-, -, -, -, -, -, -, -, hi⟩ := pumpedInit_parts (pumpedData_ok hh hP e)
  rw [hp] at hi
  obtain ⟨y, z, hy, hz, hi⟩ := pumpedIfs_some hi
  obtain rfl := Option.some.inj hy
  obtain rfl := Option.some.inj hz
  obtain ⟨o, t, q, ho, ht, hq, e1, e2, e3, e4, g1, g2, g3, -⟩ := pumpedIf_parts hi
  obtain ⟨l1, l2, l3, hk⟩ := C87_uniform R o t d.dc _ l T th tc (hl t ht) hT hpos hmax q _ _ hq
  have hlc : p.cold.length = q.v.length := by rw [e2, List.length_zip, l3, min_self]
  have get : ∀ k, k < p.cold.length → (p.cold.getD k (0, 0)).2 = q.cold.getD k 0 := by
    intro k hk
    have h1 : k < (q.v.zip q.cold).length := by rw [← e2]; exact hk
    have h2 : k < q.cold.length := by omega
    rw [e2]
    simp [List.getD_eq_getElem?_getD, List.getElem?_eq_getElem h1, List.getElem?_eq_getElem h2]
  refine ⟨by rw [e3, l1, hlc], by rw [e4, l2, hlc], fun k hk' => ?_, ?_⟩
  · rw [get k hk', e3, e4]
    exact hk k (by omega)
  · have hb : p.idxBest < q.tn.length := (List.getElem?_eq_some_iff.1 g1).1
    have hv : q.tn.getD p.idxBest none = p.tnBest := by rw [List.getD_eq_getElem?_getD, g1]; rfl
    obtain ⟨h1, h2, -⟩ := hk p.idxBest (by omega)
    rw [hv] at h1 h2
    by_cases h0 : q.cold.getD p.idxBest 0 = 0
    · exact Or.inr (h2 h0)
    · exact Or.inl (h1 h0)

/-- The hypotheses of C103 are met: a receiver of noise temperature 100 K, a calibrated junction. -/
example (S : RespFn.Splines) : ∃ d r p th tc, 0 < tc ∧ tc < th ∧
    (pumpedData ideal [PARAMS] (.matrix twentyOhm) d
      (some (.matrix (delivered [(0, 1), (2, 2), (6, 1)] 100 th)))
      (some (.matrix (delivered [(0, 1), (2, 2), (6, 1)] 100 tc))) pumpedBoth).1 = .ok r ∧ r.ifs = some p ∧
    (p.tnBest = num 100 ∨ p.tnBest = none) ∧ p.dcif.corr = some 2 := by
  obtain ⟨d, hd, d1, -, d2, d3, -⟩ := tenOhm_returns S
  obtain ⟨⟨o, ho, o1, o2, o3, o4, o5, o6⟩, ⟨oi, hoi, i1, i2, i3, i4⟩, ot, hot, t1, t2, t3, t4⟩ := pumpedBoth_opts
  obtain ⟨-, -, ⟨o', -, hc⟩, -⟩ := dcInit_parts (dcData_ok (by simp) rfl hd)
  obtain ⟨-, -, -, -, -, -, hrn, hig, hfg, -⟩ := C81_metadata ideal o' _ _ _ _ hc
  have hf0 : (0 : ℝ) < 230 * 1e9 := by norm_num
  obtain ⟨th, tc, hl, c0, c1⟩ := loads_exist ot t1 (by norm_num) (by rw [t3]; norm_num) (by rw [t2, t3]; norm_num)
  have hvg : d.dc.vgap ≠ 0 := by rw [d2]; norm_num
  have hcal := C87_returns ideal oi ot d.dc ⟨0, some 2, true, [], 0⟩ 2 [(0, 1), (2, 2), (6, 1)] 100 th tc hl
    (Or.inr (by rw [t4]; decide)) rfl (by simp) (by rw [i1]; simp) i2 i3 i4 hvg
  obtain ⟨r, p, h1, h2⟩ := C95_returns ideal [PARAMS] (by simp) rfl twentyOhm
    (delivered [(0, 1), (2, 2), (6, 1)] 100 th) (delivered [(0, 1), (2, 2), (6, 1)] 100 tc)
    { d with ifs := some (([], []), ⟨0, some 2, true, [], 0⟩) } pumpedBoth o oi ot (.num 230) 230 ho hoi hot
    (fun k hk => by fin_cases hk <;> rfl) rfl rfl ⟨.bool false, rfl, rfl⟩ rfl rfl (by rw [o1]; simp) (by rw [o2]; simp)
    (by rw [o3]; norm_num)
    (by
      intro w hw
      simp only [twentyOhm, List.mem_cons, List.not_mem_nil, or_false] at hw
      rcases hw with rfl | rfl
      · exact ⟨-8, -0.3, rfl, rfl⟩
      · exact ⟨8, 0.5, rfl, rfl⟩)
    ⟨[num (-8), num (-0.3)], by simp [twentyOhm], [num 8, num 0.5], by simp [twentyOhm], by
      simp [num]
      intro h
      have : ((-8 : ℝ) : EReal) = ((8 : ℝ) : EReal) := by exact_mod_cast h
      rw [EReal.coe_eq_coe_iff] at this
      norm_num at this⟩
    o5 o6 (by rw [o4]; norm_num) hvg (fun h => hvg (by rw [← hig, h, zero_mul])) (by show d.dc.fgap ≠ 0; rw [hfg, d2]; norm_num) rfl (delivered_wf _ _ _) rfl
    (delivered_wf _ _ _) hcal
  obtain ⟨-, -, -, -, -, -, -, -, k, -⟩ := C103_calibration ideal [PARAMS] (by simp) rfl _ _ _ _ pumpedBoth r p _ _ 2 h1 h2 rfl rfl
  refine ⟨_, r, p, th, tc, c0, c1, h1, h2, ?_, k⟩
  refine (C103_receiver ideal [PARAMS] (by simp) rfl _ _ pumpedBoth r p [(0, 1), (2, 2), (6, 1)] 100 th tc ?_ c1
    (by linarith) ?_ h1 h2).2.2.2
  · intro t ht
    rw [hot] at ht
    obtain rfl := Except.ok.inj ht
    exact hl
  · obtain ⟨f, e1, e2, e3⟩ := hl
    obtain rfl : (230 : ℝ) = f := Option.some.inj (t1.symm.trans e1)
    rw [t2] at e2
    rw [t3] at e3
    obtain ⟨x, x1, x2, -⟩ := C58_physical (230 * 1e9) 293 hf0 (by norm_num)
    obtain ⟨y, y1, -, -, y2⟩ := C58_physical (230 * 1e9) 78 hf0 (by norm_num)
    obtain rfl := Except.ok.inj (x1.symm.trans e2)
    obtain rfl := Except.ok.inj (y1.symm.trans e3)
    have : Spec.SI.h * (230 * 1e9) / (2 * Spec.SI.k) < 10 := by
      unfold Spec.SI.h Spec.SI.k
      norm_num
    nlinarith

end QMix.Exp
