import Verif.Props.Report2

/-!
# What `DCData` and `PumpedData` print (C125), continued
-/

namespace QMix.Report

open QMix Np Fl IvData IfData Opt Exp Results Spec

theorem shotWarning_ok {R : Routines} {o : IfOpts} {dc : DCIV} {x y : List ℝ} {m : List Bool}
    (h : shotMask R o dc.vgap x y = .ok m) : ∃ out, shotWarning R o dc x y = .ok out := by
  unfold shotWarning
  rw [h, py_bind]
  split_ifs
  · rw [Term.cprint_known (c := "RED".toList) (k := Term.esc :: "[91".toList ++ ['m']) (by decide),
      Term.cprint_known (c := "RED".toList) (k := Term.esc :: "[91".toList ++ ['m']) (by decide)]
    exact ⟨_, rfl⟩
  · exact ⟨_, rfl⟩

theorem findIfNoise_mask {R : Routines} {o : IfOpts} {dc : DCIV} {x y : List ℝ} {q : ℝ × ℝ × List ℝ × Bool}
    (h : findIfNoise R o dc x y = .ok q) : ∃ m, shotMask R o dc.vgap x y = .ok m := by
  unfold findIfNoise at h
  rw [bind_ok_iff] at h
  exact ⟨h.choose, h.choose_spec.1⟩

/-- If the IF data can be analysed then the printing does not raise. -/
theorem ifPrint_ok {R : Routines} {o : IfOpts} {t : TnOpts} {dc : DCIV} {dcif : Option DCIF} {hot cold : IfResp.Input}
    {q : IfResult × ℕ × DCIF} (h : ifData R o t dc dcif hot cold = .ok q) (verbose : Bool) (f : PumpedIf) :
    ∃ out, ifPrint R o dc dcif hot cold verbose f = .ok out := by
  simp only [ifData, bind_ok_iff] at h
  obtain ⟨a, ha, b, hb, c, hc, -⟩ := h
  have hw : ∃ w, ifWarning R o dc dcif a b = .ok w := by
    have avg : ∀ {c : ℝ × ℝ × List (ℝ × ℝ) × Bool}, (do
        let x ← zip (fun a b => (a + b) / 2) a.1 b.1
        let y ← zip (fun a b => (a + b) / 2) a.2 b.2
        let n ← findIfNoise R o dc x y
        return (n.1, n.2.1, b.1.zip n.2.2.1, n.2.2.2)) = Except.ok c → ∃ w, averageWarning R o dc a b = .ok w := by
      intro c hc
      simp only [bind_ok_iff] at hc
      obtain ⟨x, hx, y, hy, n, hn, -⟩ := hc
      obtain ⟨m, hm⟩ := findIfNoise_mask hn
      unfold averageWarning
      rw [hx, py_bind, hy, py_bind]
      exact shotWarning_ok hm
    unfold calibration at hc
    unfold ifWarning
    cases dcif with
    | none => exact avg hc
    | some d =>
      cases hd : d.corr with
      | none =>
        simp only [hd] at hc ⊢
        exact avg hc
      | some k =>
        simp only [hd]
        exact ⟨_, rfl⟩
  obtain ⟨w, hw⟩ := hw
  unfold ifPrint
  rw [ha, py_bind, hb, py_bind, hw]
  exact ⟨_, rfl⟩

theorem recovery_ok (bad : List Char) (other : Flt) (vph vgap rn : ℝ) (r : Zemb.Result) :
    ∃ out, recovery bad other vph vgap rn r = .ok out := by
  unfold recovery fitLine
  rw [Term.cprint_known (c := "HEADER".toList) (k := Term.esc :: "[95".toList ++ ['m']) (by decide)]
  split_ifs
  · rw [Term.cprint_known (c := "OKGREEN".toList) (k := Term.esc :: "[92".toList ++ ['m']) (by decide)]
    exact ⟨_, rfl⟩
  · rw [Term.cprint_known (c := "WARNING".toList) (k := Term.esc :: "[93".toList ++ ['m']) (by decide)]
    exact ⟨_, rfl⟩

theorem update_verbose (kw : Dict) : ∃ v, update PARAMS kw "verbose" = some v := by
  unfold update
  cases kw "verbose" with
  | none => exact ⟨_, rfl⟩
  | some v => exact ⟨v, rfl⟩

theorem update_comment (kw : Dict) : ∃ v, update PARAMS kw "comment" = some v := by
  unfold update
  cases kw "comment" with
  | none => exact ⟨_, rfl⟩
  | some v => exact ⟨v, rfl⟩

/-- The parts of what a call of `PumpedData` prints. -/
theorem pumpedPrint_parts (R : Routines) (str : Val → List Char) (bad : List Char) (other : Flt) {h : Heap} (hh : h ≠ [])
    (hP : deref h sharedAt = PARAMS) {data : IfResp.Input} {d : DCData} {hot cold : Option IfResp.Input} {kw : Dict}
    {p : PumpedData} (e : (pumpedData R h data d hot cold kw).1 = .ok p) {v c : Val} (hv : update PARAMS kw "verbose" = some v)
    (hc : update PARAMS kw "comment" = some c) :
    ∃ a b i, pumpedHead (truth v) (hot.isSome && cold.isSome) (str c) p.freq = .ok a ∧ pumpedRecovery bad other p = .ok b ∧
      pumpedIfPrint R PARAMS (update PARAMS kw) d (truth v) hot cold p = .ok i ∧
      pumpedPrint R str bad other PARAMS (update PARAMS kw) d hot cold p
        = .ok (a ++ b ++ i ++ if truth v then line [] else []) := by
  obtain ⟨-, hdc, -, -, -, -, -, -, hi⟩ := pumpedInit_parts (pumpedData_ok hh hP e)
  obtain ⟨a, ha⟩ : ∃ a, pumpedHead (truth v) (hot.isSome && cold.isSome) (str c) p.freq = .ok a := by
    unfold pumpedHead importing
    split_ifs
    · rw [Term.cprint_known (c := "HEADER".toList) (k := Term.esc :: "[95".toList ++ ['m']) (by decide)]
      exact ⟨_, rfl⟩
    · exact ⟨_, rfl⟩
    · exact ⟨_, rfl⟩
  obtain ⟨b, hb⟩ : ∃ b, pumpedRecovery bad other p = .ok b := by
    unfold pumpedRecovery
    split
    · exact ⟨_, rfl⟩
    · exact recovery_ok _ _ _ _ _ _
  obtain ⟨i, hi'⟩ : ∃ i, pumpedIfPrint R PARAMS (update PARAMS kw) d (truth v) hot cold p = .ok i := by
    cases hf : p.ifs with
    | none => exact ⟨[], by unfold pumpedIfPrint; rw [hf]⟩
    | some f =>
      rw [hf] at hi
      obtain ⟨x, y, rfl, rfl, hpi⟩ := pumpedIfs_some hi
      obtain ⟨o, t, q, ho, -, hq, -⟩ := pumpedIf_parts hpi
      obtain ⟨out, hout⟩ := ifPrint_ok hq (truth v) f
      refine ⟨out, ?_⟩
      unfold pumpedIfPrint
      rw [hf, hdc]
      show (ifOpts PARAMS (update PARAMS kw) >>= _) = _
      rw [ho, py_bind, hout]
  refine ⟨a, b, i, ha, hb, hi', ?_⟩
  unfold pumpedPrint item
  rw [hv, hc]
  simp only [getOpt, py_bind]
  rw [ha, py_bind, hb, py_bind, hi']
  rfl

/-- C125 (the part that holds): with `verbose=False`, `PumpedData` prints nothing if neither the embedding circuit nor the IF
data is analysed. Missing: otherwise it prints a report all the same, see `C125_false`. -/
theorem C125_quiet_partial (R : Routines) (str : Val → List Char) (bad : List Char) (other : Flt) (h : Heap) (hh : h ≠ [])
    (hP : deref h sharedAt = PARAMS) (data : IfResp.Input) (d : DCData) (hot cold : Option IfResp.Input) (kw : Dict)
    (p : PumpedData) (e : (pumpedData R h data d hot cold kw).1 = .ok p) (hv : kw "verbose" = some (.bool false)) :
    ∃ out, pumpedPrint R str bad other PARAMS (update PARAMS kw) d hot cold p = .ok out ∧
      (p.zemb = none → p.ifs = none → out = []) ∧
      (p.zemb ≠ none → ∃ t, report out = ["-> Impedance recovery:".toList] :: t) ∧
      (p.zemb = none → p.ifs ≠ none → ∃ t, report out = ["-> Analyze IF data:".toList] :: t) := by
  obtain ⟨c, hc⟩ := update_comment kw
  have hv' : update PARAMS kw "verbose" = some (.bool false) := by simp [update, hv]
  obtain ⟨a, b, i, ha, hb, hi, ho⟩ := pumpedPrint_parts R str bad other hh hP e hv' hc
  obtain ⟨-, -, -, -, -, -, -, -, hifs⟩ := pumpedInit_parts (pumpedData_ok hh hP e)
  have hf : truth (.bool false) = false := rfl
  rw [hf] at ha hi
  obtain rfl : ([] : List Char) = a := Except.ok.inj ha
  refine ⟨_, ho, ?_, ?_, ?_⟩
  · intro h1 h2
    unfold pumpedRecovery at hb
    unfold pumpedIfPrint at hi
    rw [h1] at hb
    rw [h2] at hi
    obtain rfl : [] = b := Except.ok.inj hb
    obtain rfl : [] = i := Except.ok.inj hi
    rfl
  · intro h1
    obtain ⟨r, hr⟩ := Option.ne_none_iff_exists'.1 h1
    unfold pumpedRecovery at hb
    rw [hr] at hb
    rw [List.nil_append, List.append_assoc]
    exact recovery_head hb _
  · intro h1 h2
    obtain ⟨f, hfs⟩ := Option.ne_none_iff_exists'.1 h2
    rw [hfs] at hifs
    obtain ⟨x, y, rfl, rfl, -⟩ := pumpedIfs_some hifs
    unfold pumpedRecovery at hb
    unfold pumpedIfPrint at hi
    rw [h1] at hb
    rw [hfs] at hi
    obtain rfl : [] = b := Except.ok.inj hb
    simp only [bind_ok_iff] at hi
    obtain ⟨o, -, hi⟩ := hi
    obtain ⟨w, -, hw⟩ := ifPrint_rows hi
    rw [List.nil_append, List.nil_append, hw]
    exact ⟨_, rfl⟩

/-! ## The claim is false -/

/-- Options of a pumped measurement with IF data and without messages. -/
noncomputable def pumpedQuiet : Dict := fun k =>
  List.lookup k [("freq", .num 230), ("analyze_iv", .bool false), ("filter_data", .bool false), ("ifdata_sigma", .none),
    ("verbose", .bool false)]

theorem quiet_other {k : String} (hk : k ≠ "verbose") : update PARAMS pumpedQuiet k = update PARAMS pumpedBoth k := by
  have : pumpedQuiet k = pumpedBoth k := by
    simp only [pumpedQuiet, pumpedBoth, List.lookup, beq_false_of_ne hk]
  simp only [update, this]

theorem quiet_read {k : String} (hk : k ≠ "verbose") :
    Opt.read PARAMS (update PARAMS pumpedQuiet) k = Opt.read PARAMS (update PARAMS pumpedBoth) k := by
  simp only [Opt.read, Opt.getD, quiet_other hk]

theorem quiet_opts : ivOpts PARAMS (update PARAMS pumpedQuiet) = ivOpts PARAMS (update PARAMS pumpedBoth) ∧
    ifOpts PARAMS (update PARAMS pumpedQuiet) = ifOpts PARAMS (update PARAMS pumpedBoth) ∧
    tnOpts PARAMS (update PARAMS pumpedQuiet) = tnOpts PARAMS (update PARAMS pumpedBoth) := by
  refine ⟨?_, ?_, ?_⟩
  · unfold ivOpts
    simp (discharger := decide) only [quiet_read]
  · unfold ifOpts
    simp (discharger := decide) only [quiet_read]
  · unfold tnOpts
    simp (discharger := decide) only [quiet_read]

/-- A receiver of noise temperature 100 K and loads at 293 K and 78 K, without the recovery. -/
theorem quiet_run (S : RespFn.Splines) : ∃ (d : DCData) (hot cold : IfResp.Input) (r : PumpedData),
    (pumpedData ideal [PARAMS] (.matrix twentyOhm) d (some hot) (some cold) pumpedQuiet).1 = .ok r ∧ r.ifs ≠ none ∧ r.zemb = none := by
  obtain ⟨d, hd, d1, -, d2, d3, -⟩ := tenOhm_returns S
  obtain ⟨⟨o, ho, o1, o2, o3, o4, o5, o6⟩, ⟨oi, hoi, i1, i2, i3, i4⟩, ot, hot, t1, t2, t3, t4⟩ := pumpedBoth_opts
  obtain ⟨q1, q2, q3⟩ := quiet_opts
  rw [← q1] at ho
  rw [← q2] at hoi
  rw [← q3] at hot
  simp only [dcData, mergeOptions_eq, deref_append] at hd
  obtain ⟨-, -, ⟨o', -, hc⟩, -⟩ := dcInit_parts hd
  obtain ⟨-, -, -, -, -, -, hrn, hig, hfg, -⟩ := C81_metadata ideal o' _ _ _ _ hc
  obtain ⟨th, tc, hl, c0, c1⟩ := loads_exist ot t1 (by norm_num) (by rw [t3]; norm_num) (by rw [t2, t3]; norm_num)
  have hvg : d.dc.vgap ≠ 0 := by rw [d2]; norm_num
  have hcal := C87_returns ideal oi ot d.dc ⟨0, some 2, true, [], 0⟩ 2 [(0, 1), (2, 2), (6, 1)] 100 th tc hl
    (Or.inr (by rw [t4]; decide)) rfl (by simp) (by rw [i1]; simp) i2 i3 i4 hvg
  obtain ⟨r, p, h1, h2⟩ := C95_returns ideal [PARAMS] (by simp) rfl twentyOhm
    (delivered [(0, 1), (2, 2), (6, 1)] 100 th) (delivered [(0, 1), (2, 2), (6, 1)] 100 tc)
    { d with ifs := some (([], []), ⟨0, some 2, true, [], 0⟩) } pumpedQuiet o oi ot (.num 230) 230 ho hoi hot
    (fun k hk => by fin_cases hk <;> rfl) rfl rfl ⟨.bool false, rfl, rfl⟩ rfl rfl (by rw [o1]; simp) (by rw [o2]; simp)
    (by rw [o3]; norm_num)
    (by
      intro w hw
      simp only [twentyOhm, List.mem_cons, List.not_mem_nil, or_false] at hw
      rcases hw with rfl | rfl
      · exact ⟨-8, -0.3, rfl, rfl⟩
      · exact ⟨8, 0.5, rfl, rfl⟩)
    ⟨[num (-8), num (-0.3)], by simp [twentyOhm], [num 8, num 0.5], by simp [twentyOhm], by
      simp [num]
      intro h
      have : ((-8 : ℝ) : EReal) = ((8 : ℝ) : EReal) := by exact_mod_cast h
      rw [EReal.coe_eq_coe_iff] at this
      norm_num at this⟩
    o5 o6 (by rw [o4]; norm_num) hvg (fun h => hvg (by rw [← hig, h, zero_mul])) (by show d.dc.fgap ≠ 0; rw [hfg, d2]; norm_num) rfl (delivered_wf _ _ _) rfl
    (delivered_wf _ _ _) hcal
  refine ⟨_, _, _, r, h1, by rw [h2]; simp, ?_⟩
  obtain ⟨-, -, -, -, -, -, -, hz', -⟩ := pumpedInit_parts (pumpedData_ok (by simp) rfl h1)
  have ha : update PARAMS pumpedQuiet "analyze_iv" = some (.bool false) := rfl
  unfold pumpedZemb item at hz'
  rw [ha] at hz'
  exact (Except.ok.inj hz').symm

/-- C125 is false: there is a successful call of `PumpedData` with `verbose=False` that prints a line. -/
theorem C125_false (S : RespFn.Splines) (str : Val → List Char) (bad : List Char) (other : Flt) :
    ∃ (d : DCData) (hot cold : Option IfResp.Input) (kw : Dict) (p : PumpedData) (out : List Char),
      kw "verbose" = some (.bool false) ∧
      (pumpedData ideal [PARAMS] (.matrix twentyOhm) d hot cold kw).1 = .ok p ∧
      pumpedPrint ideal str bad other PARAMS (update PARAMS kw) d hot cold p = .ok out ∧
      ∃ t, report out = ["-> Analyze IF data:".toList] :: t := by
  obtain ⟨d, hot, cold, r, h1, h2, h3⟩ := quiet_run S
  obtain ⟨out, ho1, -, -, hi⟩ := C125_quiet_partial ideal str bad other [PARAMS] (by simp) rfl _ _ _ _ pumpedQuiet r h1 rfl
  exact ⟨_, _, _, pumpedQuiet, r, out, rfl, h1, ho1, hi h3 h2⟩

/-! ## The option does not change the results -/

/-- Two options that differ in `verbose` alone. -/
def SameBut (kw kw' : Dict) : Prop := (∀ k, k ≠ "verbose" → kw k = kw' k) ∧ ∃ v v', kw "verbose" = some v ∧ kw' "verbose" = some v'

theorem SameBut.item {kw kw' : Dict} (h : SameBut kw kw') {k : String} (hk : k ≠ "verbose") : Opt.item kw k = Opt.item kw' k := by
  unfold Opt.item
  rw [h.1 k hk]

theorem SameBut.read {kw kw' : Dict} (h : SameBut kw kw') (params : Dict) {k : String} (hk : k ≠ "verbose") :
    Opt.read params kw k = Opt.read params kw' k := by
  simp only [Opt.read, Opt.getD, h.1 k hk]

theorem SameBut.noClash {kw kw' : Dict} (h : SameBut kw kw') {names : List String} (hn : "verbose" ∉ names) :
    noClash kw names = noClash kw' names := by
  unfold Exp.noClash
  have : names.any (fun n => (kw n).isSome) = names.any (fun n => (kw' n).isSome) := by
    rw [Bool.eq_iff_iff, List.any_eq_true, List.any_eq_true]
    constructor
    · rintro ⟨n, h1, h2⟩
      exact ⟨n, h1, by rwa [← h.1 n (fun e => hn (e ▸ h1))]⟩
    · rintro ⟨n, h1, h2⟩
      exact ⟨n, h1, by rwa [h.1 n (fun e => hn (e ▸ h1))]⟩
  rw [this]

theorem SameBut.opts {kw kw' : Dict} (h : SameBut kw kw') (params : Dict) : ivOpts params kw = ivOpts params kw' ∧
    ifOpts params kw = ifOpts params kw' ∧ tnOpts params kw = tnOpts params kw' ∧ zembOpts params kw = zembOpts params kw' := by
  refine ⟨?_, ?_, ?_, ?_⟩
  · unfold ivOpts
    simp (discharger := decide) only [h.read]
  · unfold ifOpts
    simp (discharger := decide) only [h.read]
  · unfold tnOpts
    simp (discharger := decide) only [h.read]
  · have hg : ∀ k d, k ≠ "verbose" → getD kw k d = getD kw' k d := fun k d hk => by simp only [Opt.getD, h.1 k hk]
    unfold zembOpts fitRange
    simp (discharger := decide) only [h.read, hg]

theorem SameBut.update (kw : Dict) (v : Val) : SameBut (Opt.update PARAMS kw) (Opt.update PARAMS (setKey kw "verbose" v)) := by
  refine ⟨fun k hk => ?_, ?_⟩
  · simp only [Opt.update, setKey, if_neg hk]
  · obtain ⟨w, hw⟩ := update_verbose kw
    exact ⟨w, v, hw, by simp [Opt.update, setKey]⟩

theorem SameBut.setKey {kw kw' : Dict} (h : SameBut kw kw') (w : Val) : SameBut (Opt.setKey kw "freq" w) (Opt.setKey kw' "freq" w) := by
  obtain ⟨h, v, v', hv, hv'⟩ := h
  refine ⟨fun k hk => ?_, v, v', ?_, ?_⟩
  · unfold Opt.setKey
    rw [h k hk]
  · unfold Opt.setKey
    rw [if_neg (by decide), hv]
  · unfold Opt.setKey
    rw [if_neg (by decide), hv']

theorem SameBut.dcIf {kw kw' : Dict} (h : SameBut kw kw') (R : Routines) (params : Dict) (dc : DCIV) (i : Option IfResp.Input) :
    Exp.dcIf R params kw dc i = Exp.dcIf R params kw' dc i := by
  unfold Exp.dcIf
  rw [h.noClash (by decide), (h.opts params).2.1]

/-- C125: the option `verbose` does not change what `DCData` computes. -/
theorem C125_dc_result (R : Routines) (S : RespFn.Splines) (h : Heap) (hh : h ≠ []) (hP : deref h sharedAt = PARAMS)
    (data : IfResp.Input) (dcif : Option IfResp.Input) (kw : Dict) (v : Val) :
    (dcData R S h data dcif (setKey kw "verbose" v)).1 = (dcData R S h data dcif kw).1 := by
  have s := SameBut.update kw v
  obtain ⟨-, w, w', hw, hw'⟩ := s
  have s := SameBut.update kw v
  simp only [dcData, mergeOptions_eq, deref_append, deref_shared hh, hP]
  unfold dcInit
  rw [s.noClash (by decide), (s.opts PARAMS).1]
  simp (discharger := decide) only [s.item, s.dcIf]
  unfold Opt.item
  rw [hw, hw']
  rfl

theorem SameBut.pumpedFreq {kw kw' : Dict} (h : SameBut kw kw') (data : IfResp.Input) :
    Exp.pumpedFreq kw data = Exp.pumpedFreq kw' data := by
  unfold Exp.pumpedFreq
  simp (discharger := decide) only [h.item]
  obtain ⟨h, v, v', hv, hv'⟩ := h
  unfold Opt.item
  rw [hv, hv']
  rfl

theorem SameBut.pumpedInit {kw kw' : Dict} (h : SameBut kw kw') (R : Routines) (params : Dict) (a : ℕ) (data : IfResp.Input)
    (d : DCData) (hot cold : Option IfResp.Input) :
    Exp.pumpedInit R params kw a data d hot cold = Exp.pumpedInit R params kw' a data d hot cold := by
  unfold Exp.pumpedInit Exp.pumpedZemb Exp.pumpedIfs Exp.pumpedIf
  simp only [h.noClash (names := ["dc", "ivdata", "volt_v", "curr_a", "vmeas", "imeas"]) (by decide),
    h.noClash (names := ["vdc_exp", "idc_exp", "vph", "resp", "vb", "alpha"]) (by decide),
    h.noClash (names := ["dcif", "dc", "if_hot", "if_cold", "ifdata", "if_data", "if_data_hot", "if_data_cold"]) (by decide),
    (h.opts params).1, (h.opts params).2.1, (h.opts params).2.2.1, (h.opts params).2.2.2,
    h.item (k := "freq") (by decide), h.item (k := "analyze_iv") (by decide), h.item (k := "analyze_if") (by decide)]

/-- C125: the option `verbose` does not change what `PumpedData` computes. -/
theorem C125_pumped_result (R : Routines) (h : Heap) (hh : h ≠ []) (hP : deref h sharedAt = PARAMS)
    (data : IfResp.Input) (d : DCData) (hot cold : Option IfResp.Input) (kw : Dict) (v : Val) :
    (pumpedData R h data d hot cold (setKey kw "verbose" v)).1 = (pumpedData R h data d hot cold kw).1 := by
  have s := SameBut.update kw v
  simp only [pumpedData, mergeOptions_eq, deref_append, hP, s.pumpedFreq]
  cases Exp.pumpedFreq (Opt.update PARAMS (setKey kw "verbose" v)) data with
  | error e => rfl
  | ok w => 
    simp only [write_append, deref_append, deref_shared hh, hP]
    exact ((s.setKey w).pumpedInit R PARAMS _ data d hot cold).symm

/-! ## The warnings of `DCData` -/

/-- The warning that the normal resistance is unlikely. -/
def rnRows (text : List Char) : List (List (List Char)) :=
  [[], ["Warning: Normal resistance is very ".toList ++ text], ["Are you sure you have the right units?".toList], []]

theorem rnWarning_rows (on : Prop) (w : List Char) (hw : '\t' ∉ w ∧ '\n' ∉ w ∧ Char.ofNat 27 ∉ w) :
    ∃ t, rnWarning on ("\nWarning: Normal resistance is very ".toList ++ w) = .ok t ∧ (¬on → t = []) ∧
      (on → ∀ r, report (t ++ r) = rnRows w ++ report r) := by
  classical
  unfold rnWarning
  rw [Term.cprint_known (c := "RED".toList) (k := Term.esc :: "[91".toList ++ ['m']) (by decide),
    Term.cprint_known (c := "RED".toList) (k := Term.esc :: "[91".toList ++ ['m']) (by decide)]
  by_cases h : on
  · rw [if_pos h]
    refine ⟨_, rfl, fun h' => absurd h h', fun _ r => ?_⟩
    have e : (Term.esc :: "[91".toList ++ ['m'] ++ ("\nWarning: Normal resistance is very ".toList ++ w) ++
          (Term.esc :: ['[', '0'] ++ ['m']) ++ ['\n'] ++ (Term.esc :: "[91".toList ++ ['m'] ++
          "         Are you sure you have the right units?\n".toList ++ (Term.esc :: ['[', '0'] ++ ['m']) ++ ['\n'])) ++ r
        = Term.esc :: "[91".toList ++ 'm' :: (("\nWarning: Normal resistance is very ".toList ++ w) ++ (Term.esc :: ['[', '0'] ++ 'm' ::
          (['\n'] ++ (Term.esc :: "[91".toList ++ 'm' :: ("         Are you sure you have the right units?\n".toList ++
          (Term.esc :: ['[', '0'] ++ 'm' :: (['\n'] ++ r))))))) := by
      simp only [List.append_assoc, List.cons_append, List.nil_append]
    unfold report
    rw [e, shown_code (by decide), shown_plain, shown_code (by decide), shown_plain (by decide), shown_code (by decide),
      shown_plain (by decide), shown_code (by decide), shown_plain (by decide)]
    · have e2 : ("\nWarning: Normal resistance is very ".toList ++ w) ++ (['\n'] ++
            ("         Are you sure you have the right units?\n".toList ++ (['\n'] ++ shown r)))
          = [] ++ '\n' :: (("Warning: Normal resistance is very ".toList ++ w) ++ '\n' ::
            ("         Are you sure you have the right units?".toList ++ '\n' :: ([] ++ '\n' :: shown r))) := rfl
      rw [e2, linesOf_cons (by simp), linesOf_cons, linesOf_cons (by decide), linesOf_cons (by simp)]
      · simp only [List.map_cons]
        rw [tabbed_word (t := "Warning: Normal resistance is very ".toList ++ w)]
        · rfl
        · simp only [List.mem_append, not_or]
          exact ⟨by decide, hw.1⟩
        · simp
      · simp only [List.mem_append, not_or]
        exact ⟨by decide, hw.2.1⟩
    · simp only [List.mem_append, not_or]
      exact ⟨by decide, hw.2.2⟩
  · rw [if_neg h]
    exact ⟨_, rfl, fun _ => rfl, fun h' => absurd h' h⟩

/-- What `dciv_curve` prints. -/
theorem dcivWarnings_rows (rn : ℝ) : ∃ t, dcivWarnings rn = .ok t ∧
    (rn < 1 → ∀ r, report (t ++ r) = rnRows "low...".toList ++ report r) ∧
    (50 < rn → ∀ r, report (t ++ r) = rnRows "high...".toList ++ report r) ∧ (1 ≤ rn → rn ≤ 50 → t = []) := by
  obtain ⟨a, ha, a0, a1⟩ := rnWarning_rows (rn < 1) "low...".toList (by decide)
  obtain ⟨b, hb, b0, b1⟩ := rnWarning_rows (50 < rn) "high...".toList (by decide)
  refine ⟨a ++ b, ?_, ?_, ?_, ?_⟩
  · have e1 : "\nWarning: Normal resistance is very low...".toList = "\nWarning: Normal resistance is very ".toList ++ "low...".toList := by
      decide
    have e2 : "\nWarning: Normal resistance is very high...".toList = "\nWarning: Normal resistance is very ".toList ++ "high...".toList := by
      decide
    unfold dcivWarnings
    rw [e1, e2, ha, py_bind, hb, py_bind]
    rfl
  · intro h r
    rw [b0 (by linarith), List.append_nil, a1 h]
  · intro h r
    rw [a0 (by linarith), List.nil_append, b1 h]
  · intro h1 h2
    rw [a0 (by linarith), b0 (by linarith)]
    rfl

/-- C125: what `DCData` prints if there is no IF data: a warning if the normal resistance is below 1 ohm or above 50 ohm, and the
text of `str` if `verbose` is true. So with `verbose=False` nothing is printed if and only if the resistance is in this range. -/
theorem C125_dc_partial (R : Routines) (str : Val → List Char) (kw : Dict) (d : DCData) {v : Val}
    (hv : update PARAMS kw "verbose" = some v) :
    ∃ out, dcPrint R str PARAMS (update PARAMS kw) d none = .ok out ∧
      (truth v = false → (out = [] ↔ 1 ≤ d.dc.rn ∧ d.dc.rn ≤ 50)) ∧
      ((if d.dc.rn < 1 then rnRows "low...".toList else if 50 < d.dc.rn then rnRows "high...".toList else []) ++
        (if truth v then report (dcText str d ++ ['\n']) else []) = report out) := by
  obtain ⟨t, ht, h1, h2, h3⟩ := dcivWarnings_rows d.dc.rn
  refine ⟨t ++ [] ++ if truth v then line (dcText str d) else [], ?_, ?_, ?_⟩
  · unfold dcPrint item dcWarning
    rw [ht, py_bind, py_bind, hv]
    rfl
  · intro hf
    rw [hf]
    simp only [Bool.false_eq_true, if_false, List.append_nil]
    constructor
    · rintro rfl
      constructor
      · by_contra h
        have := h1 (by linarith) []
        rw [List.append_nil, report_nil] at this
        exact absurd this (by simp [rnRows])
      · by_contra h
        have := h2 (by linarith) []
        rw [List.append_nil, report_nil] at this
        exact absurd this (by simp [rnRows])
    · rintro ⟨ha, hb⟩
      exact h3 ha hb
  · rw [List.append_nil]
    have e : (if truth v then report (dcText str d ++ ['\n']) else []) = report (if truth v then line (dcText str d) else []) := by
      cases truth v
      · exact report_nil.symm
      · rfl
    rw [e]
    by_cases c1 : d.dc.rn < 1
    · rw [if_pos c1, h1 c1]
    · by_cases c2 : 50 < d.dc.rn
      · rw [if_neg c1, if_pos c2, h2 c2]
      · rw [if_neg c1, if_neg c2, h3 (by linarith) (by linarith)]
        rfl

/-- C125: the short text of a `DCData` shows the gap voltage in mV and the normal resistance in ohm. -/
theorem C125_dc_repr (d : DCData) : ∃ t u, dcRepr d = "DC I-V curve: Vgap = ".toList ++ t ++ " mV, Rn = ".toList ++ u ++ " ohms".toList ∧
    Shows t (d.dc.vgap * 10 ^ 3) 2 ∧ Shows u d.dc.rn 2 := by
  refine ⟨_, _, rfl, ?_, shows_fmt 0 2 _⟩
  rw [show d.dc.vgap / 1e-3 = d.dc.vgap * 10 ^ 3 by norm_num [div_eq_mul_inv]]
  exact shows_fmt 0 2 _

/-! ## The messages of `PumpedData` -/

theorem flog10_pos {g : ℝ} (hg : 0 < g) : flog10 (num g) = num (Real.logb 10 g) := by
  have h1 : ¬((g : EReal) < 0) := by exact_mod_cast not_lt.2 hg.le
  have h2 : ¬((g : EReal) = 0) := by exact_mod_cast hg.ne'
  unfold flog10 num
  simp only
  rw [if_neg (EReal.coe_ne_top g), if_neg h1, if_neg h2, EReal.toReal_coe]

/-- C125: with `verbose=True`, `PumpedData` prints the comment, the kinds of data, the frequency in GHz to one decimal, the report of the
recovery and, of the IF data, the best noise temperature, the gain there in dB and the IF noise. -/
theorem C125_pumped_text (R : Routines) (str : Val → List Char) (bad : List Char) (other : Flt) (h : Heap) (hh : h ≠ [])
    (hP : deref h sharedAt = PARAMS) (data : IfResp.Input) (d : DCData) (hot cold : Option IfResp.Input) (kw : Dict)
    (p : PumpedData) (e : (pumpedData R h data d hot cold kw).1 = .ok p) {v c : Val} (hv : update PARAMS kw "verbose" = some v)
    (hc : update PARAMS kw "comment" = some c) (ht : truth v = true)
    (hs : ∀ x ∈ str c, x ≠ '\n' ∧ x ≠ '\t' ∧ x ≠ Char.ofNat 27) (hz : ∀ r, p.zemb = some r → r.zw ≠ none) :
    ∃ out f rec ifs, pumpedPrint R str bad other PARAMS (update PARAMS kw) d hot cold p = .ok out ∧
      report out = [["Importing: ".toList ++ str c], ["-> Files:".toList], ["I-V file:    ".toList, "Numpy array".toList]] ++
        (if hot.isSome ∧ cold.isSome then [["IF hot file: ".toList, "Numpy array".toList], ["IF cold file:".toList, "Numpy array".toList]]
          else []) ++ [["-> Frequency: ".toList ++ f ++ " GHz".toList]] ++ rec ++ ifs ++ [[]] ∧
      Shows f p.freq 1 ∧
      (match p.zemb with
        | none => rec = []
        | some r => ∃ b, recovery bad other p.vph p.dc.vgap p.dc.rn r = .ok b ∧ rec = report b) ∧
      match p.ifs with
        | none => ifs = []
        | some x => ∃ w t1 t2 t3, (w = [] ∨ w = shotRows) ∧ ifs = ["-> Analyze IF data:".toList] :: w ++
            [["- noise temp:".toList, t1 ++ " K".toList], ["- gain:".toList, t2 ++ " dB".toList],
             ["- IF noise:".toList, t3 ++ " K".toList]] ∧
            (∀ tn, x.tnBest = num tn → Shows t1 tn 1) ∧ (∀ g, 0 < g → x.gainBest = num g → Shows t2 (10 * Real.logb 10 g) 2) ∧
            Shows t3 x.dcif.ifNoise 2 := by
  obtain ⟨a, b, i, ha, hb, hi, ho⟩ := pumpedPrint_parts R str bad other hh hP e hv hc
  obtain ⟨-, -, -, -, -, -, -, -, hifs⟩ := pumpedInit_parts (pumpedData_ok hh hP e)
  rw [ht] at ha hi ho
  have tail : report (line []) = [[]] := by
    have := report_line (w := []) (by simp) (by simp) []
    rwa [List.append_nil, report_nil] at this
  -- the IF data
  obtain ⟨ifs, hif, hif'⟩ : ∃ ifs, (∀ r, report (i ++ r) = ifs ++ report r) ∧ match p.ifs with
        | none => ifs = []
        | some x => ∃ w t1 t2 t3, (w = [] ∨ w = shotRows) ∧ ifs = ["-> Analyze IF data:".toList] :: w ++
            [["- noise temp:".toList, t1 ++ " K".toList], ["- gain:".toList, t2 ++ " dB".toList],
             ["- IF noise:".toList, t3 ++ " K".toList]] ∧
            (∀ tn, x.tnBest = num tn → Shows t1 tn 1) ∧ (∀ g, 0 < g → x.gainBest = num g → Shows t2 (10 * Real.logb 10 g) 2) ∧
            Shows t3 x.dcif.ifNoise 2 := by
    unfold pumpedIfPrint at hi
    cases hx : p.ifs with
    | none =>
      rw [hx] at hi
      obtain rfl : [] = i := Except.ok.inj hi
      exact ⟨[], fun r => rfl, rfl⟩
    | some x =>
      rw [hx] at hi hifs
      obtain ⟨y, z, rfl, rfl, -⟩ := pumpedIfs_some hifs
      simp only [bind_ok_iff] at hi
      obtain ⟨o, -, hi⟩ := hi
      obtain ⟨w, hw, hw'⟩ := ifPrint_rows hi
      refine ⟨_, hw', w, _, _, _, hw, rfl, ?_, ?_, shows_trim (shows_fmtS 6 2 _)⟩
      · intro tn h
        rw [h]
        exact shows_trim (shows_fmt 6 1 tn)
      · intro g hg h
        rw [h, show flog10 (num g) = num (Real.logb 10 g) from flog10_pos hg, fmul_num]
        exact shows_trim (shows_fmtS 6 2 _)
  -- the recovery
  obtain ⟨rec, hrec, hrec'⟩ : ∃ rec, (∀ r, report (b ++ r) = rec ++ report r) ∧ match p.zemb with
        | none => rec = []
        | some r => ∃ b, recovery bad other p.vph p.dc.vgap p.dc.rn r = .ok b ∧ rec = report b := by
    unfold pumpedRecovery at hb
    cases hx : p.zemb with
    | none =>
      rw [hx] at hb
      obtain rfl : [] = b := Except.ok.inj hb
      exact ⟨[], fun r => rfl, rfl⟩
    | some r =>
      rw [hx] at hb
      obtain ⟨zw, hzw⟩ := Option.ne_none_iff_exists'.1 (hz r hx)
      obtain ⟨o, ho1, ho2⟩ := recovery_eq bad other p.vph p.dc.vgap p.dc.rn r hzw
      have hb : recovery bad other p.vph p.dc.vgap p.dc.rn r = .ok b := hb
      rw [ho1] at hb
      obtain rfl := Except.ok.inj hb
      refine ⟨report o, fun r => ?_, o, ho1, rfl⟩
      have := ho2 []
      rw [List.append_nil, report_nil, List.append_nil] at this
      rw [ho2, this]
  -- the first lines
  have hhead : ∃ f, Shows f p.freq 1 ∧ ∀ r, report (a ++ r) = [["Importing: ".toList ++ str c], ["-> Files:".toList],
        ["I-V file:    ".toList, "Numpy array".toList]] ++
        (if hot.isSome ∧ cold.isSome then [["IF hot file: ".toList, "Numpy array".toList], ["IF cold file:".toList, "Numpy array".toList]]
          else []) ++ [["-> Frequency: ".toList ++ f ++ " GHz".toList]] ++ report r := by
    unfold pumpedHead importing at ha
    obtain ⟨t, ht1, ht2⟩ := report_colour (c := "HEADER".toList) (e := "[95".toList) (w := "Importing: ".toList ++ str c)
      (by decide) (by decide)
      (by
        simp only [List.mem_append, not_or]
        exact ⟨by decide, fun h => (hs _ h).1 rfl⟩)
      (by
        simp only [List.mem_append, not_or]
        exact ⟨by decide, fun h => (hs _ h).2.2 rfl⟩)
    rw [if_pos rfl, ht1, py_bind, pure_ok_iff] at ha
    subst ha
    refine ⟨fmt 0 1 (num p.freq), shows_fmt 0 1 _, fun r => ?_⟩
    have q := plain_fmt 0 1 (num p.freq)
    have hf : ∀ r, report (line (" -> Frequency: ".toList ++ fmt 0 1 (num p.freq) ++ " GHz".toList) ++ r)
        = ["-> Frequency: ".toList ++ fmt 0 1 (num p.freq) ++ " GHz".toList] :: report r := by
      intro r
      rw [report_line, tabbed_word]
      · rfl
      · simp only [List.mem_append, not_or]
        exact ⟨⟨by decide, not_tab q⟩, by decide⟩
      · simp
      · simp only [List.mem_append, not_or]
        exact ⟨⟨by decide, not_nl q⟩, by decide⟩
      · simp only [List.mem_append, not_or]
        exact ⟨⟨by decide, not_esc q⟩, by decide⟩
    have hw : tabbed ("Importing: ".toList ++ str c) = ["Importing: ".toList ++ str c] := by
      rw [tabbed_word]
      · rfl
      · simp only [List.mem_append, not_or]
        exact ⟨by decide, fun h => (hs _ h).2.1 rfl⟩
      · simp
    simp only [List.append_assoc]
    rw [ht2, hw, report_line (by decide) (by decide), report_line (by decide) (by decide)]
    have e2 : (hot.isSome && cold.isSome) = true ↔ (hot.isSome ∧ cold.isSome) := by simp
    by_cases hb : hot.isSome ∧ cold.isSome
    · rw [if_pos (e2.2 hb), if_pos hb]
      simp only [List.append_assoc]
      rw [report_line (by decide) (by decide), report_line (by decide) (by decide)]
      have := hf r
      simp only [List.append_assoc] at this
      rw [this]
      rfl
    · rw [if_neg (by rwa [e2]), if_neg hb, List.nil_append]
      have := hf r
      simp only [List.append_assoc] at this
      rw [this]
      rfl
  obtain ⟨f, hf, hf'⟩ := hhead
  refine ⟨_, f, rec, ifs, ho, ?_, hf, hrec', hif'⟩
  rw [if_pos rfl, List.append_assoc, List.append_assoc, hf', hrec, hif, tail]
  simp only [List.append_assoc]

/-- The hypotheses are met. -/
example (S : RespFn.Splines) : ∃ (d : DCData) (hot cold : IfResp.Input) (kw : Dict) (p : PumpedData),
    (pumpedData ideal [PARAMS] (.matrix twentyOhm) d (some hot) (some cold) kw).1 = .ok p ∧
    update PARAMS kw "verbose" = some (.bool true) ∧ update PARAMS kw "comment" = some (.str "") ∧
    (∀ r, p.zemb = some r → r.zw ≠ none) ∧ p.ifs ≠ none := by
  obtain ⟨d, hot, cold, r, h1, h2, h3⟩ := quiet_run S
  refine ⟨d, hot, cold, setKey pumpedQuiet "verbose" (.bool true), r, ?_, rfl, rfl, ?_, h2⟩
  · rw [C125_pumped_result ideal [PARAMS] (by simp) rfl]
    exact h1
  · intro r' hr
    rw [h3] at hr
    cases hr

/-- The hypotheses of `C125_dc_text` are met. -/
example (S : RespFn.Splines) : ∃ d q jc, (dcData ideal S [PARAMS] (.matrix tenOhm) none gapOnly).1 = .ok d ∧
    d.q = num q ∧ d.jc = num jc := by
  obtain ⟨d, hd, d1, dq, d2, d3, -⟩ := tenOhm_returns S
  refine ⟨d, 1, d.dc.vgap / d.rna, hd, dq, ?_⟩
  simp only [dcData, mergeOptions_eq, deref_append] at hd
  obtain ⟨-, -, -, ⟨v, area, hv, ha, hr⟩, -, -, -, -, hj, -⟩ := dcInit_parts hd
  have e : update (deref [PARAMS] sharedAt) gapOnly "area" = some (.num 1.5) := rfl
  rw [e] at hv
  obtain rfl := Option.some.inj hv
  have ha : (1.5 : ℝ) = area := Except.ok.inj ha
  rw [hj, fdiv_num _ (by rw [hr, d1, ← ha]; norm_num)]

end QMix.Report
