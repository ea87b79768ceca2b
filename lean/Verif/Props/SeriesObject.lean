import Verif.Props.IvSeries
import Verif.Props.ExpData2

/-!
# C190 for `DCData` and `PumpedData`
-/

namespace QMix.Exp

open QMix QMix.Opt QMix.IvData QMix.IfData

/-- The options with a series resistance. -/
noncomputable def withSeries (kw : Dict) (rs : ℝ) : Dict := setKey kw "rseries" (.num rs)

theorem withSeries_update (d kw : Dict) (rs : ℝ) : update d (withSeries kw rs) = withSeries (update d kw) rs := by
  funext k
  unfold update withSeries setKey
  split <;> simp

theorem withSeries_ne (kw : Dict) (rs : ℝ) {k : String} (hk : k ≠ "rseries") : withSeries kw rs k = kw k := by
  unfold withSeries setKey
  rw [if_neg hk]

theorem withSeries_item (kw : Dict) (rs : ℝ) {k : String} (hk : k ≠ "rseries") : item (withSeries kw rs) k = item kw k := by
  unfold item
  rw [withSeries_ne kw rs hk]

theorem withSeries_read (params kw : Dict) (rs : ℝ) {k : String} (hk : k ≠ "rseries") :
    read params (withSeries kw rs) k = read params kw k := by
  unfold Opt.read Opt.getD
  rw [withSeries_ne kw rs hk]

theorem withSeries_clash (kw : Dict) (rs : ℝ) {names : List String} (hn : "rseries" ∉ names) :
    noClash (withSeries kw rs) names = noClash kw names := by
  unfold noClash
  have : names.any (fun n => (withSeries kw rs n).isSome) = names.any (fun n => (kw n).isSome) := by
    rw [Bool.eq_iff_iff, List.any_eq_true, List.any_eq_true]
    constructor
    · rintro ⟨n, h1, h2⟩
      exact ⟨n, h1, by rwa [withSeries_ne kw rs (fun e => hn (e ▸ h1))] at h2⟩
    · rintro ⟨n, h1, h2⟩
      exact ⟨n, h1, by rwa [withSeries_ne kw rs (fun e => hn (e ▸ h1))]⟩
  rw [this]

theorem withSeries_opts {params kw : Dict} {o : Opts} (rs : ℝ) (h : ivOpts params kw = .ok o) :
    ivOpts params (withSeries kw rs) = .ok { o with rseries := some rs } := by
  have hp : ∃ v, read params kw "rseries" = .ok v ∧ read params (withSeries kw rs) "rseries" = .ok (.num rs) := by
    unfold ivOpts at h
    obtain ⟨_, _, h⟩ := bind_ok_iff.1 h
    obtain ⟨_, _, h⟩ := bind_ok_iff.1 h
    obtain ⟨_, _, h⟩ := bind_ok_iff.1 h
    obtain ⟨_, h4, -⟩ := bind_ok_iff.1 h
    obtain ⟨v, hv, -⟩ := bind_ok_iff.1 h4
    refine ⟨v, hv, ?_⟩
    unfold Opt.read at hv ⊢
    obtain ⟨w, hw, -⟩ := bind_ok_iff.1 hv
    rw [hw, py_bind]
    unfold Opt.getD withSeries setKey
    rw [if_pos rfl]
    rfl
  obtain ⟨v, hv, hv'⟩ := hp
  unfold ivOpts at h ⊢
  simp (discharger := decide) only [withSeries_read]
  rw [hv']
  rw [hv] at h
  obtain ⟨a1, e1, h⟩ := bind_ok_iff.1 h
  rw [e1, py_bind]
  obtain ⟨a2, e2, h⟩ := bind_ok_iff.1 h
  rw [e2, py_bind]
  obtain ⟨a3, e3, h⟩ := bind_ok_iff.1 h
  rw [e3, py_bind]
  obtain ⟨a4, e4, h⟩ := bind_ok_iff.1 h
  rw [py_bind, show asOptReal (.num rs) = .ok (some rs) from rfl, py_bind]
  obtain ⟨a5, e5, h⟩ := bind_ok_iff.1 h
  rw [e5, py_bind]
  obtain ⟨a6, e6, h⟩ := bind_ok_iff.1 h
  rw [e6, py_bind]
  obtain ⟨a7, e7, h⟩ := bind_ok_iff.1 h
  rw [e7, py_bind]
  obtain ⟨a8, e8, h⟩ := bind_ok_iff.1 h
  rw [e8, py_bind]
  obtain ⟨a9, e9, h⟩ := bind_ok_iff.1 h
  rw [e9, py_bind]
  obtain ⟨a10, e10, h⟩ := bind_ok_iff.1 h
  rw [e10, py_bind]
  obtain ⟨a11, e11, h⟩ := bind_ok_iff.1 h
  rw [e11, py_bind]
  obtain ⟨a12, e12, h⟩ := bind_ok_iff.1 h
  rw [e12, py_bind]
  obtain ⟨a13, e13, h⟩ := bind_ok_iff.1 h
  rw [e13, py_bind]
  obtain ⟨a14, e14, h⟩ := bind_ok_iff.1 h
  rw [e14, py_bind]
  obtain ⟨a15, e15, h⟩ := bind_ok_iff.1 h
  rw [e15, py_bind]
  obtain ⟨a16, e16, h⟩ := bind_ok_iff.1 h
  rw [e16, py_bind]
  obtain ⟨a17, e17, h⟩ := bind_ok_iff.1 h
  rw [e17, py_bind]
  rw [pure_ok_iff] at h
  subst h
  rfl

theorem withSeries_zemb (params kw : Dict) (rs : ℝ) : zembOpts params (withSeries kw rs) = zembOpts params kw := by
  have hg : ∀ k d, k ≠ "rseries" → Opt.getD (withSeries kw rs) k d = Opt.getD kw k d := fun k d hk => by
    simp only [Opt.getD, withSeries_ne kw rs hk]
  unfold zembOpts fitRange
  simp (discharger := decide) only [withSeries_read, hg, withSeries_ne]

theorem dcInit_series (R : Routines) (S : RespFn.Splines) (params kw : Dict) (a : ℕ) (m mS : Clean.Mat) (o : Opts) (rs : ℝ)
    (vr : List ℝ) (ho : ivOpts params kw = .ok o)
    (hcurve : dcivCurve R { o with rseries := some rs } (.matrix mS) = (dcivCurve R o (.matrix m)).map fun r =>
      (r.1, r.2.1, { r.2.2 with vraw := vr, rseries := some rs })) :
    dcInit R S params (withSeries kw rs) a (.matrix mS) none = (dcInit R S params kw a (.matrix m) none).map fun d =>
      { d with dc := { d.dc with vraw := vr, rseries := some rs } } := by
  classical
  unfold dcInit
  simp (discharger := decide) only [withSeries_item, withSeries_clash]
  cases item kw "comment" with
  | error e => rfl
  | ok w1 =>
  rw [py_bind, py_bind]
  cases item kw "v_smear" with
  | error e => rfl
  | ok w2 =>
  rw [py_bind, py_bind]
  cases item kw "vleak" with
  | error e => rfl
  | ok w3 =>
  rw [py_bind, py_bind]
  cases item kw "area" with
  | error e => rfl
  | ok w4 =>
  rw [py_bind, py_bind]
  cases item kw "verbose" with
  | error e => rfl
  | ok w5 =>
  rw [py_bind, py_bind, raiseIf_neg (by simp), raiseIf_neg (by simp)]
  cases noClash kw ["ivdata", "volt_v", "curr_a", "vmeas", "imeas"] with
  | error e => rfl
  | ok w6 =>
  rw [py_bind, py_bind, ho, withSeries_opts rs ho, py_bind, py_bind, hcurve]
  cases dcivCurve R o (.matrix m) with
  | error e => rfl
  | ok r =>
  rw [show Except.map (fun r : List ℝ × List ℝ × DCIV => (r.1, r.2.1, ({ r.2.2 with vraw := vr, rseries := some rs } : DCIV)))
    (Except.ok r : Py _) = .ok (r.1, r.2.1, { r.2.2 with vraw := vr, rseries := some rs }) from rfl, py_bind, py_bind]
  dsimp only
  cases asReal w4 with
  | error e => rfl
  | ok area =>
  rw [py_bind, py_bind]
  cases asReal w3 with
  | error e => rfl
  | ok vleak =>
  rw [py_bind, py_bind]
  cases Np.fdiv vleak r.2.2.vgap with
  | error e => rfl
  | ok x =>
  rw [py_bind, py_bind]
  cases interp [x] r.1 r.2.1 with
  | error e => rfl
  | ok y =>
  rw [py_bind, py_bind]
  cases pyGet y 0 with
  | error e => rfl
  | ok y =>
  rw [py_bind, py_bind]
  cases respFnFromIVData S r.1 r.2.1 (respOpts .none) with
  | error e => rfl
  | ok p =>
  rw [py_bind, py_bind]
  cases respFnFromIVData S r.1 r.2.1 (respOpts w2) with
  | error e => rfl
  | ok q => rfl

theorem pumpedInit_series (R : Routines) (params kw : Dict) (a : ℕ) (m mS : Clean.Mat) (o : Opts) (rs : ℝ) (d dS : DCData)
    (ho : ivOpts params kw = .ok o) (hf : dS.dc.fgap = d.dc.fgap) (hr : dS.resp = d.resp)
    (hcurve : ivCurve R { o with rseries := some rs } (.matrix mS) dS.dc = ivCurve R o (.matrix m) d.dc) :
    pumpedInit R params (withSeries kw rs) a (.matrix mS) dS none none =
      (pumpedInit R params kw a (.matrix m) d none none).map fun p => { p with dc := dS.dc } := by
  unfold pumpedInit pumpedZemb pumpedIfs
  simp (discharger := decide) only [withSeries_item, withSeries_clash, withSeries_zemb]
  rw [hf, hr]
  cases item kw "freq" with
  | error e => rfl
  | ok w1 =>
  rw [py_bind, py_bind]
  cases asReal w1 with
  | error e => rfl
  | ok f =>
  rw [py_bind, py_bind]
  cases Np.fdiv f d.dc.fgap with
  | error e => rfl
  | ok x =>
  rw [py_bind, py_bind]
  cases noClash kw ["dc", "ivdata", "volt_v", "curr_a", "vmeas", "imeas"] with
  | error e => rfl
  | ok w6 =>
  rw [py_bind, py_bind, ho, withSeries_opts rs ho, py_bind, py_bind, hcurve]
  cases ivCurve R o (.matrix m) d.dc with
  | error e => rfl
  | ok r =>
  rw [py_bind, py_bind]
  cases finiteOrNone (MathFn.slopeSpanN r.2 r.1 21 true) with
  | error e => rfl
  | ok rd =>
  rw [py_bind, py_bind]
  cases item kw "analyze_iv" with
  | error e => rfl
  | ok on =>
  rw [py_bind]
  generalize (if truth on = true then _ else _ : Py (Option Zemb.Result)) = z
  cases z with
  | error e => rfl
  | ok z =>
  rw [py_bind, py_bind]
  cases item kw "analyze_if" with
  | error e => rfl
  | ok on => rfl

theorem pumpedFreq_key {kw : Dict} {data : IfResp.Input} {f : Val} (h : pumpedFreq kw data = .ok f) : setKey kw "freq" f = kw := by
  have hf : item kw "freq" = .ok f := by
    unfold pumpedFreq at h
    obtain ⟨_, _, h⟩ := bind_ok_iff.1 h
    obtain ⟨g, hg, h⟩ := bind_ok_iff.1 h
    obtain ⟨_, _, h⟩ := bind_ok_iff.1 h
    obtain ⟨_, _, h⟩ := bind_ok_iff.1 h
    obtain ⟨_, _, h⟩ := bind_ok_iff.1 h
    obtain ⟨_, _, h⟩ := bind_ok_iff.1 h
    obtain ⟨_, _, h⟩ := bind_ok_iff.1 h
    obtain ⟨_, _, h⟩ := bind_ok_iff.1 h
    rw [pure_ok_iff] at h
    rw [hg, h]
  funext k
  unfold setKey
  split
  · rename_i hk
    subst hk
    unfold item getOpt at hf
    cases hk : kw "freq" with
    | none => rw [hk] at hf; cases hf
    | some w => rw [hk] at hf; cases hf; rfl
  · rfl

theorem pumpedFreq_series (kw : Dict) (m mS : Clean.Mat) (rs : ℝ) :
    pumpedFreq (withSeries kw rs) (.matrix mS) = pumpedFreq kw (.matrix m) := by
  classical
  unfold pumpedFreq
  simp (discharger := decide) only [withSeries_item]
  simp only [reduceCtorEq, raiseIf, if_false]

/-- C190 for `DCData`: the same junction is measured directly and through a series resistance. If the same offset is found in both, and
the series resistance is given for the second measurement, the two objects agree in everything (gap, resistances, leakage current,
response functions, ...) except the record of the uncorrected voltages and of the series resistance itself. This includes the errors
raised. -/
theorem C190_dc_object (R : Routines) (S : RespFn.Splines) (h : Heap) (hh : h ≠ []) (kw : Dict) (o : Opts)
    (ho : ivOpts (deref h sharedAt) (update (deref h sharedAt) kw) = .ok o) (rs : ℝ) (off : ℝ × ℝ) (J pts ptsS : List (ℝ × ℝ))
    (h2 : 2 ≤ J.length) (hp : Through o 0 off J pts) (hs : Through o rs off J ptsS) (hup : pts.Pairwise fun p q => p.1 < q.1)
    (hupS : ptsS.Pairwise fun p q => p.1 < q.1) (rows rowsS : List (ℝ × ℝ)) (hrows : rows = pts ∨ rows = pts.reverse)
    (hrowsS : rowsS = ptsS ∨ rowsS = ptsS.reverse) (hvf : o.vFmt ∈ ["uV", "mV", "V"])
    (hif : o.iFmt ∈ ["uA", "mA", "A"]) (hr : o.rseries = none) (hf : o.filterData = false)
    (hq : ∀ p ∈ J, p.2 ≠ 0 ∧ 0 ≤ (p.1 + p.2 * rs) / p.2)
    (hoff : ∃ a b, correctOffset R o (J.map fun p => p.1 + p.2 * 0 + off.1) (J.map fun p => p.2 + off.2) = .ok (a, b, off))
    (hoffS : ∃ a b, correctOffset R o (J.map fun p => p.1 + p.2 * rs + off.1) (J.map fun p => p.2 + off.2) =
      .ok (a, b, off)) :
    (dcData R S h (.matrix (sweep rowsS)) none (withSeries kw rs)).1 = (dcData R S h (.matrix (sweep rows)) none kw).1.map fun d =>
      { d with dc := { d.dc with vraw := J.map fun p => p.1 + p.2 * rs, rseries := some rs } } := by
  simp only [dcData, mergeOptions_eq, deref_append, deref_shared hh, withSeries_update]
  exact dcInit_series R S _ _ _ _ _ o rs _ ho
    (C190_dc R o rs off J pts ptsS h2 hp hs hup hupS rows rowsS hrows hrowsS hvf hif hr hf hq hoff hoffS)

/-- C190 for `PumpedData` without IF data: pumped curves of the same junction, measured directly and through the series resistance, and
analysed with the two objects of `C190_dc_object`, give the same object, with the same dynamic resistance and the same embedding circuit,
and the same errors. -/
theorem C190_pumped_object (R : Routines) (h : Heap) (hh : h ≠ []) (kw : Dict) (o : Opts)
    (ho : ivOpts (deref h sharedAt) (update (deref h sharedAt) kw) = .ok o) (rs : ℝ) (d dS : DCData)
    (hd : ∃ vr, dS = { d with dc := { d.dc with vraw := vr, rseries := some rs } }) (J pts ptsS : List (ℝ × ℝ))
    (h2 : 2 ≤ J.length) (hp : Through o 0 (pumpedOffset o d.dc) J pts) (hs : Through o rs (pumpedOffset o d.dc) J ptsS)
    (hup : pts.Pairwise fun p q => p.1 < q.1)
    (hupS : ptsS.Pairwise fun p q => p.1 < q.1) (rows rowsS : List (ℝ × ℝ)) (hrows : rows = pts ∨ rows = pts.reverse)
    (hrowsS : rowsS = ptsS ∨ rowsS = ptsS.reverse) (hvf : o.vFmt ∈ ["uV", "mV", "V"])
    (hif : o.iFmt ∈ ["uA", "mA", "A"]) (hr : o.rseries = none) (hf : o.filterData = false)
    (hq : ∀ p ∈ J, p.2 ≠ 0 ∧ 0 ≤ (p.1 + p.2 * rs) / p.2) :
    (pumpedData R h (.matrix (sweep rowsS)) dS none none (withSeries kw rs)).1 =
      (pumpedData R h (.matrix (sweep rows)) d none none kw).1.map fun p => { p with dc := dS.dc } := by
  obtain ⟨vr, rfl⟩ := hd
  have hcurve := C190_pumped R o rs d.dc { d.dc with vraw := vr, rseries := some rs } J pts ptsS h2 rfl rfl rfl hp hs hup hupS rows rowsS
    hrows hrowsS hvf hif hr hf hq
  simp only [pumpedData, mergeOptions_eq, deref_append, withSeries_update, pumpedFreq_series _ (sweep rows) (sweep rowsS)]
  cases hfr : pumpedFreq (update (deref h sharedAt) kw) (.matrix (sweep rows)) with
  | error e => rfl
  | ok f =>
    have e1 := pumpedFreq_key hfr
    have e2 : setKey (withSeries (update (deref h sharedAt) kw) rs) "freq" f = withSeries (update (deref h sharedAt) kw) rs :=
      pumpedFreq_key (data := .matrix (sweep rowsS)) (by rw [pumpedFreq_series _ (sweep rows)]; exact hfr)
    simp only [write_append, e1, e2, deref_append, deref_shared hh]
    exact pumpedInit_series R _ _ _ _ _ o rs d _ ho rfl rfl hcurve

/-! ## An example -/

theorem pumpedOnly_offsets {o : Opts} (ho : ivOpts PARAMS (update PARAMS pumpedOnly) = .ok o) :
    o.voffset = none ∧ o.ioffset = none ∧ o.voffsetRange = .two (-1e-3) 1e-3 := by
  obtain ⟨-, -, -, -, h1, h2, h3, -⟩ := C41_iv pumpedOnly o ho
  exact ⟨h1.2 rfl, h2.2 rfl, h3.2 rfl⟩

/-- A junction with a subgap resistance of 1000 ohms and 20 ohms above the gap, measured directly and through 5 ohms. -/
theorem through_five {o : Opts} (h1 : o.vFmt = "mV") (h2 : o.iFmt = "mA") (h3 : o.vMult = 1) (h4 : o.iMult = 1) :
    Through o 0 (0, 0) [(2e-3, 2e-6), (4e-3, 2e-4)] [(2, 0.002), (4, 0.2)] ∧
    Through o 5 (0, 0) [(2e-3, 2e-6), (4e-3, 2e-4)] [(2.01, 0.002), (5, 0.2)] := by
  have hv : voltUnit "mV" = 1e-3 := by simp [voltUnit]
  have hi : ampUnit "mA" = 1e-3 := by simp [ampUnit]
  constructor <;> unfold Through <;> rw [h1, h2, h3, h4, hv, hi] <;> norm_num

example (R : Routines) (S : RespFn.Splines) :
    (dcData R S [PARAMS] (.matrix (sweep [(2.01, 0.002), (5, 0.2)])) none (withSeries pumpedOnly 5)).1 =
      (dcData R S [PARAMS] (.matrix (sweep [(2, 0.002), (4, 0.2)])) none pumpedOnly).1.map fun d =>
        { d with dc := { d.dc with vraw := [2e-3 + 2e-6 * 5, 4e-3 + 2e-4 * 5], rseries := some 5 } } := by
  obtain ⟨o, ho, o1, o2, o3, o4, -, -, o5, o6, o7⟩ := pumpedOnly_opts
  obtain ⟨-, o8, o9⟩ := pumpedOnly_offsets ho
  obtain ⟨t1, t2⟩ := through_five o1 o2 o3 o4
  have key : ∀ rs : ℝ, 0 ≤ rs → ∃ a b, correctOffset R o (([(2e-3, 2e-6), (4e-3, 2e-4)] : List (ℝ × ℝ)).map fun p =>
      p.1 + p.2 * rs + ((0, 0) : ℝ × ℝ).1) (([(2e-3, 2e-6), (4e-3, 2e-4)] : List (ℝ × ℝ)).map fun p => p.2 + ((0, 0) : ℝ × ℝ).2) =
        .ok (a, b, (0, 0)) := fun rs hrs => by
    rw [C64_unipolar R o _ _ (by simp) (Or.inl (by
      intro t ht
      simp only [List.map_cons, List.map_nil, List.mem_cons, List.not_mem_nil, or_false] at ht
      rw [o9]
      rcases ht with rfl | rfl <;> norm_num [VRange.pair] <;> nlinarith)), o7, o8]
    exact ⟨_, _, rfl⟩
  exact C190_dc_object R S [PARAMS] (by simp) pumpedOnly o ho 5 (0, 0) _ _ _ (by simp) t1 t2 (by norm_num) (by norm_num) _ _ (Or.inl rfl)
    (Or.inl rfl) (by rw [o1]; simp) (by rw [o2]; simp) o6 o5 (by
      intro p hp
      simp only [List.mem_cons, List.not_mem_nil, or_false] at hp
      rcases hp with rfl | rfl <;> norm_num) (key 0 le_rfl) (key 5 (by norm_num))

example (R : Routines) (d : DCData) (hd : d.dc.offset = (0, 0)) :
    (pumpedData R [PARAMS] (.matrix (sweep [(2.01, 0.002), (5, 0.2)])) { d with dc := { d.dc with rseries := some 5 } } none none
      (withSeries pumpedOnly 5)).1 = (pumpedData R [PARAMS] (.matrix (sweep [(2, 0.002), (4, 0.2)])) d none none pumpedOnly).1.map
        fun p => { p with dc := { d.dc with rseries := some 5 } } := by
  obtain ⟨o, ho, o1, o2, o3, o4, -, -, o5, o6, o7⟩ := pumpedOnly_opts
  obtain ⟨t1, t2⟩ := through_five o1 o2 o3 o4
  have hpo : pumpedOffset o d.dc = (0, 0) := by
    unfold pumpedOffset
    rw [o7, hd]
  rw [← hpo] at t1 t2
  exact C190_pumped_object R [PARAMS] (by simp) pumpedOnly o ho 5 d _ ⟨d.dc.vraw, rfl⟩ _ _ _ (by simp) t1 t2 (by norm_num) (by norm_num)
    _ _ (Or.inl rfl) (Or.inl rfl) (by rw [o1]; simp) (by rw [o2]; simp) o6 o5 (by
      intro p hp
      simp only [List.mem_cons, List.not_mem_nil, or_false] at hp
      rcases hp with rfl | rfl <;> norm_num)

end QMix.Exp
