import Verif.Props.ExpData
import Verif.Props.RespFn2
import Verif.Lemmas.SlopeSpan2

/-!
# `DCData` end to end: it returns (C94), and a measured resistor is recovered (C93)
-/

namespace QMix.Exp

open QMix Np Fl IvData IfData Opt

/-- The parameters of the two response functions. -/
noncomputable def smearParams (s : Option ℝ) : RespFn.Params :=
  { maxNptsDc := 81, maxNptsKk := 101, maxInterpError := 0.001, checkError := false, vSmear := s, kkN := 50,
    splineOrder := 3 }

/-- The response function of a curve is always accepted, smeared or not. -/
theorem resp_returns (S : RespFn.Splines) {v i : List ℝ} {w : Val} {s : Option ℝ} (hw : asOptReal w = .ok s)
    (hs : ∀ x, s = some x → 1 / 600 ≤ x ∧ x ≤ 5) (hl : i.length = v.length)
    (hk : ∃ k, k < v.length ∧ 0 < v.getD k 0 ∧ v.getD k 0 < 1.8) :
    ∃ r, respFnFromIVData S v i (respOpts w) = .ok r := by
  obtain ⟨k, hkl, k0, k1⟩ := hk
  have hkept : RespFn.keptData v i ((some 1.8 : Option ℝ).getD 1.8) ≠ [] := by
    apply List.ne_nil_of_mem (a := (v.getD k 0, i.getD k 0))
    unfold RespFn.keptData
    rw [List.mem_filter]
    refine ⟨?_, by simpa using ⟨k0, k1⟩⟩
    rw [List.mem_iff_getElem?]
    refine ⟨k, ?_⟩
    rw [List.getElem?_zip_eq_some, List.getD_eq_getElem?_getD, List.getD_eq_getElem?_getD,
      List.getElem?_eq_getElem hkl, List.getElem?_eq_getElem (by omega)]
    exact ⟨rfl, rfl⟩
  have hp : respParams (respDefaults 81 101 (respOpts w)) = .ok (smearParams s) := by
    have e1 : item (respDefaults 101 151 (respDefaults 81 101 (respOpts w))) "v_smear" = .ok w := rfl
    have e2 : item (respDefaults 101 151 (respDefaults 81 101 (respOpts w))) "kk_n" = .ok (.int 50) := rfl
    have e3 : item (respDefaults 101 151 (respDefaults 81 101 (respOpts w))) "max_npts_dc" = .ok (.int 81) := rfl
    have e4 : item (respDefaults 101 151 (respDefaults 81 101 (respOpts w))) "max_npts_kk" = .ok (.int 101) := rfl
    have e5 : item (respDefaults 101 151 (respDefaults 81 101 (respOpts w))) "max_interp_error" = .ok (.num 0.001) := rfl
    have e6 : item (respDefaults 101 151 (respDefaults 81 101 (respOpts w))) "check_error" = .ok (.bool false) := rfl
    have e7 : item (respDefaults 101 151 (respDefaults 81 101 (respOpts w))) "spline_order" = .ok (.int 3) := rfl
    simp only [respParams, e1, e2, e3, e4, e5, e6, e7, py_bind, hw, asInt, asReal, truth]
    rfl
  obtain ⟨r, hr⟩ := RespFn.C78_data S (p := smearParams s) ⟨rfl, by norm_num [smearParams], by norm_num [smearParams], hs⟩
    hl hkept
  refine ⟨r, ?_⟩
  have e0 : getD (respDefaults 81 101 (respOpts w)) "vlimit" (.num 1.8) = .num 1.8 := rfl
  simp only [respFnFromIVData, e0, asReal, py_bind, hp]
  exact hr

/-- `DCData` returns if the analysis of the curve and of the IF data do. -/
theorem dc_core (R : Routines) (S : RespFn.Splines) (h : Heap) (hh : h ≠ []) (hP : deref h sharedAt = PARAMS)
    (m : Clean.Mat) (dcif : Option IfResp.Input) (kw : Dict) (o : Opts) (v i : List ℝ) (dc : DCIV) (area vleak : ℝ)
    (smear : Option ℝ) (ifs : Option ((List ℝ × List ℝ) × DCIF))
    (hifs : dcIf R PARAMS (update PARAMS kw) dc dcif = .ok ifs)
    (ho : ivOpts PARAMS (update PARAMS kw) = .ok o) (hc : dcivCurve R o (.matrix m) = .ok (v, i, dc))
    (hkw : ∀ k ∈ ["ivdata", "volt_v", "curr_a", "vmeas", "imeas"], kw k = none)
    (ha : Uses kw "area" asReal 1.5 area) (hl : Uses kw "vleak" asReal 2e-3 vleak)
    (hs : Uses kw "v_smear" asOptReal (some 0.020) smear)
    (hs' : ∀ x, smear = some x → 1 / 600 ≤ x ∧ x ≤ 5)
    (hk : ∃ k, k < v.length ∧ 0 < v.getD k 0 ∧ v.getD k 0 < 1.8) :
    ∃ d, (dcData R S h (.matrix m) dcif kw).1 = .ok d ∧ d.voltage = v ∧ d.current = i ∧ d.dc = dc ∧
      d.vleak = vleak ∧ d.ifs = ifs := by
  obtain ⟨-, -, l1, l2, hv, hg, -⟩ := C81_metadata R o _ _ _ _ hc
  have hlen : i.length = v.length := by omega
  have get : ∀ {α : Type} {k : String} {rd : Val → Py α} {d x : α} (v0 : Val), PARAMS k = some v0 → rd v0 = .ok d →
      Uses kw k rd d x → ∃ w, update PARAMS kw k = some w ∧ rd w = .ok x := by
    intro α k rd d x v0 h0 hd hu
    cases hk : kw k with
    | none =>
      refine ⟨v0, by simp [update, hk, h0], ?_⟩
      rw [hu.2 hk]
      exact hd
    | some w => exact ⟨w, by simp [update, hk], hu.1 w hk⟩
  obtain ⟨wa, ea, ra⟩ := get (rd := asReal) (.num 1.5) rfl rfl ha
  obtain ⟨wl, el, rl⟩ := get (rd := asReal) (.num 2e-3) rfl rfl hl
  obtain ⟨ws, es, rs⟩ := get (rd := asOptReal) (.num 0.020) rfl rfl hs
  obtain ⟨wc, ec⟩ : ∃ w, update PARAMS kw "comment" = some w := by
    cases hk : kw "comment" with
    | none => exact ⟨.str "", by simp only [update, hk, Option.orElse_none]; rfl⟩
    | some w => exact ⟨w, by simp [update, hk]⟩
  obtain ⟨wv, ev⟩ : ∃ w, update PARAMS kw "verbose" = some w := by
    cases hk : kw "verbose" with
    | none => exact ⟨.bool true, by simp only [update, hk, Option.orElse_none]; rfl⟩
    | some w => exact ⟨w, by simp [update, hk]⟩
  have hno : noClash (update PARAMS kw) ["ivdata", "volt_v", "curr_a", "vmeas", "imeas"] = .ok () := by
    rw [noClash_ok]
    intro k hk
    simp only [update, hkw k hk, Option.orElse_none]
    fin_cases hk <;> rfl
  obtain ⟨r1, hr1⟩ := resp_returns S (v := v) (i := i) (w := .none) (s := none) rfl (by simp) hlen hk
  obtain ⟨r2, hr2⟩ := resp_returns S (v := v) (i := i) rs hs' hlen hk
  have hx : Np.fdiv vleak dc.vgap = .ok (vleak / dc.vgap) := by
    unfold Np.fdiv
    rw [if_neg hg]
  obtain ⟨k, hk1, -⟩ := hk
  obtain ⟨L, E1, E2⟩ := exists_points hlen.symm
  have hLne : L ≠ [] := by
    rintro rfl
    rw [← E1] at hk1
    simp at hk1
  have hint : interp [vleak / dc.vgap] v i = .ok [interpAt L (vleak / dc.vgap)] := by
    rw [← E1, ← E2, interp_points hLne]
    rfl
  have hget : pyGet [interpAt L (vleak / dc.vgap)] 0 = .ok (interpAt L (vleak / dc.vgap)) := rfl
  have hres : dcInit R S PARAMS (update PARAMS kw) h.length (.matrix m) dcif = .ok
      { kwargs := h.length, comment := wc, vleak := vleak, voltage := v, current := i, dc := dc,
        q := Fl.fdiv (num dc.rsg) (num dc.rn), rna := dc.rn * area * 1e-12,
        jc := Fl.fdiv (num dc.vgap) (num (dc.rn * area * 1e-12)),
        ileak := interpAt L (vleak / dc.vgap) * dc.igap, resp := r1, respSmear := r2, ifs := ifs } := by
    simp only [dcInit, item, ec, es, el, ea, ev, getOpt, py_bind, hno, ho, hc, ra, rl, hx, hint, hget, hr1, hr2, hifs,
      raiseIf]
    rw [if_neg (by simp)]
    rfl
  have hd : (dcData R S h (.matrix m) dcif kw).1 =
      dcInit R S PARAMS (update PARAMS kw) h.length (.matrix m) dcif := by
    simp only [dcData, mergeOptions_eq, deref_append, deref_shared hh, hP]
  exact ⟨_, hd.trans hres, rfl, rfl, rfl, rfl, rfl⟩

/-- C94: `DCData` returns whenever the curve can be analysed, for all options of the right type: what is left
(properties of the junction and two response functions) never fails. `area`, `vleak` and `v_smear` are the
options; without IF data. -/
theorem C94_returns (R : Routines) (S : RespFn.Splines) (h : Heap) (hh : h ≠ []) (hP : deref h sharedAt = PARAMS)
    (m : Clean.Mat) (kw : Dict) (o : Opts) (v i : List ℝ) (dc : DCIV) (area vleak : ℝ) (smear : Option ℝ)
    (ho : ivOpts PARAMS (update PARAMS kw) = .ok o) (hc : dcivCurve R o (.matrix m) = .ok (v, i, dc))
    (hkw : ∀ k ∈ ["ivdata", "volt_v", "curr_a", "vmeas", "imeas"], kw k = none)
    (ha : Uses kw "area" asReal 1.5 area) (hl : Uses kw "vleak" asReal 2e-3 vleak)
    (hs : Uses kw "v_smear" asOptReal (some 0.020) smear)
    (hs' : ∀ x, smear = some x → 1 / 600 ≤ x ∧ x ≤ 5)
    (hk : ∃ k, k < v.length ∧ 0 < v.getD k 0 ∧ v.getD k 0 < 1.8) :
    ∃ d, (dcData R S h (.matrix m) none kw).1 = .ok d ∧ d.voltage = v ∧ d.current = i ∧ d.dc = dc ∧
      d.vleak = vleak ∧ d.ifs = none :=
  dc_core R S h hh hP m none kw o v i dc area vleak smear none rfl ho hc hkw ha hl hs hs' hk

/-- C93: a measured resistor, end to end. Voltages and currents (in any units) of a resistor `r`, measured from
`lo` to `hi`, up or down or in any order; the gap voltage is given as `g`, and nothing else but the format of the data
and the grid. Then `DCData` returns, with the normal resistance `r`, the quality factor 1, the gap current `g / r`, the
resistance-area product and critical current density of that resistance, and the leakage current of Ohm's law. -/
theorem C93_resistor (R : Routines) (S : RespFn.Splines) (h : Heap) (hh : h ≠ []) (hP : deref h sharedAt = PARAMS)
    (m : Clean.Mat) (kw : Dict) (r g lo hi area vleak : ℝ) (o : Opts)
    (ho : ivOpts PARAMS (update PARAMS kw) = .ok o)
    (hallow : ∀ k w, kw k = some w → k ∈ ["vgap", "v_fmt", "i_fmt", "v_multiplier", "i_multiplier", "npts", "vmax",
      "area", "vleak", "comment", "verbose"])
    (hvg : kw "vgap" = some (.num g)) (hg : 0 < g)
    (ha : Uses kw "area" asReal 1.5 area) (ha0 : area ≠ 0) (hlk : Uses kw "vleak" asReal 2e-3 vleak)
    (hc : m.ncol = 2) (hr : 0 < r) (hvf : o.vFmt ∈ ["uV", "mV", "V"]) (hif : o.iFmt ∈ ["uA", "mA", "A"])
    (hvm : 0 < o.vMult) (him : 0 < o.iMult)
    (hrow : ∀ w ∈ m.rows, ∃ x y : ℝ, w.getD 0 none = num x ∧ w.getD 1 none = num y ∧
      x * voltUnit o.vFmt * o.vMult = r * (y * ampUnit o.iFmt * o.iMult) ∧
      lo ≤ x * voltUnit o.vFmt * o.vMult ∧ x * voltUnit o.vFmt * o.vMult ≤ hi)
    (hlo : ∃ w ∈ m.rows, ∃ x : ℝ, w.getD 0 none = num x ∧ x * voltUnit o.vFmt * o.vMult = lo)
    (hhi : ∃ w ∈ m.rows, ∃ x : ℝ, w.getD 0 none = num x ∧ x * voltUnit o.vFmt * o.vMult = hi)
    (hsav : ∀ y, ∃ z, R.savgol y 21 3 = .ok z)
    (hlo1 : -1e-3 ≤ lo) (hlo2 : lo ≤ 1.9e-3) (hhi1 : 3.6e-3 ≤ hi) (hhi2 : hi < 5e3)
    (hn : 2 ≤ o.npts) (hstep : (hi - lo) / (o.npts - 1 : ℤ) ≤ 4e-5)
    (hgrid : ∃ k : ℕ, (k : ℤ) < o.npts ∧ 0 < -o.vmax + k * (2 * o.vmax / (o.npts - 1 : ℤ)) ∧
      -o.vmax + k * (2 * o.vmax / (o.npts - 1 : ℤ)) < 1.8 * g)
    (hleak : ∃ k : ℕ, ((k + 1 : ℕ) : ℤ) < o.npts ∧ lo ≤ -o.vmax + k * (2 * o.vmax / (o.npts - 1 : ℤ)) ∧
      -o.vmax + k * (2 * o.vmax / (o.npts - 1 : ℤ)) ≤ vleak ∧
      vleak ≤ -o.vmax + (k + 1 : ℕ) * (2 * o.vmax / (o.npts - 1 : ℤ)) ∧
      -o.vmax + (k + 1 : ℕ) * (2 * o.vmax / (o.npts - 1 : ℤ)) ≤ hi) (hvmax : 0 < o.vmax) :
    ∃ d, (dcData R S h (.matrix m) none kw).1 = .ok d ∧ d.dc.rn = r ∧ d.q = num 1 ∧ d.dc.vgap = g ∧
      d.dc.offset = (0, 0) ∧ d.dc.igap = g / r ∧ d.rna = r * (area * 1e-12) ∧ d.jc = num (g / r / (area * 1e-12)) ∧ d.ileak = vleak / r := by
  have hnone : ∀ k, k ∉ ["vgap", "v_fmt", "i_fmt", "v_multiplier", "i_multiplier", "npts", "vmax", "area", "vleak",
      "comment", "verbose"] → kw k = none := by
    intro k hk
    cases e : kw k with
    | none => rfl
    | some w => exact absurd (hallow k w e) hk
  obtain ⟨-, -, -, -, u5, u6, u7, u8, -, -, u11, u12, u13, u14, u15, u16, u17⟩ := C41_iv kw o ho
  have e5 := u5.2 (hnone _ (by decide))
  have e6 := u6.2 (hnone _ (by decide))
  have e7 := u7.2 (hnone _ (by decide))
  have e8 := u8.2 (hnone _ (by decide))
  have e11 := u11.2 (hnone _ (by decide))
  have e12 := u12.2 (hnone _ (by decide))
  have e13 := u13.2 (hnone _ (by decide))
  have e14 := u14.2 (hnone _ (by decide))
  have e15 := u15.2 (hnone _ (by decide))
  have e16 := u16.2 (hnone _ (by decide))
  have e17 : o.vgap = some g := by
    have := u17.1 _ hvg
    exact (Except.ok.inj this).symm
  have hD : (0 : ℝ) < ((o.npts - 1 : ℤ) : ℝ) := by exact_mod_cast (by omega : 0 < o.npts - 1)
  have hlt : lo < hi := by norm_num at hlo2 hhi1; linarith
  set st := (hi - lo) / ((o.npts - 1 : ℤ) : ℝ) with hst
  have hst0 : 0 < st := div_pos (by linarith) hD
  have hend : lo + ((o.npts - 1 : ℤ) : ℝ) * st = hi := by
    rw [hst]
    field_simp
    ring
  have hnorm : ∃ j k : ℕ, j < k ∧ (k : ℤ) < o.npts ∧ o.vrn.1 < lo + j * st ∧ lo + k * st < o.vrn.2 := by
    refine ⟨(o.npts - 2).toNat, (o.npts - 1).toNat, by omega, by omega, ?_, ?_⟩
    · have : (((o.npts - 2).toNat : ℕ) : ℝ) = ((o.npts - 1 : ℤ) : ℝ) - 1 := by
        have : (((o.npts - 2).toNat : ℕ) : ℤ) = o.npts - 1 - 1 := by omega
        exact_mod_cast this
      have h2 : lo + (((o.npts - 1 : ℤ) : ℝ) - 1) * st = hi - st := by
        rw [sub_mul]
        linarith
      rw [this, e15, h2]
      norm_num at hhi1 hstep ⊢
      linarith
    · have : (((o.npts - 1).toNat : ℕ) : ℝ) = ((o.npts - 1 : ℤ) : ℝ) := by
        have : (((o.npts - 1).toNat : ℕ) : ℤ) = o.npts - 1 := by omega
        exact_mod_cast this
      rw [this, e15, hend]
      exact hhi2
  have hsub : ∃ j k : ℕ, j < k ∧ (k : ℤ) < o.npts ∧ o.vrsg - 1e-4 < lo + j * st ∧
      lo + k * st < o.vrsg + 1e-4 := by
    have hf1 := Nat.lt_floor_add_one ((1.9e-3 - lo) / st)
    have hf2 := Nat.floor_le (a := (1.9e-3 - lo) / st) (div_nonneg (by linarith) hst0.le)
    set f := ⌊(1.9e-3 - lo) / st⌋₊
    rw [div_lt_iff₀ hst0] at hf1
    rw [le_div_iff₀ hst0] at hf2
    refine ⟨f + 1, f + 2, by omega, ?_, ?_, ?_⟩
    · have : ((f + 2 : ℕ) : ℝ) * st < ((o.npts - 1 : ℤ) : ℝ) * st := by
        push_cast
        push_cast at hend
        norm_num at hf2 hhi1 hstep
        nlinarith
      have := lt_of_mul_lt_mul_right this hst0.le
      have h3 : ((f + 2 : ℕ) : ℤ) < o.npts - 1 := by exact_mod_cast this
      omega
    · rw [e16]
      push_cast
      norm_num at hf1 ⊢
      linarith
    · rw [e16]
      push_cast
      norm_num at hf2 hstep ⊢
      nlinarith
  obtain ⟨v, i, dc, hcv, d1, d2, d0, -, d3, d4, d5⟩ := C85_resistor R o m r g lo hi hc hr hvf hif hvm him hrow hlo hhi
    hlt (by norm_num at hhi1; linarith) (Or.inl (by rw [e7]; simpa [VRange.pair] using hlo1)) e5 e6 e8 e17 hg e11 hn
    (by rw [e14]; norm_num) (by rw [e12]; norm_num) (by rw [e12]; have := Real.pi_gt_three; norm_num; linarith)
    (by rw [e13, e14]; exact hsav) hnorm hsub
  obtain ⟨-, -, l1, l2, hv, -⟩ := C81_metadata R o _ _ _ _ hcv
  rw [d4] at hv
  obtain ⟨d, hd, k1, k2, k3, k4, -⟩ := C94_returns R S h hh hP m kw o v i dc area vleak (some 0.020) ho hcv
    (fun k hk => hnone k (by fin_cases hk <;> decide)) ha hlk
    ⟨fun w hw => absurd ((hnone _ (by decide)).symm.trans hw) (by simp), fun _ => rfl⟩
    (fun x hx => by cases hx; norm_num) (by
      obtain ⟨k, k1, k2, k3⟩ := hgrid
      have hkl : k < v.length := by omega
      refine ⟨k, hkl, ?_, ?_⟩
      · rw [← hv k hkl] at k2
        exact (mul_pos_iff_of_pos_right hg).1 k2
      · rw [← hv k hkl] at k3
        exact lt_of_mul_lt_mul_right k3 hg.le)
  obtain ⟨-, j2, area', j3, j4, j5⟩ := C93_junction R S h hh hP _ _ kw d hd
  have harea : area' = area := by
    cases hk : kw "area" with
    | none => rw [j3.2 hk, ha.2 hk]
    | some w => exact Except.ok.inj ((j3.1 w hk).symm.trans (ha.1 w hk))
  rw [harea] at j4 j5
  rw [k3] at j2 j4 j5
  refine ⟨d, hd, by rw [k3, d1], by rw [j2, d1, d2, div_self hr.ne'], by rw [k3, d4],
    by rw [k3, d0], by rw [k3, d3], by rw [j4, d1], ?_, ?_⟩
  · obtain ⟨jc, a1, a2⟩ := j5 ha0
    rw [a1, ← d3, ← a2, mul_div_assoc, div_self (mul_ne_zero ha0 (by norm_num)), mul_one]
  · obtain ⟨k, b1, b2, b3, b4, b5⟩ := hleak
    have hkl : k + 1 < v.length := by omega
    have hs : 0 < 2 * o.vmax / ((o.npts - 1 : ℤ) : ℝ) := div_pos (by linarith) hD
    have hmono : -o.vmax + k * (2 * o.vmax / ((o.npts - 1 : ℤ) : ℝ)) ≤
        -o.vmax + (k + 1 : ℕ) * (2 * o.vmax / ((o.npts - 1 : ℤ) : ℝ)) := by
      rw [Nat.cast_succ, add_mul, one_mul]
      linarith
    have hvk := hv k (by omega)
    have hvk' := hv (k + 1) hkl
    obtain ⟨t, t0, t1, c1, c2⟩ := C93_leak R S h _ _ kw d hd (by rw [k3, d4]; exact hg)
      (by
        rw [k1]
        have h0 := hv 0 (by omega)
        have h1 := hv 1 (by omega)
        push_cast at h0 h1
        apply lt_of_mul_lt_mul_right (a := g) _ hg.le
        rw [h0, h1]
        push_cast at hs
        linarith) k (by rw [k1]; exact hkl)
      (by rw [k1, k3, d4, hvk, k4]; exact b3) (by rw [k1, k3, d4, hvk', k4]; exact b4)
    rw [k1, k3, d4, k4] at c1
    rw [k2, k3, d3] at c2
    have i1 := d5 k (by omega) (by rw [hvk]; exact b2) (by rw [hvk]; exact hmono.trans b5)
    have i2 := d5 (k + 1) hkl (by rw [hvk']; exact b2.trans hmono) (by rw [hvk']; exact b5)
    rw [i1, i2] at c2
    rw [c2, c1]
    field_simp

/-! ## Examples -/

/-- Only the gap voltage is given. -/
noncomputable def gapOnly : Dict := fun k => if k = "vgap" then some (.num 2.8e-3) else none

/-- The options for IV data are then the defaults. -/
theorem gapOnly_opts : ∃ o, ivOpts PARAMS (update PARAMS gapOnly) = .ok o ∧ o.vFmt = "mV" ∧ o.iFmt = "mA" ∧
    o.vMult = 1 ∧ o.iMult = 1 ∧ o.npts = 6001 ∧ o.vmax = 6e-3 := by
  have e : ∀ k v, PARAMS k = some v → k ≠ "vgap" → Opt.read PARAMS (update PARAMS gapOnly) k = .ok v := by
    intro k v hv hk
    simp only [Opt.read, item, hv, getOpt, py_bind, getD, update, gapOnly, if_neg hk, Option.orElse_none]
    rfl
  have e0 : Opt.read PARAMS (update PARAMS gapOnly) "vgap" = .ok (.num 2.8e-3) := rfl
  simp only [ivOpts, e0, e "v_fmt" _ rfl (by decide), e "i_fmt" _ rfl (by decide), e "v_multiplier" _ rfl (by decide),
    e "i_multiplier" _ rfl (by decide), e "rseries" _ rfl (by decide), e "vmax" _ rfl (by decide),
    e "npts" _ rfl (by decide), e "voffset" _ rfl (by decide), e "ioffset" _ rfl (by decide),
    e "voffset_range" _ rfl (by decide), e "filter_nwind" _ rfl (by decide), e "filter_npoly" _ rfl (by decide),
    e "filter_theta" _ rfl (by decide), e "filter_data" _ rfl (by decide), e "vrn" _ rfl (by decide),
    e "vrsg" _ rfl (by decide), py_bind, asReal, asOptReal, asInt, asUnit, asVRange, asPair, truth, pure, Except.pure]
  exact ⟨_, rfl, rfl, rfl, by norm_num, by norm_num, rfl, rfl⟩

/-- Three points of a resistor of 10 ohms, in mV and mA. -/
noncomputable def tenOhm : Clean.Mat where
  ncol := 2
  rows := [[num 2, num 0.2], [num 0, num 0], [num 4, num 0.4]]

/-- The hypotheses of C93 are met: three points, default options, gap voltage 2.8 mV. -/
theorem tenOhm_returns (S : RespFn.Splines) : ∃ d, (dcData ideal S [PARAMS] (.matrix tenOhm) none gapOnly).1 = .ok d ∧
    d.dc.rn = 10 ∧ d.q = num 1 ∧ d.dc.vgap = 2.8e-3 ∧ d.dc.offset = (0, 0) ∧ d.ileak = 2e-4 := by
  obtain ⟨o, ho, o1, o2, o3, o4, o5, o6⟩ := gapOnly_opts
  have hv : voltUnit "mV" = 1e-3 := by simp [voltUnit]
  have hi : ampUnit "mA" = 1e-3 := by simp [ampUnit]
  obtain ⟨d, h1, h2, h3, h4, h6, -, -, -, h5⟩ := C93_resistor ideal S [PARAMS] (by simp) rfl tenOhm gapOnly 10 2.8e-3 0 4e-3
    1.5 2e-3 o ho
    (by
      intro k w hk
      unfold gapOnly at hk
      split at hk
      · rename_i e; rw [e]; decide
      · cases hk)
    rfl (by norm_num) ⟨fun v hv => by simp [gapOnly] at hv, fun _ => rfl⟩ (by norm_num)
    ⟨fun v hv => by simp [gapOnly] at hv, fun _ => rfl⟩ rfl (by norm_num) (by rw [o1]; simp) (by rw [o2]; simp)
    (by rw [o3]; norm_num) (by rw [o4]; norm_num)
    (by
      rw [o1, o2, o3, o4, hv, hi]
      intro w hw
      simp only [tenOhm, List.mem_cons, List.not_mem_nil, or_false] at hw
      rcases hw with rfl | rfl | rfl
      · exact ⟨2, 0.2, rfl, rfl, by norm_num, by norm_num, by norm_num⟩
      · exact ⟨0, 0, rfl, rfl, by norm_num, by norm_num, by norm_num⟩
      · exact ⟨4, 0.4, rfl, rfl, by norm_num, by norm_num, by norm_num⟩)
    ⟨[num 0, num 0], by simp [tenOhm], 0, rfl, by simp⟩
    ⟨[num 4, num 0.4], by simp [tenOhm], 4, rfl, by rw [o1, o3, hv]; norm_num⟩
    (fun y => ⟨y, rfl⟩) (by norm_num) (by norm_num) (by norm_num) (by norm_num) (by rw [o5]; norm_num)
    (by rw [o5]; norm_num)
    ⟨3001, by rw [o5]; norm_num, by rw [o5, o6]; norm_num, by rw [o5, o6]; norm_num⟩
    ⟨4000, by rw [o5]; norm_num, by rw [o5, o6]; norm_num, by rw [o5, o6]; norm_num, by rw [o5, o6]; norm_num,
      by rw [o5, o6]; norm_num⟩ (by rw [o6]; norm_num)
  exact ⟨d, h1, h2, h3, h4, h6, by rw [h5]; norm_num⟩

/-! ## PumpedData -/

/-- The pumped curve can be analysed whenever the data are numbers with two different voltages. -/
theorem ivCurve_returns (R : Routines) (o : Opts) (m : Clean.Mat) (dc : DCIV) (hc : m.ncol = 2)
    (hv : o.vFmt ∈ ["uV", "mV", "V"]) (hi : o.iFmt ∈ ["uA", "mA", "A"]) (hvm : 0 < o.vMult)
    (hreal : ∀ r ∈ m.rows, ∃ x y : ℝ, r.getD 0 none = num x ∧ r.getD 1 none = num y)
    (h2 : ∃ r ∈ m.rows, ∃ r' ∈ m.rows, r.getD 0 none ≠ r'.getD 0 none)
    (hf : o.filterData = false) (hr : o.rseries = none) (hn : 0 ≤ o.npts) (hg : dc.vgap ≠ 0) (hig : dc.igap ≠ 0) :
    ∃ v i, ivCurve R o (.matrix m) dc = .ok (v, i) ∧ v.length = o.npts.toNat ∧ i.length = o.npts.toNat ∧
      v = (tab o.npts.toNat fun k => -o.vmax + k * ((o.vmax - -o.vmax) / (o.npts - 1 : ℤ))).map (· / dc.vgap) := by
  obtain ⟨raw, vm, im, e1, e2, e3⟩ := C83_accepted R o m hc hv hi hreal h2
  obtain ⟨L, hne, hL, ev, ei, -⟩ := loaded_corrected (pumpedOffset o dc) hvm e1 e2 e3
  have hi0 : ∃ cur, interp0 ((tab o.npts.toNat fun k => -o.vmax + k * ((o.vmax - -o.vmax) / (o.npts - 1 : ℤ))).map
      (· / dc.vgap)) ((L.map Prod.fst).map (· / dc.vgap)) ((L.map Prod.snd).map (· / dc.igap)) = .ok cur := by
    unfold interp0
    rw [raiseIf_neg (by simp), raiseIf_neg (by simpa using hne)]
    exact ⟨_, rfl⟩
  obtain ⟨cur, hcur⟩ := hi0
  refine ⟨_, cur, ?_, ?_, ?_, rfl⟩
  · unfold ivCurve
    rw [e1, py_bind, e2, py_bind, e3, py_bind, ev, ei]
    unfold filterIv
    rw [if_pos hf, py_bind, hr]
    unfold seriesResistance
    dsimp only
    rw [py_bind]
    dsimp only
    rw [toReals_num, py_bind, toReals_num, py_bind, div_one_elem hg, py_bind, div_one_elem hig, py_bind,
      IvData.linspace_eq (by omega), py_bind, div_one_elem hg, py_bind, hcur, py_bind]
    rfl
  · simp
  · rw [(interp0_ok hcur).2.1]
    simp

/-- `PumpedData` after the pumped curve: impedance recovery, then IF data. -/
theorem pumped_eq (R : Routines) (h : Heap) (hh : h ≠ []) (hP : deref h sharedAt = PARAMS)
    (m : Clean.Mat) (d : DCData) (hot cold : Option IfResp.Input) (kw : Dict) (o : Opts) (w : Val) (f : ℝ)
    (ho : ivOpts PARAMS (update PARAMS kw) = .ok o)
    (hkw : ∀ k ∈ ["dc", "ivdata", "volt_v", "curr_a", "vmeas", "imeas"], kw k = none)
    (hfreq : kw "freq" = some w) (hw : asReal w = .ok f)
    (hc : m.ncol = 2) (hv : o.vFmt ∈ ["uV", "mV", "V"]) (hi : o.iFmt ∈ ["uA", "mA", "A"]) (hvm : 0 < o.vMult)
    (hreal : ∀ r ∈ m.rows, ∃ x y : ℝ, r.getD 0 none = num x ∧ r.getD 1 none = num y)
    (h2 : ∃ r ∈ m.rows, ∃ r' ∈ m.rows, r.getD 0 none ≠ r'.getD 0 none)
    (hf : o.filterData = false) (hr : o.rseries = none) (hn : 32 ≤ o.npts)
    (hg : d.dc.vgap ≠ 0) (hig : d.dc.igap ≠ 0) (hfg : d.dc.fgap ≠ 0) :
    ∃ v i rd, ivCurve R o (.matrix m) d.dc = .ok (v, i) ∧ v ≠ [] ∧ v.length = i.length ∧
      (pumpedData R h (.matrix m) d hot cold kw).1 = (do
        let z ← pumpedZemb PARAMS (update PARAMS kw) d (f / d.dc.fgap * 1e9) v i
        let q ← pumpedIfs R PARAMS (update PARAMS kw) d v i hot cold
        pure { kwargs := h.length, dc := d.dc, freq := f, vph := f / d.dc.fgap * 1e9, voltage := v, current := i,
               rdyn := rd, zemb := z, ifs := q }) := by
  obtain ⟨v, i, hcur, lv, li, -⟩ := ivCurve_returns R o m d.dc hc hv hi hvm hreal h2 hf hr (by omega) hg hig
  have ef : update PARAMS kw "freq" = some w := by simp [update, hfreq]
  have some_of : ∀ k v, PARAMS k = some v → ∃ w, update PARAMS kw k = some w := by
    intro k v hv
    cases hk : kw k with
    | none => exact ⟨v, by simp [update, hk, hv]⟩
    | some w => exact ⟨w, by simp [update, hk]⟩
  obtain ⟨w1, h1⟩ := some_of "comment" _ rfl
  obtain ⟨w5, h5⟩ := some_of "verbose" _ rfl
  obtain ⟨w7, h7⟩ := some_of "analyze_if" _ rfl
  obtain ⟨b, eb⟩ := some_of "analyze_iv" _ rfl
  have hwn : w ≠ .none := by
    rintro rfl
    cases hw
  have epf : pumpedFreq (update PARAMS kw) (.matrix m) = .ok w := by
    simp only [pumpedFreq, item, h1, h5, ef, h7, eb, getOpt, py_bind, raiseIf]
    rw [if_neg (by simp), if_neg hwn, if_neg (by rintro ⟨t, rfl⟩; cases hw)]
    rfl
  have he : setKey (update PARAMS kw) "freq" w = update PARAMS kw := by
    funext k
    unfold setKey
    split
    · rename_i hk
      rw [hk, ef]
    · rfl
  have hno : noClash (update PARAMS kw) ["dc", "ivdata", "volt_v", "curr_a", "vmeas", "imeas"] = .ok () := by
    rw [noClash_ok]
    intro k hk
    simp only [update, hkw k hk, Option.orElse_none]
    fin_cases hk <;> rfl
  obtain ⟨rd, hrd⟩ : ∃ rd, finiteOrNone (MathFn.slopeSpanN i v 21 true) = .ok rd := by
    have := MathFn.slopeSpanN_finished i v 10 (by norm_num) (by omega) (by omega) true
    norm_num at this
    rcases this with ⟨l, hl, -⟩ | hl
    · rw [hl]; exact ⟨_, rfl⟩
    · rw [hl]; exact ⟨_, rfl⟩
  have hx : Np.fdiv f d.dc.fgap = .ok (f / d.dc.fgap) := by
    unfold Np.fdiv
    rw [if_neg hfg]
  have hd : (pumpedData R h (.matrix m) d hot cold kw).1 =
      pumpedInit R PARAMS (update PARAMS kw) h.length (.matrix m) d hot cold := by
    simp only [pumpedData, mergeOptions_eq, deref_append, hP, epf, write_append, he, deref_shared hh]
  refine ⟨v, i, rd, hcur, ?_, by omega, ?_⟩
  · intro h0
    rw [h0, List.length_nil] at lv
    omega
  · rw [hd]
    simp only [pumpedInit, item, ef, getOpt, py_bind, hw, hx, hno, ho, hcur, hrd]

/-- `PumpedData` returns if the analysis of the IF data and the impedance recovery do. -/
theorem pumped_core' (R : Routines) (h : Heap) (hh : h ≠ []) (hP : deref h sharedAt = PARAMS)
    (m : Clean.Mat) (d : DCData) (hot cold : Option IfResp.Input) (kw : Dict) (o : Opts) (w : Val) (f : ℝ)
    (ho : ivOpts PARAMS (update PARAMS kw) = .ok o)
    (hkw : ∀ k ∈ ["dc", "ivdata", "volt_v", "curr_a", "vmeas", "imeas"], kw k = none)
    (hfreq : kw "freq" = some w) (hw : asReal w = .ok f)
    (hc : m.ncol = 2) (hv : o.vFmt ∈ ["uV", "mV", "V"]) (hi : o.iFmt ∈ ["uA", "mA", "A"]) (hvm : 0 < o.vMult)
    (hreal : ∀ r ∈ m.rows, ∃ x y : ℝ, r.getD 0 none = num x ∧ r.getD 1 none = num y)
    (h2 : ∃ r ∈ m.rows, ∃ r' ∈ m.rows, r.getD 0 none ≠ r'.getD 0 none)
    (hf : o.filterData = false) (hr : o.rseries = none) (hn : 32 ≤ o.npts)
    (hg : d.dc.vgap ≠ 0) (hig : d.dc.igap ≠ 0) (hfg : d.dc.fgap ≠ 0)
    (hifs : ∀ v i : List ℝ, v ≠ [] → v.length = i.length →
      ∃ q, pumpedIfs R PARAMS (update PARAMS kw) d v i hot cold = .ok q)
    (hzemb : ∀ v i : List ℝ, ivCurve R o (.matrix m) d.dc = .ok (v, i) → v.length = i.length →
      ∃ z, pumpedZemb PARAMS (update PARAMS kw) d (f / d.dc.fgap * 1e9) v i = .ok z) :
    ∃ r, (pumpedData R h (.matrix m) d hot cold kw).1 = .ok r ∧
      pumpedZemb PARAMS (update PARAMS kw) d r.vph r.voltage r.current = .ok r.zemb ∧ r.freq = f ∧
      r.vph = f / d.dc.fgap * 1e9 ∧ ivCurve R o (.matrix m) d.dc = .ok (r.voltage, r.current) := by
  obtain ⟨v, i, rd, hcur, hne, hl, he⟩ := pumped_eq R h hh hP m d hot cold kw o w f ho hkw hfreq hw hc hv hi hvm hreal h2
    hf hr hn hg hig hfg
  obtain ⟨q, hq⟩ := hifs v i hne hl
  obtain ⟨z, hz⟩ := hzemb v i hcur hl
  rw [hz, py_bind, hq, py_bind] at he
  exact ⟨_, he, hz, rfl, rfl, hcur⟩

/-- The same without impedance recovery. -/
theorem pumped_core (R : Routines) (h : Heap) (hh : h ≠ []) (hP : deref h sharedAt = PARAMS)
    (m : Clean.Mat) (d : DCData) (hot cold : Option IfResp.Input) (kw : Dict) (o : Opts) (w : Val) (f : ℝ)
    (ho : ivOpts PARAMS (update PARAMS kw) = .ok o)
    (hkw : ∀ k ∈ ["dc", "ivdata", "volt_v", "curr_a", "vmeas", "imeas"], kw k = none)
    (hfreq : kw "freq" = some w) (hw : asReal w = .ok f)
    (hiv : ∃ b, kw "analyze_iv" = some b ∧ truth b = false)
    (hc : m.ncol = 2) (hv : o.vFmt ∈ ["uV", "mV", "V"]) (hi : o.iFmt ∈ ["uA", "mA", "A"]) (hvm : 0 < o.vMult)
    (hreal : ∀ r ∈ m.rows, ∃ x y : ℝ, r.getD 0 none = num x ∧ r.getD 1 none = num y)
    (h2 : ∃ r ∈ m.rows, ∃ r' ∈ m.rows, r.getD 0 none ≠ r'.getD 0 none)
    (hf : o.filterData = false) (hr : o.rseries = none) (hn : 32 ≤ o.npts)
    (hg : d.dc.vgap ≠ 0) (hig : d.dc.igap ≠ 0) (hfg : d.dc.fgap ≠ 0)
    (hifs : ∀ v i : List ℝ, v ≠ [] → v.length = i.length →
      ∃ q, pumpedIfs R PARAMS (update PARAMS kw) d v i hot cold = .ok q) :
    ∃ r, (pumpedData R h (.matrix m) d hot cold kw).1 = .ok r ∧ r.zemb = none ∧ r.freq = f ∧
      ivCurve R o (.matrix m) d.dc = .ok (r.voltage, r.current) := by
  obtain ⟨b, hb, hb'⟩ := hiv
  have eb : update PARAMS kw "analyze_iv" = some b := by simp [update, hb]
  have ez : ∀ vph v i, pumpedZemb PARAMS (update PARAMS kw) d vph v i = .ok none := by
    intro vph v i
    simp only [pumpedZemb, item, eb, getOpt, py_bind, hb']
    rfl
  obtain ⟨r, h1, h3, h4, -, h5⟩ := pumped_core' R h hh hP m d hot cold kw o w f ho hkw hfreq hw hc hv hi hvm hreal h2 hf
    hr hn hg hig hfg hifs (fun v i _ _ => ⟨none, ez _ _ _⟩)
  rw [ez] at h3
  exact ⟨r, h1, (Except.ok.inj h3).symm, h4, h5⟩

/-- C94: `PumpedData` returns for all data that are numbers with two different voltages, at least 32 points, a
number as frequency and options of the right type; without filter, impedance recovery and IF data. -/
theorem C94_returns_pumped (R : Routines) (h : Heap) (hh : h ≠ []) (hP : deref h sharedAt = PARAMS)
    (m : Clean.Mat) (d : DCData) (kw : Dict) (o : Opts) (w : Val) (f : ℝ)
    (ho : ivOpts PARAMS (update PARAMS kw) = .ok o)
    (hkw : ∀ k ∈ ["dc", "ivdata", "volt_v", "curr_a", "vmeas", "imeas"], kw k = none)
    (hfreq : kw "freq" = some w) (hw : asReal w = .ok f)
    (hiv : ∃ b, kw "analyze_iv" = some b ∧ truth b = false)
    (hc : m.ncol = 2) (hv : o.vFmt ∈ ["uV", "mV", "V"]) (hi : o.iFmt ∈ ["uA", "mA", "A"]) (hvm : 0 < o.vMult)
    (hreal : ∀ r ∈ m.rows, ∃ x y : ℝ, r.getD 0 none = num x ∧ r.getD 1 none = num y)
    (h2 : ∃ r ∈ m.rows, ∃ r' ∈ m.rows, r.getD 0 none ≠ r'.getD 0 none)
    (hf : o.filterData = false) (hr : o.rseries = none) (hn : 32 ≤ o.npts)
    (hg : d.dc.vgap ≠ 0) (hig : d.dc.igap ≠ 0) (hfg : d.dc.fgap ≠ 0) :
    ∃ r, (pumpedData R h (.matrix m) d none none kw).1 = .ok r ∧ r.zemb = none ∧ r.ifs = none ∧ r.freq = f ∧
      ivCurve R o (.matrix m) d.dc = .ok (r.voltage, r.current) := by
  have h7 : ∃ b, update PARAMS kw "analyze_if" = some b := by
    cases hk : kw "analyze_if" with
    | none => exact ⟨.bool true, by simp only [update, hk, Option.orElse_none]; rfl⟩
    | some w => exact ⟨w, by simp [update, hk]⟩
  obtain ⟨b, h7⟩ := h7
  obtain ⟨r, h1, h2, h3, h4⟩ := pumped_core R h hh hP m d none none kw o w f ho hkw hfreq hw hiv hc hv hi hvm hreal h2 hf hr
    hn hg hig hfg (fun v i _ _ => ⟨none, by simp only [pumpedIfs, item, h7, getOpt, py_bind]; rfl⟩)
  refine ⟨r, h1, h2, ?_, h3, h4⟩
  obtain ⟨⟨on, -, k⟩, -⟩ := C94_left_out R h hh hP _ d none none kw r h1
  simpa using k

theorem zip_length {α β γ : Type} {f : α → β → γ} {a : List α} {b : List β} {r : List γ} (h : Np.zip f a b = .ok r)
    (hl : a.length = b.length) : r.length = a.length := by
  unfold Np.zip at h
  rw [if_pos hl] at h
  cases h
  rw [List.length_zipWith, ← hl, min_self]

/-- The index of the best point is one of the points. -/
theorem ifData_index {R : Routines} {o : IfOpts} {t : TnOpts} {dc : DCIV} {dcif : Option DCIF} {m m' : Clean.Mat}
    (hm : m.ncol = 2) (hw : m.WF) (hm' : m'.ncol = 2) (hw' : m'.WF) {q : IfResult} {k : ℕ} {c : DCIF}
    (h : ifData R o t dc dcif (.matrix m) (.matrix m') = .ok (q, k, c)) :
    k < q.v.length ∧ q.tn.length = q.v.length ∧ q.gain.length = q.v.length := by
  simp only [ifData, bind_ok_iff] at h
  obtain ⟨H, hH, C, hC, c', -, res, hres, vm, -, h⟩ := h
  rw [pure_ok_iff] at h
  simp only [Prod.mk.injEq] at h
  obtain ⟨rfl, rfl, -⟩ := h
  obtain ⟨-, l1, l2, -⟩ := C88_grid R.sorter o dc m H hm hw hH
  obtain ⟨-, l3, l4, -⟩ := C88_grid R.sorter o dc m' C hm' hw' hC
  simp only [findTnGain, bind_ok_iff] at hres
  obtain ⟨f, -, th, -, tc, -, ne, -, -, -, tn, htn, gain, hgain, idx, hbest, hres⟩ := hres
  rw [pure_ok_iff] at hres
  subst hres
  have k1 := zip_length htn (by simp [l1, l2, l3, l4])
  have k2 := zip_length hgain (by simp [l1, l2, l3, l4])
  have k3 : tn.length = H.1.length := by rw [k1]; simp [l1, l2]
  have k4 : gain.length = H.1.length := by rw [k2]; simp [l1, l2]
  refine ⟨?_, k3, k4⟩
  show idx < H.1.length
  unfold bestPoint at hbest
  split at hbest
  · have := argBest_lt hbest
    simpa [l1, l2] using this
  · split at hbest
    · have := argBest_lt hbest
      omega
    · split at hbest
      · simp only [bind_ok_iff, nanargmin] at hbest
        obtain ⟨x, -, -, -, hb⟩ := hbest
        have := argBest_lt hb
        simp only [List.length_map] at this
        omega
      · cases hbest

/-- C95: with IF data for both loads (two columns each), `PumpedData` returns whenever the IF data can be analysed:
what follows (best point and output resistance) never fails. Otherwise as C94. -/
theorem C95_returns (R : Routines) (h : Heap) (hh : h ≠ []) (hP : deref h sharedAt = PARAMS)
    (m hot cold : Clean.Mat) (d : DCData) (kw : Dict) (o : Opts) (oi : IfOpts) (ot : TnOpts) (w : Val) (f : ℝ)
    (ho : ivOpts PARAMS (update PARAMS kw) = .ok o) (hoi : ifOpts PARAMS (update PARAMS kw) = .ok oi)
    (hot' : tnOpts PARAMS (update PARAMS kw) = .ok ot)
    (hkw : ∀ k ∈ ["dc", "ivdata", "volt_v", "curr_a", "vmeas", "imeas", "dcif", "if_hot", "if_cold", "ifdata", "if_data",
      "if_data_hot", "if_data_cold"], kw k = none)
    (hfreq : kw "freq" = some w) (hw : asReal w = .ok f)
    (hiv : ∃ b, kw "analyze_iv" = some b ∧ truth b = false) (haif : kw "analyze_if" = none)
    (hc : m.ncol = 2) (hv : o.vFmt ∈ ["uV", "mV", "V"]) (hi : o.iFmt ∈ ["uA", "mA", "A"]) (hvm : 0 < o.vMult)
    (hreal : ∀ r ∈ m.rows, ∃ x y : ℝ, r.getD 0 none = num x ∧ r.getD 1 none = num y)
    (h2 : ∃ r ∈ m.rows, ∃ r' ∈ m.rows, r.getD 0 none ≠ r'.getD 0 none)
    (hf : o.filterData = false) (hr : o.rseries = none) (hn : 32 ≤ o.npts)
    (hg : d.dc.vgap ≠ 0) (hig : d.dc.igap ≠ 0) (hfg : d.dc.fgap ≠ 0)
    (c1 : hot.ncol = 2) (c2 : hot.WF) (c3 : cold.ncol = 2) (c4 : cold.WF)
    (hifd : ∃ q, ifData R oi ot d.dc (d.ifs.map Prod.snd) (.matrix hot) (.matrix cold) = .ok q) :
    ∃ r p, (pumpedData R h (.matrix m) d (some (.matrix hot)) (some (.matrix cold)) kw).1 = .ok r ∧ r.ifs = some p := by
  have h7 : update PARAMS kw "analyze_if" = some (.bool true) := by
    simp only [update, haif, Option.orElse_none]
    rfl
  obtain ⟨⟨q, k, c⟩, hq⟩ := hifd
  obtain ⟨k1, k2, k3⟩ := ifData_index c1 c2 c3 c4 hq
  have hno : noClash (update PARAMS kw)
      ["dcif", "dc", "if_hot", "if_cold", "ifdata", "if_data", "if_data_hot", "if_data_cold"] = .ok () := by
    rw [noClash_ok]
    intro k hk
    simp only [update, hkw k (by fin_cases hk <;> simp), Option.orElse_none]
    fin_cases hk <;> rfl
  have get : ∀ {α : Type} {l : List α}, k < l.length → ∃ a, pyGet l (k : ℤ) = .ok a := by
    intro α l hl
    exact ⟨_, pyGet_ok_of_getElem? (i := k) (by rw [pyIndex_nonneg (by omega) (by omega)]; simp)
      (List.getElem?_eq_getElem hl)⟩
  obtain ⟨tb, htb⟩ := get (l := q.tn) (by omega)
  obtain ⟨gb, hgb⟩ := get (l := q.gain) (by omega)
  obtain ⟨vb, hvb⟩ := get (l := q.v) k1
  have hcore : ∀ v i : List ℝ, v ≠ [] → v.length = i.length → ∃ p, pumpedIfs R PARAMS (update PARAMS kw) d v i
      (some (.matrix hot)) (some (.matrix cold)) = .ok (some p) := by
    intro v i hne hl
    obtain ⟨n, hn⟩ : ∃ n, argmin (v.map fun x => |x - vb|) = .ok n := by
      cases v with
      | nil => exact absurd rfl hne
      | cons a l => exact ⟨_, rfl⟩
    have hnl : n < v.length := by
      obtain ⟨x, hx, -⟩ := argmin_spec hn
      have := (List.getElem?_eq_some_iff.1 hx).1
      simpa using this
    obtain ⟨z, hz⟩ : ∃ z, bestRdyn R d.dc.rn vb v i = .ok z := by
      have hs1 := slice_nat v n (n + 10)
      have hs2 := slice_nat i n (n + 10)
      push_cast at hs1 hs2
      unfold bestRdyn
      rw [hn, py_bind, hs1, hs2]
      unfold polyfit
      rw [raiseIf_neg (by
        intro h0
        have := congrArg List.length h0
        simp at this
        omega), raiseIf_neg (by simp [hl])]
      exact ⟨_, rfl⟩
    simp only [pumpedIfs, item, h7, getOpt, py_bind, truth, if_true, pumpedIf, hno, hoi, hot', hq, htb, hgb, hvb, hz]
    exact ⟨_, rfl⟩
  obtain ⟨r, h1, h2, h3, h4⟩ := pumped_core R h hh hP m d _ _ kw o w f ho
    (fun k hk => hkw k (by fin_cases hk <;> simp)) hfreq hw hiv hc hv hi hvm hreal h2 hf hr
    hn hg hig hfg (fun v i hne hl => ⟨_, (hcore v i hne hl).choose_spec⟩)
  obtain ⟨⟨on, hon, k⟩, -⟩ := C94_left_out R h hh hP _ d _ _ kw r h1
  have : r.ifs.isSome := k.2 ⟨rfl, rfl, hon.2 haif⟩
  exact ⟨r, r.ifs.get this, h1, by simp⟩

/-- C96: a pumped curve that is a straight line of resistance `ρ`, measured over the whole range, end to end: the
dynamic resistance times the normal resistance is `ρ` at every point. -/
theorem C96_line (R : Routines) (h : Heap) (hh : h ≠ []) (hP : deref h sharedAt = PARAMS)
    (m : Clean.Mat) (d : DCData) (kw : Dict) (o : Opts) (w : Val) (f ρ i0 : ℝ)
    (ho : ivOpts PARAMS (update PARAMS kw) = .ok o)
    (hkw : ∀ k ∈ ["dc", "ivdata", "volt_v", "curr_a", "vmeas", "imeas"], kw k = none)
    (hfreq : kw "freq" = some w) (hw : asReal w = .ok f)
    (hiv : ∃ b, kw "analyze_iv" = some b ∧ truth b = false)
    (hc : m.ncol = 2) (hv : o.vFmt ∈ ["uV", "mV", "V"]) (hi : o.iFmt ∈ ["uA", "mA", "A"]) (hvm : 0 < o.vMult)
    (hρ : ρ ≠ 0)
    (hrow : ∀ r ∈ m.rows, ∃ x y : ℝ, r.getD 0 none = num x ∧ r.getD 1 none = num y ∧
      y * ampUnit o.iFmt * o.iMult = x * voltUnit o.vFmt * o.vMult / ρ + i0)
    (hlo : ∃ r ∈ m.rows, ∃ x : ℝ, r.getD 0 none = num x ∧
      x * voltUnit o.vFmt * o.vMult - (pumpedOffset o d.dc).1 ≤ -o.vmax)
    (hhi : ∃ r ∈ m.rows, ∃ x : ℝ, r.getD 0 none = num x ∧
      o.vmax ≤ x * voltUnit o.vFmt * o.vMult - (pumpedOffset o d.dc).1) (hmax : 0 < o.vmax)
    (hf : o.filterData = false) (hr : o.rseries = none) (hn : 32 ≤ o.npts)
    (hg : 0 < d.dc.vgap) (hig : d.dc.igap * d.dc.rn = d.dc.vgap) (hfg : d.dc.fgap ≠ 0) :
    ∃ r l, (pumpedData R h (.matrix m) d none none kw).1 = .ok r ∧ r.rdyn = some l ∧ (l.length : ℤ) = o.npts ∧
      ∀ x ∈ l, x * d.dc.rn = ρ := by
  have hrn : d.dc.rn ≠ 0 := by
    rintro h0
    rw [h0, mul_zero] at hig
    exact hg.ne hig
  have hig0 : d.dc.igap ≠ 0 := by
    rintro h0
    rw [h0, zero_mul] at hig
    exact hg.ne hig
  have hD : (0 : ℝ) < ((o.npts - 1 : ℤ) : ℝ) := by exact_mod_cast (by omega : 0 < o.npts - 1)
  have hreal : ∀ r ∈ m.rows, ∃ x y : ℝ, r.getD 0 none = num x ∧ r.getD 1 none = num y :=
    fun r hr => by obtain ⟨x, y, h1, h2, -⟩ := hrow r hr; exact ⟨x, y, h1, h2⟩
  have h2 : ∃ r ∈ m.rows, ∃ r' ∈ m.rows, r.getD 0 none ≠ r'.getD 0 none := by
    obtain ⟨r, hr, x, hx, h1⟩ := hlo
    obtain ⟨r', hr', x', hx', h2⟩ := hhi
    refine ⟨r, hr, r', hr', ?_⟩
    rw [hx, hx']
    intro he
    rw [Fl.num_inj.1 he] at h1
    linarith
  obtain ⟨r, hp, -, -, -, hcur⟩ := C94_returns_pumped R h hh hP m d kw o w f ho hkw hfreq hw hiv hc hv hi hvm hreal h2
    hf hr hn hg.ne' hig0 hfg
  obtain ⟨v, i, hcur', lv, li, ev⟩ := ivCurve_returns R o m d.dc hc hv hi hvm hreal h2 hf hr (by omega) hg.ne' hig0
  rw [hcur] at hcur'
  simp only [Except.ok.injEq, Prod.mk.injEq] at hcur'
  obtain ⟨rfl, rfl⟩ := hcur'
  obtain ⟨-, L, hne, hL, hmem, ⟨pa, pa1, pa2⟩, ⟨pb, pb1, pb2⟩, hM, hint⟩ := iv_points hcur hf hr hvm hg
  have gv : ∀ k, k < r.voltage.length → r.voltage.getD k 0 =
      (-o.vmax + k * ((o.vmax - -o.vmax) / (o.npts - 1 : ℤ))) / d.dc.vgap := by
    intro k hk
    rw [lv] at hk
    rw [ev, List.getD_eq_getElem?_getD, List.getElem?_map, tab_get?, if_pos hk]
    rfl
  have hst : 0 < (o.vmax - -o.vmax) / ((o.npts - 1 : ℤ) : ℝ) := div_pos (by linarith) hD
  have hrange : ∀ k, k < r.voltage.length → -o.vmax / d.dc.vgap ≤ r.voltage.getD k 0 ∧
      r.voltage.getD k 0 ≤ o.vmax / d.dc.vgap := by
    intro k hk
    rw [gv k hk, div_le_div_iff_of_pos_right hg, div_le_div_iff_of_pos_right hg]
    have hk1 : (k : ℝ) ≤ ((o.npts - 1 : ℤ) : ℝ) := by
      have : (k : ℤ) ≤ o.npts - 1 := by omega
      exact_mod_cast this
    have hk2 : (0 : ℝ) ≤ k := by positivity
    constructor
    · nlinarith
    · have : ((o.npts - 1 : ℤ) : ℝ) * ((o.vmax - -o.vmax) / ((o.npts - 1 : ℤ) : ℝ)) = 2 * o.vmax := by
        field_simp
        ring
      nlinarith
  set off := pumpedOffset o d.dc
  set s := d.dc.rn / ρ with hs
  set c := (i0 + off.1 / ρ - off.2) / d.dc.igap with hcdef
  have hline : ∀ p ∈ L.map fun p => (p.1 / d.dc.vgap, p.2 / d.dc.igap), p.2 = s * p.1 + c := by
    intro p hp
    obtain ⟨q, hq, rfl⟩ := List.mem_map.1 hp
    obtain ⟨w, hw, x, y, hx, hy, rfl⟩ := hmem q hq
    obtain ⟨x', y', hx', hy', h1⟩ := hrow w hw
    rw [hx, Fl.num_inj] at hx'
    rw [hy, Fl.num_inj] at hy'
    subst hx' hy'
    dsimp only
    rw [h1, hs, hcdef, ← hig]
    field_simp
    ring
  have hend1 : ∃ p ∈ L.map fun p => (p.1 / d.dc.vgap, p.2 / d.dc.igap), p.1 ≤ -o.vmax / d.dc.vgap := by
    obtain ⟨w, hw, x, hx, h1⟩ := hlo
    obtain ⟨x', y', hx', hy', -⟩ := hrow w hw
    rw [hx, Fl.num_inj] at hx'
    subst hx'
    refine ⟨_, List.mem_map.2 ⟨pa, pa1, rfl⟩, ?_⟩
    dsimp only
    rw [div_le_div_iff_of_pos_right hg]
    exact (pa2 _ ⟨w, hw, x, y', hx, hy', rfl⟩).trans h1
  have hend2 : ∃ p ∈ L.map fun p => (p.1 / d.dc.vgap, p.2 / d.dc.igap), o.vmax / d.dc.vgap ≤ p.1 := by
    obtain ⟨w, hw, x, hx, h1⟩ := hhi
    obtain ⟨x', y', hx', hy', -⟩ := hrow w hw
    rw [hx, Fl.num_inj] at hx'
    subst hx'
    refine ⟨_, List.mem_map.2 ⟨pb, pb1, rfl⟩, ?_⟩
    dsimp only
    rw [div_le_div_iff_of_pos_right hg]
    exact h1.trans (pb2 _ ⟨w, hw, x, y', hx, hy', rfl⟩)
  have gi : ∀ k, k < r.voltage.length → r.current.getD k 0 = s * r.voltage.getD k 0 + c := by
    intro k hk
    obtain ⟨h1, h2⟩ := hrange k hk
    obtain ⟨p, hp, hp'⟩ := hend1
    obtain ⟨q, hq, hq'⟩ := hend2
    rw [interp0_inside hint hk ⟨p.1, List.mem_map_of_mem hp, hp'.trans h1⟩ ⟨q.1, List.mem_map_of_mem hq, h2.trans hq'⟩]
    exact interpAt_line _ hM _ s c hline ⟨p, hp, hp'.trans h1⟩ ⟨q, hq, h2.trans hq'⟩
  have hcv : r.current = r.voltage.map fun t => s * t + c := by
    apply List.ext_getElem
    · rw [List.length_map, lv, li]
    · intro k hk1 hk2
      rw [List.length_map] at hk2
      have := gi k hk2
      rw [List.getD_eq_getElem?_getD, List.getD_eq_getElem?_getD, List.getElem?_eq_getElem hk1,
        List.getElem?_eq_getElem hk2] at this
      rw [List.getElem_map]
      exact this
  have hnd : r.voltage.Nodup := by
    have : r.voltage.Pairwise (· < ·) := by
      rw [ev]
      unfold tab
      rw [List.map_map, List.pairwise_map]
      apply List.pairwise_lt_range.imp
      intro p q hpq
      have : (p : ℝ) < q := by exact_mod_cast hpq
      simp only [Function.comp]
      rw [div_lt_div_iff_of_pos_right hg]
      nlinarith
    exact this.imp fun hab => ne_of_lt hab
  have hs0 : s ≠ 0 := div_ne_zero hrn hρ
  obtain ⟨l, hl1, hl2, hl3⟩ := C96_straight R h hh hP _ d _ _ kw r s c hs0 hp (by omega) hnd hcv
  refine ⟨r, l, hp, hl1, by omega, fun x hx => ?_⟩
  have := hl3 x hx
  rw [hs] at this
  field_simp at this
  exact this

/-- Options of a pumped measurement. -/
noncomputable def pumpedOnly : Dict := fun k =>
  List.lookup k [("freq", .num 230), ("analyze_iv", .bool false), ("filter_data", .bool false)]

theorem pumpedOnly_opts : ∃ o, ivOpts PARAMS (update PARAMS pumpedOnly) = .ok o ∧ o.vFmt = "mV" ∧ o.iFmt = "mA" ∧
    o.vMult = 1 ∧ o.iMult = 1 ∧ o.npts = 6001 ∧ o.vmax = 6e-3 ∧ o.filterData = false ∧ o.rseries = none ∧
    o.voffset = none := by
  have e : ∀ k v, PARAMS k = some v → k ∉ ["freq", "analyze_iv", "filter_data"] →
      Opt.read PARAMS (update PARAMS pumpedOnly) k = .ok v := by
    intro k v hv hk
    have : pumpedOnly k = none := by
      simp only [List.mem_cons, List.not_mem_nil, or_false, not_or] at hk
      obtain ⟨h1, h2, h3⟩ := hk
      simp [pumpedOnly, List.lookup, beq_false_of_ne h1, beq_false_of_ne h2, beq_false_of_ne h3]
    simp only [Opt.read, item, hv, getOpt, py_bind, getD, update, this, Option.orElse_none]
    rfl
  have e0 : Opt.read PARAMS (update PARAMS pumpedOnly) "filter_data" = .ok (.bool false) := rfl
  simp only [ivOpts, e0, e "v_fmt" _ rfl (by decide), e "i_fmt" _ rfl (by decide), e "v_multiplier" _ rfl (by decide),
    e "i_multiplier" _ rfl (by decide), e "rseries" _ rfl (by decide), e "vmax" _ rfl (by decide),
    e "npts" _ rfl (by decide), e "voffset" _ rfl (by decide), e "ioffset" _ rfl (by decide),
    e "voffset_range" _ rfl (by decide), e "filter_nwind" _ rfl (by decide), e "filter_npoly" _ rfl (by decide),
    e "filter_theta" _ rfl (by decide), e "vgap" _ rfl (by decide), e "vrn" _ rfl (by decide),
    e "vrsg" _ rfl (by decide), py_bind, asReal, asOptReal, asInt, asUnit, asVRange, asPair, truth, pure, Except.pure]
  exact ⟨_, rfl, rfl, rfl, by norm_num, by norm_num, rfl, rfl, rfl, rfl, rfl⟩

/-- A pumped measurement: 20 ohms from -8 to 8 mV, with an offset current. -/
noncomputable def twentyOhm : Clean.Mat where
  ncol := 2
  rows := [[num (-8), num (-0.3)], [num 8, num 0.5]]

/-- The hypotheses of C94 and C96 are met: the 10 ohm junction from above and a pumped curve of 20 ohms. -/
example (S : RespFn.Splines) : ∃ d r l, (dcData ideal S [PARAMS] (.matrix tenOhm) none gapOnly).1 = .ok d ∧
    (pumpedData ideal [PARAMS] (.matrix twentyOhm) d none none pumpedOnly).1 = .ok r ∧ r.rdyn = some l ∧
    l.length = 6001 ∧ (∀ x ∈ l, x = 2) ∧ r.zemb = none ∧ r.ifs = none := by
  obtain ⟨d, hd, d1, -, d2, d3, -⟩ := tenOhm_returns S
  obtain ⟨o, ho, o1, o2, o3, o4, o5, o6, o7, o8, o9⟩ := pumpedOnly_opts
  have hv : voltUnit "mV" = 1e-3 := by simp [voltUnit]
  have hi : ampUnit "mA" = 1e-3 := by simp [ampUnit]
  have hd' := hd
  simp only [dcData, mergeOptions_eq, deref_append] at hd'
  obtain ⟨-, -, ⟨o', -, hc⟩, -⟩ := dcInit_parts hd'
  obtain ⟨-, -, -, -, -, -, hrn, hig, hfg, -⟩ := C81_metadata ideal o' _ _ _ _ hc
  have hoff : pumpedOffset o d.dc = (0, 0) := by
    unfold pumpedOffset
    rw [o9, d3]
  obtain ⟨r, l, h1, h2, h3, h4⟩ := C96_line ideal [PARAMS] (by simp) rfl twentyOhm d pumpedOnly o (.num 230) 230 20 1e-4
    ho (fun k hk => by fin_cases hk <;> rfl) rfl rfl ⟨.bool false, rfl, rfl⟩ rfl (by rw [o1]; simp) (by rw [o2]; simp)
    (by rw [o3]; norm_num) (by norm_num)
    (by
      rw [o1, o2, o3, o4, hv, hi]
      intro w hw
      simp only [twentyOhm, List.mem_cons, List.not_mem_nil, or_false] at hw
      rcases hw with rfl | rfl
      · exact ⟨-8, -0.3, rfl, rfl, by norm_num⟩
      · exact ⟨8, 0.5, rfl, rfl, by norm_num⟩)
    ⟨_, by simp only [twentyOhm]; exact List.mem_cons_self, -8, rfl, by rw [o1, o3, o6, hv, hoff]; norm_num⟩
    ⟨[num 8, num 0.5], by simp [twentyOhm], 8, rfl, by rw [o1, o3, o6, hv, hoff]; norm_num⟩
    (by rw [o6]; norm_num) o7 o8 (by rw [o5]; norm_num) (by rw [d2]; norm_num) hig
    (by rw [hfg, d2]; norm_num)
  rw [d1] at h4
  obtain ⟨⟨on, -, k1⟩, on', u, k2⟩ := C94_left_out ideal [PARAMS] (by simp) rfl _ d none none pumpedOnly r h1
  refine ⟨d, r, l, hd, h1, h2, by omega, fun x hx => by linarith [h4 x hx], ?_, ?_⟩
  · have : on' = false := (Except.ok.inj (u.1 (.bool false) rfl)).symm
    rw [this] at k2
    simpa using k2
  · simpa using k1
/-- C94: a keyword that is also the name of a parameter of one of the inner functions is refused. -/
theorem C94_clash (R : Routines) (h : Heap) (hh : h ≠ []) (hP : deref h sharedAt = PARAMS) (m : Clean.Mat) (kw : Dict)
    (k : String) (v : Val) (hk : kw k = some v) :
    (k ∈ ["ivdata", "volt_v", "curr_a", "vmeas", "imeas"] →
      ∀ S dcif, (dcData R S h (.matrix m) dcif kw).1 = .error .type) ∧
    (k ∈ ["dc", "ivdata", "volt_v", "curr_a", "vmeas", "imeas"] →
      ∀ d hot cold w f, kw "freq" = some w → asReal w = .ok f → d.dc.fgap ≠ 0 →
        (pumpedData R h (.matrix m) d hot cold kw).1 = .error .type) := by
  have some_of : ∀ k v, PARAMS k = some v → ∃ w, update PARAMS kw k = some w := by
    intro k v hv
    cases hk : kw k with
    | none => exact ⟨v, by simp [update, hk, hv]⟩
    | some w => exact ⟨w, by simp [update, hk]⟩
  obtain ⟨w1, h1⟩ := some_of "comment" _ rfl
  obtain ⟨w2, h2⟩ := some_of "v_smear" _ rfl
  obtain ⟨w3, h3⟩ := some_of "vleak" _ rfl
  obtain ⟨w4, h4⟩ := some_of "area" _ rfl
  obtain ⟨w5, h5⟩ := some_of "verbose" _ rfl
  have hu : update PARAMS kw k = some v := by simp [update, hk]
  have clash : ∀ names, k ∈ names → noClash (update PARAMS kw) names = .error .type := by
    intro names hn
    unfold noClash
    rw [if_pos]
    rw [List.any_eq_true]
    exact ⟨k, hn, by rw [hu]; rfl⟩
  constructor
  · intro hm S dcif
    simp only [dcData, mergeOptions_eq, deref_append, hP]
    simp only [dcInit, item, h1, h2, h3, h4, h5, getOpt, py_bind]
    simp only [raiseIf]
    rw [if_neg (by simp), py_bind, clash _ hm]
    rfl
  · intro hm d hot cold w f hf hw hg
    obtain ⟨w7, h7⟩ := some_of "analyze_if" _ rfl
    obtain ⟨w8, h8⟩ := some_of "analyze_iv" _ rfl
    have ef : update PARAMS kw "freq" = some w := by simp [update, hf]
    have hwn : w ≠ .none := by
      rintro rfl
      cases hw
    have epf : pumpedFreq (update PARAMS kw) (.matrix m) = .ok w := by
      simp only [pumpedFreq, item, h1, h5, ef, h7, h8, getOpt, py_bind, raiseIf]
      rw [if_neg (by simp), if_neg hwn, if_neg (by rintro ⟨t, rfl⟩; cases hw)]
      rfl
    have he : setKey (update PARAMS kw) "freq" w = update PARAMS kw := by
      funext k
      unfold setKey
      split
      · rename_i hk
        rw [hk, ef]
      · rfl
    simp only [pumpedData, mergeOptions_eq, deref_append, hP, epf, write_append, he]
    simp only [pumpedInit, item, ef, getOpt, py_bind, hw]
    unfold Np.fdiv
    rw [if_neg hg, py_bind, clash _ hm]
    rfl

/-- A keyword `dc` in addition to the positional argument. -/
example (d : DCData) (hd : d.dc.fgap ≠ 0) :
    (pumpedData ideal [PARAMS] (.matrix twentyOhm) d none none
      (fun k => List.lookup k [("freq", .num 230), ("dc", .num 1)])).1 = .error .type :=
  (C94_clash ideal [PARAMS] (by simp) rfl twentyOhm _ "dc" (.num 1) rfl).2 (by simp) d none none (.num 230) 230 rfl rfl hd

/-- Options of a pumped measurement with IF data. -/
noncomputable def pumpedBoth : Dict := fun k =>
  List.lookup k [("freq", .num 230), ("analyze_iv", .bool false), ("filter_data", .bool false), ("ifdata_sigma", .none)]

theorem pumpedBoth_opts : (∃ o, ivOpts PARAMS (update PARAMS pumpedBoth) = .ok o ∧ o.vFmt = "mV" ∧ o.iFmt = "mA" ∧
      o.vMult = 1 ∧ o.npts = 6001 ∧ o.filterData = false ∧ o.rseries = none) ∧
    (∃ o, ifOpts PARAMS (update PARAMS pumpedBoth) = .ok o ∧ o.vFmt = "mV" ∧ o.rseries = none ∧ o.sigma = none ∧
      1 ≤ o.npts) ∧
    ∃ o, tnOpts PARAMS (update PARAMS pumpedBoth) = .ok o ∧ o.freq = some 230 ∧ o.tHot = 293 ∧ o.tCold = 78 ∧
      o.bestPt = "Max Gain" := by
  have e : ∀ k v, PARAMS k = some v → k ∉ ["freq", "analyze_iv", "filter_data", "ifdata_sigma"] →
      Opt.read PARAMS (update PARAMS pumpedBoth) k = .ok v := by
    intro k v hv hk
    have : pumpedBoth k = none := by
      simp only [List.mem_cons, List.not_mem_nil, or_false, not_or] at hk
      obtain ⟨h1, h2, h3, h4⟩ := hk
      simp [pumpedBoth, List.lookup, beq_false_of_ne h1, beq_false_of_ne h2, beq_false_of_ne h3, beq_false_of_ne h4]
    simp only [Opt.read, item, hv, getOpt, py_bind, getD, update, this, Option.orElse_none]
    rfl
  have e0 : Opt.read PARAMS (update PARAMS pumpedBoth) "filter_data" = .ok (.bool false) := rfl
  have e1 : Opt.read PARAMS (update PARAMS pumpedBoth) "ifdata_sigma" = .ok .none := rfl
  have e2 : Opt.read PARAMS (update PARAMS pumpedBoth) "freq" = .ok (.num 230) := rfl
  refine ⟨?_, ?_, ?_⟩
  · simp only [ivOpts, e0, e "v_fmt" _ rfl (by decide), e "i_fmt" _ rfl (by decide), e "v_multiplier" _ rfl (by decide),
      e "i_multiplier" _ rfl (by decide), e "rseries" _ rfl (by decide), e "vmax" _ rfl (by decide),
      e "npts" _ rfl (by decide), e "voffset" _ rfl (by decide), e "ioffset" _ rfl (by decide),
      e "voffset_range" _ rfl (by decide), e "filter_nwind" _ rfl (by decide), e "filter_npoly" _ rfl (by decide),
      e "filter_theta" _ rfl (by decide), e "vgap" _ rfl (by decide), e "vrn" _ rfl (by decide),
      e "vrsg" _ rfl (by decide), py_bind, asReal, asOptReal, asInt, asUnit, asVRange, asPair, truth, pure, Except.pure]
    exact ⟨_, rfl, rfl, rfl, by norm_num, rfl, rfl, rfl⟩
  · simp only [ifOpts, e1, e "v_fmt" _ rfl (by decide), e "v_multiplier" _ rfl (by decide), e "rseries" _ rfl (by decide),
      e "vmax" _ rfl (by decide), e "ifdata_npts" _ rfl (by decide), e "vshot" _ rfl (by decide), py_bind, asReal,
      asOptReal, asInt, asUnit, asVshot, pure, Except.pure]
    exact ⟨_, rfl, rfl, rfl, rfl, by norm_num⟩
  · simp only [tnOpts, e2, e "t_hot" _ rfl (by decide), e "t_cold" _ rfl (by decide), e "vbest" _ rfl (by decide),
      e "best_pt" _ rfl (by decide), py_bind, asReal, asOptReal, asName, pure, Except.pure]
    exact ⟨_, rfl, rfl, rfl, rfl, rfl⟩

/-- The hypotheses of C95 are met: a receiver of noise temperature 100 K and loads at 293 K and 78 K. -/
example (S : RespFn.Splines) : ∃ d r p th tc, 0 < tc ∧ tc < th ∧
    (pumpedData ideal [PARAMS] (.matrix twentyOhm) d
      (some (.matrix (delivered [(0, 1), (2, 2), (6, 1)] 100 th)))
      (some (.matrix (delivered [(0, 1), (2, 2), (6, 1)] 100 tc))) pumpedBoth).1 = .ok r ∧ r.ifs = some p ∧
    ∃ g, p.gainBest = num g ∧ ∀ x ∈ p.gain, ∃ y, x = num y ∧ y ≤ g := by
  obtain ⟨d, hd, d1, -, d2, d3, -⟩ := tenOhm_returns S
  obtain ⟨⟨o, ho, o1, o2, o3, o4, o5, o6⟩, ⟨oi, hoi, i1, i2, i3, i4⟩, ot, hot, t1, t2, t3, t4⟩ := pumpedBoth_opts
  simp only [dcData, mergeOptions_eq, deref_append] at hd
  obtain ⟨-, -, ⟨o', -, hc⟩, -⟩ := dcInit_parts hd
  obtain ⟨-, -, -, -, -, -, hrn, hig, hfg, -⟩ := C81_metadata ideal o' _ _ _ _ hc
  obtain ⟨th, tc, hl, c0, c1⟩ := loads_exist ot t1 (by norm_num) (by rw [t3]; norm_num) (by rw [t2, t3]; norm_num)
  have hvg : d.dc.vgap ≠ 0 := by rw [d2]; norm_num
  have hcal := C87_returns ideal oi ot d.dc ⟨0, some 2, true, [], 0⟩ 2 [(0, 1), (2, 2), (6, 1)] 100 th tc hl
    (Or.inr (by rw [t4]; decide)) rfl (by simp) (by rw [i1]; simp) i2 i3 i4 hvg
  obtain ⟨r, p, h1, h2⟩ := C95_returns ideal [PARAMS] (by simp) rfl twentyOhm
    (delivered [(0, 1), (2, 2), (6, 1)] 100 th) (delivered [(0, 1), (2, 2), (6, 1)] 100 tc)
    { d with ifs := some (([], []), ⟨0, some 2, true, [], 0⟩) } pumpedBoth o oi ot (.num 230) 230 ho hoi hot
    (fun k hk => by fin_cases hk <;> rfl) rfl rfl ⟨.bool false, rfl, rfl⟩ rfl rfl (by rw [o1]; simp) (by rw [o2]; simp)
    (by rw [o3]; norm_num)
    (by
      intro w hw
      simp only [twentyOhm, List.mem_cons, List.not_mem_nil, or_false] at hw
      rcases hw with rfl | rfl
      · exact ⟨-8, -0.3, rfl, rfl⟩
      · exact ⟨8, 0.5, rfl, rfl⟩)
    ⟨[num (-8), num (-0.3)], by simp [twentyOhm], [num 8, num 0.5], by simp [twentyOhm], by
      simp [num]
      intro h
      have : ((-8 : ℝ) : EReal) = ((8 : ℝ) : EReal) := by exact_mod_cast h
      rw [EReal.coe_eq_coe_iff] at this
      norm_num at this⟩
    o5 o6 (by rw [o4]; norm_num) hvg (fun h => hvg (by rw [← hig, h, zero_mul])) (by show d.dc.fgap ≠ 0; rw [hfg, d2]; norm_num) rfl (delivered_wf _ _ _) rfl
    (delivered_wf _ _ _) hcal
  obtain ⟨-, -, ⟨w, hw1, hw2⟩, -⟩ := pumpedInit_parts (pumpedData_ok (by simp) rfl h1)
  refine ⟨_, r, p, th, tc, c0, c1, h1, h2, ?_⟩
  refine C95_largest ideal [PARAMS] (by simp) rfl _ _ _ _ pumpedBoth r p 293 78 h1 h2 ?_
    ⟨fun v hv => (by cases hv), fun _ => rfl⟩ ⟨fun v hv => (by cases hv), fun _ => rfl⟩ (by norm_num) (by norm_num) rfl rfl
  have e : update PARAMS pumpedBoth "freq" = some (.num 230) := rfl
  rw [e] at hw1
  obtain rfl := Option.some.inj hw1
  have : (230 : ℝ) = r.freq := Except.ok.inj hw2
  rw [← this]
  norm_num

end QMix.Exp
