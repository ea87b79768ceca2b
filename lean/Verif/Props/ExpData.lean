import Verif.Props.Options
import Verif.Props.IvData3
import Verif.Props.IfNoise3
import Verif.Props.MathFn
import Verif.Lemmas.Circuit

/-!
# `DCData` and `PumpedData`: C93 (properties of the junction), C94 (what is refused or left out), C95 (the
best bias point), C96 (photon voltage and dynamic resistance)
-/

namespace QMix.Exp

open QMix Np Fl IvData IfData Opt

/-! ## Properties of the junction (C93) -/

/-- C93: the quality factor, the resistance-area product and the critical current density of a successful
`DCData`. `area` is the option, in square micrometres. -/
theorem C93_junction (R : Routines) (S : RespFn.Splines) (h : Heap) (hh : h ≠ []) (hP : deref h sharedAt = PARAMS)
    (data : IfResp.Input) (dcif : Option IfResp.Input) (kw : Dict) (r : DCData)
    (e : (dcData R S h data dcif kw).1 = .ok r) :
    r.dc.rn ≠ 0 ∧ r.q = num (r.dc.rsg / r.dc.rn) ∧
    ∃ area, Uses kw "area" asReal 1.5 area ∧ r.rna = r.dc.rn * (area * 1e-12) ∧
      (area ≠ 0 → ∃ jc, r.jc = num jc ∧ jc * (area * 1e-12) = r.dc.igap) := by
  obtain ⟨-, -, -, ⟨area, ha, hrna⟩, -⟩ := C41_dc R S h hh hP data dcif kw r e
  simp only [dcData, mergeOptions_eq, deref_append, deref_shared hh, hP] at e
  obtain ⟨-, -, ⟨o, ho, hc⟩, -, -, -, -, hq, hj, -⟩ := dcInit_parts e
  obtain ⟨-, -, -, -, -, -, hrn, hig, -⟩ := C81_metadata R o data _ _ _ hc
  refine ⟨hrn, by rw [hq, fdiv_num _ hrn], area, ha, hrna, fun h0 => ?_⟩
  have hne : r.rna ≠ 0 := by
    rw [hrna]
    exact mul_ne_zero hrn (mul_ne_zero h0 (by norm_num))
  refine ⟨_, by rw [hj, fdiv_num _ hne], ?_⟩
  have h1 : area * 1e-12 ≠ 0 := mul_ne_zero h0 (by norm_num)
  rw [hrna, ← hig]
  field_simp

/-- The points of a successful `DCData` are evenly spaced. -/
theorem points_even {R : Routines} {o : Opts} {data : IfResp.Input} {v i : List ℝ} {dc : DCIV}
    (hc : dcivCurve R o data = .ok (v, i, dc)) :
    ∃ a s : ℝ, v = tab v.length fun k => a + k * s := by
  obtain ⟨-, -, l1, l2, hv, hg, -⟩ := C81_metadata R o data _ _ _ hc
  refine ⟨-o.vmax / dc.vgap, 2 * o.vmax / (o.npts - 1 : ℤ) / dc.vgap, ?_⟩
  conv_lhs => rw [eq_tab v 0]
  apply tab_ext rfl
  intro k hk
  rw [eq_div_of_mul_eq hg (hv k hk)]
  ring

theorem incr_zip {v i : List ℝ} (hl : v.length = i.length) {a s : ℝ} (hs : 0 < s)
    (hv : v = tab v.length fun k => a + k * s) : Incr (v.zip i) := by
  unfold Incr
  have hp : v.Pairwise (· < ·) := by
    rw [hv]
    unfold tab
    rw [List.pairwise_map]
    apply List.pairwise_lt_range.imp
    intro p q hpq
    have : (p : ℝ) < q := by exact_mod_cast hpq
    nlinarith
  have e : (v.zip i).map Prod.fst = v := List.map_fst_zip (by omega)
  rw [← e, List.pairwise_map] at hp
  exact hp

/-- C93: the leakage current is the current of the measured curve at the voltage `vleak`: between two
neighbouring points it follows the line that joins them. In volts and amperes. -/
theorem C93_leak (R : Routines) (S : RespFn.Splines) (h : Heap) (data : IfResp.Input) (dcif : Option IfResp.Input)
    (kw : Dict) (r : DCData) (e : (dcData R S h data dcif kw).1 = .ok r) (hg : 0 < r.dc.vgap)
    (hinc : r.voltage.getD 0 0 < r.voltage.getD 1 0) (k : ℕ) (hk : k + 1 < r.voltage.length)
    (h1 : r.voltage.getD k 0 * r.dc.vgap ≤ r.vleak) (h2 : r.vleak ≤ r.voltage.getD (k + 1) 0 * r.dc.vgap) :
    ∃ t : ℝ, 0 ≤ t ∧ t ≤ 1 ∧
      r.vleak = (1 - t) * (r.voltage.getD k 0 * r.dc.vgap) + t * (r.voltage.getD (k + 1) 0 * r.dc.vgap) ∧
      r.ileak = (1 - t) * (r.current.getD k 0 * r.dc.igap) + t * (r.current.getD (k + 1) 0 * r.dc.igap) := by
  simp only [dcData] at e
  obtain ⟨-, -, ⟨o, ho, hc⟩, -, -, -, ⟨l, y, hl, hy, hil⟩, -⟩ := dcInit_parts e
  obtain ⟨-, -, l1, l2, -⟩ := C81_metadata R o data _ _ _ hc
  have hlen : r.voltage.length = r.current.length := by omega
  obtain ⟨a, s, hv⟩ := points_even hc
  have get : ∀ j, j < r.voltage.length → r.voltage.getD j 0 = a + j * s := by
    intro j hj
    conv_lhs => rw [hv]
    rw [List.getD_eq_getElem?_getD, tab_get?, if_pos hj]
    rfl
  have hs : 0 < s := by
    rw [get 0 (by omega), get 1 (by omega)] at hinc
    push_cast at hinc
    linarith
  obtain ⟨L, hne, e1, e2, e3⟩ := interp_ok hl
  have eL : L = r.voltage.zip r.current := by
    rw [e1, e2, ← List.unzip_fst, ← List.unzip_snd, List.zip_unzip]
  have hI : Incr L := by rw [eL]; exact incr_zip hlen hs hv
  rw [e3] at hy
  have hy' : y = interpAt L (r.vleak / r.dc.vgap) := by
    have := pyGet_mem hy
    simpa using this
  have mem : ∀ j, j < r.voltage.length → (r.voltage.getD j 0, r.current.getD j 0) ∈ L := by
    intro j hj
    rw [eL, List.mem_iff_getElem?]
    refine ⟨j, ?_⟩
    rw [List.getElem?_zip_eq_some]
    rw [List.getD_eq_getElem?_getD, List.getD_eq_getElem?_getD, List.getElem?_eq_getElem hj,
      List.getElem?_eq_getElem (by omega)]
    exact ⟨rfl, rfl⟩
  have hx1 : r.voltage.getD k 0 ≤ r.vleak / r.dc.vgap := (le_div_iff₀ hg).2 h1
  have hx2 : r.vleak / r.dc.vgap ≤ r.voltage.getD (k + 1) 0 := (div_le_iff₀ hg).2 h2
  have hstep : r.voltage.getD (k + 1) 0 - r.voltage.getD k 0 = s := by
    rw [get k (by omega), get (k + 1) hk]
    push_cast
    ring
  have hno : ∀ p ∈ L, p.1 ≤ r.voltage.getD k 0 ∨ r.voltage.getD (k + 1) 0 ≤ p.1 := by
    intro p hp
    rw [eL] at hp
    have hp1 := (List.of_mem_zip (show (p.1, p.2) ∈ _ from hp)).1
    obtain ⟨j, hj, e⟩ := List.getElem_of_mem hp1
    have : p.1 = a + j * s := by
      rw [← e, ← get j hj, List.getD_eq_getElem?_getD, List.getElem?_eq_getElem hj]
      rfl
    rw [this, get k (by omega), get (k + 1) hk]
    rcases Nat.lt_or_ge k j with hkj | hkj
    · right
      have : ((k + 1 : ℕ) : ℝ) ≤ j := by exact_mod_cast hkj
      nlinarith
    · left
      have : (j : ℝ) ≤ k := by exact_mod_cast hkj
      nlinarith
  have key := interpAt_neighbours hI (mem k (by omega)) (mem (k + 1) hk)
    (by simp only; linarith) hno hx1 hx2
  simp only [hstep] at key
  set x := r.vleak / r.dc.vgap with hx
  have hxg : r.vleak = x * r.dc.vgap := by rw [hx]; field_simp
  refine ⟨(x - r.voltage.getD k 0) / s, div_nonneg (by linarith) hs.le, (div_le_one hs).2 (by linarith), ?_, ?_⟩
  · rw [hxg, show r.voltage.getD (k + 1) 0 = r.voltage.getD k 0 + s by linarith]
    field_simp
    ring
  · rw [hil, hy', key]
    field_simp
    ring

/-! ## What is refused or left out (C94) -/

/-- C94: data that is not an array is refused with `ValueError`, whatever the options. -/
theorem C94_not_array (R : Routines) (S : RespFn.Splines) (h : Heap) (hP : deref h sharedAt = PARAMS) (kw : Dict) :
    (∀ dcif, (dcData R S h .other dcif kw).1 = .error .value) ∧
    ∀ d hot cold, (pumpedData R h .other d hot cold kw).1 = .error .value := by
  have some_of : ∀ k v, PARAMS k = some v → ∃ w, update PARAMS kw k = some w := by
    intro k v hv
    cases hk : kw k with
    | none => exact ⟨v, by simp [update, hk, hv]⟩
    | some w => exact ⟨w, by simp [update, hk]⟩
  obtain ⟨w1, h1⟩ := some_of "comment" _ rfl
  obtain ⟨w2, h2⟩ := some_of "v_smear" _ rfl
  obtain ⟨w3, h3⟩ := some_of "vleak" _ rfl
  obtain ⟨w4, h4⟩ := some_of "area" _ rfl
  obtain ⟨w5, h5⟩ := some_of "verbose" _ rfl
  obtain ⟨w6, h6⟩ := some_of "freq" _ rfl
  obtain ⟨w7, h7⟩ := some_of "analyze_if" _ rfl
  obtain ⟨w8, h8⟩ := some_of "analyze_iv" _ rfl
  constructor
  · intro dcif
    simp only [dcData, mergeOptions_eq, deref_append, hP, dcInit, item, h1, h2, h3, h4, h5, getOpt, py_bind]
    simp only [raiseIf, if_true]
    rfl
  · intro d hot cold
    have : pumpedFreq (update PARAMS kw) .other = .error .value := by
      simp only [pumpedFreq, item, h1, h5, h6, h7, h8, getOpt, py_bind]
      simp only [raiseIf, if_true]
      rfl
    simp only [pumpedData, mergeOptions_eq, deref_append, hP, this]

/-- C94: pumped data without a frequency, or with a text for a frequency, is refused with `ValueError`, whatever the other options. -/
theorem C94_no_frequency (R : Routines) (h : Heap) (hP : deref h sharedAt = PARAMS) (data : IfResp.Input) (d : DCData)
    (hot cold : Option IfResp.Input) (kw : Dict) (hf : kw "freq" = none ∨ kw "freq" = some .none ∨ ∃ t, kw "freq" = some (.str t)) :
    (pumpedData R h data d hot cold kw).1 = .error .value := by
  have some_of : ∀ k v, PARAMS k = some v → ∃ w, update PARAMS kw k = some w := by
    intro k v hv
    cases hk : kw k with
    | none => exact ⟨v, by simp [update, hk, hv]⟩
    | some w => exact ⟨w, by simp [update, hk]⟩
  obtain ⟨w1, h1⟩ := some_of "comment" _ rfl
  obtain ⟨w5, h5⟩ := some_of "verbose" _ rfl
  obtain ⟨w7, h7⟩ := some_of "analyze_if" _ rfl
  obtain ⟨w8, h8⟩ := some_of "analyze_iv" _ rfl
  have h6 : update PARAMS kw "freq" = some .none ∨ ∃ t, update PARAMS kw "freq" = some (.str t) := by
    rcases hf with hf | hf | ⟨t, hf⟩
    · left
      simp only [update, hf, Option.orElse_none]
      rfl
    · left
      simp [update, hf]
    · right
      exact ⟨t, by simp [update, hf]⟩
  have : pumpedFreq (update PARAMS kw) data = .error .value := by
    rcases h6 with h6 | ⟨t, h6⟩
    · simp only [pumpedFreq, item, h1, h5, h6, h7, h8, getOpt, py_bind]
      by_cases ho : data = .other <;> simp only [raiseIf, ho, if_true, if_false] <;> rfl
    · simp only [pumpedFreq, item, h1, h5, h6, h7, h8, getOpt, py_bind]
      by_cases ho : data = .other
      · simp only [raiseIf, ho, if_true]
        rfl
      · have hn : ¬ (Val.str t = .none) := by simp
        have hs : ∃ t', Val.str t = .str t' := ⟨t, rfl⟩
        simp only [raiseIf, ho, hn, hs, if_true, if_false]
        rfl
  simp only [pumpedData, mergeOptions_eq, deref_append, hP, this]

/-- A successful `PumpedData` in a program that has not changed the defaults. -/
theorem pumpedData_ok {R : Routines} {h : Heap} (hh : h ≠ []) (hP : deref h sharedAt = PARAMS) {data : IfResp.Input}
    {d : DCData} {hot cold : Option IfResp.Input} {kw : Dict} {r : PumpedData}
    (e : (pumpedData R h data d hot cold kw).1 = .ok r) :
    pumpedInit R PARAMS (update PARAMS kw) h.length data d hot cold = .ok r := by
  simp only [pumpedData, mergeOptions_eq, deref_append, hP] at e
  split at e
  · simp at e
  · rename_i f hf
    simp only [pumpedFreq, bind_ok_iff, item, getOpt_ok, raiseIf_ok, pure_ok_iff] at hf
    obtain ⟨-, -, f', hf, -, -, -, -, -, -, -, -, -, -, -, -, rfl⟩ := hf
    have he : setKey (update PARAMS kw) "freq" f' = update PARAMS kw := by
      funext k
      unfold setKey
      split
      · rename_i hk
        rw [hk, hf]
      · rfl
    simp only [write_append, deref_append, deref_shared hh, hP, he] at e
    exact e

theorem uses_item {α : Type} {kw : Dict} {k : String} {rd : Val → Py α} {d x : α} (v0 v : Val)
    (h0 : PARAMS k = some v0) (hd : rd v0 = .ok d) (hv : update PARAMS kw k = some v) (hx : rd v = .ok x) :
    Uses kw k rd d x :=
  uses_getD v0 h0 hd .none (by simpa [getD, hv] using hx)

/-- C94: without IF data for both loads, or when switched off, there is no IF analysis; the impedance recovery
is left out only when switched off. -/
theorem C94_left_out (R : Routines) (h : Heap) (hh : h ≠ []) (hP : deref h sharedAt = PARAMS) (data : IfResp.Input)
    (d : DCData) (hot cold : Option IfResp.Input) (kw : Dict) (r : PumpedData)
    (e : (pumpedData R h data d hot cold kw).1 = .ok r) :
    (∃ on, Uses kw "analyze_if" (fun v => .ok (truth v)) true on ∧
      (r.ifs.isSome ↔ hot.isSome ∧ cold.isSome ∧ on = true)) ∧
    ∃ on, Uses kw "analyze_iv" (fun v => .ok (truth v)) true on ∧ (r.zemb.isSome ↔ on = true) := by
  obtain ⟨-, -, -, -, -, -, -, hz, hi⟩ := pumpedInit_parts (pumpedData_ok hh hP e)
  constructor
  · simp only [pumpedIfs, bind_ok_iff, item, getOpt_ok] at hi
    obtain ⟨v, hv, hi⟩ := hi
    refine ⟨truth v, uses_item (.bool true) v rfl rfl hv rfl, ?_⟩
    cases hot with
    | none => simp only [pure_ok_iff] at hi; simp [← hi]
    | some a =>
      cases cold with
      | none => simp only [pure_ok_iff] at hi; simp [← hi]
      | some b =>
        simp only at hi
        split at hi
        · rename_i ht
          obtain ⟨p, -, hp⟩ := bind_ok_iff.1 hi
          rw [pure_ok_iff] at hp
          simp [← hp, ht]
        · rename_i ht
          rw [pure_ok_iff] at hi
          simp only [← hi, ht]
          simp
  · simp only [pumpedZemb, bind_ok_iff, item, getOpt_ok] at hz
    obtain ⟨v, hv, hz⟩ := hz
    refine ⟨truth v, uses_item (.bool true) v rfl rfl hv rfl, ?_⟩
    split at hz
    · rename_i ht
      simp only [bind_ok_iff] at hz
      obtain ⟨-, -, o, -, p, -, hp⟩ := hz
      rw [pure_ok_iff] at hp
      simp [← hp, ht]
    · rename_i ht
      rw [pure_ok_iff] at hz
      simp only [← hz, ht]
      simp

/-! ## The best bias point (C95) -/

/-- The parts of a successful analysis of the IF data. -/
theorem pumpedIf_parts {R : Routines} {params kw : Dict} {dc : DCIV} {dcif : Option DCIF} {voltage current : List ℝ}
    {hot cold : IfResp.Input} {p : PumpedIf} (h : pumpedIf R params kw dc dcif voltage current hot cold = .ok p) :
    ∃ o t q, ifOpts params kw = .ok o ∧ tnOpts params kw = .ok t ∧
      ifData R o t dc dcif hot cold = .ok (q, p.idxBest, p.dcif) ∧ p.hot = q.v.zip q.hot ∧ p.cold = q.v.zip q.cold ∧
      p.tn = q.tn ∧ p.gain = q.gain ∧ q.tn[p.idxBest]? = some p.tnBest ∧ q.gain[p.idxBest]? = some p.gainBest ∧
      q.v[p.idxBest]? = some p.vBest ∧ p.gDb = fmul (num 10) (flog10 p.gainBest) ∧
      bestRdyn R dc.rn p.vBest voltage current = .ok p.zjIf := by
  simp only [pumpedIf, bind_ok_iff] at h
  obtain ⟨-, -, o, ho, t, ht, q, hq, tb, h1, gb, h2, vb, h3, z, hz, e⟩ := h
  rw [pure_ok_iff] at e
  subst e
  have get : ∀ {α : Type} {l : List α} {a : α}, pyGet l (q.2.1 : ℤ) = .ok a → l[q.2.1]? = some a := by
    intro α l a h
    obtain ⟨i, hi, ha⟩ := Cct.pyGet_ok h
    have hlt : q.2.1 < l.length := by
      have := (pyIndex_ok_iff (n := l.length) (k := (q.2.1 : ℤ))).1 ⟨i, hi⟩
      omega
    rw [pyIndex_nonneg (by omega) (by omega)] at hi
    cases hi
    simpa using ha
  exact ⟨o, t, q.1, ho, ht, hq, rfl, rfl, rfl, rfl, get h1, get h2, get h3, rfl, hz⟩

theorem pumpedIfs_some {R : Routines} {params kw : Dict} {d : DCData} {voltage current : List ℝ}
    {hot cold : Option IfResp.Input} {p : PumpedIf}
    (h : pumpedIfs R params kw d voltage current hot cold = .ok (some p)) :
    ∃ a b, hot = some a ∧ cold = some b ∧
      pumpedIf R params kw d.dc (d.ifs.map Prod.snd) voltage current a b = .ok p := by
  simp only [pumpedIfs, bind_ok_iff] at h
  obtain ⟨v, -, h⟩ := h
  cases hot with
  | none => simp [pure_ok_iff] at h
  | some a =>
    cases cold with
    | none => simp [pure_ok_iff] at h
    | some b =>
      simp only at h
      split at h
      · obtain ⟨p', hp, h⟩ := bind_ok_iff.1 h
        rw [pure_ok_iff] at h
        cases h
        exact ⟨a, b, rfl, rfl, hp⟩
      · simp [pure_ok_iff] at h

/-- C95: the best point is one of the bias points: its noise temperature, gain and voltage are the entries of
the results at that index. -/
theorem C95_point (R : Routines) (h : Heap) (hh : h ≠ []) (hP : deref h sharedAt = PARAMS) (data : IfResp.Input)
    (d : DCData) (hot cold : Option IfResp.Input) (kw : Dict) (r : PumpedData) (p : PumpedIf)
    (e : (pumpedData R h data d hot cold kw).1 = .ok r) (hp : r.ifs = some p) :
    p.tn[p.idxBest]? = some p.tnBest ∧ p.gain[p.idxBest]? = some p.gainBest ∧
    (∀ x, p.hot[p.idxBest]? = some x → x.1 = p.vBest) ∧ ∀ x, p.cold[p.idxBest]? = some x → x.1 = p.vBest := by
  obtain ⟨-, -, -, -, -, -, -, -, hi⟩ := pumpedInit_parts (pumpedData_ok hh hP e)
  rw [hp] at hi
  obtain ⟨a, b, -, -, hi⟩ := pumpedIfs_some hi
  obtain ⟨o, t, q, -, -, -, e1, e2, e3, e4, g1, g2, g3, -⟩ := pumpedIf_parts hi
  rw [e1, e2, e3, e4]
  refine ⟨g1, g2, ?_, ?_⟩ <;>
  · intro x hx
    rw [List.getElem?_zip_eq_some, g3] at hx
    exact (Option.some.inj hx.1).symm

theorem mem_zip {α β γ : Type} {f : α → β → γ} {a : List α} {b : List β} {r : List γ} (h : Np.zip f a b = .ok r)
    {g : γ} (hg : g ∈ r) : ∃ x ∈ a, ∃ y ∈ b, g = f x y := by
  unfold Np.zip at h
  split at h
  · cases h
    obtain ⟨k, hk, rfl⟩ := List.getElem_of_mem hg
    rw [List.length_zipWith] at hk
    exact ⟨a[k]'(by omega), List.getElem_mem _, b[k]'(by omega), List.getElem_mem _, by simp⟩
  · split at h
    · cases h
      obtain ⟨y, hy, rfl⟩ := List.mem_map.1 hg
      exact ⟨_, List.mem_singleton_self _, y, hy, rfl⟩
    · cases h
      obtain ⟨x, hx, rfl⟩ := List.mem_map.1 hg
      exact ⟨x, hx, _, List.mem_singleton_self _, rfl⟩
    · cases h

/-- C95: unless told otherwise, the best point is the one with the largest gain, for every frequency and every
pair of loads, the hot one hotter than the cold one. -/
theorem C95_largest (R : Routines) (h : Heap) (hh : h ≠ []) (hP : deref h sharedAt = PARAMS) (data : IfResp.Input)
    (d : DCData) (hot cold : Option IfResp.Input) (kw : Dict) (r : PumpedData) (p : PumpedIf) (th tc : ℝ)
    (e : (pumpedData R h data d hot cold kw).1 = .ok r) (hp : r.ifs = some p) (hf : 0 < r.freq)
    (hth : Uses kw "t_hot" asReal 293 th) (htc : Uses kw "t_cold" asReal 78 tc) (h0 : 0 < tc) (h1 : tc < th)
    (hv : kw "vbest" = none) (hb : kw "best_pt" = none) :
    ∃ g, p.gainBest = num g ∧ ∀ x ∈ p.gain, ∃ y, x = num y ∧ y ≤ g := by
  obtain ⟨-, -, ⟨w, hw, hfr⟩, -, -, -, -, -, hi⟩ := pumpedInit_parts (pumpedData_ok hh hP e)
  rw [hp] at hi
  obtain ⟨a, b, -, -, hi⟩ := pumpedIfs_some hi
  obtain ⟨o, t, q, -, ht, hq, -, -, -, e4, -, g2, -⟩ := pumpedIf_parts hi
  obtain ⟨u1, u2, u3, u4, u5⟩ := C41_tn kw t ht
  have same : ∀ {k : String} {rd : Val → Py ℝ} {d x y : ℝ}, Uses kw k rd d x → Uses kw k rd d y → x = y := by
    intro k rd d x y hx hy
    cases hk : kw k with
    | none => rw [hx.2 hk, hy.2 hk]
    | some v =>
      have := (hx.1 v hk).symm.trans (hy.1 v hk)
      exact Except.ok.inj this
  have k1 := same hth u2
  have k2 := same htc u3
  have k3 := u4.2 hv
  have k4 := u5.2 hb
  have k5 : t.freq = some r.freq := by
    cases hk : kw "freq" with
    | none =>
      have : update PARAMS kw "freq" = some .none := by
        simp only [update, hk, Option.orElse_none]
        rfl
      rw [this] at hw
      cases hw
      cases hfr
    | some v =>
      have : update PARAMS kw "freq" = some v := by simp [update, hk]
      rw [this] at hw
      cases hw
      have := u1.1 w hk
      cases w <;> simp_all [asOptReal, asReal, py_bind, pure, Except.pure]
  obtain ⟨Th, Tc, hL, p0, p1⟩ := loads_exist t k5 hf (by rw [← k2]; exact h0) (by rw [← k1, ← k2]; exact h1)
  obtain ⟨f, f1, f2, f3⟩ := hL
  simp only [ifData, bind_ok_iff] at hq
  obtain ⟨H, -, C, -, c, -, res, hres, vm, -, hq⟩ := hq
  rw [pure_ok_iff] at hq
  simp only [Prod.mk.injEq] at hq
  obtain ⟨rfl, hidx, -⟩ := hq
  simp only [findTnGain, f1, f2, f3, getOpt, py_bind, bind_ok_iff] at hres
  obtain ⟨ne, -, -, -, tn, -, gain, hg, idx, hbest, hres⟩ := hres
  rw [pure_ok_iff] at hres
  subst hres
  have all : ∀ x ∈ gain, ∃ y, x = num y := by
    intro x hx
    obtain ⟨ph, hph, pc, hpc, rfl⟩ := mem_zip hg hx
    rw [List.map_map, List.mem_map] at hph hpc
    obtain ⟨s, -, rfl⟩ := hph
    obtain ⟨s', -, rfl⟩ := hpc
    exact ⟨_, gainOf_num _ _ _ _ p1.ne'⟩
  have hbest' : argmaxF gain = .ok idx := by
    unfold bestPoint at hbest
    rw [k3, k4] at hbest
    simp only at hbest
    rwa [if_pos (by decide)] at hbest
  obtain ⟨m, m1, m2⟩ := argmaxF_spec hbest' (fun hn => by
    obtain ⟨y, hy⟩ := all _ hn
    exact num_ne_none _ hy.symm)
  simp only at hidx e4 g2
  rw [← hidx, m1] at g2
  cases g2
  obtain ⟨g, hg'⟩ := all _ (List.mem_of_getElem? m1)
  refine ⟨g, hg', fun x hx => ?_⟩
  rw [e4] at hx
  obtain ⟨y, rfl⟩ := all x hx
  refine ⟨y, rfl, ?_⟩
  have := m2 _ hx
  rw [hg', flt_num] at this
  exact not_lt.1 this

/-- C95: the gain in decibels. -/
theorem C95_decibel (R : Routines) (h : Heap) (hh : h ≠ []) (hP : deref h sharedAt = PARAMS) (data : IfResp.Input)
    (d : DCData) (hot cold : Option IfResp.Input) (kw : Dict) (r : PumpedData) (p : PumpedIf) (g : ℝ)
    (e : (pumpedData R h data d hot cold kw).1 = .ok r) (hp : r.ifs = some p) (hg : p.gainBest = num g) :
    (0 < g → ∃ x : ℝ, p.gDb = num x ∧ g = 10 ^ (x / 10)) ∧ (g = 0 → p.gDb = some ⊥) ∧ (g < 0 → p.gDb = none) := by
  obtain ⟨-, -, -, -, -, -, -, -, hi⟩ := pumpedInit_parts (pumpedData_ok hh hP e)
  rw [hp] at hi
  obtain ⟨a, b, -, -, hi⟩ := pumpedIfs_some hi
  obtain ⟨o, t, q, -, -, -, -, -, -, -, -, -, -, hdb, -⟩ := pumpedIf_parts hi
  rw [hdb, hg]
  simp only [flog10, num]
  refine ⟨fun h0 => ?_, fun h0 => ?_, fun h0 => ?_⟩
  · rw [if_neg (EReal.coe_ne_top g), if_neg (by rw [not_lt]; exact_mod_cast h0.le), if_neg (by exact_mod_cast h0.ne')]
    refine ⟨10 * Real.logb 10 g, ?_, ?_⟩
    · have := fmul_num 10 (Real.logb 10 g)
      simpa [num] using this
    · rw [mul_div_cancel_left₀ _ (by norm_num), Real.rpow_logb (by norm_num) (by norm_num) h0]
  · subst h0
    simp [fmul, EReal.coe_mul_bot_of_pos]
  · rw [if_neg (EReal.coe_ne_top g), if_pos (by exact_mod_cast h0)]
    rfl

/-- C95: the output resistance at the best point. With `i` the point of the pumped curve nearest to the best
voltage: if the next points (ten in all, or up to the end) lie on a line of slope `s`, it is `rn / s`. -/
theorem C95_resistance (R : Routines) (h : Heap) (hh : h ≠ []) (hP : deref h sharedAt = PARAMS) (data : IfResp.Input)
    (d : DCData) (hot cold : Option IfResp.Input) (kw : Dict) (r : PumpedData) (p : PumpedIf)
    (e : (pumpedData R h data d hot cold kw).1 = .ok r) (hp : r.ifs = some p)
    (hlen : r.voltage.length = r.current.length) :
    ∃ i, i < r.voltage.length ∧
      (∀ j, j < r.voltage.length → |r.voltage.getD i 0 - p.vBest| ≤ |r.voltage.getD j 0 - p.vBest|) ∧
      ∀ s c : ℝ, s ≠ 0 → i + 1 < r.voltage.length → r.voltage.getD i 0 ≠ r.voltage.getD (i + 1) 0 →
        (∀ j, i ≤ j → j < i + 10 → j < r.voltage.length → r.current.getD j 0 = s * r.voltage.getD j 0 + c) →
        p.zjIf = num (r.dc.rn / s) := by
  obtain ⟨-, hdc, -, -, -, -, -, -, hi⟩ := pumpedInit_parts (pumpedData_ok hh hP e)
  rw [hp] at hi
  obtain ⟨a, b, -, -, hi⟩ := pumpedIfs_some hi
  obtain ⟨o, t, q, -, -, -, -, -, -, -, -, -, -, -, hz⟩ := pumpedIf_parts hi
  simp only [bestRdyn, bind_ok_iff] at hz
  obtain ⟨i, hi, P, hP', hz⟩ := hz
  rw [pure_ok_iff] at hz
  obtain ⟨m, m1, m2, -⟩ := argmin_spec hi
  have hil : i < r.voltage.length := by
    have := (List.getElem?_eq_some_iff.1 m1).1
    simpa using this
  have gv : ∀ j, j < r.voltage.length → r.voltage[j]? = some (r.voltage.getD j 0) := by
    intro j hj
    rw [List.getD_eq_getElem?_getD, List.getElem?_eq_getElem hj]
    rfl
  have gc : ∀ j, j < r.voltage.length → r.current[j]? = some (r.current.getD j 0) := by
    intro j hj
    rw [List.getD_eq_getElem?_getD, List.getElem?_eq_getElem (by omega)]
    rfl
  refine ⟨i, hil, fun j hj => ?_, fun s c hs h1 h2 hl => ?_⟩
  · rw [List.getElem?_map, gv i hil] at m1
    cases m1
    apply m2
    rw [List.mem_map]
    exact ⟨_, List.mem_of_getElem? (gv j hj), rfl⟩
  · have hsl := slice_nat r.voltage i (i + 10)
    have hsc := slice_nat r.current i (i + 10)
    push_cast at hsl hsc
    rw [hsl, hsc] at hP'
    set L := ((r.voltage.take (i + 10)).drop i).zip ((r.current.take (i + 10)).drop i) with hLdef
    have hll : ((r.voltage.take (i + 10)).drop i).length = ((r.current.take (i + 10)).drop i).length := by
      simp [hlen]
    have E1 : L.map Prod.fst = (r.voltage.take (i + 10)).drop i := List.map_fst_zip (by omega)
    have E2 : L.map Prod.snd = (r.current.take (i + 10)).drop i := List.map_snd_zip (by omega)
    have gL : ∀ k, k < 10 → i + k < r.voltage.length →
        L[k]? = some (r.voltage.getD (i + k) 0, r.current.getD (i + k) 0) := by
      intro k hk hk'
      rw [hLdef, List.getElem?_zip_eq_some, List.getElem?_drop, List.getElem?_drop,
        List.getElem?_take_of_lt (by omega), List.getElem?_take_of_lt (by omega), gv _ hk', gc _ hk']
      exact ⟨rfl, rfl⟩
    have hlinear : ∀ x ∈ L, x.2 = s * x.1 + c := by
      intro x hx
      obtain ⟨k, hk⟩ := List.mem_iff_getElem?.1 hx
      have hb : k < L.length := (List.getElem?_eq_some_iff.1 hk).1
      have hb' : k < 10 ∧ i + k < r.voltage.length := by
        rw [hLdef] at hb
        simp only [List.length_zip, List.length_drop, List.length_take] at hb
        omega
      rw [gL k hb'.1 hb'.2] at hk
      cases hk
      exact hl _ (by omega) (by omega) hb'.2
    have hfit := polyfit_line (R := R) (r := (s, c)) hlinear
      ⟨_, List.mem_of_getElem? (gL 0 (by omega) (by omega)), _, List.mem_of_getElem? (gL 1 (by omega) h1), by simpa using h2⟩
    rw [E1, E2, hP'] at hfit
    cases hfit
    rw [← hz, fdiv_num _ hs, hdc]

/-! ## Photon voltage and dynamic resistance (C96) -/

/-- C96: the photon voltage. In volts it is Planck's constant times the frequency (option in GHz) over the
charge of the electron, whatever the junction. -/
theorem C96_photon (R : Routines) (S : RespFn.Splines) (h h' : Heap) (hh : h ≠ []) (hP : deref h sharedAt = PARAMS)
    (dcdata data : IfResp.Input) (dcif : Option IfResp.Input) (kd kw : Dict) (d : DCData)
    (hot cold : Option IfResp.Input) (r : PumpedData)
    (ed : (dcData R S h' dcdata dcif kd).1 = .ok d)
    (e : (pumpedData R h data d hot cold kw).1 = .ok r) :
    (∃ v, kw "freq" = some v ∧ asReal v = .ok r.freq) ∧
    r.vph * d.dc.vgap = 6.62607015e-34 * (r.freq * 1e9) / 1.602176634e-19 := by
  obtain ⟨-, -, ⟨w, hw, hfr⟩, hfg, hvph, -⟩ := pumpedInit_parts (pumpedData_ok hh hP e)
  simp only [dcData] at ed
  obtain ⟨-, -, ⟨o, ho, hc⟩, -⟩ := dcInit_parts ed
  obtain ⟨-, -, -, -, -, hg, -, -, hf, -⟩ := C81_metadata R o dcdata _ _ _ hc
  constructor
  · cases hk : kw "freq" with
    | none =>
      have : update PARAMS kw "freq" = some .none := by
        simp only [update, hk, Option.orElse_none]
        rfl
      rw [this] at hw
      cases hw
      cases hfr
    | some v =>
      have : update PARAMS kw "freq" = some v := by simp [update, hk]
      rw [this] at hw
      cases hw
      exact ⟨_, rfl, hfr⟩
  · rw [hvph, hf]
    field_simp

/-- C96: the dynamic resistance of a straight pumped curve is the inverse slope, at every point. Needs at least
32 points with different currents. -/
theorem C96_straight (R : Routines) (h : Heap) (hh : h ≠ []) (hP : deref h sharedAt = PARAMS) (data : IfResp.Input)
    (d : DCData) (hot cold : Option IfResp.Input) (kw : Dict) (r : PumpedData) (s c : ℝ) (hs : s ≠ 0)
    (e : (pumpedData R h data d hot cold kw).1 = .ok r)
    (hn : 32 ≤ r.voltage.length) (hx : r.voltage.Nodup) (hv : r.current = r.voltage.map fun t => s * t + c) :
    ∃ l, r.rdyn = some l ∧ l.length = r.voltage.length ∧ ∀ x ∈ l, x * s = 1 := by
  obtain ⟨-, -, -, -, -, -, hr, -⟩ := pumpedInit_parts (pumpedData_ok hh hP e)
  have hc : r.current.Nodup := by
    rw [hv]
    refine hx.map fun a b hab => ?_
    exact mul_left_cancel₀ hs (by simpa using hab)
  have hl : r.current.length = r.voltage.length := by rw [hv, List.length_map]
  have hv' : r.voltage = r.current.map fun t => 1 / s * t + -c / s := by
    rw [hv, List.map_map]
    conv_lhs => rw [← List.map_id r.voltage]
    apply List.map_congr_left
    intro t _
    simp only [id, Function.comp]
    field_simp
    ring
  have key := (Props.C49_line_partial r.current hc 10 (by norm_num) (1 / s) (-c / s) true _).2 ⟨by rw [hl]; omega, rfl⟩
  rw [← hv'] at key
  norm_num at key
  rw [key] at hr
  simp only [finiteOrNone, Except.ok.injEq] at hr
  refine ⟨_, hr.symm, by simp [hl], fun x hx => ?_⟩
  obtain ⟨-, rfl⟩ := List.mem_replicate.1 hx
  rw [if_neg hs]
  exact inv_mul_cancel₀ hs

end QMix.Exp
