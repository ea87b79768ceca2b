import Verif.Props.ExpData2
import Verif.Props.ZembRec

/-!
# The response function of a measured junction (C97) and the impedance reported for it (C98)
-/

namespace QMix.Exp

open QMix Np Fl IvData IfData Opt

theorem getD_get {l : List ℝ} {i : ℕ} (h : i < l.length) : l.getD i 0 = l[i] := by simp [h]

theorem uses_unique {α : Type} {kw : Dict} {k : String} {rd : Val → Py α} {d x y : α} (hx : Uses kw k rd d x)
    (hy : Uses kw k rd d y) : x = y := by
  cases hk : kw k with
  | none => rw [hx.2 hk, hy.2 hk]
  | some v => exact Except.ok.inj ((hx.1 v hk).symm.trans (hy.1 v hk))

/-- The normalised voltages increase. -/
theorem dc_sorted {R : Routines} {S : RespFn.Splines} {h : Heap} (hh : h ≠ []) (hP : deref h sharedAt = PARAMS)
    {data : IfResp.Input} {dcif : Option IfResp.Input} {kw : Dict} {r : DCData} {vmax : ℝ}
    (e : (dcData R S h data dcif kw).1 = .ok r) (hg : 0 < r.dc.vgap) (hu : Uses kw "vmax" asReal 6e-3 vmax)
    (hvm : 0 < vmax) : r.voltage.SortedLT ∧ r.current.length = r.voltage.length := by
  obtain ⟨-, hl, ⟨w, hw, hgrid⟩, -⟩ := C41_dc R S h hh hP data dcif kw r e
  obtain rfl := uses_unique hu hw
  refine ⟨?_, hl⟩
  apply List.Pairwise.sortedLT
  rw [List.pairwise_iff_getElem]
  intro i j hi hj hij
  have h1 := hgrid i hi
  have h2 := hgrid j hj
  have hn : (1 : ℝ) < r.voltage.length := by exact_mod_cast (by omega : 1 < r.voltage.length)
  have hs : 0 < 2 * vmax / ((r.voltage.length : ℝ) - 1) := div_pos (by linarith) (by linarith)
  have hc : (i : ℝ) < j := by exact_mod_cast hij
  rw [getD_get hi] at h1
  rw [getD_get hj] at h2
  have : r.voltage[i] * r.dc.vgap < r.voltage[j] * r.dc.vgap := by
    rw [h1, h2]
    have := mul_lt_mul_of_pos_right hc hs
    linarith
  exact lt_of_mul_lt_mul_right this hg.le

/-- How the response functions are made. -/
theorem dc_resp {R : Routines} {S : RespFn.Splines} {h : Heap} (hP : deref h sharedAt = PARAMS)
    {data : IfResp.Input} {dcif : Option IfResp.Input} {kw : Dict} {r : DCData}
    (e : (dcData R S h data dcif kw).1 = .ok r) :
    RespFn.fromIVData S r.voltage r.current (some 1.8) (smearParams none) = .ok r.resp ∧
    ∃ s, Uses kw "v_smear" asOptReal (some 0.02) s ∧
      RespFn.fromIVData S r.voltage r.current (some 1.8) (smearParams s) = .ok r.respSmear := by
  simp only [dcData, mergeOptions_eq, deref_append, hP] at e
  obtain ⟨-, -, -, -, -, -, -, -, -, h1, ⟨w, hw, h2⟩, -⟩ := dcInit_parts e
  have key : ∀ (w : Val) (x : RespFn.Obj), respFnFromIVData S r.voltage r.current (respOpts w) = .ok x →
      ∃ s, asOptReal w = .ok s ∧
        RespFn.fromIVData S r.voltage r.current (some 1.8) (smearParams s) = .ok x := by
    intro w x hx
    obtain ⟨p, l, ⟨u1, u2, u3, u4, u5, u6, u7⟩, u8, hx⟩ := (C41_resp S (respOpts w) x).2.1 _ _ hx
    have e1 : l = 1.8 := u8.2 rfl
    have e2 := u5.1 w rfl
    refine ⟨p.vSmear, e2, ?_⟩
    have e3 : p = smearParams p.vSmear := by
      have a1 : p.maxNptsDc = 81 := u1.2 rfl
      have a2 : p.maxNptsKk = 101 := u2.2 rfl
      have a3 : p.maxInterpError = 0.001 := u3.2 rfl
      have a4 : false = p.checkError := Except.ok.inj (u4.1 (.bool false) rfl)
      have a6 : p.kkN = 50 := u6.2 rfl
      have a7 : p.splineOrder = 3 := u7.2 rfl
      cases p
      simp only at a1 a2 a3 a4 a6 a7
      subst a1 a2 a3 a4 a6 a7
      rfl
    rw [← e3, ← e1]
    exact hx
  obtain ⟨s1, k1, k2⟩ := key _ _ h1
  obtain ⟨s2, k3, k4⟩ := key _ _ h2
  cases k1
  refine ⟨k2, s2, ⟨?_, ?_⟩, k4⟩
  · intro v hv
    have : update PARAMS kw "v_smear" = some v := by simp [update, hv]
    rw [this] at hw
    cases hw
    exact k3
  · intro hv
    have : update PARAMS kw "v_smear" = some (.num 0.020) := by
      simp only [update, hv, Option.orElse_none]
      rfl
    rw [this] at hw
    cases hw
    have := Except.ok.inj k3
    rw [← this]
    norm_num

/-- The points of the interpolation that are always kept: near zero, near the gap and at the end. -/
theorem resp_grid {S : RespFn.Splines} {v i : List ℝ} {x : RespFn.Obj} (hl : i.length = v.length)
    (h : RespFn.fromIVData S v i (some 1.8) (smearParams none) = .ok x) :
    ∃ c, RespFn.ivResample v i 1.8 = .ok c ∧ ∀ k : ℕ, k < 7001 →
      ((k : ℝ) / 200 < 0.05 ∨ |(k : ℝ) / 200 - 1| < 0.1 ∨ 6998 ≤ k) →
      x.idc (k / 200) = c.getD k 0 ∧ (0 < k → x.idc (-(k / 200)) = -c.getD k 0) := by
  simp only [RespFn.fromIVData, bind_ok_iff] at h
  obtain ⟨c, hc, h⟩ := h
  have hc' : RespFn.ivResample v i 1.8 = .ok c := hc
  refine ⟨c, hc', ?_⟩
  have hlc : c.length = 7001 := by
    obtain ⟨-, pre, vl, il, -, he⟩ := RespFn.ivResample_ok hc'
    rw [he, tab_length]
  have hcl : c.length = RespFn.VINIT.length := hlc.trans RespFn.VINIT_length.symm
  obtain ⟨l1, l2, hv, hi, -⟩ := RespFn.C36_data hcl rfl h
  rw [RespFn.VINIT_length] at hv hi l1 l2
  intro k hk hnear
  have e1 := (hv k hk).1
  have e2 := (hv k hk).2
  have e3 := (hi k hk).1
  have ek : RespFn.VINIT.getD k 0 = k / 200 := by
    rw [RespFn.VINIT_getD hk]
    ring
  rw [ek] at e1 e2
  have k0 : (0 : ℝ) ≤ (k : ℝ) / 200 := div_nonneg (Nat.cast_nonneg k) (by norm_num)
  constructor
  · have := (RespFn.C73_exact h (i := 7001 - 1 + k) (by omega) (by
      rw [e1]
      rcases hnear with hn | hn | hn
      · left; rw [abs_of_nonneg k0]; exact hn
      · right; left; exact hn
      · right; right; right; right; omega)).1
    rw [e1, e3] at this
    exact this
  · intro k1
    have := (RespFn.C73_exact h (i := 7001 - 1 - k) (by omega) (by
      rw [e2]
      rcases hnear with hn | hn | hn
      · left; rw [abs_neg, abs_of_nonneg k0]; exact hn
      · right; right; left
        rw [show -((k : ℝ) / 200) + 1 = -((k : ℝ) / 200 - 1) by ring, abs_neg]
        exact hn
      · right; right; right; left; omega)).1
    rw [e2, (hi k hk).2 k1] at this
    exact this

/-- C97: the response function of a measured junction follows the measured curve. At the voltages `k / 200` near
zero and near the gap, `idc` is on the straight line between the neighbouring points of the curve (those between
0 and 1.8), and `idc` is odd there. At the far end it is the measured curve continued with the slope of the
normal resistance. -/
theorem C97_measured (R : Routines) (S : RespFn.Splines) (h : Heap) (hh : h ≠ []) (hP : deref h sharedAt = PARAMS)
    (data : IfResp.Input) (dcif : Option IfResp.Input) (kw : Dict) (r : DCData) (vmax : ℝ)
    (e : (dcData R S h data dcif kw).1 = .ok r) (hg : 0 < r.dc.vgap) (hu : Uses kw "vmax" asReal 6e-3 vmax)
    (hvm : 0 < vmax) (k : ℕ) (hk : k < 7001)
    (hnear : (k : ℝ) / 200 < 0.05 ∨ |(k : ℝ) / 200 - 1| < 0.1 ∨ 6998 ≤ k) :
    (0 < k → r.resp.idc (-(k / 200)) = -r.resp.idc (k / 200)) ∧
    (∀ j, j + 1 < r.voltage.length → 0 < r.voltage.getD j 0 → r.voltage.getD j 0 ≤ k / 200 →
      (k : ℝ) / 200 < r.voltage.getD (j + 1) 0 → r.voltage.getD (j + 1) 0 < 1.8 →
      (r.voltage.getD (j + 1) 0 - r.voltage.getD j 0) * r.resp.idc (k / 200) =
        (r.voltage.getD (j + 1) 0 - k / 200) * r.current.getD j 0
          + (k / 200 - r.voltage.getD j 0) * r.current.getD (j + 1) 0) ∧
    (∀ j, j < r.voltage.length → 0 < r.voltage.getD j 0 → r.voltage.getD j 0 < 1.8 → r.voltage.getD j 0 ≤ k / 200 →
      (∀ i, j < i → i < r.voltage.length → 1.8 ≤ r.voltage.getD i 0) →
      r.resp.idc (k / 200) = r.current.getD j 0 + (k / 200 - r.voltage.getD j 0)) := by
  classical
  obtain ⟨hs, hl⟩ := dc_sorted hh hP e hg hu hvm
  obtain ⟨c, hc, hgrid⟩ := resp_grid hl (dc_resp hP e).1
  obtain ⟨g1, g2⟩ := hgrid k hk hnear
  obtain ⟨-, c1, c2, -⟩ := RespFn.C40_resampling hs (by norm_num) hc
  have ek : RespFn.VINIT.getD k 0 = k / 200 := by
    rw [RespFn.VINIT_getD hk]
    ring
  have zip_at : ∀ j, j < r.voltage.length → (r.voltage.zip r.current).drop j =
      (r.voltage.getD j 0, r.current.getD j 0) :: (r.voltage.zip r.current).drop (j + 1) := by
    intro j hj
    have hj' : j < (r.voltage.zip r.current).length := by
      rw [List.length_zip]
      omega
    rw [List.drop_eq_getElem_cons hj', List.getElem_zip, getD_get hj,
      getD_get (by omega)]
  refine ⟨fun k0 => by rw [g1, g2 k0], ?_, ?_⟩
  · intro j hj j0 jk kj j1
    have hj1 : j < r.voltage.length := by omega
    have hlt : r.voltage.getD j 0 < 1.8 := by linarith
    have hp : 0 < r.voltage.getD (j + 1) 0 := by linarith
    have hsplit : RespFn.keptData r.voltage r.current 1.8 =
        (((r.voltage.zip r.current).take j).filter fun p => 0 < p.1 ∧ p.1 < 1.8) ++
          (r.voltage.getD j 0, r.current.getD j 0) :: (r.voltage.getD (j + 1) 0, r.current.getD (j + 1) 0) ::
          (((r.voltage.zip r.current).drop (j + 2)).filter fun p => 0 < p.1 ∧ p.1 < 1.8) := by
      unfold RespFn.keptData
      conv_lhs => rw [← List.take_append_drop j (r.voltage.zip r.current), List.filter_append]
      rw [zip_at j hj1, zip_at (j + 1) hj, List.filter_cons_of_pos (by simpa using ⟨j0, hlt⟩),
        List.filter_cons_of_pos (by simpa using ⟨hp, j1⟩)]
    have := (c2 _ _ _ _ _ _ hsplit k hk (by rw [ek]; exact jk) (by rw [ek]; exact kj)).1
    rw [ek] at this
    rw [g1]
    exact this
  · intro j hj j0 j1 jk hafter
    have hsplit : RespFn.keptData r.voltage r.current 1.8 =
        (((r.voltage.zip r.current).take j).filter fun p => 0 < p.1 ∧ p.1 < 1.8) ++
          [(r.voltage.getD j 0, r.current.getD j 0)] := by
      unfold RespFn.keptData
      conv_lhs => rw [← List.take_append_drop j (r.voltage.zip r.current), List.filter_append]
      rw [zip_at j hj, List.filter_cons_of_pos (by simpa using ⟨j0, j1⟩)]
      rw [List.append_right_inj, List.cons.injEq]
      refine ⟨rfl, ?_⟩
      rw [List.filter_eq_nil_iff]
      intro p hp
      obtain ⟨i, hi, rfl⟩ := List.mem_iff_getElem.1 hp
      rw [List.length_drop, List.length_zip] at hi
      have := hafter (j + 1 + i) (by omega) (by omega)
      rw [getD_get (by omega)] at this
      rw [List.getElem_drop, List.getElem_zip]
      simp only [decide_eq_true_eq, not_and, not_lt]
      intro _
      exact this
    have := c1 (r.voltage.getD j 0) (r.current.getD j 0) (by rw [hsplit]; simp) k hk (by rw [ek]; exact jk)
    rw [ek] at this
    rw [g1, this]
    ring

/-- C97: `resp_smear` is `resp` smeared with the width `v_smear`, on the same voltages: the deviation of the current
from the normal state is smoothed, so it stays within its bounds. With `v_smear=None` both are the same. -/
theorem C97_smeared (R : Routines) (S : RespFn.Splines) (h : Heap) (hP : deref h sharedAt = PARAMS)
    (data : IfResp.Input) (dcif : Option IfResp.Input) (kw : Dict) (r : DCData) (s : Option ℝ)
    (e : (dcData R S h data dcif kw).1 = .ok r) (hl : r.current.length = r.voltage.length)
    (hu : Uses kw "v_smear" asOptReal (some 0.02) s) :
    r.respSmear.voltage = r.resp.voltage ∧ (s = none → r.respSmear = r.resp) ∧
    ∀ w, s = some w →
      (∃ y, MathFn.gaussConv (List.zipWith (· - ·) r.resp.current r.resp.voltage) (200 * w) 3 = .ok y ∧
        r.respSmear.current = List.zipWith (· + ·) y r.resp.voltage) ∧
      ∀ lo hi, (∀ k, k < 14001 → lo ≤ r.resp.current.getD k 0 - r.resp.voltage.getD k 0 ∧
          r.resp.current.getD k 0 - r.resp.voltage.getD k 0 ≤ hi) →
        ∀ k, k < 14001 → lo ≤ r.respSmear.current.getD k 0 - r.resp.voltage.getD k 0 ∧
          r.respSmear.current.getD k 0 - r.resp.voltage.getD k 0 ≤ hi := by
  obtain ⟨h1, s', hu', h2⟩ := dc_resp hP e
  obtain rfl := uses_unique hu hu'
  have h1' := h1
  have h2' := h2
  simp only [RespFn.fromIVData, bind_ok_iff] at h1 h2
  obtain ⟨c, hc, h1⟩ := h1
  obtain ⟨c', hc', h2⟩ := h2
  rw [hc] at hc'
  obtain rfl := Except.ok.inj hc'
  have hlc : c.length = 7001 := by
    obtain ⟨-, pre, vl, il, -, he⟩ := RespFn.ivResample_ok hc
    rw [he, tab_length]
  have hcl : c.length = RespFn.VINIT.length := hlc.trans RespFn.VINIT_length.symm
  obtain ⟨l1, l2, hv, -⟩ := RespFn.C36_data hcl rfl h1
  rw [RespFn.VINIT_length] at l1 l2 hv
  obtain ⟨-, -, -, a1, a2, -⟩ := RespFn.respInit_ok h1
  obtain ⟨-, -, -, b1, b2, -⟩ := RespFn.respInit_ok h2
  have hvv : r.respSmear.voltage = r.resp.voltage := b1.trans a1.symm
  refine ⟨hvv, ?_, ?_⟩
  · rintro rfl
    rw [h1'] at h2'
    exact (Except.ok.inj h2').symm
  · rintro w rfl
    have a2' : RespFn.reflected c = r.resp.current := Except.ok.inj a2
    rw [a2', ← a1] at b2
    unfold RespFn.smear at b2
    simp only [smearParams] at b2
    have g0 : r.resp.voltage.getD 0 0 = -35 := by
      have := (hv 7000 (by norm_num)).2
      rw [RespFn.VINIT_getD (by norm_num)] at this
      norm_num at this
      exact this
    have g1 : r.resp.voltage.getD 1 0 = -35 + 1 / 200 := by
      have := (hv 6999 (by norm_num)).2
      rw [RespFn.VINIT_getD (by norm_num), show 7001 - 1 - 6999 = 1 from rfl] at this
      rw [this]
      norm_num
    obtain ⟨v1, e1, c1⟩ := bind_ok_iff.1 b2
    obtain ⟨v0, e0, c2⟩ := bind_ok_iff.1 c1
    obtain ⟨x, ex, c3⟩ := bind_ok_iff.1 c2
    obtain ⟨sg, es, c4⟩ := bind_ok_iff.1 c3
    obtain ⟨y, ey, c5⟩ := bind_ok_iff.1 c4
    clear b2 c1 c2 c3 c4
    obtain ⟨-, rfl⟩ := RespFn.pyGet_nat (i := 0) e0
    obtain ⟨-, rfl⟩ := RespFn.pyGet_nat (i := 1) e1
    rw [g0, g1] at es
    have hsg : sg = 200 * w := by
      unfold Np.fdiv at es
      rw [if_neg (by norm_num)] at es
      have := Except.ok.inj es
      rw [← this]
      ring
    have hlen : r.resp.current.length = r.resp.voltage.length := l2.trans l1.symm
    unfold Np.zip at ex
    rw [if_pos hlen] at ex
    obtain rfl := Except.ok.inj ex
    have hy := Props.C46_length ey
    rw [List.length_zipWith, hlen, min_self] at hy
    unfold Np.zip at c5
    rw [if_pos hy] at c5
    have b3 := Except.ok.inj c5
    rw [hsg] at ey
    refine ⟨⟨y, ey, b3.symm⟩, ?_⟩
    intro lo hi hb k hk
    have hbd := Props.C46_bounds ey (lo := lo) (hi := hi) (by
      intro t ht
      obtain ⟨j, hj, rfl⟩ := List.mem_iff_getElem.1 ht
      rw [List.length_zipWith, hlen, min_self, l1] at hj
      have := hb j hj
      rw [getD_get (by omega), getD_get (by omega)] at this
      rw [List.getElem_zipWith]
      exact this)
    have hk1 : k < r.resp.voltage.length := by omega
    have hk2 : k < y.length := by omega
    have : r.respSmear.current.getD k 0 = y[k] + r.resp.voltage.getD k 0 := by
      rw [← b3, getD_get (by rw [List.length_zipWith]; omega), List.getElem_zipWith, getD_get hk1]
    rw [this]
    have := hbd _ (List.getElem_mem hk2)
    constructor <;> linarith

/-- The pumped curve has as many currents as voltages. -/
theorem ivCurve_length {R : Routines} {o : Opts} {data : IfResp.Input} {dc : DCIV} {v i : List ℝ}
    (h : ivCurve R o data dc = .ok (v, i)) : v.length = i.length := by
  simp only [ivCurve, bind_ok_iff] at h
  obtain ⟨raw, -, v1, -, i1, -, f, -, s, -, v2, -, i2, -, vn, -, cn, -, grid, -, vt, -, cur, hc, h⟩ := h
  rw [pure_ok_iff] at h
  cases h
  exact (interp0_ok hc).2.1.symm

/-- The impedance is recovered with the response function of the junction (the one that is not smeared). -/
theorem pumped_zemb {R : Routines} {h : Heap} (hh : h ≠ []) (hP : deref h sharedAt = PARAMS) {data : IfResp.Input}
    {d : DCData} {hot cold : Option IfResp.Input} {kw : Dict} {r : PumpedData} {z : Zemb.Result}
    (e : (pumpedData R h data d hot cold kw).1 = .ok r) (hz : r.zemb = some z) :
    r.voltage.length = r.current.length ∧
    ∃ o, zembOpts PARAMS (update PARAMS kw) = .ok o ∧
      Zemb.recoverZemb o d.resp.idc d.resp.ikk r.vph r.voltage r.current = .ok z := by
  obtain ⟨-, -, -, -, -, ⟨o, -, hc⟩, -, h1, -⟩ := pumpedInit_parts (pumpedData_ok hh hP e)
  refine ⟨ivCurve_length hc, ?_⟩
  simp only [pumpedZemb, bind_ok_iff] at h1
  obtain ⟨on, -, h1⟩ := h1
  split at h1
  · simp only [bind_ok_iff] at h1
    obtain ⟨-, -, oz, hoz, r', hr', h1⟩ := h1
    rw [pure_ok_iff, hz] at h1
    cases h1
    exact ⟨oz, hoz, hr'⟩
  · rw [pure_ok_iff, hz] at h1
    cases h1

/-- C98: the impedance reported by `PumpedData` lies within the ranges asked for, or else within the default ranges
0 to 1 and -1 to 1; an impedance given by the user is reported as it is. -/
theorem C98_range (R : Routines) (h : Heap) (hh : h ≠ []) (hP : deref h sharedAt = PARAMS) (data : IfResp.Input)
    (d : DCData) (hot cold : Option IfResp.Input) (kw : Dict) (r : PumpedData) (z : Zemb.Result)
    (remb xemb : ℝ × ℝ) (forced : Option ℂ) (e : (pumpedData R h data d hot cold kw).1 = .ok r) (hz : r.zemb = some z)
    (hr : Uses kw "remb_range" asPair (0, 1) remb) (hx : Uses kw "xemb_range" asPair (-1, 1) xemb)
    (hf : Uses kw "zemb" asOptCplx none forced) :
    (∀ w, forced = some w → z.zt = w) ∧
    (forced = none → remb.1 ≤ remb.2 → xemb.1 ≤ xemb.2 →
      remb.1 ≤ z.zt.re ∧ z.zt.re ≤ remb.2 ∧ xemb.1 ≤ z.zt.im ∧ z.zt.im ≤ xemb.2) := by
  obtain ⟨hl, o, ho, hrec⟩ := pumped_zemb hh hP e hz
  obtain ⟨u1, u2, u3, -⟩ := C41_zemb kw o ho
  obtain rfl := uses_unique hr u1
  obtain rfl := uses_unique hx u2
  obtain rfl := uses_unique hf u3
  constructor
  · intro w hw
    simp only [Zemb.recoverZemb, bind_ok_iff] at hrec
    obtain ⟨p, -, mid, -, al, -, jj, -, zw, -, zt, -, sf, -, best, -, zb, -, vb, -, err, -, a, -, hrec⟩ := hrec
    rw [pure_ok_iff] at hrec
    subst hrec
    rw [hw]
    rfl
  · intro hn h1 h2
    exact Zemb.C63_range o _ _ _ _ _ _ hl hn h1 h2 hrec

/-- C98: with the default options, a single bias point of the pumped curve between the fractions 0.25 and 0.8 of the
photon step whose current is below the unpumped current, where pumping raises it, makes `PumpedData` report the
impedance -j, a source voltage that is not a number and a bad fit, whatever the rest of the curve. -/
theorem C98_one_low_point (R : Routines) (h : Heap) (hh : h ≠ []) (hP : deref h sharedAt = PARAMS) (data : IfResp.Input)
    (d : DCData) (hot cold : Option IfResp.Input) (kw : Dict) (r : PumpedData) (z : Zemb.Result)
    (e : (pumpedData R h data d hot cold kw).1 = .ok r) (hz : r.zemb = some z)
    (hkw : ∀ k ∈ ["fit_range", "remb_range", "xemb_range", "zemb", "alpha_max", "num_b"], kw k = none)
    (j : ℕ) (hj : j < r.voltage.length) (hlow : 1 - r.vph + 0.25 * r.vph ≤ r.voltage.getD j 0)
    (hhigh : r.voltage.getD j 0 ≤ 1 - r.vph + 0.8 * r.vph)
    (hup : d.resp.idc (r.voltage.getD j 0) < Zemb.tuckerDc d.resp.idc (r.voltage.getD j 0) r.vph 20 1.5)
    (hi : r.current.getD j 0 < d.resp.idc (r.voltage.getD j 0)) :
    z.zt = -Complex.I ∧ z.vt = none ∧ z.fitGood = false := by
  classical
  obtain ⟨hl, o, ho, hrec⟩ := pumped_zemb hh hP e hz
  obtain ⟨u1, u2, u3, u4, u5⟩ := C41_zemb kw o ho
  have e1 : o.remb = (0, 1) := u1.2 (hkw _ (by simp))
  have e2 : o.xemb = (-1, 1) := u2.2 (hkw _ (by simp))
  have e3 : o.zemb = none := u3.2 (hkw _ (by simp))
  have e4 : o.alphaMax = 1.5 := u4.2 (hkw _ (by simp))
  have e5 : o.numB = 20 := u5.2 (hkw _ (by simp))
  have e6 : o.fitLow = 0.25 ∧ o.fitHigh = 0.8 := by
    have hk : update PARAMS kw "fit_range" = some (.seq [.num 0.25, .num 0.8]) := by
      simp only [update, hkw "fit_range" (by simp), Option.orElse_none]
      rfl
    simp only [zembOpts, bind_ok_iff, fitRange, getD, hk, Option.getD_some, asPair, asReal] at ho
    obtain ⟨p, ⟨x, hx, y, hy, hp⟩, re, -, xe, -, ze, -, al, -, nb, -, e'⟩ := ho
    rw [pure_ok_iff] at e' hp
    cases hx
    cases hy
    subst hp
    subst e'
    exact ⟨rfl, rfl⟩
  have hmem : (r.voltage.getD j 0, r.current.getD j 0) ∈
      Zemb.onStep o.fitLow o.fitHigh r.vph r.voltage r.current := by
    unfold Zemb.onStep
    rw [List.mem_filter, e6.1, e6.2]
    refine ⟨?_, by simpa using ⟨hlow, hhigh⟩⟩
    rw [List.mem_iff_getElem?]
    refine ⟨j, ?_⟩
    have hj' : j < r.current.length := by omega
    rw [List.getElem?_zip_eq_some, getD_get hj, getD_get hj']
    exact ⟨List.getElem?_eq_getElem hj, List.getElem?_eq_getElem hj'⟩
  obtain ⟨z', h1, h2, h3, h4⟩ := Zemb.C90_one_low_point o d.resp.idc d.resp.ikk r.vph r.voltage r.current _ hl e3
    (by rw [e5]; norm_num) (by rw [e4]; norm_num) hmem (by rw [e5, e4]; exact hup) hi
  rw [hrec] at h1
  obtain rfl := Except.ok.inj h1
  refine ⟨?_, h3, h4⟩
  rw [h2, e1, e2]
  simp

/-- C98: with a number as frequency and data that are numbers with two different voltages, `PumpedData` returns and
reports an impedance exactly when one of the bias points is on the photon step, between the fractions `fit_range` of
it; otherwise it raises a `ValueError`. -/
theorem C98_returns (R : Routines) (h : Heap) (hh : h ≠ []) (hP : deref h sharedAt = PARAMS)
    (m : Clean.Mat) (d : DCData) (kw : Dict) (o : Opts) (oz : Zemb.ZembOpts) (w : Val) (f : ℝ)
    (ho : ivOpts PARAMS (update PARAMS kw) = .ok o) (hoz : zembOpts PARAMS (update PARAMS kw) = .ok oz)
    (hkw : ∀ k ∈ ["dc", "ivdata", "volt_v", "curr_a", "vmeas", "imeas", "vdc_exp", "idc_exp", "vph", "resp", "vb",
      "alpha"], kw k = none)
    (hfreq : kw "freq" = some w) (hw : asReal w = .ok f) (hiv : kw "analyze_iv" = none)
    (hc : m.ncol = 2) (hv : o.vFmt ∈ ["uV", "mV", "V"]) (hi : o.iFmt ∈ ["uA", "mA", "A"]) (hvm : 0 < o.vMult)
    (hreal : ∀ r ∈ m.rows, ∃ x y : ℝ, r.getD 0 none = num x ∧ r.getD 1 none = num y)
    (h2 : ∃ r ∈ m.rows, ∃ r' ∈ m.rows, r.getD 0 none ≠ r'.getD 0 none)
    (hf : o.filterData = false) (hr : o.rseries = none) (hn : 32 ≤ o.npts)
    (hg : d.dc.vgap ≠ 0) (hig : d.dc.igap ≠ 0) (hfg : d.dc.fgap ≠ 0) :
    ((∃ k : ℕ, (k : ℤ) < o.npts ∧
        1 - f / d.dc.fgap * 1e9 + oz.fitLow * (f / d.dc.fgap * 1e9) ≤
          (-o.vmax + k * (2 * o.vmax / (o.npts - 1 : ℤ))) / d.dc.vgap ∧
        (-o.vmax + k * (2 * o.vmax / (o.npts - 1 : ℤ))) / d.dc.vgap ≤
          1 - f / d.dc.fgap * 1e9 + oz.fitHigh * (f / d.dc.fgap * 1e9)) →
      ∃ r z, (pumpedData R h (.matrix m) d none none kw).1 = .ok r ∧ r.zemb = some z ∧
        r.vph = f / d.dc.fgap * 1e9 ∧ ivCurve R o (.matrix m) d.dc = .ok (r.voltage, r.current)) ∧
    ((∀ k : ℕ, (k : ℤ) < o.npts →
        ¬ (1 - f / d.dc.fgap * 1e9 + oz.fitLow * (f / d.dc.fgap * 1e9) ≤
          (-o.vmax + k * (2 * o.vmax / (o.npts - 1 : ℤ))) / d.dc.vgap ∧
        (-o.vmax + k * (2 * o.vmax / (o.npts - 1 : ℤ))) / d.dc.vgap ≤
          1 - f / d.dc.fgap * 1e9 + oz.fitHigh * (f / d.dc.fgap * 1e9))) →
      (pumpedData R h (.matrix m) d none none kw).1 = .error .value) := by
  classical
  obtain ⟨v, i, hcur, lv, li, ev⟩ := ivCurve_returns R o m d.dc hc hv hi hvm hreal h2 hf hr (by omega) hg hig
  have gv : ∀ k : ℕ, (k : ℤ) < o.npts → v[k]? = some ((-o.vmax + k * (2 * o.vmax / (o.npts - 1 : ℤ))) / d.dc.vgap) := by
    intro k hk
    rw [ev, List.getElem?_map, tab_get?, if_pos (by omega)]
    simp only [Option.map_some]
    congr 3
    ring
  have eiv : update PARAMS kw "analyze_iv" = some (.bool true) := by
    simp only [update, hiv, Option.orElse_none]
    rfl
  have hno : noClash (update PARAMS kw) ["vdc_exp", "idc_exp", "vph", "resp", "vb", "alpha"] = .ok () := by
    rw [noClash_ok]
    intro k hk
    have : kw k = none := hkw k (by fin_cases hk <;> simp)
    simp only [update, this, Option.orElse_none]
    fin_cases hk <;> rfl
  have ez : ∀ vph v i, pumpedZemb PARAMS (update PARAMS kw) d vph v i =
      (Zemb.recoverZemb oz d.resp.idc d.resp.ikk vph v i).map some := by
    intro vph v i
    simp only [pumpedZemb, item, eiv, getOpt, py_bind, truth, if_true, hno, hoz]
    cases Zemb.recoverZemb oz d.resp.idc d.resp.ikk vph v i <;> rfl
  have h7 : ∃ b, update PARAMS kw "analyze_if" = some b := by
    cases hk : kw "analyze_if" with
    | none => exact ⟨.bool true, by simp only [update, hk, Option.orElse_none]; rfl⟩
    | some w => exact ⟨w, by simp [update, hk]⟩
  obtain ⟨b, h7⟩ := h7
  have hifs : ∀ v i : List ℝ, pumpedIfs R PARAMS (update PARAMS kw) d v i none none = .ok none := by
    intro v i
    simp only [pumpedIfs, item, h7, getOpt, py_bind]
    rfl
  constructor
  · rintro ⟨k, hk, k1, k2⟩
    have hne : ∀ v' i', ivCurve R o (.matrix m) d.dc = .ok (v', i') →
        Zemb.onStep oz.fitLow oz.fitHigh (f / d.dc.fgap * 1e9) v' i' ≠ [] := by
      intro v' i' h'
      rw [hcur] at h'
      simp only [Except.ok.injEq, Prod.mk.injEq] at h'
      obtain ⟨rfl, rfl⟩ := h'
      have hk' : k < i.length := by omega
      apply List.ne_nil_of_mem (a := ((-o.vmax + k * (2 * o.vmax / (o.npts - 1 : ℤ))) / d.dc.vgap, i[k]))
      unfold Zemb.onStep
      rw [List.mem_filter]
      refine ⟨?_, by simp only [decide_eq_true_eq]; exact ⟨k1, k2⟩⟩
      rw [List.mem_iff_getElem?]
      exact ⟨k, List.getElem?_zip_eq_some.2 ⟨gv k hk, List.getElem?_eq_getElem hk'⟩⟩
    obtain ⟨r, h1, h3, -, h4, h5⟩ := pumped_core' R h hh hP m d none none kw o w f ho
      (fun k hk => hkw k (by fin_cases hk <;> simp)) hfreq hw hc hv hi hvm hreal h2 hf
      hr hn hg hig hfg (fun v i _ _ => ⟨none, hifs v i⟩) (by
        intro v' i' h' hl'
        obtain ⟨_, _, _, _, _, -, -, -, -, -, -, -, hz'⟩ := Zemb.recover_eq oz d.resp.idc d.resp.ikk
          (f / d.dc.fgap * 1e9) v' i' hl' rfl (hne v' i' h')
        exact ⟨some _, by rw [ez, hz']; rfl⟩)
    obtain ⟨_, _, _, _, _, -, -, -, -, -, -, -, hz'⟩ := Zemb.recover_eq oz d.resp.idc d.resp.ikk
      (f / d.dc.fgap * 1e9) r.voltage r.current (ivCurve_length h5) rfl (hne _ _ h5)
    rw [ez, h4, hz'] at h3
    exact ⟨r, _, h1, (Except.ok.inj h3).symm, h4, h5⟩
  · intro hno'
    have hnil : Zemb.onStep oz.fitLow oz.fitHigh (f / d.dc.fgap * 1e9) v i = [] := by
      unfold Zemb.onStep
      rw [List.filter_eq_nil_iff]
      intro p hp
      obtain ⟨k, hk⟩ := List.mem_iff_getElem?.1 hp
      obtain ⟨h1, -⟩ := List.getElem?_zip_eq_some.1 hk
      have hk' : k < v.length := (List.getElem?_eq_some_iff.1 h1).1
      rw [gv k (by omega)] at h1
      have := hno' k (by omega)
      rw [Option.some.inj h1] at this
      simp only [decide_eq_true_eq]
      exact this
    have hzm : pumpedZemb PARAMS (update PARAMS kw) d (f / d.dc.fgap * 1e9) v i = .error .value := by
      rw [ez, Zemb.C63_no_data oz d.resp.idc d.resp.ikk _ v i (by omega) hnil]
      rfl
    obtain ⟨v', i', rd, hcur', -, -, he⟩ := pumped_eq R h hh hP m d none none kw o w f ho
      (fun k hk => hkw k (by fin_cases hk <;> simp)) hfreq hw hc hv hi hvm hreal h2 hf hr hn hg hig hfg
    rw [hcur] at hcur'
    simp only [Except.ok.injEq, Prod.mk.injEq] at hcur'
    obtain ⟨rfl, rfl⟩ := hcur'
    rw [he, hzm]
    rfl

/-- C98: a pumped curve that was not measured over all of the photon step. Where it was not measured, its current is
taken as zero. So if one of these bias points is between the fractions 0.25 and 0.8 of the step, where the junction
conducts and pumping raises the current, `PumpedData` reports the impedance -j, a source voltage that is not a number
and a bad fit. -/
theorem C98_not_measured (R : Routines) (h : Heap) (hh : h ≠ []) (hP : deref h sharedAt = PARAMS) (m : Clean.Mat)
    (d : DCData) (hot cold : Option IfResp.Input) (kw : Dict) (r : PumpedData) (z : Zemb.Result) (o : Opts)
    (ho : ivOpts PARAMS (update PARAMS kw) = .ok o)
    (e : (pumpedData R h (.matrix m) d hot cold kw).1 = .ok r) (hz : r.zemb = some z)
    (hkw : ∀ k ∈ ["fit_range", "remb_range", "xemb_range", "zemb", "alpha_max", "num_b"], kw k = none)
    (hf : o.filterData = false) (hr : o.rseries = none) (hvm : 0 < o.vMult) (hg : 0 < d.dc.vgap)
    (j : ℕ) (hj : j < r.voltage.length) (hlow : 1 - r.vph + 0.25 * r.vph ≤ r.voltage.getD j 0)
    (hhigh : r.voltage.getD j 0 ≤ 1 - r.vph + 0.8 * r.vph)
    (hout : (∀ p, Corrected o m (pumpedOffset o d.dc) p → r.voltage.getD j 0 * d.dc.vgap < p.1) ∨
      ∀ p, Corrected o m (pumpedOffset o d.dc) p → p.1 < r.voltage.getD j 0 * d.dc.vgap)
    (hup : d.resp.idc (r.voltage.getD j 0) < Zemb.tuckerDc d.resp.idc (r.voltage.getD j 0) r.vph 20 1.5)
    (hpos : 0 < d.resp.idc (r.voltage.getD j 0)) :
    z.zt = -Complex.I ∧ z.vt = none ∧ z.fitGood = false := by
  apply C98_one_low_point R h hh hP _ d hot cold kw r z e hz hkw j hj hlow hhigh hup
  obtain ⟨-, -, -, -, -, ⟨o', ho', hc⟩, -⟩ := pumpedInit_parts (pumpedData_ok hh hP e)
  have hl := ivCurve_length hc
  obtain rfl := Except.ok.inj (ho.symm.trans ho')
  rw [C84_pumped R o m r.voltage r.current d.dc hc hf hr hvm hg j (by omega) hout]
  exact hpos

/-- The hypotheses of C97 are met: the gap of the 10 ohm junction. -/
example (S : RespFn.Splines) : ∃ d, (dcData ideal S [PARAMS] (.matrix tenOhm) none gapOnly).1 = .ok d ∧
    d.voltage.getD 4400 0 = 1 ∧ d.resp.idc 1 = d.current.getD 4400 0 ∧ d.resp.idc (-1) = -d.current.getD 4400 0 := by
  obtain ⟨d, hd, d1, -, d2, d3, -⟩ := tenOhm_returns S
  have hu : Uses gapOnly "vmax" asReal 6e-3 6e-3 := ⟨fun v hv => by simp [gapOnly] at hv, fun _ => rfl⟩
  have hg : 0 < d.dc.vgap := by rw [d2]; norm_num
  obtain ⟨hn, hl, ⟨w, hw, hgrid⟩, -⟩ := C41_dc ideal S [PARAMS] (by simp) rfl _ none gapOnly d hd
  obtain rfl := uses_unique hu hw
  have hlen : d.voltage.length = 6001 := by
    have := hn.2 rfl
    omega
  have gv : ∀ i : ℕ, i < 6001 → d.voltage.getD i 0 = (-6e-3 + i * 2e-6) / 2.8e-3 := by
    intro i hi
    have := hgrid i (by omega)
    rw [hlen, d2] at this
    rw [eq_div_iff (by norm_num), this]
    norm_num
  have v0 : d.voltage.getD 4400 0 = 1 := by rw [gv _ (by norm_num)]; norm_num
  have v1 : d.voltage.getD (4400 + 1) 0 = 2.802e-3 / 2.8e-3 := by rw [gv _ (by norm_num)]; norm_num
  obtain ⟨h1, h2, -⟩ := C97_measured ideal S [PARAMS] (by simp) rfl _ none gapOnly d 6e-3 hd hg hu (by norm_num) 200
    (by norm_num) (Or.inr (Or.inl (by norm_num)))
  have h3 := h2 4400 (by omega) (by rw [v0]; norm_num) (by rw [v0]; norm_num) (by rw [v1]; norm_num)
    (by rw [v1]; norm_num)
  have h1' := h1 (by norm_num)
  have e1 : ((200 : ℕ) : ℝ) / 200 = 1 := by norm_num
  rw [e1] at h1' h3
  rw [v0, v1] at h3
  have h4 : d.resp.idc 1 = d.current.getD 4400 0 := by
    have hp : (2.802e-3 / 2.8e-3 - 1 : ℝ) ≠ 0 := by norm_num
    apply mul_left_cancel₀ hp
    linarith
  exact ⟨d, hd, v0, h4, by rw [h1', h4]⟩

/-- The keywords of the example. -/
noncomputable def pumpedFit : Dict := fun k => List.lookup k [("freq", .num 230), ("filter_data", .bool false)]

theorem pumpedFit_opts : (∃ o, ivOpts PARAMS (update PARAMS pumpedFit) = .ok o ∧ o.vFmt = "mV" ∧ o.iFmt = "mA" ∧
    o.vMult = 1 ∧ o.npts = 6001 ∧ o.vmax = 6e-3 ∧ o.filterData = false ∧ o.rseries = none ∧ o.voffset = none) ∧
    ∃ o, zembOpts PARAMS (update PARAMS pumpedFit) = .ok o ∧ o.fitLow = 0.25 ∧ o.fitHigh = 0.8 := by
  have hnone : ∀ k, k ∉ ["freq", "filter_data"] → pumpedFit k = none := by
    intro k hk
    simp only [List.mem_cons, List.not_mem_nil, or_false, not_or] at hk
    simp [pumpedFit, List.lookup, beq_false_of_ne hk.1, beq_false_of_ne hk.2]
  have e : ∀ k v, PARAMS k = some v → k ∉ ["freq", "filter_data"] →
      Opt.read PARAMS (update PARAMS pumpedFit) k = .ok v := by
    intro k v hv hk
    simp only [Opt.read, item, hv, getOpt, py_bind, getD, update, hnone k hk, Option.orElse_none]
    rfl
  have e0 : Opt.read PARAMS (update PARAMS pumpedFit) "filter_data" = .ok (.bool false) := rfl
  constructor
  · simp only [ivOpts, e0, e "v_fmt" _ rfl (by decide), e "i_fmt" _ rfl (by decide), e "v_multiplier" _ rfl (by decide),
      e "i_multiplier" _ rfl (by decide), e "rseries" _ rfl (by decide), e "vmax" _ rfl (by decide),
      e "npts" _ rfl (by decide), e "voffset" _ rfl (by decide), e "ioffset" _ rfl (by decide),
      e "voffset_range" _ rfl (by decide), e "filter_nwind" _ rfl (by decide), e "filter_npoly" _ rfl (by decide),
      e "filter_theta" _ rfl (by decide), e "vgap" _ rfl (by decide), e "vrn" _ rfl (by decide),
      e "vrsg" _ rfl (by decide), py_bind, asReal, asOptReal, asInt, asUnit, asVRange, asPair, truth, pure, Except.pure]
    exact ⟨_, rfl, rfl, rfl, by norm_num, rfl, rfl, rfl, rfl, rfl⟩
  · have g : ∀ k v, PARAMS k = some v → k ∉ ["freq", "filter_data"] → update PARAMS pumpedFit k = some v := by
      intro k v hv hk
      simp only [update, hnone k hk, hv, Option.orElse_none]
    simp only [zembOpts, fitRange, getD, e "remb_range" _ rfl (by decide), e "xemb_range" _ rfl (by decide),
      e "zemb" _ rfl (by decide), g "fit_range" _ rfl (by decide), g "alpha_max" _ rfl (by decide),
      g "num_b" _ rfl (by decide), Option.getD_some, py_bind, asReal, asInt, asPair, asOptCplx, pure, Except.pure]
    exact ⟨_, rfl, rfl, rfl⟩

/-- A pumped curve measured only above 2.7 mV. -/
noncomputable def cutShort : Clean.Mat where
  ncol := 2
  rows := [[num 2.7, num 0.2], [num 8, num 0.5]]

/-- A junction with a small current below the gap and a large one above. -/
noncomputable def sharpGap : RespFn.Obj where
  fIdc v := if v ≤ 1 then 1 else 2 / besselJ 1 1.5 ^ 2
  fIkk _ := 0
  fDidc := none
  fDikk := none
  voltage := []
  current := []
  currentKk := []

/-- The hypotheses of C98 are met, and its conclusion: the pumped curve was not measured at 0.8 gap voltages. -/
example (S : RespFn.Splines) : ∃ d r z, (dcData ideal S [PARAMS] (.matrix tenOhm) none gapOnly).1 = .ok d ∧
    (pumpedData ideal [PARAMS] (.matrix cutShort) { d with resp := sharpGap } none none pumpedFit).1 = .ok r ∧
    r.zemb = some z ∧ z.zt = -Complex.I ∧ z.vt = none ∧ z.fitGood = false := by
  obtain ⟨d, hd, d1, -, d2, d3, -⟩ := tenOhm_returns S
  obtain ⟨⟨o, ho, o1, o2, o3, o4, o5, o6, o7, o8⟩, oz, hoz, z1, z2⟩ := pumpedFit_opts
  have hd' := hd
  simp only [dcData, mergeOptions_eq, deref_append] at hd'
  obtain ⟨-, -, ⟨o', -, hc⟩, -⟩ := dcInit_parts hd'
  obtain ⟨-, -, -, -, -, -, hrn, hig, hfg, -⟩ := C81_metadata ideal o' _ _ _ _ hc
  have hv : voltUnit "mV" = 1e-3 := by simp [voltUnit]
  have hoff : pumpedOffset o d.dc = (0, 0) := by
    unfold pumpedOffset
    rw [o8, d3]
  have hfg' : d.dc.fgap ≠ 0 := by rw [hfg, d2]; norm_num
  have hig' : d.dc.igap ≠ 0 := by
    intro h0
    rw [h0, d2] at hig
    norm_num at hig
  have hvph : 0.33 < 230 / d.dc.fgap * 1e9 ∧ 230 / d.dc.fgap * 1e9 < 0.34 := by
    rw [hfg, d2]
    norm_num
  set d' : DCData := { d with resp := sharpGap } with hd'def
  obtain ⟨r, z, h1, h2, h3, h4⟩ := (C98_returns ideal [PARAMS] (by simp) rfl cutShort d' pumpedFit o oz (.num 230) 230 ho hoz
    (fun k hk => by fin_cases hk <;> rfl) rfl rfl rfl rfl (by rw [o1]; simp) (by rw [o2]; simp) (by rw [o3]; norm_num)
    (by
      intro w hw
      simp only [cutShort, List.mem_cons, List.not_mem_nil, or_false] at hw
      rcases hw with rfl | rfl
      · exact ⟨2.7, 0.2, rfl, rfl⟩
      · exact ⟨8, 0.5, rfl, rfl⟩)
    ⟨_, by simp only [cutShort]; exact List.mem_cons_self, [num 8, num 0.5], by simp [cutShort], by
      simp only [List.getD_cons_zero, ne_eq, Fl.num_inj]; norm_num⟩ o6 o7 (by rw [o4]; norm_num)
    (by show d.dc.vgap ≠ 0; rw [d2]; norm_num) hig' hfg').1
    ⟨4120, by rw [o4]; norm_num, by
      show 1 - 230 / d.dc.fgap * 1e9 + _ * (230 / d.dc.fgap * 1e9) ≤ _ / d.dc.vgap
      rw [z1, o4, o5, d2]
      norm_num
      linarith [hvph.1], by
      show _ / d.dc.vgap ≤ 1 - 230 / d.dc.fgap * 1e9 + _ * (230 / d.dc.fgap * 1e9)
      rw [z2, o4, o5, d2]
      norm_num
      linarith [hvph.2]⟩
  refine ⟨d, r, z, hd, h1, h2, ?_⟩
  have h3' : r.vph = 230 / d.dc.fgap * 1e9 := h3
  rw [← h3'] at hvph
  obtain ⟨v, i, hcur, lv, li, ev⟩ := ivCurve_returns ideal o cutShort d.dc rfl (by rw [o1]; simp) (by rw [o2]; simp)
    (by rw [o3]; norm_num) (by
      intro w hw
      simp only [cutShort, List.mem_cons, List.not_mem_nil, or_false] at hw
      rcases hw with rfl | rfl
      · exact ⟨2.7, 0.2, rfl, rfl⟩
      · exact ⟨8, 0.5, rfl, rfl⟩)
    ⟨_, by simp only [cutShort]; exact List.mem_cons_self, [num 8, num 0.5], by simp [cutShort], by
      simp only [List.getD_cons_zero, ne_eq, Fl.num_inj]; norm_num⟩ o6 o7 (by rw [o4]; norm_num)
    (by rw [d2]; norm_num) hig'
  have h4' : ivCurve ideal o (.matrix cutShort) d.dc = .ok (r.voltage, r.current) := h4
  rw [h4'] at hcur
  simp only [Except.ok.injEq, Prod.mk.injEq] at hcur
  obtain ⟨rfl, rfl⟩ := hcur
  have hlen : r.voltage.length = 6001 := by rw [lv, o4]; rfl
  have v0 : r.voltage.getD 4120 0 = 0.8 := by
    rw [ev, List.getD_eq_getElem?_getD, List.getElem?_map, tab_get?, if_pos (by rw [o4]; decide), o4, o5, d2]
    norm_num
  have hb := besselJ_one_pos (x := 1.5) (by norm_num) (by linarith [Real.pi_gt_three])
  apply C98_not_measured ideal [PARAMS] (by simp) rfl cutShort d' none none pumpedFit r z o ho h1 h2
    (fun k hk => by fin_cases hk <;> rfl) o6 o7 (by rw [o3]; norm_num) (by show 0 < d.dc.vgap; rw [d2]; norm_num) 4120 (by omega)
  · rw [v0]; linarith [hvph.1]
  · rw [v0]; linarith [hvph.2]
  · left
    rintro p ⟨w, hw, x, y, hx, hy, rfl⟩
    show _ * d.dc.vgap < x * voltUnit o.vFmt * o.vMult - (pumpedOffset o d.dc).1
    rw [v0, d2, o1, o3, hv, hoff]
    simp only [cutShort, List.mem_cons, List.not_mem_nil, or_false] at hw
    rcases hw with rfl | rfl
    · simp only [List.getD_cons_zero, Fl.num_inj] at hx
      rw [← hx]; norm_num
    · simp only [List.getD_cons_zero, Fl.num_inj] at hx
      rw [← hx]; norm_num
  · rw [v0]
    have hs : ∀ t, d'.resp.idc t = if t ≤ 1 then 1 else 2 / besselJ 1 1.5 ^ 2 := fun t => rfl
    rw [hs, if_pos (by norm_num)]
    have h0 : ∀ t, 0 ≤ d'.resp.idc t := by
      intro t
      rw [hs]
      split_ifs <;> positivity
    unfold Zemb.tuckerDc
    have h5 : besselJ 1 1.5 ^ 2 * d'.resp.idc (0.8 + (1 : ℤ) * r.vph) = 2 := by
      rw [hs, if_neg (by push_cast; linarith [hvph.1])]
      field_simp
    have h6 := Finset.single_le_sum (f := fun n : ℤ => besselJ n 1.5 ^ 2 * d'.resp.idc (0.8 + n * r.vph))
      (s := Finset.Icc (-20) 20) (fun n _ => mul_nonneg (sq_nonneg _) (h0 _)) (a := 1) (by simp)
    rw [h5] at h6
    linarith
  · rw [v0]
    show (0 : ℝ) < if (0.8 : ℝ) ≤ 1 then 1 else _
    rw [if_pos (by norm_num)]
    norm_num

/-- The hypotheses of the second part of C97 are met, with the default smearing. -/
example (S : RespFn.Splines) : ∃ d y, (dcData ideal S [PARAMS] (.matrix tenOhm) none gapOnly).1 = .ok d ∧
    MathFn.gaussConv (List.zipWith (· - ·) d.resp.current d.resp.voltage) 4 3 = .ok y ∧
    d.respSmear.current = List.zipWith (· + ·) y d.resp.voltage := by
  obtain ⟨d, hd, -⟩ := tenOhm_returns S
  obtain ⟨-, hl, -⟩ := C41_dc ideal S [PARAMS] (by simp) rfl _ none gapOnly d hd
  obtain ⟨-, -, h⟩ := C97_smeared ideal S [PARAMS] rfl _ none gapOnly d (some 0.02) hd hl
    ⟨fun v hv => by simp [gapOnly] at hv, fun _ => rfl⟩
  obtain ⟨⟨y, h1, h2⟩, -⟩ := h 0.02 rfl
  exact ⟨d, y, hd, by rw [← h1]; norm_num, h2⟩

end QMix.Exp
