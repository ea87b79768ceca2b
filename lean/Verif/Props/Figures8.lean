import Verif.Props.Figures4

/-!
# C113: a receiver whose figures are all drawn
-/

namespace QMix.Exp

open Np Fl IvData IfData Opt

/-- The options that matter for the IF data of the receiver. -/
theorem pumpedBoth_if : ∃ o, ifOpts PARAMS (update PARAMS pumpedBoth) = .ok o ∧ o.vFmt = "mV" ∧ o.rseries = none ∧
    o.sigma = none ∧ o.vMult = 1 ∧ o.vmax = 6e-3 ∧ o.npts = 3000 := by
  have e : ∀ k v, Opt.read PARAMS (update PARAMS pumpedBoth) k = .ok v → Opt.read PARAMS (update PARAMS pumpedBoth) k = .ok v :=
    fun _ _ h => h
  simp only [ifOpts, e "v_fmt" _ rfl, e "v_multiplier" _ rfl, e "rseries" _ rfl, e "ifdata_sigma" _ rfl,
    e "vmax" _ rfl, e "ifdata_npts" _ rfl, e "vshot" _ rfl, py_bind, asReal, asOptReal, asInt, asUnit, asVshot, pure,
    Except.pure]
  exact ⟨_, rfl, rfl, rfl, rfl, by norm_num, by norm_num, by norm_num⟩

/-- The receiver has more than enough points with power for the figures with smoothed powers. -/
theorem receiver_points (S : RespFn.Splines) : ∃ d r f th tc x out,
    (dcData ideal S [PARAMS] (.matrix tenOhm) (some (.matrix spike)) gapAndShot).1 = .ok d ∧
    (pumpedData ideal [PARAMS] (.matrix twentyOhm) d (some (.matrix (delivered [(0, 1), (2, 2), (6, 1)] 100 th)))
      (some (.matrix (delivered [(0, 1), (2, 2), (6, 1)] 100 tc))) pumpedBoth).1 = .ok r ∧ r.ifs = some f ∧
    d.ifs = some (x, out) ∧ 31 ≤ (f.hot.filter fun q : ℝ × ℝ => decide (q.2 ≠ 0)).length := by
  obtain ⟨d, r, f, th, tc, x, out, hd, hr, hf, hx, hg, hcorr, hoff, hth⟩ := receiver_returns S
  refine ⟨d, r, f, th, tc, x, out, hd, hr, hf, hx, ?_⟩
  obtain ⟨o, a, b, ho, ha, -, hhot, -⟩ := C103_calibration ideal [PARAMS] (by simp) rfl _ d _ _ _ r f x out 2.9 hr hf hx hcorr
  obtain ⟨o', ho', o1, o2, o3, o4, o5, o6⟩ := pumpedBoth_if
  obtain rfl := Except.ok.inj (ho.symm.trans ho')
  set m := delivered [(0, 1), (2, 2), (6, 1)] 100 th with hm
  have hw : m.WF := delivered_wf _ _ _
  obtain ⟨-, l1, l2, hv⟩ := C88_grid ideal.sorter o d.dc m a rfl hw ha
  rw [o6] at l1 l2
  have hu : voltUnit "mV" = 1e-3 := by simp [voltUnit]
  have meas : ∀ p ∈ [((0 : ℝ), (1 : ℝ)), (2, 2), (6, 1)], Measured o d.dc m (p.1 * 1e-3, p.2 * (th + 100)) := by
    intro p hp
    refine ⟨_, List.mem_map.2 ⟨p, hp, rfl⟩, p.1, p.2 * (th + 100), rfl, rfl, ?_⟩
    rw [o1, o4, hoff, hu]
    simp
  have key : ∀ k, k < 31 → a.2.getD k 0 ≠ 0 := by
    intro k hk
    have hV := hv k (by omega)
    rw [o5, o6] at hV
    have hk' : (k : ℝ) < 31 := by exact_mod_cast hk
    have hk0 : (0 : ℝ) ≤ k := Nat.cast_nonneg k
    have hV0 : 0 ≤ a.1.getD k 0 * d.dc.vgap := by
      rw [hV]
      have : (0 : ℝ) ≤ 6e-3 / ((3000 - 1 : ℤ) : ℝ) := by norm_num
      positivity
    have hV1 : a.1.getD k 0 * d.dc.vgap ≤ 2e-3 := by
      rw [hV]
      have : (6e-3 / ((3000 - 1 : ℤ) : ℝ) : ℝ) = 6 / 2999000 := by norm_num
      rw [this]
      norm_num
      linarith
    have := C88_straight ideal.sorter o d.dc m a rfl hw ha o2 o3 (by rw [o4]; norm_num) (by rw [hg]; norm_num)
      (0 * 1e-3, 1 * (th + 100)) (2 * 1e-3, 2 * (th + 100)) (meas (0, 1) (by simp)) (meas (2, 2) (by simp)) ((th + 100) / 2)
      (th + 100)
      (by
        rintro q ⟨w, hw, x, y, hx, hy, rfl⟩ q1 q2
        obtain ⟨p, hp, rfl⟩ := List.mem_map.1 hw
        rw [o1, o4, hoff, hu] at q1 q2 ⊢
        have hx' : p.1 = x := by simpa [num] using hx
        have hy' : p.2 * (th + 100) = y := by exact_mod_cast (Option.some.inj hy : ((p.2 * (th + 100) : ℝ) : EReal) = (y : EReal))
        subst hx' hy'
        simp only [List.mem_cons, List.not_mem_nil, or_false] at hp
        rcases hp with rfl | rfl | rfl
        · simp
        · norm_num; ring
        · norm_num at q2)
      k (by omega) (by linarith) (by linarith)
    rw [this]
    have h2 : 0 ≤ (th + 100) / 2 * (a.1.getD k 0 * d.dc.vgap * 1000) := by positivity
    linarith
  have hall : ∀ q ∈ f.hot.take 31, decide (q.2 ≠ 0) = true := by
    intro q hq
    obtain ⟨k, hk, rfl⟩ := List.getElem_of_mem hq
    rw [List.length_take] at hk
    rw [List.getElem_take]
    have hk2 : k < a.2.length := by omega
    have := key k (by omega)
    rw [List.getD_eq_getElem?_getD, List.getElem?_eq_getElem hk2, Option.getD_some] at this
    simp only [hhot, List.getElem_zip, List.getElem_map, decide_eq_true_eq]
    exact mul_ne_zero this (by norm_num)
  have hlen : f.hot.length = 3000 := by rw [hhot]; simp [l1, l2]
  calc 31 = (f.hot.take 31).length := by rw [List.length_take, hlen]; norm_num
    _ = ((f.hot.take 31).filter fun q : ℝ × ℝ => decide (q.2 ≠ 0)).length := by rw [List.filter_eq_self.2 hall]
    _ ≤ _ := ((List.take_sublist 31 f.hot).filter _).length_le

/-- All the figures of this receiver are drawn. -/
example (S : RespFn.Splines) (vmax : ℝ) (new : ℕ) (ax2 : Option (ℕ × ℕ)) : ∃ d r f f2 f3,
    (dcData ideal S [PARAMS] (.matrix tenOhm) (some (.matrix spike)) gapAndShot).1 = .ok d ∧ r.ifs = some f ∧
    plotNoiseTemp r vmax new ax2 = .ok f2 ∧ plotYfac r vmax new ax2 = .ok f3 := by
  obtain ⟨d, r, f, th, tc, x, out, hd, hr, hf, hx, h31⟩ := receiver_points S
  obtain ⟨-, -, -, -, h2, -, h3, -⟩ := C113_returns ideal S [PARAMS] [PARAMS] (by simp) rfl (by simp) rfl _ _ _ _ _ d _ _ r
    hd hr rfl (delivered_wf _ _ _) rfl (delivered_wf _ _ _) f hf vmax new none ax2
  obtain ⟨f3, h3⟩ := h3 h31
  obtain ⟨f2, h2⟩ := h2 (h31.trans (List.length_filter_le _ _))
  exact ⟨d, r, f, f3, f2, hd, hf, h3, h2⟩

end QMix.Exp
