import Verif.Props.IvData2

/-!
# Properties of `qmix/exp/iv_data.py`: which data is loaded (C83), a resistor from end to end (C85)
-/

namespace QMix.IvData

open Np Fl Clean

theorem toReals_total {l : List Flt} (h : ∀ a ∈ l, ∃ x : ℝ, a = num x) : ∃ r, toReals l = .ok r := by
  induction l with
  | nil => exact ⟨[], rfl⟩
  | cons a l ih =>
    obtain ⟨r, hr⟩ := ih fun b hb => h b (List.mem_cons_of_mem _ hb)
    obtain ⟨x, rfl⟩ := h _ List.mem_cons_self
    rw [toReals_ok hr, ← List.map_cons, toReals_num]
    exact ⟨_, rfl⟩

/-- C83: finite data with two different voltages, in two columns and with known units, is always loaded. -/
theorem C83_accepted (R : Routines) (o : Opts) (m : Mat) (hc : m.ncol = 2)
    (hv : o.vFmt ∈ ["uV", "mV", "V"]) (hi : o.iFmt ∈ ["uA", "mA", "A"])
    (hreal : ∀ r ∈ m.rows, ∃ x y : ℝ, r.getD 0 none = num x ∧ r.getD 1 none = num y)
    (h2 : ∃ r ∈ m.rows, ∃ r' ∈ m.rows, r.getD 0 none ≠ r'.getD 0 none) :
    ∃ raw v i, loadIv R o (.matrix m) = .ok raw ∧ toReals raw.1 = .ok v ∧ toReals raw.2 = .ok i := by
  obtain ⟨vu, hvu, hvu0⟩ : ∃ vu, vUnit o.vFmt = .ok vu ∧ 0 < vu := by
    simp only [List.mem_cons, List.not_mem_nil, or_false] at hv
    rcases hv with e | e | e <;> rw [e] <;> refine ⟨_, rfl, ?_⟩ <;> norm_num
  obtain ⟨iu, hiu, hiu0⟩ : ∃ iu, iUnit o.iFmt = .ok iu ∧ 0 < iu := by
    simp only [List.mem_cons, List.not_mem_nil, or_false] at hi
    rcases hi with e | e | e <;> rw [e] <;> refine ⟨_, rfl, ?_⟩ <;> norm_num
  have hnum : ∀ p ∈ scaled vu iu m, ∃ x y : ℝ, p = (num x, num y) := by
    intro p hp
    obtain ⟨⟨r, hr, rfl⟩, -⟩ := mem_scaled.1 hp
    obtain ⟨x, y, e1, e2⟩ := hreal r hr
    exact ⟨x * vu, y * iu, by rw [e1, e2, fmul_num, fmul_num]⟩
  have hin : ∀ r ∈ m.rows, ∃ w, (fmul (r.getD 0 none) (num vu), w) ∈ scaled vu iu m := by
    intro r hr
    obtain ⟨x, y, e1, e2⟩ := hreal r hr
    refine ⟨fmul (r.getD 1 none) (num iu), mem_scaled.2 ⟨⟨r, hr, rfl⟩, ?_, ?_⟩⟩
    · rw [e1, fmul_num]; exact num_ne_none _
    · rw [e2, fmul_num]; exact num_ne_none _
  obtain ⟨r1, hr1, r2, hr2, hne12⟩ := h2
  have hdiff : ∃ p ∈ scaled vu iu m, ∃ q ∈ scaled vu iu m, p.1 ≠ q.1 := by
    obtain ⟨w1, h1⟩ := hin r1 hr1
    obtain ⟨w2, h2⟩ := hin r2 hr2
    refine ⟨_, h1, _, h2, ?_⟩
    obtain ⟨x, -, e1, -⟩ := hreal r1 hr1
    obtain ⟨x', -, e2, -⟩ := hreal r2 hr2
    rw [e1, e2] at hne12 ⊢
    dsimp only
    rw [fmul_num, fmul_num]
    intro he
    exact hne12 (by rw [mul_right_cancel₀ hvu0.ne' (Fl.num_inj.1 he)])
  have hne : scaled vu iu m ≠ [] := by
    obtain ⟨p, hp, -⟩ := hdiff
    rintro he
    rw [he] at hp
    cases hp
  obtain ⟨a, b, Q, e1, e2, e3, e4, l1, l2⟩ := takeOnePass_eq (scaled vu iu m) hne
  have hperm := sortBy_perm R.sorter Prod.fst (none, none) Q
  have hQ : ∀ p ∈ sortBy R.sorter Prod.fst (none, none) Q, ∃ x y : ℝ, p = (num x, num y) :=
    fun p h => hnum p (e4.mem p (hperm.mem_iff.1 h))
  have hnn : none ∉ (scaled vu iu m).map Prod.fst := by
    intro h
    obtain ⟨p, hp, he⟩ := List.mem_map.1 h
    exact (mem_scaled.1 hp).2.1 he
  have hlen : 2 ≤ (sortBy R.sorter Prod.fst (none, none) Q).length := by
    rw [hperm.length_eq]
    have ha : (scaled vu iu m)[a] ∈ Q := e4.ends (Or.inl (List.getElem?_eq_getElem l1))
    have hb : (scaled vu iu m)[b] ∈ Q := e4.ends (Or.inr (List.getElem?_eq_getElem l2))
    by_contra hlt
    have hone : (scaled vu iu m)[a] = (scaled vu iu m)[b] := by
      match Q, ha, hb, hlt with
      | [c], ha, hb, _ => rw [List.mem_singleton.1 ha, List.mem_singleton.1 hb]
      | _ :: _ :: _, _, _, h => simp at h
    obtain ⟨x, hx, hmin⟩ := argminF_spec e1 hnn
    obtain ⟨y, hy, hmax⟩ := argmaxF_spec e2 hnn
    rw [List.getElem?_map, List.getElem?_eq_getElem l1] at hx
    rw [List.getElem?_map, List.getElem?_eq_getElem l2] at hy
    have hx : ((scaled vu iu m)[a]).1 = x := by simpa using hx
    have hy : ((scaled vu iu m)[b]).1 = y := by simpa using hy
    have hxy : x = y := by rw [← hx, ← hy, hone]
    obtain ⟨p, hp, q, hq, hpq⟩ := hdiff
    have hall : ∀ p ∈ scaled vu iu m, p.1 = x := by
      intro p hp
      have h1 := hmin p.1 (List.mem_map_of_mem hp)
      have h2 := hmax p.1 (List.mem_map_of_mem hp)
      rw [← hxy] at h2
      obtain ⟨s, t, rfl⟩ := hnum p hp
      obtain ⟨s', t', e⟩ := hnum _ (List.getElem_mem l1)
      rw [e] at hx
      dsimp only at hx h1 h2 ⊢
      rw [← hx] at h1 h2 ⊢
      simp only [flt, num, EReal.coe_lt_coe_iff, not_lt] at h1 h2
      rw [le_antisymm h2 h1]
    exact hpq ((hall p hp).trans (hall q hq).symm)
  have hcount : ∀ e : EReal, (∀ x : ℝ, (x : EReal) ≠ e) →
      ((sortBy R.sorter Prod.fst (none, none) Q).map Prod.fst).count (some e) ≤ 1 := by
    intro e he
    rw [List.count_eq_zero_of_not_mem]
    · exact Nat.zero_le _
    · intro hm
      obtain ⟨p, hp, he'⟩ := List.mem_map.1 hm
      obtain ⟨x, y, rfl⟩ := hQ p hp
      exact he x (Option.some.inj he')
  have hchk := (checkSorted_iff Prod.fst _ (sortBy_sorted R.sorter Prod.fst (none, none) Q) (by
    intro r hr
    obtain ⟨x, y, rfl⟩ := hQ r hr
    exact num_ne_none _)).2 ⟨hlen, hcount ⊤ (fun x => EReal.coe_ne_top x), hcount ⊥ (fun x => EReal.coe_ne_bot x)⟩
  have hload : loadIv R o (.matrix m) = .ok
      ((keep Prod.fst (sortBy R.sorter Prod.fst (none, none) Q)).map Prod.fst,
       (keep Prod.fst (sortBy R.sorter Prod.fst (none, none) Q)).map Prod.snd) := by
    unfold loadIv
    dsimp only
    rw [pyAssert_pos hc, (col_two hc).1, py_bind, (col_two hc).2, py_bind, hvu, py_bind, hiu, py_bind,
      removeNansXy_eq (by simp), py_bind, scaled_valid]
    dsimp only
    rw [e3, py_bind]
    dsimp only
    rw [sortXy_eq R.sorter Q (none, none), py_bind, removeDoublesXy_eq, hchk]
    rfl
  have hk : ∀ p ∈ keep Prod.fst (sortBy R.sorter Prod.fst (none, none) Q), ∃ x y : ℝ, p = (num x, num y) :=
    fun p hp => hQ p ((keep_sublist Prod.fst _).subset hp)
  obtain ⟨v, hv'⟩ := toReals_total
    (l := (keep Prod.fst (sortBy R.sorter Prod.fst (none, none) Q)).map Prod.fst) (by
      intro a ha
      obtain ⟨p, hp, rfl⟩ := List.mem_map.1 ha
      obtain ⟨x, y, rfl⟩ := hk p hp
      exact ⟨x, rfl⟩)
  obtain ⟨i, hi'⟩ := toReals_total
    (l := (keep Prod.fst (sortBy R.sorter Prod.fst (none, none) Q)).map Prod.snd) (by
      intro a ha
      obtain ⟨p, hp, rfl⟩ := List.mem_map.1 ha
      obtain ⟨x, y, rfl⟩ := hk p hp
      exact ⟨y, rfl⟩)
  exact ⟨_, v, i, hload, hv', hi'⟩

/-! ## A resistor from end to end (C85) -/

theorem resistor_core (R : Routines) (o : Opts) (m : Mat) (r g lo hi : ℝ) (hc : m.ncol = 2) (hr : 0 < r)
    (hvf : o.vFmt ∈ ["uV", "mV", "V"]) (hif : o.iFmt ∈ ["uA", "mA", "A"])
    (hvm : 0 < o.vMult) (him : 0 < o.iMult)
    (hrow : ∀ w ∈ m.rows, ∃ x y : ℝ, w.getD 0 none = num x ∧ w.getD 1 none = num y ∧
      x * voltUnit o.vFmt * o.vMult = r * (y * ampUnit o.iFmt * o.iMult) ∧
      lo ≤ x * voltUnit o.vFmt * o.vMult ∧ x * voltUnit o.vFmt * o.vMult ≤ hi)
    (hlo : ∃ w ∈ m.rows, ∃ x : ℝ, w.getD 0 none = num x ∧ x * voltUnit o.vFmt * o.vMult = lo)
    (hhi : ∃ w ∈ m.rows, ∃ x : ℝ, w.getD 0 none = num x ∧ x * voltUnit o.vFmt * o.vMult = hi)
    (hlt : lo < hi) (hpos : 0 < hi)
    (huni : o.voffsetRange.pair.1 ≤ lo ∨ hi ≤ o.voffsetRange.pair.2)
    (hvo : o.voffset = none) (hio : o.ioffset = none) (hrs : o.rseries = none) (hgap : o.vgap = some g)
    (hg : 0 < g)
    (hn : 2 ≤ o.npts) :
    ∃ L : List (ℝ × ℝ), L ≠ [] ∧ Incr L ∧ (∀ p ∈ L, p.2 = p.1 / r ∧ lo ≤ p.1 ∧ p.1 ≤ hi) ∧
      lo ∈ L.map Prod.fst ∧ hi ∈ L.map Prod.fst ∧
      ∀ F : List (ℝ × ℝ), Incr F → (∀ p ∈ F, p.2 = p.1 / r) → lo ∈ F.map Prod.fst → hi ∈ F.map Prod.fst →
        filterIv R o (L.map Prod.fst) (L.map Prod.snd) = .ok (F.map Prod.fst, F.map Prod.snd) →
        (∃ a ∈ F.map Prod.fst, ∃ b ∈ F.map Prod.fst, a ≠ b ∧ o.vrn.1 < a ∧ a < o.vrn.2 ∧ o.vrn.1 < b ∧
          b < o.vrn.2) →
        (∃ a ∈ F.map Prod.fst, ∃ b ∈ F.map Prod.fst, a ≠ b ∧ |a - o.vrsg| < 1e-4 ∧ |b - o.vrsg| < 1e-4) →
        ∃ v i dc, dcivCurve R o (.matrix m) = .ok (v, i, dc) ∧ dc.rn = r ∧ dc.rsg = r ∧
          dc.offset = (0, 0) ∧ dc.vint = 0 ∧ dc.igap = g / r ∧ dc.vgap = g ∧
          ∀ k, k < v.length → lo ≤ v.getD k 0 * g → v.getD k 0 * g ≤ hi → i.getD k 0 = v.getD k 0 := by
  have hr' := hr.ne'
  have hD : (0 : ℝ) < ((o.npts - 1 : ℤ) : ℝ) := by exact_mod_cast (by omega : 0 < o.npts - 1)
  -- loading
  have hvu : 0 < voltUnit o.vFmt := by unfold voltUnit; split_ifs <;> norm_num
  have hiu : 0 < ampUnit o.iFmt := by unfold ampUnit; split_ifs <;> norm_num
  obtain ⟨raw, vm, im, e1, e2, e3⟩ := C83_accepted R o m hc hvf hif
    (fun w hw => by obtain ⟨x, y, h1, h2, -⟩ := hrow w hw; exact ⟨x, y, h1, h2⟩) (by
      obtain ⟨w, hw, x, hx, h1⟩ := hlo
      obtain ⟨w', hw', x', hx', h2⟩ := hhi
      refine ⟨w, hw, w', hw', ?_⟩
      rw [hx, hx']
      intro he
      rw [Fl.num_inj.1 he] at h1
      linarith)
  obtain ⟨L, hne, hL, ev, ei, hmem, ⟨p, hp1, hp2⟩, q, hq1, hq2⟩ := loaded_corrected (0, 0) hvm e1 e2 e3
  simp only [sub_zero] at ev ei
  have hcor : ∀ w ∈ m.rows, ∀ x y : ℝ, w.getD 0 none = num x → w.getD 1 none = num y →
      Corrected o m (0, 0) (x * voltUnit o.vFmt * o.vMult, y * ampUnit o.iFmt * o.iMult) :=
    fun w hw x y hx hy => ⟨w, hw, x, y, hx, hy, by simp⟩
  have hline : ∀ p, Corrected o m (0, 0) p → p.2 = p.1 / r ∧ lo ≤ p.1 ∧ p.1 ≤ hi := by
    rintro p ⟨w, hw, x, y, hx, hy, rfl⟩
    obtain ⟨x', y', hx', hy', h1, h2, h3⟩ := hrow w hw
    rw [hx, Fl.num_inj] at hx'
    rw [hy, Fl.num_inj] at hy'
    subst hx' hy'
    dsimp only
    rw [sub_zero, sub_zero]
    exact ⟨by rw [h1]; field_simp, h2, h3⟩
  have hplo : p.1 = lo := by
    obtain ⟨w, hw, x, hx, h1⟩ := hlo
    obtain ⟨x', y', hx', hy', -⟩ := hrow w hw
    rw [hx, Fl.num_inj] at hx'
    subst hx'
    exact le_antisymm (by simpa [h1] using hp2 _ (hcor w hw x y' hx hy')) (hline p (hmem p hp1)).2.1
  have hqhi : q.1 = hi := by
    obtain ⟨w, hw, x, hx, h1⟩ := hhi
    obtain ⟨x', y', hx', hy', -⟩ := hrow w hw
    rw [hx, Fl.num_inj] at hx'
    subst hx'
    exact le_antisymm (hline q (hmem q hq1)).2.2 (by simpa [h1] using hq2 _ (hcor w hw x y' hx hy'))
  have evL : L.map Prod.snd = (L.map Prod.fst).map fun t => 1 / r * t + 0 := by
    rw [List.map_map]
    apply List.map_congr_left
    intro a ha
    rw [(hline a (hmem a ha)).1, Function.comp_apply]
    ring
  have hloL : lo ∈ L.map Prod.fst := by rw [← hplo]; exact List.mem_map_of_mem hp1
  have hhiL : hi ∈ L.map Prod.fst := by rw [← hqhi]; exact List.mem_map_of_mem hq1
  have hrange : ∀ t ∈ L.map Prod.fst, lo ≤ t ∧ t ≤ hi := by
    intro t ht
    obtain ⟨a, ha, rfl⟩ := List.mem_map.1 ht
    exact (hline a (hmem a ha)).2
  -- offset
  have e4 : correctOffset R o (L.map Prod.fst) (L.map Prod.snd) =
      .ok (L.map Prod.fst, L.map Prod.snd, (0, 0)) := by
    unfold correctOffset
    dsimp only
    rw [minimum_eq hloL (fun t ht => (hrange t ht).1), py_bind, amax_eq hhiL (fun t ht => (hrange t ht).2),
      py_bind, if_pos, hvo, hio]
    · simp
      rfl
    · rintro ⟨h1, h2⟩
      rcases huni with h | h <;> linarith
  refine ⟨L, hne, hL, fun p hp => hline p (hmem p hp), hloL, hhiL, ?_⟩
  intro F hF hFl hFlo hFhi e5 h2n h2s
  have hzip : ∀ p ∈ (F.map Prod.fst).zip (F.map Prod.snd), p.2 = (p.1 - 0) / r := by
    rw [zip_fst_snd]
    intro p hp
    rw [sub_zero]
    exact hFl p hp
  -- the resistances
  have e6 : normalResistance R o (F.map Prod.fst) (F.map Prod.snd) = .ok (r, 0) :=
    C55_normal R o _ _ r 0 (by simp) hr' (fun p hp _ _ => hzip p hp) h2n
  have e7 : subgapResistance R o (F.map Prod.fst) (F.map Prod.snd) = .ok r :=
    C55_subgap R o _ _ r 0 (by simp) hr' (fun p hp _ => hzip p hp) h2s
  -- the curve
  set M : List (ℝ × ℝ) := F.map fun p => (p.1 / g, p.2 / (g / r)) with hM
  have hMne : M ≠ [] := by
    obtain ⟨p, hp, -⟩ := List.mem_map.1 hFlo
    intro h
    rw [List.map_eq_nil_iff.1 h] at hp
    cases hp
  have hMI : Incr M := by
    unfold Incr
    rw [hM, List.pairwise_map]
    exact hF.imp fun {a b} hab => div_lt_div_of_pos_right hab hg
  have e8 : (F.map Prod.fst).map (· / g) = M.map Prod.fst := by
    rw [hM, List.map_map, List.map_map]; rfl
  have e9 : (F.map Prod.snd).map (· / (g / r)) = M.map Prod.snd := by
    rw [hM, List.map_map, List.map_map]; rfl
  have e10 : Np.fdiv g r = .ok (g / r) := Np.fdiv_ok hr'
  set V := (tab o.npts.toNat fun i => -o.vmax + i * ((o.vmax - -o.vmax) / (o.npts - 1 : ℤ))).map (· / g) with hV
  let dc : DCIV :=
    { vraw := F.map Prod.fst, iraw := F.map Prod.snd, vnorm := V, inorm := V.map (interpAt M), vgap := g, igap := g / r,
      fgap := chargeE * g / planckH, rn := r, rsg := r, offset := (0, 0), vint := 0, rseries := none }
  refine ⟨V, V.map (interpAt M), dc, ?_, ?_⟩
  · unfold dcivCurve
    rw [e1, py_bind, e2, py_bind, e3, py_bind, ev, ei, e4, py_bind]
    dsimp only
    rw [e5, py_bind, hrs]
    dsimp only
    unfold seriesResistance
    dsimp only
    rw [py_bind]
    dsimp only
    rw [toReals_num, py_bind, toReals_num, py_bind]
    unfold chooseGap
    rw [hgap]
    dsimp only
    rw [py_bind, e6, py_bind, e7, py_bind]
    dsimp only
    rw [e10, py_bind, div_one_elem hg.ne', py_bind, div_one_elem (div_pos hg hr).ne', py_bind,
      linspace_eq (by omega), py_bind, div_one_elem hg.ne', py_bind, e8, e9, interp_points hMne, py_bind]
    rfl
  · refine ⟨rfl, rfl, rfl, rfl, rfl, rfl, ?_⟩
    intro k hk h1 h2
    have get : (V.map (interpAt M)).getD k 0 = interpAt M (V.getD k 0) := by
      simp only [List.getD_eq_getElem?_getD, List.getElem?_map, List.getElem?_eq_getElem hk, Option.map_some,
        Option.getD_some]
    rw [get, interpAt_line M hMI _ 1 0, one_mul, add_zero]
    · intro p hp
      obtain ⟨q, hq, rfl⟩ := List.mem_map.1 hp
      dsimp only
      rw [hFl q hq]
      field_simp
      ring
    · obtain ⟨p, hp, e⟩ := List.mem_map.1 hFlo
      refine ⟨_, List.mem_map.2 ⟨p, hp, rfl⟩, ?_⟩
      dsimp only
      rw [div_le_iff₀ hg, e]
      exact h1
    · obtain ⟨p, hp, e⟩ := List.mem_map.1 hFhi
      refine ⟨_, List.mem_map.2 ⟨p, hp, rfl⟩, ?_⟩
      dsimp only
      rw [le_div_iff₀ hg, e]
      exact h2

/-- C85: a measured resistor. Every row of the data is a point of `V = r I` (in the units and with the
factors of the user), from `lo` to `hi`. Then the dc routine returns a curve and reports the resistance as
normal-state and subgap resistance, no offset, intercept zero; and the normalised curve is `i = v` over
the measured range. -/
theorem C85_resistor (R : Routines) (o : Opts) (m : Mat) (r g lo hi : ℝ) (hc : m.ncol = 2) (hr : 0 < r)
    (hvf : o.vFmt ∈ ["uV", "mV", "V"]) (hif : o.iFmt ∈ ["uA", "mA", "A"])
    (hvm : 0 < o.vMult) (him : 0 < o.iMult)
    (hrow : ∀ w ∈ m.rows, ∃ x y : ℝ, w.getD 0 none = num x ∧ w.getD 1 none = num y ∧
      x * voltUnit o.vFmt * o.vMult = r * (y * ampUnit o.iFmt * o.iMult) ∧
      lo ≤ x * voltUnit o.vFmt * o.vMult ∧ x * voltUnit o.vFmt * o.vMult ≤ hi)
    (hlo : ∃ w ∈ m.rows, ∃ x : ℝ, w.getD 0 none = num x ∧ x * voltUnit o.vFmt * o.vMult = lo)
    (hhi : ∃ w ∈ m.rows, ∃ x : ℝ, w.getD 0 none = num x ∧ x * voltUnit o.vFmt * o.vMult = hi)
    (hlt : lo < hi) (hpos : 0 < hi)
    (huni : o.voffsetRange.pair.1 ≤ lo ∨ hi ≤ o.voffsetRange.pair.2)
    (hvo : o.voffset = none) (hio : o.ioffset = none) (hrs : o.rseries = none) (hgap : o.vgap = some g)
    (hg : 0 < g)
    (hf : o.filterData = true) (hn : 2 ≤ o.npts) (hp : 1 ≤ o.npoly)
    (hθ : 0 ≤ o.theta) (hθ' : o.theta < Real.pi / 2)
    (hs : ∀ y, ∃ z, R.savgol y o.nwind o.npoly = .ok z)
    (hnorm : ∃ j k : ℕ, j < k ∧ (k : ℤ) < o.npts ∧ o.vrn.1 < lo + j * ((hi - lo) / (o.npts - 1 : ℤ)) ∧
      lo + k * ((hi - lo) / (o.npts - 1 : ℤ)) < o.vrn.2)
    (hsub : ∃ j k : ℕ, j < k ∧ (k : ℤ) < o.npts ∧ o.vrsg - 1e-4 < lo + j * ((hi - lo) / (o.npts - 1 : ℤ)) ∧
      lo + k * ((hi - lo) / (o.npts - 1 : ℤ)) < o.vrsg + 1e-4) :
    ∃ v i dc, dcivCurve R o (.matrix m) = .ok (v, i, dc) ∧ dc.rn = r ∧ dc.rsg = r ∧ dc.offset = (0, 0) ∧
      dc.vint = 0 ∧ dc.igap = g / r ∧ dc.vgap = g ∧
      ∀ k, k < v.length → lo ≤ v.getD k 0 * g → v.getD k 0 * g ≤ hi → i.getD k 0 = v.getD k 0 := by
  have hr' := hr.ne'
  have hD : (0 : ℝ) < ((o.npts - 1 : ℤ) : ℝ) := by exact_mod_cast (by omega : 0 < o.npts - 1)
  obtain ⟨L, hne, hL, hline, hloL, hhiL, core⟩ := resistor_core R o m r g lo hi hc hr hvf hif hvm him hrow hlo
    hhi hlt hpos huni hvo hio hrs hgap hg hn
  have evL : L.map Prod.snd = (L.map Prod.fst).map fun t => 1 / r * t + 0 := by
    rw [List.map_map]
    apply List.map_congr_left
    intro a ha
    rw [(hline a ha).1, Function.comp_apply]
    ring
  have hrange : ∀ t ∈ L.map Prod.fst, lo ≤ t ∧ t ≤ hi := by
    intro t ht
    obtain ⟨a, ha, rfl⟩ := List.mem_map.1 ht
    exact (hline a ha).2
  -- filter
  obtain ⟨⟨fv, fi⟩, e5⟩ := filterIv_total (R := R) (o := o) (v := L.map Prod.fst) (i := L.map Prod.snd)
    (by simp) (by simpa using hne) (by omega) hs ⟨hi, hhiL, hpos⟩
    ⟨hi / r, by
      rw [evL]
      exact List.mem_map.2 ⟨hi, hhiL, by ring⟩, div_pos hpos hr⟩
  have h5 := e5
  rw [evL] at h5
  obtain ⟨rfl, hfi⟩ := C80_straight R o (L.map Prod.fst) (1 / r) 0 lo hi fv fi hf hn hp hθ hθ'
    (by rw [List.pairwise_map]; exact hL) hloL (fun t ht => (hrange t ht).1) hhiL
    (fun t ht => (hrange t ht).2) hlt hpos (by positivity) (by rw [add_zero]; positivity) h5
  set f : ℕ → ℝ := fun k => lo + k * ((hi - lo) / (o.npts - 1 : ℤ)) with hfdef
  set N := o.npts.toNat with hN
  have hfmono : ∀ j k : ℕ, j < k → f j < f k := by
    intro j k hjk
    rw [hfdef]
    have h1 : (j : ℝ) < k := by exact_mod_cast hjk
    have h2 : 0 < (hi - lo) / ((o.npts - 1 : ℤ) : ℝ) := div_pos (by linarith) hD
    have := mul_lt_mul_of_pos_right h1 h2
    dsimp only
    linarith
  have two : ∀ a b : ℝ, (∃ j k : ℕ, j < k ∧ (k : ℤ) < o.npts ∧ a < f j ∧ f k < b) →
      ∃ x ∈ tab N f, ∃ y ∈ tab N f, x ≠ y ∧ a < x ∧ x < b ∧ a < y ∧ y < b := by
    rintro a b ⟨j, k, hjk, hk, h1, h2⟩
    have := hfmono j k hjk
    exact ⟨f j, mem_tab.2 ⟨j, by omega, rfl⟩, f k, mem_tab.2 ⟨k, by omega, rfl⟩, this.ne, h1, by linarith,
      by linarith, h2⟩
  have eF : ((tab N f).map fun t => (t, t / r)).map Prod.fst = tab N f := by
    rw [List.map_map]
    exact List.map_id _
  refine core ((tab N f).map fun t => (t, t / r)) ?_ ?_ ?_ ?_ ?_ ?_ ?_
  · unfold Incr
    rw [List.pairwise_map, tab, List.pairwise_map]
    exact List.pairwise_lt_range.imp fun {a b} hab => hfmono a b hab
  · intro p hp
    obtain ⟨t, -, rfl⟩ := List.mem_map.1 hp
    rfl
  · rw [eF]
    exact mem_tab.2 ⟨0, by omega, by simp [hfdef]⟩
  · rw [eF]
    refine mem_tab.2 ⟨N - 1, by omega, ?_⟩
    have e : ((N - 1 : ℕ) : ℝ) = ((o.npts - 1 : ℤ) : ℝ) := by
      rw [show (o.npts - 1 : ℤ) = ((N - 1 : ℕ) : ℤ) by omega]
      simp
    rw [hfdef]
    dsimp only
    rw [e]
    field_simp
    ring
  · rw [e5, eF, hfi, List.map_map]
    congr 2
    apply List.map_congr_left
    intro t _
    simp only [Function.comp_apply]
    ring
  · rw [eF]
    exact two _ _ hnorm
  · rw [eF]
    obtain ⟨x, hx, y, hy, h1, h2, h3, h4, h5⟩ := two _ _ hsub
    exact ⟨x, hx, y, hy, h1, abs_lt.2 ⟨by linarith, by linarith⟩, abs_lt.2 ⟨by linarith, by linarith⟩⟩

/-- C85, without the filter: the same for a resistor measured within the windows of the two fits. Every row of the data is a point of `V = r I` (in the units and with the
factors of the user), from `lo` to `hi`. Then the dc routine returns a curve and reports the resistance as
normal-state and subgap resistance, no offset, intercept zero; and the normalised curve is `i = v` over
the measured range. -/
theorem C85_unfiltered (R : Routines) (o : Opts) (m : Mat) (r g lo hi : ℝ) (hc : m.ncol = 2) (hr : 0 < r)
    (hvf : o.vFmt ∈ ["uV", "mV", "V"]) (hif : o.iFmt ∈ ["uA", "mA", "A"])
    (hvm : 0 < o.vMult) (him : 0 < o.iMult)
    (hrow : ∀ w ∈ m.rows, ∃ x y : ℝ, w.getD 0 none = num x ∧ w.getD 1 none = num y ∧
      x * voltUnit o.vFmt * o.vMult = r * (y * ampUnit o.iFmt * o.iMult) ∧
      lo ≤ x * voltUnit o.vFmt * o.vMult ∧ x * voltUnit o.vFmt * o.vMult ≤ hi)
    (hlo : ∃ w ∈ m.rows, ∃ x : ℝ, w.getD 0 none = num x ∧ x * voltUnit o.vFmt * o.vMult = lo)
    (hhi : ∃ w ∈ m.rows, ∃ x : ℝ, w.getD 0 none = num x ∧ x * voltUnit o.vFmt * o.vMult = hi)
    (hlt : lo < hi) (hpos : 0 < hi)
    (huni : o.voffsetRange.pair.1 ≤ lo ∨ hi ≤ o.voffsetRange.pair.2)
    (hvo : o.voffset = none) (hio : o.ioffset = none) (hrs : o.rseries = none) (hgap : o.vgap = some g)
    (hg : 0 < g)
    (hf : o.filterData = false) (hn : 2 ≤ o.npts) (hnorm : o.vrn.1 < lo ∧ hi < o.vrn.2)
    (hsub : o.vrsg - 1e-4 < lo ∧ hi < o.vrsg + 1e-4) :
    ∃ v i dc, dcivCurve R o (.matrix m) = .ok (v, i, dc) ∧ dc.rn = r ∧ dc.rsg = r ∧ dc.offset = (0, 0) ∧
      dc.vint = 0 ∧ dc.igap = g / r ∧ dc.vgap = g ∧
      ∀ k, k < v.length → lo ≤ v.getD k 0 * g → v.getD k 0 * g ≤ hi → i.getD k 0 = v.getD k 0 := by
  obtain ⟨L, hne, hL, hline, hloL, hhiL, core⟩ := resistor_core R o m r g lo hi hc hr hvf hif hvm him hrow hlo
    hhi hlt hpos huni hvo hio hrs hgap hg hn
  refine core L hL (fun p hp => (hline p hp).1) hloL hhiL ?_ ?_ ?_
  · unfold filterIv
    rw [if_pos hf]
  · exact ⟨lo, hloL, hi, hhiL, hlt.ne, hnorm.1, by linarith, by linarith, hnorm.2⟩
  · exact ⟨lo, hloL, hi, hhiL, hlt.ne, abs_lt.2 ⟨by linarith, by linarith⟩,
      abs_lt.2 ⟨by linarith, by linarith⟩⟩

/-- Options of the example. -/
noncomputable def demoOpts : Opts :=
  { sampleOpts with
    vmax := 3e-3
    npts := 61
    vrn := (1e-3, 2e-3)
    vrsg := 2e-3
    vgap := some 2.8e-3 }

/-- Three points of a resistor of ten ohms, in mV and mA, not sorted. -/
noncomputable def demo : Mat :=
  { ncol := 2
    rows := [[num 2, num (1 / 5)], [num 0, num 0], [num 3, num (3 / 10)]] }

/-- The hypotheses of C81, C83 and C85 are met by these points. -/
example : ∃ v i dc, dcivCurve ideal demoOpts (.matrix demo) = .ok (v, i, dc) ∧ dc.rn = 10 ∧ dc.rsg = 10 := by
  have hpi := Real.pi_gt_three
  have hv : voltUnit demoOpts.vFmt = 1e-3 := by simp [voltUnit, demoOpts, sampleOpts]
  have hi : ampUnit demoOpts.iFmt = 1e-3 := by simp [ampUnit, demoOpts, sampleOpts]
  obtain ⟨v, i, dc, h, h1, h2, -⟩ := C85_resistor ideal demoOpts demo 10 2.8e-3 0 3e-3 rfl (by norm_num)
    (by simp [demoOpts, sampleOpts]) (by simp [demoOpts, sampleOpts]) (by simp [demoOpts, sampleOpts])
    (by simp [demoOpts, sampleOpts])
    (by
      rw [hv, hi]
      intro w hw
      simp only [demo, List.mem_cons, List.not_mem_nil, or_false] at hw
      rcases hw with rfl | rfl | rfl
      · exact ⟨2, 1 / 5, rfl, rfl, by norm_num [demoOpts, sampleOpts], by norm_num [demoOpts, sampleOpts],
          by norm_num [demoOpts, sampleOpts]⟩
      · exact ⟨0, 0, rfl, rfl, by norm_num [demoOpts, sampleOpts], by norm_num [demoOpts, sampleOpts],
          by norm_num [demoOpts, sampleOpts]⟩
      · exact ⟨3, 3 / 10, rfl, rfl, by norm_num [demoOpts, sampleOpts], by norm_num [demoOpts, sampleOpts],
          by norm_num [demoOpts, sampleOpts]⟩)
    ⟨[num 0, num 0], by simp [demo], 0, rfl, by simp⟩
    ⟨[num 3, num (3 / 10)], by simp [demo], 3, rfl, by rw [hv]; norm_num [demoOpts, sampleOpts]⟩
    (by norm_num) (by norm_num) (Or.inr (by norm_num [demoOpts, sampleOpts, VRange.pair])) rfl rfl rfl rfl
    (by norm_num) rfl (by norm_num [demoOpts]) (by norm_num [demoOpts, sampleOpts])
    (by norm_num [demoOpts, sampleOpts]) (by norm_num [demoOpts, sampleOpts]; linarith)
    (fun y => ⟨y, rfl⟩)
    ⟨30, 31, by norm_num, by norm_num [demoOpts], by norm_num [demoOpts], by norm_num [demoOpts]⟩
    ⟨40, 41, by norm_num, by norm_num [demoOpts], by norm_num [demoOpts], by norm_num [demoOpts]⟩
  exact ⟨v, i, dc, h, h1, h2⟩

/-- The hypotheses of C82 and C84 are met by the same points, without the filter. -/
example : ∃ v i dc, dcivCurve ideal { demoOpts with filterData := false, vrn := (-1, 1), vrsg := 0, vMult := 1 / 100 }
    (.matrix demo) = .ok (v, i, dc) ∧ 0 < dc.vgap ∧ dc.rn = 1 / 10 := by
  have hv : voltUnit "mV" = 1e-3 := by simp [voltUnit]
  have hi : ampUnit "mA" = 1e-3 := by simp [ampUnit]
  obtain ⟨v, i, dc, h, h1, -, -, -, -, h2, -⟩ := C85_unfiltered ideal
    { demoOpts with filterData := false, vrn := (-1, 1), vrsg := 0, vMult := 1 / 100 }
    demo (1 / 10) 2.8e-3 0 3e-5 rfl (by norm_num)
    (by simp [demoOpts, sampleOpts]) (by simp [demoOpts, sampleOpts]) (by norm_num [demoOpts, sampleOpts])
    (by norm_num [demoOpts, sampleOpts])
    (by
      dsimp only [demoOpts, sampleOpts]
      rw [hv, hi]
      intro w hw
      simp only [demo, List.mem_cons, List.not_mem_nil, or_false] at hw
      rcases hw with rfl | rfl | rfl
      · exact ⟨2, 1 / 5, rfl, rfl, by norm_num, by norm_num, by norm_num⟩
      · exact ⟨0, 0, rfl, rfl, by norm_num, by norm_num, by norm_num⟩
      · exact ⟨3, 3 / 10, rfl, rfl, by norm_num, by norm_num, by norm_num⟩)
    ⟨[num 0, num 0], by simp [demo], 0, rfl, by simp⟩
    ⟨[num 3, num (3 / 10)], by simp [demo], 3, rfl, by dsimp only [demoOpts, sampleOpts]; rw [hv]; norm_num⟩
    (by norm_num) (by norm_num) (Or.inr (by norm_num [demoOpts, sampleOpts, VRange.pair])) rfl rfl rfl rfl
    (by norm_num) rfl (by norm_num [demoOpts]) (by norm_num) (by norm_num)
  exact ⟨v, i, dc, h, by rw [h2]; norm_num, h1⟩

end QMix.IvData
