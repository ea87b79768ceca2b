import Verif.Props.IvData3
import Verif.Spec.Figures

/-!
# A sweep is loaded and analysed as it was measured (C83, C82)
-/

namespace QMix.IvData

open Np Fl Clean Spec

/-- A broken line and its image under a change of units. -/
theorem onLine_scale {pts : List (ℝ × ℝ)} {x y : ℝ} (c d : ℝ) (h : OnLine pts x y) :
    OnLine (pts.map fun p => (p.1 * c, p.2 * d)) (x * c) (y * d) := by
  rcases h with h | ⟨a, b, t, hi, h0, h1, hx, hy⟩
  · exact Or.inl (List.mem_map.2 ⟨_, h, rfl⟩)
  · refine Or.inr ⟨(a.1 * c, a.2 * d), (b.1 * c, b.2 * d), t, ?_, h0, h1, ?_, ?_⟩
    · obtain ⟨s, u, e⟩ := hi
      exact ⟨s.map fun p => (p.1 * c, p.2 * d), u.map fun p => (p.1 * c, p.2 * d), by rw [← e]; simp⟩
    · rw [hx]; ring
    · rw [hy]; ring

/-- Linear interpolation between the first and the last sample gives points of the broken line. -/
theorem interpAt_onLine {L : List (ℝ × ℝ)} (hL : Incr L) {x : ℝ} (h1 : ∃ p ∈ L, p.1 ≤ x) (h2 : ∃ p ∈ L, x ≤ p.1) :
    OnLine L x (interpAt L x) := by
  have hne : L ≠ [] := by rintro rfl; obtain ⟨p, hp, -⟩ := h1; cases hp
  rcases interpAt_cases L hL hne x with ⟨a, l, rfl, hx, -⟩ | ⟨l, a, rfl, hx, e⟩ | ⟨l, a, b, l', rfl, hx, hx', e⟩
  · obtain ⟨p, hp, hpx⟩ := h1
    rcases List.mem_cons.1 hp with rfl | hp
    · linarith
    · have := (List.pairwise_cons.1 hL).1 p hp
      linarith
  · left
    obtain ⟨p, hp, hpx⟩ := h2
    have hle : p.1 ≤ a.1 := by
      rcases List.mem_append.1 hp with hp | hp
      · exact ((List.pairwise_append.1 hL).2.2 p hp a (by simp)).le
      · rw [List.mem_singleton.1 hp]
    have : x = a.1 := le_antisymm (hpx.trans hle) hx
    rw [e, this]
    simp
  · right
    have hd : 0 < b.1 - a.1 := by linarith
    refine ⟨a, b, (x - a.1) / (b.1 - a.1), ⟨l, l', by simp⟩, div_nonneg (by linarith) hd.le,
      (div_le_one hd).2 (by linarith), ?_, ?_⟩
    · field_simp; ring
    · rw [e]; field_simp; ring

/-- Interpolation after a change of units. -/
theorem interpAt_scale {c : ℝ} (hc : 0 < c) (d : ℝ) (L : List (ℝ × ℝ)) (x : ℝ) :
    interpAt (L.map fun p => (p.1 * c, p.2 * d)) (x * c) = interpAt L x * d := by
  induction L with
  | nil => simp [interpAt, RespFn.npInterp]
  | cons a l ih =>
    cases l with
    | nil => rw [List.map_cons, List.map_nil, interpAt_one, interpAt_one]
    | cons b l =>
      rw [List.map_cons, List.map_cons, interpAt_cons, interpAt_cons]
      have e1 : (∃ p ∈ (b.1 * c, b.2 * d) :: l.map fun p => (p.1 * c, p.2 * d), p.1 ≤ x * c) ↔ ∃ p ∈ b :: l, p.1 ≤ x := by
        rw [← List.map_cons (f := fun p : ℝ × ℝ => (p.1 * c, p.2 * d))]
        constructor
        · rintro ⟨p, hp, h⟩
          obtain ⟨q, hq, rfl⟩ := List.mem_map.1 hp
          exact ⟨q, hq, le_of_mul_le_mul_right h hc⟩
        · rintro ⟨q, hq, h⟩
          exact ⟨_, List.mem_map.2 ⟨q, hq, rfl⟩, mul_le_mul_of_nonneg_right h hc.le⟩
      by_cases h : ∃ p ∈ b :: l, p.1 ≤ x
      · rw [if_pos h, if_pos (e1.2 h), ← ih]
        rfl
      · rw [if_neg h, if_neg (fun hh => h (e1.1 hh))]
        by_cases hx : x < a.1
        · rw [if_pos hx, if_pos (by exact mul_lt_mul_of_pos_right hx hc)]
        · rw [if_neg hx, if_neg (by simpa using mul_le_mul_of_nonneg_right (not_lt.1 hx) hc.le)]
          simp only
          have : (b.2 * d - a.2 * d) / (b.1 * c - a.1 * c) = (b.2 - a.2) / (b.1 - a.1) * (d / c) := by
            rw [← sub_mul, ← sub_mul, mul_div_mul_comm]
          rw [this]
          field_simp

theorem keepFrom_all {ρ : Type} (k : ρ → Flt) (a : ρ) (l : List ρ) (h : ((a :: l).map k).Pairwise Below) :
    keepFrom k a l = l := by
  induction l generalizing a with
  | nil => rfl
  | cons b l ih =>
    rw [List.map_cons, List.pairwise_cons] at h
    unfold keepFrom
    obtain ⟨x, y, e1, e2, hlt⟩ := h.1 (k b) (by simp)
    rw [e1, e2, if_pos (fne_iff.2 hlt.ne'), ih b h.2]

theorem keep_all {ρ : Type} (k : ρ → Flt) (l : List ρ) (h : (l.map k).Pairwise Below) : keep k l = l := by
  cases l with
  | nil => rfl
  | cons a l => exact congrArg _ (keepFrom_all k a l h)

theorem Below.le {a b : Flt} (h : Below a b) : Flt.le a b := by
  obtain ⟨x, y, rfl, rfl, h⟩ := h
  exact h.le

/-- Points in increasing order are left alone by sorting. -/
theorem sortBy_self (S : Sorter) (P : List (Flt × Flt)) (h : (P.map Prod.fst).Pairwise Below) :
    sortBy S Prod.fst (none, none) P = P := by
  have hp := sortBy_perm S Prod.fst (none, none) P
  have hs := sortBy_sorted S Prod.fst (none, none) P
  rw [List.pairwise_map] at hs h
  apply hp.eq_of_pairwise _ hs (h.imp fun h => h.le)
  intro p q hpm hqm h1 h2
  have hpP := hp.mem_iff.1 hpm
  by_contra hne
  obtain ⟨i, hi, ei⟩ := List.getElem_of_mem hpP
  obtain ⟨j, hj, ej⟩ := List.getElem_of_mem hqm
  rw [List.pairwise_iff_getElem] at h
  have no : ∀ {a b : Flt}, Below a b → Flt.le b a → False := by
    rintro a b ⟨x, y, rfl, rfl, hlt⟩ hle
    exact absurd hle (not_le.2 hlt)
  rcases Nat.lt_trichotomy i j with hij | hij | hij
  · have := h i j hi hj hij
    rw [ei, ej] at this
    exact no this h2
  · subst hij
    exact hne (ei.symm.trans ej)
  · have := h j i hj hi hij
    rw [ei, ej] at this
    exact no this h1

/-- A measured sweep: the rows of the file. -/
noncomputable def sweep (pts : List (ℝ × ℝ)) : Mat := { ncol := 2, rows := pts.map fun p => [num p.1, num p.2] }

theorem scaled_sweep (vu iu : ℝ) (pts : List (ℝ × ℝ)) :
    scaled vu iu (sweep pts) = pts.map fun p => (num (p.1 * vu), num (p.2 * iu)) := by
  unfold scaled sweep
  rw [List.map_map, List.filter_eq_self.2]
  · apply List.map_congr_left
    intro p _
    simp only [Function.comp_apply, List.getD_cons_zero, List.getD_cons_succ, fmul_num]
  · intro q hq
    obtain ⟨p, -, rfl⟩ := List.mem_map.1 hq
    simp only [Function.comp_apply, List.getD_cons_zero, List.getD_cons_succ, fmul_num]
    rfl

/-- C83: a sweep is loaded completely and as it was measured, in volts and amperes, whether it was measured
upwards or downwards. -/
theorem C83_sweep (R : Routines) (o : Opts) (pts : List (ℝ × ℝ)) (h2 : 2 ≤ pts.length)
    (hup : pts.Pairwise fun p q => p.1 < q.1) (rows : List (ℝ × ℝ)) (hrows : rows = pts ∨ rows = pts.reverse)
    (hvf : o.vFmt ∈ ["uV", "mV", "V"]) (hif : o.iFmt ∈ ["uA", "mA", "A"]) :
    loadIv R o (.matrix (sweep rows)) =
      .ok (pts.map fun p => num (p.1 * voltUnit o.vFmt), pts.map fun p => num (p.2 * ampUnit o.iFmt)) := by
  have hvu : vUnit o.vFmt = .ok (voltUnit o.vFmt) ∧ 0 < voltUnit o.vFmt := by
    simp only [List.mem_cons, List.not_mem_nil, or_false] at hvf
    rcases hvf with e | e | e <;> rw [e] <;> exact ⟨by simp [vUnit, voltUnit], by unfold voltUnit; split_ifs <;> norm_num⟩
  have hiu : iUnit o.iFmt = .ok (ampUnit o.iFmt) := by
    simp only [List.mem_cons, List.not_mem_nil, or_false] at hif
    rcases hif with e | e | e <;> rw [e] <;> simp [iUnit, ampUnit]
  set vu := voltUnit o.vFmt
  set iu := ampUnit o.iFmt
  set P : List (Flt × Flt) := pts.map fun p => (num (p.1 * vu), num (p.2 * iu)) with hP
  have hlen : P.length = pts.length := by rw [hP, List.length_map]
  have hB : (P.map Prod.fst).Pairwise Below := by
    rw [hP, List.map_map, List.pairwise_map]
    exact hup.imp fun {a b} hab => ⟨_, _, rfl, rfl, EReal.coe_lt_coe_iff.2 (mul_lt_mul_of_pos_right hab hvu.2)⟩
  have hn : ∀ r ∈ P, r.1 ≠ none := by
    intro r hr
    obtain ⟨p, -, rfl⟩ := List.mem_map.1 hr
    simp [num]
  have hne : P ≠ [] := by
    intro h
    rw [h] at hlen
    simp at hlen
    omega
  have hn' : none ∉ P.map Prod.fst := by
    intro h
    obtain ⟨r, hr, e⟩ := List.mem_map.1 h
    exact hn r hr e
  have hpass : takeOnePass ((scaled vu iu (sweep rows)).map Prod.fst) ((scaled vu iu (sweep rows)).map Prod.snd) =
      .ok (P.map Prod.fst, P.map Prod.snd) := by
    rw [scaled_sweep]
    rcases hrows with rfl | rfl
    · exact C52_upward _ _ (by simp) (by simpa [hP] using hne) hn' hB
    · rw [List.map_reverse, List.map_reverse, List.map_reverse, C52_downward, List.reverse_reverse, List.reverse_reverse]
      · simp
      · simpa [hP] using hne
      · rw [List.mem_reverse]; exact hn'
      · exact List.pairwise_reverse.2 hB
  have hcs : checkSorted (P.map Prod.fst) = .ok () := by
    rw [checkSorted_iff Prod.fst P (hB.imp fun h => h.le) hn]
    have hnod : (P.map Prod.fst).Nodup := hB.imp fun {a b} h => by
      obtain ⟨x, y, rfl, rfl, hlt⟩ := h
      exact fun e => hlt.ne (Option.some.inj e)
    exact ⟨by omega, List.nodup_iff_count_le_one.1 hnod _, List.nodup_iff_count_le_one.1 hnod _⟩
  unfold loadIv
  dsimp only
  rw [pyAssert_pos (show (sweep rows).ncol = 2 from rfl), (col_two rfl).1, py_bind, (col_two rfl).2, py_bind, hvu.1,
    py_bind, hiu, py_bind, removeNansXy_eq (by simp), py_bind, scaled_valid]
  dsimp only
  rw [hpass, py_bind]
  dsimp only
  rw [sortXy_eq R.sorter P (none, none), py_bind, sortBy_self R.sorter P hB, removeDoublesXy_eq, if_pos rfl, hcs, py_bind,
    keep_all _ _ hB]
  simp only [hP, List.map_map]
  rfl

/-- C85: a measured junction, end to end and without the filter. The points of a sweep (upwards or downwards) that does
not reach far below zero are given; those of the normal branch lie on a line of resistance `r` that starts at `v0`,
those around the subgap voltage on one of resistance `rs`. Then the dc routine returns both resistances, the
intercept and no offset, and within the measured range the curve is the broken line through the measured points. -/
theorem C85_junction (R : Routines) (o : Opts) (pts : List (ℝ × ℝ)) (h2 : 2 ≤ pts.length) (r v0 rs v1 g : ℝ)
    (hup : pts.Pairwise fun p q => p.1 < q.1) (rows : List (ℝ × ℝ)) (hrows : rows = pts ∨ rows = pts.reverse)
    (hvf : o.vFmt ∈ ["uV", "mV", "V"]) (hif : o.iFmt ∈ ["uA", "mA", "A"]) (hvm : 0 < o.vMult)
    (si : List (ℝ × ℝ))
    (hsi : si = pts.map fun p => (p.1 * voltUnit o.vFmt * o.vMult, p.2 * ampUnit o.iFmt * o.iMult))
    (huni : ∀ p ∈ si, o.voffsetRange.pair.1 ≤ p.1)
    (hvo : o.voffset = none) (hio : o.ioffset = none) (hrs : o.rseries = none) (hgap : o.vgap = some g) (hg : 0 < g)
    (hf : o.filterData = false) (hn : 1 ≤ o.npts) (hr : r ≠ 0) (hrs0 : rs ≠ 0)
    (hnorm : ∀ p ∈ si, o.vrn.1 < p.1 → p.1 < o.vrn.2 → p.2 = (p.1 - v0) / r)
    (hnorm2 : ∃ a ∈ si, ∃ b ∈ si, a.1 ≠ b.1 ∧ o.vrn.1 < a.1 ∧ a.1 < o.vrn.2 ∧ o.vrn.1 < b.1 ∧ b.1 < o.vrn.2)
    (hsub : ∀ p ∈ si, |p.1 - o.vrsg| < 1e-4 → p.2 = (p.1 - v1) / rs)
    (hsub2 : ∃ a ∈ si, ∃ b ∈ si, a.1 ≠ b.1 ∧ |a.1 - o.vrsg| < 1e-4 ∧ |b.1 - o.vrsg| < 1e-4) :
    ∃ v i dc, dcivCurve R o (.matrix (sweep rows)) = .ok (v, i, dc) ∧ dc.rn = r ∧ dc.vint = v0 ∧ dc.rsg = rs ∧
      dc.offset = (0, 0) ∧ dc.igap = g / r ∧ dc.vgap = g ∧
      ∀ k, k < v.length → i.getD k 0 * dc.igap = interpAt si (v.getD k 0 * dc.vgap) := by
  have hvu : 0 < voltUnit o.vFmt := by unfold voltUnit; split_ifs <;> norm_num
  have hne : si ≠ [] := by
    intro h
    rw [h] at hsi
    have := congrArg List.length hsi
    simp at this
    omega
  have e1 := C83_sweep R o pts h2 hup rows hrows hvf hif
  have hS : Incr si := by
    unfold Incr
    rw [hsi, List.pairwise_map]
    exact hup.imp fun {a b} hab => mul_lt_mul_of_pos_right (mul_lt_mul_of_pos_right hab hvu) hvm
  have ev : (pts.map fun p => p.1 * voltUnit o.vFmt).map (· * o.vMult) = si.map Prod.fst := by
    rw [hsi, List.map_map, List.map_map]; rfl
  have ei : (pts.map fun p => p.2 * ampUnit o.iFmt).map (· * o.iMult) = si.map Prod.snd := by
    rw [hsi, List.map_map, List.map_map]; rfl
  have r1 : (pts.map fun p => num (p.1 * voltUnit o.vFmt)) = (pts.map fun p => p.1 * voltUnit o.vFmt).map num := by
    rw [List.map_map]; rfl
  have r2 : (pts.map fun p => num (p.2 * ampUnit o.iFmt)) = (pts.map fun p => p.2 * ampUnit o.iFmt).map num := by
    rw [List.map_map]; rfl
  rw [r1, r2] at e1
  have e4 : correctOffset R o (si.map Prod.fst) (si.map Prod.snd) = .ok (si.map Prod.fst, si.map Prod.snd, (0, 0)) := by
    rw [C64_unipolar R o _ _ (by simpa using hne) (Or.inl (by
      intro t ht
      obtain ⟨p, hp, rfl⟩ := List.mem_map.1 ht
      exact huni p hp)), hvo, hio]
    simp
  have e6 : normalResistance R o (si.map Prod.fst) (si.map Prod.snd) = .ok (r, v0) := by
    refine C55_normal R o _ _ r v0 (by simp) hr (by rw [zip_fst_snd]; exact hnorm) ?_
    obtain ⟨a, ha, b, hb, h⟩ := hnorm2
    exact ⟨_, List.mem_map_of_mem ha, _, List.mem_map_of_mem hb, h⟩
  have e7 : subgapResistance R o (si.map Prod.fst) (si.map Prod.snd) = .ok rs := by
    refine C55_subgap R o _ _ rs v1 (by simp) hrs0 (by rw [zip_fst_snd]; exact hsub) ?_
    obtain ⟨a, ha, b, hb, h⟩ := hsub2
    exact ⟨_, List.mem_map_of_mem ha, _, List.mem_map_of_mem hb, h⟩
  have hgr : g / r ≠ 0 := div_ne_zero hg.ne' hr
  set M : List (ℝ × ℝ) := si.map fun p => (p.1 / g, p.2 / (g / r)) with hM
  have hMne : M ≠ [] := by simpa [hM] using hne
  have e8 : (si.map Prod.fst).map (· / g) = M.map Prod.fst := by
    rw [hM, List.map_map, List.map_map]; rfl
  have e9 : (si.map Prod.snd).map (· / (g / r)) = M.map Prod.snd := by
    rw [hM, List.map_map, List.map_map]; rfl
  have e10 : Np.fdiv g r = .ok (g / r) := Np.fdiv_ok hr
  set V := (tab o.npts.toNat fun i => -o.vmax + i * ((o.vmax - -o.vmax) / (o.npts - 1 : ℤ))).map (· / g) with hV
  let dc : DCIV :=
    { vraw := si.map Prod.fst, iraw := si.map Prod.snd, vnorm := V, inorm := V.map (interpAt M), vgap := g,
      igap := g / r, fgap := chargeE * g / planckH, rn := r, rsg := rs, offset := (0, 0), vint := v0, rseries := none }
  refine ⟨V, V.map (interpAt M), dc, ?_, rfl, rfl, rfl, rfl, rfl, rfl, ?_⟩
  · unfold dcivCurve
    rw [e1, py_bind, toReals_num, py_bind, toReals_num, py_bind, ev, ei, e4, py_bind]
    dsimp only
    unfold filterIv
    rw [if_pos hf, py_bind, hrs]
    dsimp only
    unfold seriesResistance
    dsimp only
    rw [py_bind]
    dsimp only
    rw [toReals_num, py_bind, toReals_num, py_bind]
    unfold chooseGap
    rw [hgap]
    dsimp only
    rw [py_bind, e6, py_bind, e7, py_bind]
    dsimp only
    rw [e10, py_bind, div_one_elem hg.ne', py_bind, div_one_elem hgr, py_bind,
      linspace_eq (by omega), py_bind, div_one_elem hg.ne', py_bind, e8, e9, interp_points hMne, py_bind]
    rfl
  · intro k hk
    have get : (V.map (interpAt M)).getD k 0 = interpAt M (V.getD k 0) := by
      simp only [List.getD_eq_getElem?_getD, List.getElem?_map, List.getElem?_eq_getElem hk, Option.map_some,
        Option.getD_some]
    have sc := interpAt_scale hg (g / r) M (V.getD k 0)
    have back : (M.map fun p => (p.1 * g, p.2 * (g / r))) = si := by
      rw [hM, List.map_map]
      conv_rhs => rw [← List.map_id si]
      apply List.map_congr_left
      intro p _
      simp only [Function.comp_apply, id_eq]
      apply Prod.ext
      · simp only; field_simp
      · simp only; field_simp
    rw [back] at sc
    rw [get]
    exact sc.symm

/-- C85: the same, in terms of the picture: every point of the curve within the measured range lies on the broken
line through the measured points. -/
theorem C85_broken_line (R : Routines) (o : Opts) (pts : List (ℝ × ℝ)) (h2 : 2 ≤ pts.length) (r v0 rs v1 g : ℝ)
    (hup : pts.Pairwise fun p q => p.1 < q.1) (rows : List (ℝ × ℝ)) (hrows : rows = pts ∨ rows = pts.reverse)
    (hvf : o.vFmt ∈ ["uV", "mV", "V"]) (hif : o.iFmt ∈ ["uA", "mA", "A"]) (hvm : 0 < o.vMult)
    (si : List (ℝ × ℝ))
    (hsi : si = pts.map fun p => (p.1 * voltUnit o.vFmt * o.vMult, p.2 * ampUnit o.iFmt * o.iMult))
    (huni : ∀ p ∈ si, o.voffsetRange.pair.1 ≤ p.1)
    (hvo : o.voffset = none) (hio : o.ioffset = none) (hrs : o.rseries = none) (hgap : o.vgap = some g) (hg : 0 < g)
    (hf : o.filterData = false) (hn : 1 ≤ o.npts) (hr : r ≠ 0) (hrs0 : rs ≠ 0)
    (hnorm : ∀ p ∈ si, o.vrn.1 < p.1 → p.1 < o.vrn.2 → p.2 = (p.1 - v0) / r)
    (hnorm2 : ∃ a ∈ si, ∃ b ∈ si, a.1 ≠ b.1 ∧ o.vrn.1 < a.1 ∧ a.1 < o.vrn.2 ∧ o.vrn.1 < b.1 ∧ b.1 < o.vrn.2)
    (hsub : ∀ p ∈ si, |p.1 - o.vrsg| < 1e-4 → p.2 = (p.1 - v1) / rs)
    (hsub2 : ∃ a ∈ si, ∃ b ∈ si, a.1 ≠ b.1 ∧ |a.1 - o.vrsg| < 1e-4 ∧ |b.1 - o.vrsg| < 1e-4) :
    ∃ v i dc, dcivCurve R o (.matrix (sweep rows)) = .ok (v, i, dc) ∧ dc.rn = r ∧ dc.vint = v0 ∧ dc.rsg = rs ∧
      dc.offset = (0, 0) ∧ dc.igap = g / r ∧ dc.vgap = g ∧
      ∀ k, k < v.length → (∃ p ∈ si, p.1 ≤ v.getD k 0 * dc.vgap) → (∃ p ∈ si, v.getD k 0 * dc.vgap ≤ p.1) →
        OnLine si (v.getD k 0 * dc.vgap) (i.getD k 0 * dc.igap) := by
  obtain ⟨v, i, dc, h1, a1, a2, a3, a4, a5, a6, h⟩ := C85_junction R o pts h2 r v0 rs v1 g hup rows hrows hvf hif hvm si
    hsi huni hvo hio hrs hgap hg hf hn hr hrs0 hnorm hnorm2 hsub hsub2
  refine ⟨v, i, dc, h1, a1, a2, a3, a4, a5, a6, fun k hk hlo hhi => ?_⟩
  rw [h k hk]
  have hvu : 0 < voltUnit o.vFmt := by unfold voltUnit; split_ifs <;> norm_num
  have hS : Incr si := by
    unfold Incr
    rw [hsi, List.pairwise_map]
    exact hup.imp fun {a b} hab => mul_lt_mul_of_pos_right (mul_lt_mul_of_pos_right hab hvu) hvm
  exact interpAt_onLine hS hlo hhi

/-- C85 applies: two points around the subgap voltage 2 mV (1 kOhm) and two on the normal branch (10 Ohm). -/
example (R : Routines) : ∃ v i dc, dcivCurve R
    { vFmt := "mV", iFmt := "uA", vmax := 6e-3, npts := 6001, voffset := none, ioffset := none,
      voffsetRange := .one 3e-4, rseries := none, iMult := 1, vMult := 1, filterData := false, theta := 0,
      nwind := 21, npoly := 1, vrn := (3.5e-3, 4.5e-3), vrsg := 2e-3, vgap := some 2.8e-3 }
    (.matrix (sweep [(4.4, 440), (3.6, 360), (2.05, 2.05), (1.95, 1.95)])) = .ok (v, i, dc) ∧ dc.rn = 10 ∧ dc.vint = 0 ∧
      dc.rsg = 1000 := by
  obtain ⟨v, i, dc, h, h1, h2, h3, -⟩ := C85_junction R
    { vFmt := "mV", iFmt := "uA", vmax := 6e-3, npts := 6001, voffset := none, ioffset := none,
      voffsetRange := .one 3e-4, rseries := none, iMult := 1, vMult := 1, filterData := false, theta := 0,
      nwind := 21, npoly := 1, vrn := (3.5e-3, 4.5e-3), vrsg := 2e-3, vgap := some 2.8e-3 }
    [(1.95, 1.95), (2.05, 2.05), (3.6, 360), (4.4, 440)] (by simp) 10 0 1000 0 2.8e-3
    (by simp; norm_num) [(4.4, 440), (3.6, 360), (2.05, 2.05), (1.95, 1.95)] (Or.inr (by simp)) (by simp) (by simp)
    (by norm_num)
    [(1.95e-3, 1.95e-6), (2.05e-3, 2.05e-6), (3.6e-3, 360e-6), (4.4e-3, 440e-6)]
    (by simp [voltUnit, ampUnit]; norm_num) (by simp [VRange.pair]; norm_num) rfl rfl rfl rfl (by norm_num) rfl
    (by norm_num) (by norm_num) (by norm_num) (by simp; norm_num)
    ⟨(3.6e-3, 360e-6), by simp, (4.4e-3, 440e-6), by simp, by norm_num, by norm_num, by norm_num, by norm_num, by norm_num⟩
    (by
      simp only [List.mem_cons, List.not_mem_nil, or_false]
      rintro p (rfl | rfl | rfl | rfl) hp
      · norm_num
      · norm_num
      · rw [abs_lt] at hp; norm_num at hp
      · rw [abs_lt] at hp; norm_num at hp)
    ⟨(1.95e-3, 1.95e-6), by simp, (2.05e-3, 2.05e-6), by simp, by norm_num, by rw [abs_lt]; norm_num,
      by rw [abs_lt]; norm_num⟩
  exact ⟨v, i, dc, h, h1, h2, h3⟩

end QMix.IvData
