import Verif.Props.IvData4
import Verif.Props.IfNoise3

/-!
# C161: a pumped sweep, end to end
-/

namespace QMix.IvData

open Np Fl Clean Spec

/-- C161: the points of a pumped sweep (upwards or downwards) are given. They are converted to V and A,
multiplied by the factors of the user, shifted by the offset and, if there is a series resistance, moved to the
voltage across the junction. If the voltages still increase, `iv_curve` returns `npts` voltages
from `-vmax` to `vmax`, the current on the broken line through these points where there are any on both sides, and
zero elsewhere; all in units of the gap voltage and the gap current of the dc curve. -/
theorem C161_pumped (R : Routines) (o : Opts) (dc : DCIV) (pts : List (ℝ × ℝ)) (h2 : 2 ≤ pts.length)
    (hup : pts.Pairwise fun p q => p.1 < q.1) (rows : List (ℝ × ℝ)) (hrows : rows = pts ∨ rows = pts.reverse)
    (hvf : o.vFmt ∈ ["uV", "mV", "V"]) (hif : o.iFmt ∈ ["uA", "mA", "A"]) (off : ℝ × ℝ)
    (hoff : (∃ a b, o.voffset = some a ∧ o.ioffset = some b ∧ off = (a, b)) ∨
      ((o.voffset = none ∨ o.ioffset = none) ∧ off = dc.offset))
    (raw si : List (ℝ × ℝ))
    (hraw : raw = pts.map fun p =>
      (p.1 * voltUnit o.vFmt * o.vMult - off.1, p.2 * ampUnit o.iFmt * o.iMult - off.2))
    (hsi : si = raw.map fun p => (p.1 - p.2 * o.rseries.getD 0, p.2))
    (hquad : o.rseries = none ∨ ∀ p ∈ raw, p.2 ≠ 0 ∧ 0 ≤ p.1 / p.2) (hinc : si.Pairwise fun p q => p.1 < q.1)
    (hf : o.filterData = false) (hn : 1 ≤ o.npts) (hg : 0 < dc.vgap) (hi0 : dc.igap ≠ 0) :
    ∃ v i, ivCurve R o (.matrix (sweep rows)) dc = .ok (v, i) ∧ (v.length : ℤ) = o.npts ∧ (i.length : ℤ) = o.npts ∧
      (∀ k, k < v.length → v.getD k 0 * dc.vgap = -o.vmax + k * (2 * o.vmax / (o.npts - 1 : ℤ))) ∧
      ∀ k, k < v.length →
        ((∃ p ∈ si, p.1 ≤ v.getD k 0 * dc.vgap) → (∃ p ∈ si, v.getD k 0 * dc.vgap ≤ p.1) →
          OnLine si (v.getD k 0 * dc.vgap) (i.getD k 0 * dc.igap)) ∧
        ((∀ p ∈ si, v.getD k 0 * dc.vgap < p.1) ∨ (∀ p ∈ si, p.1 < v.getD k 0 * dc.vgap) → i.getD k 0 = 0) := by
  have hpo : pumpedOffset o dc = off := by
    unfold pumpedOffset
    rcases hoff with ⟨a, b, e1, e2, rfl⟩ | ⟨e | e, rfl⟩
    · rw [e1, e2]
    · rw [e]
    · rw [e]
      cases o.voffset <;> rfl
  have hne : si ≠ [] := by
    intro h
    rw [h, hraw] at hsi
    have := congrArg List.length hsi
    simp at this
    omega
  have e1 := C83_sweep R o pts h2 hup rows hrows hvf hif
  have r1 : (pts.map fun p => num (p.1 * voltUnit o.vFmt)) = (pts.map fun p => p.1 * voltUnit o.vFmt).map num := by
    rw [List.map_map]; rfl
  have r2 : (pts.map fun p => num (p.2 * ampUnit o.iFmt)) = (pts.map fun p => p.2 * ampUnit o.iFmt).map num := by
    rw [List.map_map]; rfl
  rw [r1, r2] at e1
  have ev : ((pts.map fun p => p.1 * voltUnit o.vFmt).map fun t => t * o.vMult - off.1) = raw.map Prod.fst := by
    rw [hraw, List.map_map, List.map_map]; rfl
  have ei : ((pts.map fun p => p.2 * ampUnit o.iFmt).map fun t => t * o.iMult - off.2) = raw.map Prod.snd := by
    rw [hraw, List.map_map, List.map_map]; rfl
  have es : seriesResistance o.rseries ((raw.map Prod.fst).map num) ((raw.map Prod.snd).map num) =
      .ok ((si.map Prod.fst).map num, (si.map Prod.snd).map num) := by
    cases hr : o.rseries with
    | none =>
      have : si = raw := by
        rw [hsi, hr]
        simp
      rw [this]
      rfl
    | some r =>
      rw [hr] at hquad hsi
      have hq := hquad.resolve_left (by simp)
      have := C54_corrected r raw hq
      rw [List.map_map, List.map_map, hsi, List.map_map, List.map_map, List.map_map, List.map_map]
      exact this
  set M : List (ℝ × ℝ) := si.map fun p => (p.1 / dc.vgap, p.2 / dc.igap) with hM
  have e8 : (si.map Prod.fst).map (· / dc.vgap) = M.map Prod.fst := by
    rw [hM, List.map_map, List.map_map]; rfl
  have e9 : (si.map Prod.snd).map (· / dc.igap) = M.map Prod.snd := by
    rw [hM, List.map_map, List.map_map]; rfl
  have hMne : M ≠ [] := by simpa [hM] using hne
  have hMinc : Incr M := by
    unfold Incr
    rw [hM, List.pairwise_map]
    exact hinc.imp fun {a b} hab => div_lt_div_of_pos_right hab hg
  set V := (tab o.npts.toNat fun i => -o.vmax + i * ((o.vmax - -o.vmax) / (o.npts - 1 : ℤ))).map (· / dc.vgap) with hV
  have hVlen : V.length = o.npts.toNat := by rw [hV, List.length_map, tab_length]
  obtain ⟨cur, hcur⟩ : ∃ cur, interp0 V (M.map Prod.fst) (M.map Prod.snd) = .ok cur := by
    unfold interp0
    rw [raiseIf_neg (by simp), raiseIf_neg (by simpa using hMne)]
    exact ⟨_, rfl⟩
  obtain ⟨-, hlen, hpt⟩ := interp0_ok hcur
  refine ⟨V, cur, ?_, by omega, by omega, ?_, ?_⟩
  · unfold ivCurve
    rw [e1, py_bind, toReals_num, py_bind, toReals_num, py_bind]
    rw [hpo, ev, ei]
    unfold filterIv
    rw [if_pos hf, py_bind]
    dsimp only
    rw [es, py_bind]
    dsimp only
    rw [toReals_num, py_bind, toReals_num, py_bind, div_one_elem hg.ne', py_bind, div_one_elem hi0, py_bind,
      linspace_eq (by omega), py_bind, div_one_elem hg.ne', py_bind, e8, e9, hcur, py_bind]
    rfl
  · intro k hk
    rw [hVlen] at hk
    rw [hV, map_tab, tab_getD hk, div_mul_cancel₀ _ hg.ne']
    ring
  · intro k hk
    refine ⟨fun ⟨p, hp, hp'⟩ ⟨q, hq, hq'⟩ => ?_, fun hout => ?_⟩
    · have hpM : (p.1 / dc.vgap, p.2 / dc.igap) ∈ M := List.mem_map.2 ⟨p, hp, rfl⟩
      have hqM : (q.1 / dc.vgap, q.2 / dc.igap) ∈ M := List.mem_map.2 ⟨q, hq, rfl⟩
      rw [IfData.interp0_inside hcur hk ⟨_, List.mem_map_of_mem hpM, (div_le_iff₀ hg).2 hp'⟩
        ⟨_, List.mem_map_of_mem hqM, (le_div_iff₀ hg).2 hq'⟩]
      have sc := interpAt_scale hg dc.igap M (V.getD k 0)
      have back : (M.map fun p => (p.1 * dc.vgap, p.2 * dc.igap)) = si := by
        rw [hM, List.map_map]
        conv_rhs => rw [← List.map_id si]
        apply List.map_congr_left
        intro p _
        simp only [Function.comp_apply, id_eq]
        apply Prod.ext
        · simp only; field_simp
        · simp only; field_simp
      rw [back] at sc
      have hO := interpAt_onLine hinc (x := V.getD k 0 * dc.vgap) ⟨p, hp, hp'⟩ ⟨q, hq, hq'⟩
      rw [sc] at hO
      exact hO
    · apply (hpt k hk).1
      refine hout.imp (fun h a ha => ?_) fun h a ha => ?_
      · obtain ⟨p, hp, rfl⟩ := List.mem_map.1 ha
        obtain ⟨q, hq, rfl⟩ := List.mem_map.1 hp
        exact (lt_div_iff₀ hg).2 (h q hq)
      · obtain ⟨p, hp, rfl⟩ := List.mem_map.1 ha
        obtain ⟨q, hq, rfl⟩ := List.mem_map.1 hp
        exact (div_lt_iff₀ hg).2 (h q hq)

/-- C161 applies: three points, a series resistance of 2 Ohm and the offset of the dc data. -/
example (R : Routines) (dc : DCIV) (hg : dc.vgap = 2.8e-3) (hi : dc.igap = 2.8e-4) (ho : dc.offset = (1e-4, 0)) :
    ∃ v i, ivCurve R
    { vFmt := "mV", iFmt := "uA", vmax := 6e-3, npts := 6001, voffset := none, ioffset := some 0,
      voffsetRange := .one 3e-4, rseries := some 2, iMult := 1, vMult := 1, filterData := false, theta := 0,
      nwind := 21, npoly := 1, vrn := (3.5e-3, 4.5e-3), vrsg := 2e-3, vgap := some 2.8e-3 }
    (.matrix (sweep [(4.4, 440), (2.1, 50), (1.1, 20)])) dc = .ok (v, i) := by
  obtain ⟨v, i, h, -⟩ := C161_pumped R
    { vFmt := "mV", iFmt := "uA", vmax := 6e-3, npts := 6001, voffset := none, ioffset := some 0,
      voffsetRange := .one 3e-4, rseries := some 2, iMult := 1, vMult := 1, filterData := false, theta := 0,
      nwind := 21, npoly := 1, vrn := (3.5e-3, 4.5e-3), vrsg := 2e-3, vgap := some 2.8e-3 } dc
    [(1.1, 20), (2.1, 50), (4.4, 440)] (by simp) (by simp; norm_num) [(4.4, 440), (2.1, 50), (1.1, 20)]
    (Or.inr (by simp)) (by simp) (by simp) (1e-4, 0) (Or.inr ⟨Or.inl rfl, ho.symm⟩)
    [(1e-3, 20e-6), (2e-3, 50e-6), (4.3e-3, 440e-6)] [(0.96e-3, 20e-6), (1.9e-3, 50e-6), (3.42e-3, 440e-6)]
    (by simp [voltUnit, ampUnit]; norm_num) (by simp; norm_num) (Or.inr (by simp; norm_num)) (by simp; norm_num) rfl
    (by norm_num) (by rw [hg]; norm_num) (by rw [hi]; norm_num)
  exact ⟨v, i, h⟩

end QMix.IvData
