import Verif.Props.IvData2

/-!
# The pumped curve inside of the measured range (C84)
-/

namespace QMix.IvData

open QMix Np Fl IfResp Clean

/-- C84, pumped curve: inside of the measured range the current is on the straight line between two measured points. -/
theorem C84_inside_pumped (R : Routines) (o : Opts) (m : Mat) (v i : List ℝ) (dc : DCIV)
    (h : ivCurve R o (.matrix m) dc = .ok (v, i)) (hf : o.filterData = false) (hr : o.rseries = none)
    (hm : 0 < o.vMult) (hg : 0 < dc.vgap) (k : ℕ) (hk : k < v.length)
    (h1 : ∃ p, Corrected o m (pumpedOffset o dc) p ∧ p.1 ≤ v.getD k 0 * dc.vgap)
    (h2 : ∃ p, Corrected o m (pumpedOffset o dc) p ∧ v.getD k 0 * dc.vgap ≤ p.1) :
    ∃ p q t, Corrected o m (pumpedOffset o dc) p ∧ Corrected o m (pumpedOffset o dc) q ∧ p.1 ≤ q.1 ∧ 0 ≤ t ∧ t ≤ 1 ∧
      v.getD k 0 * dc.vgap = p.1 + t * (q.1 - p.1) ∧
      i.getD k 0 * dc.igap = p.2 + t * (q.2 - p.2) := by
  obtain ⟨hig, L, hne, hL, hmem, ⟨a, ha, ha'⟩, ⟨b, hb, hb'⟩, hM, h⟩ := iv_points h hf hr hm hg
  have get : i.getD k 0 = interpAt (L.map fun p => (p.1 / dc.vgap, p.2 / dc.igap)) (v.getD k 0) := by
    unfold interp0 at h
    obtain ⟨u1, -, h⟩ := bind_ok_iff.1 h
    obtain ⟨u2, -, h⟩ := bind_ok_iff.1 h
    obtain rfl := Except.ok.inj h
    have e : v.getD k 0 = v[k] := by simp [hk]
    rw [e] at h1 h2 ⊢
    simp only [List.getD_eq_getElem?_getD, List.getElem?_map, List.getElem?_eq_getElem hk, Option.map_some,
      Option.getD_some]
    refine if_neg ?_
    rintro (h0 | h0)
    · obtain ⟨p, hp, hp'⟩ := h1
      have := h0 (a.1 / dc.vgap) (List.mem_map.2 ⟨_, List.mem_map.2 ⟨a, ha, rfl⟩, rfl⟩)
      rw [lt_div_iff₀ hg] at this
      linarith [ha' p hp]
    · obtain ⟨p, hp, hp'⟩ := h2
      have := h0 (b.1 / dc.vgap) (List.mem_map.2 ⟨_, List.mem_map.2 ⟨b, hb, rfl⟩, rfl⟩)
      rw [div_lt_iff₀ hg] at this
      linarith [hb' p hp]
  rw [get]
  set x := v.getD k 0 with hx
  rcases interpAt_cases _ hM (by simpa using hne) x with ⟨c, l, e, hc, -⟩ | ⟨l, c, e, hc, e'⟩ |
    ⟨l, c, d, l', e, hc, hd, e'⟩
  · exfalso
    obtain ⟨p, hp, hp'⟩ := h1
    have h3 := (ha' p hp).trans hp'
    have h4 : (a.1 / dc.vgap, a.2 / dc.igap) ∈ c :: l := by rw [← e]; exact List.mem_map.2 ⟨a, ha, rfl⟩
    have h5 : c.1 ≤ a.1 / dc.vgap := by
      rcases List.mem_cons.1 h4 with h | h
      · rw [← h]
      · rw [e] at hM; exact ((List.pairwise_cons.1 hM).1 _ h).le
    have h6 := hc.trans_le h5
    rw [lt_div_iff₀ hg] at h6
    linarith
  · have hcm : c ∈ L.map fun p => (p.1 / dc.vgap, p.2 / dc.igap) := by rw [e]; simp
    obtain ⟨c', hc', rfl⟩ := List.mem_map.1 hcm
    obtain ⟨p, hp, hp'⟩ := h2
    have h3 := hp'.trans (hb' p hp)
    have h4 : (b.1 / dc.vgap, b.2 / dc.igap) ∈ l ++ [(c'.1 / dc.vgap, c'.2 / dc.igap)] := by
      rw [← e]; exact List.mem_map.2 ⟨b, hb, rfl⟩
    have h5 : b.1 / dc.vgap ≤ c'.1 / dc.vgap := by
      rcases List.mem_append.1 h4 with h | h
      · rw [e] at hM; exact ((List.pairwise_append.1 hM).2.2 _ h (c'.1 / dc.vgap, c'.2 / dc.igap) (by simp)).le
      · rw [(Prod.mk.inj (List.mem_singleton.1 h)).1]
    rw [div_le_div_iff_of_pos_right hg] at h5
    have hc1 : c'.1 ≤ x * dc.vgap := (div_le_iff₀ hg).1 hc
    refine ⟨c', c', 0, hmem _ hc', hmem _ hc', le_rfl, le_rfl, zero_le_one, ?_, ?_⟩
    · have := h3.trans h5
      linarith
    · rw [e', div_mul_cancel₀ _ hig]
      ring
  · have hcm : c ∈ L.map fun p => (p.1 / dc.vgap, p.2 / dc.igap) := by rw [e]; simp
    obtain ⟨c', hc', rfl⟩ := List.mem_map.1 hcm
    have hdm : d ∈ L.map fun p => (p.1 / dc.vgap, p.2 / dc.igap) := by rw [e]; simp
    obtain ⟨d', hd', rfl⟩ := List.mem_map.1 hdm
    dsimp only at hc hd e'
    have h6 : c'.1 ≤ x * dc.vgap := (div_le_iff₀ hg).1 hc
    have h6' : x * dc.vgap < d'.1 := (lt_div_iff₀ hg).1 hd
    have h8 : 0 < d'.1 - c'.1 := by linarith
    refine ⟨c', d', (x * dc.vgap - c'.1) / (d'.1 - c'.1), hmem _ hc', hmem _ hd', by linarith,
      div_nonneg (by linarith) h8.le, (div_le_one h8).2 (by linarith), ?_, ?_⟩
    · field_simp
      ring
    · rw [e', show d'.1 / dc.vgap - c'.1 / dc.vgap = (d'.1 - c'.1) / dc.vgap by ring]
      have hg' := hg.ne'
      have h9 := h8.ne'
      field_simp

end QMix.IvData
