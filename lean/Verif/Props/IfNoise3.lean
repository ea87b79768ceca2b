import Verif.Props.IfNoise2
import Verif.Props.IvData3

/-!
# Properties of `qmix/exp/if_data.py`: loading (C88)
-/

namespace QMix.IfData

open Np Fl Clean IvData

/-- A measured point: voltage in V after the correction, and power. -/
def Measured (o : IfOpts) (dc : DCIV) (m : Mat) (p : ℝ × ℝ) : Prop :=
  ∃ r ∈ m.rows, ∃ x y : ℝ, r.getD 0 none = num x ∧ r.getD 1 none = num y ∧
    p = (x * voltUnit o.vFmt * o.vMult - dc.offset.1, y)

theorem mem_powers {u : ℝ} {m : Mat} {p : Flt × Flt} : p ∈ powers u m ↔
    (∃ r ∈ m.rows, p = (fmul (r.getD 0 none) (num u), r.getD 1 none)) ∧ p.1 ≠ none ∧ p.2 ≠ none := by
  unfold powers notNan
  simp only [List.mem_filter, List.mem_map, Bool.and_eq_true, Option.isSome_iff_ne_none]
  constructor
  · rintro ⟨⟨r, hr, rfl⟩, h⟩; exact ⟨⟨r, hr, rfl⟩, h⟩
  · rintro ⟨⟨r, hr, rfl⟩, h⟩; exact ⟨⟨r, hr, rfl⟩, h⟩

theorem fdiv_inv {a b c : ℝ} (h : Np.fdiv a b = .ok c) : b ≠ 0 ∧ c = a / b := by
  by_cases hb : b = 0
  · unfold Np.fdiv at h
    rw [if_pos hb] at h
    cases h
  · rw [Np.fdiv_ok hb] at h
    exact ⟨hb, (Except.ok.inj h).symm⟩

theorem vUnit_ok {s : String} {u : ℝ} (h : vUnit s = .ok u) : u = voltUnit s ∧ 0 < u := by
  unfold vUnit at h
  unfold voltUnit
  split_ifs at h ⊢ <;> obtain rfl := Except.ok.inj h <;> exact ⟨rfl, by norm_num⟩

/-- The points between cleaning and resampling, if each voltage is moved by the same function. -/
theorem loaded_moved {S : Sorter} {o : IfOpts} {dc : DCIV} {m : Mat} {r : List ℝ × List ℝ} {J : ℝ → ℝ}
    (h : loadIf S o dc (.matrix m) = .ok r) (hc : m.ncol = 2) (hw : m.WF)
    (hr : ∀ v, ifSeries o.rseries dc v = .ok (v.map J))
    (hm : 0 < o.vMult) (hg : 0 < dc.vgap) :
    ∃ (L : List (ℝ × ℝ)) (q : List ℝ), L ≠ [] ∧ Incr L ∧ (∀ p ∈ L, Measured o dc m p) ∧
      (∀ p, Measured o dc m p → ∃ p' ∈ L, p'.1 = p.1) ∧
      interp0 r.1 ((L.map fun p => (J p.1 / dc.vgap, p.2)).map Prod.fst)
        ((L.map fun p => (J p.1 / dc.vgap, p.2)).map Prod.snd) = .ok q ∧ smoothIf o.sigma dc.vgap r.1 q = .ok r.2 := by
  rw [loadIf_eq S o dc hc hw] at h
  obtain ⟨u, hu, h⟩ := bind_ok_iff.1 h
  obtain ⟨_, hs, h⟩ := bind_ok_iff.1 h
  obtain ⟨v, hv, h⟩ := bind_ok_iff.1 h
  obtain ⟨p, hp, h⟩ := bind_ok_iff.1 h
  obtain ⟨eu, hu0⟩ := vUnit_ok hu
  have hperm := sortBy_perm S Prod.fst (none, none) (powers u m)
  have hn : ∀ a ∈ sortBy S Prod.fst (none, none) (powers u m), a.1 ≠ none :=
    fun a ha => (mem_powers.1 (hperm.mem_iff.1 ha)).2.1
  have hbelow : ((points S u m).map Prod.fst).Pairwise Below :=
    keep_below Prod.fst _ (sortBy_sorted S Prod.fst (none, none) (powers u m)) hn
  have hsub : ∀ a ∈ points S u m, a ∈ powers u m :=
    fun a ha => hperm.mem_iff.1 ((keep_sublist Prod.fst _).subset ha)
  have hall : ∀ a ∈ powers u m, ∃ b ∈ points S u m, b.1 = a.1 := by
    intro a ha
    obtain ⟨b, hb1, hb2⟩ := List.mem_map.1 (keep_mem Prod.fst _ hn (hperm.mem_iff.2 ha))
    exact ⟨b, hb1, hb2⟩
  have ev := toReals_ok hv
  have ep := toReals_ok hp
  have hl : v.length = p.length := by
    have a := congrArg List.length ev
    have b := congrArg List.length ep
    simp only [List.length_map] at a b
    omega
  have eT : points S u m = (v.zip p).map fun a => (num a.1, num a.2) := by
    rw [← zip_fst_snd (points S u m), ev, ep, List.zip_map]
    rfl
  have fst : v = (v.zip p).map Prod.fst := by rw [List.map_fst_zip hl.le]
  have snd : p = (v.zip p).map Prod.snd := by rw [List.map_snd_zip hl.ge]
  unfold resample at h
  rw [hr, py_bind] at h
  obtain ⟨vn, hvn, h⟩ := bind_ok_iff.1 h
  obtain ⟨top, -, h⟩ := bind_ok_iff.1 h
  obtain ⟨vout, -, h⟩ := bind_ok_iff.1 h
  obtain ⟨pout, h1, h⟩ := bind_ok_iff.1 h
  obtain ⟨ps, h2, h⟩ := bind_ok_iff.1 h
  obtain rfl := Except.ok.inj h
  obtain ⟨-, rfl⟩ := div_one_ok hvn
  have hz : ∀ a ∈ v.zip p, (num a.1, num a.2) ∈ powers u m :=
    fun a ha => hsub _ (by rw [eT]; exact List.mem_map.2 ⟨a, ha, rfl⟩)
  have hpos : v.zip p ≠ [] := by
    intro he
    rw [he] at eT
    have : powers u m = [] := by
      by_contra hne
      obtain ⟨a, ha⟩ := List.exists_mem_of_ne_nil _ hne
      obtain ⟨b, hb, -⟩ := hall a ha
      rw [eT] at hb
      cases hb
    have e0 : sortBy S Prod.fst (none, none) (powers u m) = [] := by
      apply List.eq_nil_of_length_eq_zero
      rw [hperm.length_eq, this]
      rfl
    rw [e0, checkSorted_few Prod.fst [] (by simp)] at hs
    cases hs
  refine ⟨(v.zip p).map fun a => (a.1 * o.vMult - dc.offset.1, a.2), pout, by simpa using hpos, ?_, ?_, ?_, ?_, h2⟩
  · unfold Incr
    rw [List.pairwise_map]
    rw [eT, List.map_map, List.pairwise_map] at hbelow
    refine hbelow.imp fun {a b} hab => ?_
    have : a.1 < b.1 := by
      unfold Below at hab
      simpa [flt, num] using hab
    have := mul_lt_mul_of_pos_right this hm
    linarith
  · intro a ha
    obtain ⟨b, hb, rfl⟩ := List.mem_map.1 ha
    obtain ⟨⟨w, hw, he⟩, -⟩ := mem_powers.1 (hz b hb)
    obtain ⟨e1, e2⟩ := Prod.mk.inj he
    obtain ⟨x, hx, hx'⟩ := fmul_num_inv hu0 e1.symm
    exact ⟨w, hw, x, b.2, hx, e2.symm, by rw [hx', eu]⟩
  · rintro a ⟨w, hw, x, y, hx, hy, rfl⟩
    obtain ⟨b, hb, hb'⟩ := hall (num (x * u), num y)
      (mem_powers.2 ⟨⟨w, hw, by rw [hx, hy, fmul_num]⟩, num_ne_none _, num_ne_none _⟩)
    rw [eT] at hb
    obtain ⟨c, hc, rfl⟩ := List.mem_map.1 hb
    refine ⟨_, List.mem_map.2 ⟨c, hc, rfl⟩, ?_⟩
    dsimp only at hb' ⊢
    rw [Fl.num_inj.1 hb', eu]
  · have a1 : (((v.zip p).map fun a => (a.1 * o.vMult - dc.offset.1, a.2)).map fun a =>
        (J a.1 / dc.vgap, a.2)).map Prod.fst = ((v.map fun t => t * o.vMult - dc.offset.1).map J).map (· / dc.vgap) := by
      conv_rhs => rw [fst]
      simp only [List.map_map]
      rfl
    have a2 : (((v.zip p).map fun a => (a.1 * o.vMult - dc.offset.1, a.2)).map fun a =>
        (J a.1 / dc.vgap, a.2)).map Prod.snd = p := by
      conv_rhs => rw [snd]
      simp only [List.map_map]
      rfl
    rw [a1, a2]
    exact h1

/-- The points between cleaning and resampling. -/
theorem loaded_if {S : Sorter} {o : IfOpts} {dc : DCIV} {m : Mat} {r : List ℝ × List ℝ}
    (h : loadIf S o dc (.matrix m) = .ok r) (hc : m.ncol = 2) (hw : m.WF) (hr : o.rseries = none)
    (hm : 0 < o.vMult) (hg : 0 < dc.vgap) :
    ∃ (L : List (ℝ × ℝ)) (q : List ℝ), L ≠ [] ∧ Incr L ∧ (∀ p ∈ L, Measured o dc m p) ∧
      (∀ p, Measured o dc m p → ∃ p' ∈ L, p'.1 = p.1) ∧
      interp0 r.1 ((L.map fun p => (p.1 / dc.vgap, p.2)).map Prod.fst)
        ((L.map fun p => (p.1 / dc.vgap, p.2)).map Prod.snd) = .ok q ∧ smoothIf o.sigma dc.vgap r.1 q = .ok r.2 :=
  loaded_moved (J := fun t => t) h hc hw (fun v => by rw [hr, List.map_id']; rfl) hm hg

theorem incr_scaled {L : List (ℝ × ℝ)} (hL : Incr L) {g : ℝ} (hg : 0 < g) :
    Incr (L.map fun p => (p.1 / g, p.2)) := by
  unfold Incr
  rw [List.pairwise_map]
  exact hL.imp fun {a b} hab => by dsimp only; exact div_lt_div_of_pos_right hab hg

/-- What `smoothIf` returns. -/
theorem smoothIf_ok {sigma : Option ℝ} {g : ℝ} {v p q : List ℝ} (h : smoothIf sigma g v p = .ok q) :
    q = p ∨ ∃ w, 1 ≤ w * 3 ∧ MathFn.winLen w 3 ≤ p.length ∧ q = tab p.length (MathFn.smoothAt w 3 p) := by
  unfold smoothIf at h
  cases sigma with
  | none => exact Or.inl (Except.ok.inj h).symm
  | some s =>
    dsimp only at h
    obtain ⟨_, -, h⟩ := bind_ok_iff.1 h
    obtain ⟨_, -, h⟩ := bind_ok_iff.1 h
    obtain ⟨w, -, h⟩ := bind_ok_iff.1 h
    exact Or.inr ⟨w, MathFn.gaussConv_ok h⟩

theorem smoothIf_range {sigma : Option ℝ} {g : ℝ} {v p q : List ℝ} (h : smoothIf sigma g v p = .ok q) {lo hi : ℝ}
    (hp : ∀ a ∈ p, lo ≤ a ∧ a ≤ hi) : ∀ a ∈ q, lo ≤ a ∧ a ≤ hi := by
  rcases smoothIf_ok h with rfl | ⟨w, h1, h2, rfl⟩
  · exact hp
  · intro a ha
    obtain ⟨i, hi', rfl⟩ := mem_tab.1 ha
    have hb : ∀ j ∈ Finset.range (MathFn.winLen w 3), lo ≤
        p.getD (MathFn.reflect p.length ((i : ℤ) + (MathFn.winLen w 3 / 2 : ℕ) - j)) 0 ∧
        p.getD (MathFn.reflect p.length ((i : ℤ) + (MathFn.winLen w 3 / 2 : ℕ) - j)) 0 ≤ hi := by
      intro j hj
      have hlt := MathFn.reflect_lt (MathFn.winLen_ge h1) h2 hi' (Finset.mem_range.1 hj)
      rw [getD_lt _ _ hlt]
      exact hp _ (List.getElem_mem hlt)
    have hs := MathFn.win_sum h1
    unfold MathFn.smoothAt
    constructor
    · calc lo = ∑ j ∈ Finset.range (MathFn.winLen w 3), MathFn.win w 3 j * lo := by
            rw [← Finset.sum_mul, hs, one_mul]
        _ ≤ _ := Finset.sum_le_sum fun j hj => mul_le_mul_of_nonneg_left (hb j hj).1 (MathFn.win_pos h1 j).le
    · calc _ ≤ ∑ j ∈ Finset.range (MathFn.winLen w 3), MathFn.win w 3 j * hi :=
          Finset.sum_le_sum fun j hj => mul_le_mul_of_nonneg_left (hb j hj).2 (MathFn.win_pos h1 j).le
        _ = hi := by rw [← Finset.sum_mul, hs, one_mul]

/-- C88: the voltages of loaded IF data are `npts` voltages evenly spaced from zero to `vmax`, in units of the gap
voltage: they depend only on the options, and hot and cold data always match. -/
theorem C88_grid (S : Sorter) (o : IfOpts) (dc : DCIV) (m : Mat) (r : List ℝ × List ℝ) (hc : m.ncol = 2) (hw : m.WF)
    (h : loadIf S o dc (.matrix m) = .ok r) :
    dc.vgap ≠ 0 ∧ r.1.length = o.npts.toNat ∧ r.2.length = o.npts.toNat ∧
      ∀ k, k < r.1.length → r.1.getD k 0 * dc.vgap = k * (o.vmax / (o.npts - 1 : ℤ)) := by
  have hlen := loadIf_length hc hw h
  rw [loadIf_eq S o dc hc hw] at h
  obtain ⟨u, hu, h⟩ := bind_ok_iff.1 h
  obtain ⟨_, hs, h⟩ := bind_ok_iff.1 h
  obtain ⟨v, hv, h⟩ := bind_ok_iff.1 h
  obtain ⟨p, hp, h⟩ := bind_ok_iff.1 h
  unfold resample at h
  obtain ⟨v1, -, h⟩ := bind_ok_iff.1 h
  obtain ⟨vn, -, h⟩ := bind_ok_iff.1 h
  obtain ⟨top, ht, h⟩ := bind_ok_iff.1 h
  obtain ⟨vout, hv, h⟩ := bind_ok_iff.1 h
  obtain ⟨pout, -, h⟩ := bind_ok_iff.1 h
  obtain ⟨ps, -, h⟩ := bind_ok_iff.1 h
  obtain rfl := Except.ok.inj h
  obtain ⟨-, rfl⟩ := linspace_ok hv
  obtain ⟨hg, rfl⟩ := fdiv_inv ht
  dsimp only at hlen ⊢
  rw [tab_length] at hlen
  refine ⟨hg, by rw [tab_length], hlen.symm, fun k hk => ?_⟩
  rw [tab_length] at hk
  rw [tab_getD hk]
  field_simp
  ring

/-- C88: hot and cold data of any two measurements have the same voltages. -/
theorem C88_match (S : Sorter) (o : IfOpts) (dc : DCIV) (m m' : Mat) (r r' : List ℝ × List ℝ) (hc : m.ncol = 2)
    (hw : m.WF) (hc' : m'.ncol = 2) (hw' : m'.WF) (h : loadIf S o dc (.matrix m) = .ok r)
    (h' : loadIf S o dc (.matrix m') = .ok r') : r.1 = r'.1 := by
  obtain ⟨hg, l1, -, e1⟩ := C88_grid S o dc m r hc hw h
  obtain ⟨-, l2, -, e2⟩ := C88_grid S o dc m' r' hc' hw' h'
  rw [eq_tab r.1 0, eq_tab r'.1 0]
  refine tab_ext (l1.trans l2.symm) fun i hi => ?_
  have := (e1 i hi).trans (e2 i (by omega)).symm
  exact mul_right_cancel₀ hg this

theorem interp0_getD {x xp fp r : List ℝ} (h : interp0 x xp fp = .ok r) {k : ℕ} (hk : k < x.length) :
    r.getD k 0 = 0 ∨ r.getD k 0 = RespFn.npInterp xp fp (x.getD k 0) := by
  rcases ((interp0_ok h).2.2 k hk).2 with e | e
  · exact Or.inl e
  · right
    rw [e, getD_lt _ _ (by simpa using hk), List.getElem_map, getD_lt _ _ hk]

theorem interp0_inside {x xp fp r : List ℝ} (h : interp0 x xp fp = .ok r) {k : ℕ} (hk : k < x.length)
    (h1 : ∃ a ∈ xp, a ≤ x.getD k 0) (h2 : ∃ a ∈ xp, x.getD k 0 ≤ a) :
    r.getD k 0 = RespFn.npInterp xp fp (x.getD k 0) := by
  unfold interp0 at h
  obtain ⟨_, -, h⟩ := bind_ok_iff.1 h
  obtain ⟨_, -, h⟩ := bind_ok_iff.1 h
  obtain rfl := Except.ok.inj h
  rw [getD_lt _ _ (by simpa using hk), List.getElem_map, getD_lt _ _ hk]
  rw [getD_lt _ _ hk] at h1 h2
  rw [if_neg]
  rintro (h | h)
  · obtain ⟨a, ha, h'⟩ := h1
    exact absurd (h a ha) (not_lt.2 h')
  · obtain ⟨a, ha, h'⟩ := h2
    exact absurd (h a ha) (not_lt.2 h')

/-- C88: no power is invented, with and without smoothing. -/
theorem C88_range (S : Sorter) (o : IfOpts) (dc : DCIV) (m : Mat) (r : List ℝ × List ℝ) (hc : m.ncol = 2) (hw : m.WF)
    (h : loadIf S o dc (.matrix m) = .ok r) (hr : o.rseries = none) (hm : 0 < o.vMult) (hg : 0 < dc.vgap)
    (lo hi : ℝ) (h0 : lo ≤ 0) (h1 : 0 ≤ hi) (hlim : ∀ p, Measured o dc m p → lo ≤ p.2 ∧ p.2 ≤ hi) :
    ∀ a ∈ r.2, lo ≤ a ∧ a ≤ hi := by
  obtain ⟨L, q, hne, hL, hmem, -, hq, hs⟩ := loaded_if h hc hw hr hm hg
  refine smoothIf_range hs fun a ha => ?_
  obtain ⟨k, hk, rfl⟩ := List.mem_iff_getElem.1 ha
  have hk' : k < r.1.length := by rw [← (interp0_ok hq).2.1]; exact hk
  rw [← getD_lt q 0 hk]
  rcases interp0_getD hq hk' with e | e
  · rw [e]; exact ⟨h0, h1⟩
  · rw [e]
    refine interpAt_range _ (incr_scaled hL hg) (by simpa using hne) _ lo hi ?_ ?_ <;>
    · intro p hp
      obtain ⟨p', hp', rfl⟩ := List.mem_map.1 hp
      first
        | exact (hlim p' (hmem p' hp')).1
        | exact (hlim p' (hmem p' hp')).2

/-- C88: without smoothing there is no power outside the measured voltages. -/
theorem C88_outside (S : Sorter) (o : IfOpts) (dc : DCIV) (m : Mat) (r : List ℝ × List ℝ) (hc : m.ncol = 2)
    (hw : m.WF) (h : loadIf S o dc (.matrix m) = .ok r) (hr : o.rseries = none) (hs0 : o.sigma = none)
    (hm : 0 < o.vMult) (hg : 0 < dc.vgap) (k : ℕ) (hk : k < r.1.length)
    (hout : (∀ p, Measured o dc m p → r.1.getD k 0 * dc.vgap < p.1) ∨
      ∀ p, Measured o dc m p → p.1 < r.1.getD k 0 * dc.vgap) : r.2.getD k 0 = 0 := by
  obtain ⟨L, q, hne, hL, hmem, -, hq, hs⟩ := loaded_if h hc hw hr hm hg
  rw [hs0] at hs
  obtain rfl := Except.ok.inj hs
  apply ((interp0_ok hq).2.2 k hk).1
  refine hout.imp (fun hout a ha => ?_) fun hout a ha => ?_ <;>
  · obtain ⟨p, hp, rfl⟩ := List.mem_map.1 ha
    obtain ⟨p', hp', rfl⟩ := List.mem_map.1 hp
    have := hout p' (hmem p' hp')
    first
      | exact (lt_div_iff₀ hg).2 this
      | exact (div_lt_iff₀ hg).2 this

/-- Interpolation between two neighbours. -/
theorem interpAt_neighbours {L : List (ℝ × ℝ)} (hL : Incr L) {p q : ℝ × ℝ} (hp : p ∈ L) (hq : q ∈ L) (hpq : p.1 < q.1)
    (hno : ∀ a ∈ L, a.1 ≤ p.1 ∨ q.1 ≤ a.1) {x : ℝ} (h1 : p.1 ≤ x) (h2 : x ≤ q.1) :
    interpAt L x = p.2 + (q.2 - p.2) / (q.1 - p.1) * (x - p.1) := by
  have hne : L ≠ [] := by rintro rfl; cases hp
  have huniq : ∀ a ∈ L, ∀ b ∈ L, a.1 = b.1 → a = b := by
    intro a ha b hb hab
    by_contra hne
    have hs : L.Pairwise fun p q : ℝ × ℝ => p.1 ≠ q.1 := hL.imp fun {a b} h => h.ne
    haveI : Std.Symm fun p q : ℝ × ℝ => p.1 ≠ q.1 := ⟨fun _ _ h => h.symm⟩
    exact hs.forall ha hb hne hab
  have hend : x = q.1 → interpAt L x = p.2 + (q.2 - p.2) / (q.1 - p.1) * (x - p.1) := by
    rintro rfl
    rw [interpAt_sample L hL q hq, div_mul_cancel₀ _ (by linarith)]
    ring
  rcases interpAt_cases L hL hne x with ⟨a, l, rfl, hx, -⟩ | ⟨l, a, rfl, hx, e⟩ | ⟨l, a, b, l', rfl, hx, hx', e⟩
  · exfalso
    rcases List.mem_cons.1 hp with rfl | hp'
    · linarith
    · have := (List.pairwise_cons.1 hL).1 p hp'
      linarith
  · apply hend
    rcases List.mem_append.1 hq with hq' | hq'
    · have := (List.pairwise_append.1 hL).2.2 q hq' a (by simp)
      linarith
    · rw [List.mem_singleton.1 hq'] at h2 ⊢
      linarith
  · have hab : ∀ c ∈ l ++ a :: b :: l', c.1 ≤ a.1 ∨ b.1 ≤ c.1 := by
      intro c hc
      rcases List.mem_append.1 hc with hc | hc
      · exact Or.inl ((List.pairwise_append.1 hL).2.2 c hc a (by simp)).le
      · rcases List.mem_cons.1 hc with rfl | hc
        · exact Or.inl le_rfl
        · rcases List.mem_cons.1 hc with rfl | hc
          · exact Or.inr le_rfl
          · have h3 := (List.pairwise_append.1 hL).2.1
            exact Or.inr ((List.pairwise_cons.1 (List.pairwise_cons.1 h3).2).1 c hc).le
    have ha : a ∈ l ++ a :: b :: l' := by simp
    have hb : b ∈ l ++ a :: b :: l' := by simp
    rcases hno a ha with h3 | h3
    · have ep : a = p := by
        refine huniq a ha p hp (le_antisymm h3 ?_)
        rcases hab p hp with h4 | h4
        · exact h4
        · linarith
      have eq : b = q := by
        refine huniq b hb q hq (le_antisymm ?_ ?_)
        · rcases hab q hq with h4 | h4
          · rw [ep] at h4; linarith
          · exact h4
        · rcases hno b hb with h4 | h4
          · linarith
          · exact h4
      rw [e, ep, eq]
    · apply hend
      linarith

/-- C88: without smoothing the power between two neighbouring measured voltages lies on the straight line between
the two points (and so is the measured one at a measured voltage). -/
theorem C88_line (S : Sorter) (o : IfOpts) (dc : DCIV) (m : Mat) (r : List ℝ × List ℝ) (hc : m.ncol = 2)
    (hw : m.WF) (h : loadIf S o dc (.matrix m) = .ok r) (hr : o.rseries = none) (hs0 : o.sigma = none)
    (hm : 0 < o.vMult) (hg : 0 < dc.vgap) (p q : ℝ × ℝ) (hp : Measured o dc m p) (hq : Measured o dc m q)
    (hone : ∀ a, Measured o dc m a → (a.1 = p.1 → a = p) ∧ (a.1 = q.1 → a = q)) (hpq : p.1 < q.1)
    (hno : ∀ a, Measured o dc m a → a.1 ≤ p.1 ∨ q.1 ≤ a.1) (k : ℕ) (hk : k < r.1.length)
    (h1 : p.1 ≤ r.1.getD k 0 * dc.vgap) (h2 : r.1.getD k 0 * dc.vgap ≤ q.1) :
    r.2.getD k 0 = p.2 + (q.2 - p.2) / (q.1 - p.1) * (r.1.getD k 0 * dc.vgap - p.1) := by
  obtain ⟨L, f, hne, hL, hmem, hall, hf, hs⟩ := loaded_if h hc hw hr hm hg
  rw [hs0] at hs
  obtain rfl := Except.ok.inj hs
  have hpL : p ∈ L := by
    obtain ⟨a, ha, e⟩ := hall p hp
    rwa [← (hone a (hmem a ha)).1 e]
  have hqL : q ∈ L := by
    obtain ⟨a, ha, e⟩ := hall q hq
    rwa [← (hone a (hmem a ha)).2 e]
  have hx1 : p.1 / dc.vgap ≤ r.1.getD k 0 := (div_le_iff₀ hg).2 h1
  have hx2 : r.1.getD k 0 ≤ q.1 / dc.vgap := (le_div_iff₀ hg).2 h2
  have hpM : (p.1 / dc.vgap, p.2) ∈ L.map fun p => (p.1 / dc.vgap, p.2) := List.mem_map.2 ⟨p, hpL, rfl⟩
  have hqM : (q.1 / dc.vgap, q.2) ∈ L.map fun p => (p.1 / dc.vgap, p.2) := List.mem_map.2 ⟨q, hqL, rfl⟩
  rw [interp0_inside hf hk ⟨_, List.mem_map_of_mem hpM, hx1⟩ ⟨_, List.mem_map_of_mem hqM, hx2⟩]
  have := interpAt_neighbours (incr_scaled hL hg) hpM hqM (div_lt_div_of_pos_right hpq hg) (by
    intro a ha
    obtain ⟨b, hb, rfl⟩ := List.mem_map.1 ha
    refine (hno b (hmem b hb)).imp (fun h => ?_) fun h => ?_
    · exact div_le_div_of_nonneg_right h hg.le
    · exact div_le_div_of_nonneg_right h hg.le) hx1 hx2
  unfold interpAt at this
  rw [this]
  have hd : q.1 - p.1 ≠ 0 := by linarith
  dsimp only
  rw [← sub_div, div_div_eq_mul_div]
  field_simp

/-- Finite data in two columns is loaded, if each voltage is moved by the same function. -/
theorem accepted_moved (S : Sorter) (o : IfOpts) (dc : DCIV) (m : Mat) {J : ℝ → ℝ} (hc : m.ncol = 2) (hw : m.WF)
    (hv : o.vFmt ∈ ["uV", "mV", "V"]) (hr : ∀ v, ifSeries o.rseries dc v = .ok (v.map J)) (hs0 : o.sigma = none) (hn : 0 ≤ o.npts)
    (hg : dc.vgap ≠ 0) (hreal : ∀ w ∈ m.rows, ∃ x y : ℝ, w.getD 0 none = num x ∧ w.getD 1 none = num y)
    (h2 : 2 ≤ m.rows.length) : ∃ r, loadIf S o dc (.matrix m) = .ok r := by
  obtain ⟨u, hu, hu0⟩ : ∃ u, vUnit o.vFmt = .ok u ∧ 0 < u := by
    simp only [List.mem_cons, List.not_mem_nil, or_false] at hv
    rcases hv with e | e | e <;> rw [e] <;> refine ⟨_, rfl, ?_⟩ <;> norm_num
  have hperm := sortBy_perm S Prod.fst (none, none) (powers u m)
  have hlen : (powers u m).length = m.rows.length := by
    unfold powers
    rw [List.filter_eq_self.2, List.length_map]
    intro a ha
    obtain ⟨w, hw, rfl⟩ := List.mem_map.1 ha
    obtain ⟨x, y, e1, e2⟩ := hreal w hw
    rw [e1, e2, fmul_num]
    rfl
  have hnum : ∀ a ∈ sortBy S Prod.fst (none, none) (powers u m), ∃ x y : ℝ, a = (num x, num y) := by
    intro a ha
    obtain ⟨⟨w, hw, rfl⟩, -⟩ := mem_powers.1 (hperm.mem_iff.1 ha)
    obtain ⟨x, y, e1, e2⟩ := hreal w hw
    exact ⟨x * u, y, by rw [e1, e2, fmul_num]⟩
  have hcount : ∀ e : EReal, (∀ x : ℝ, (x : EReal) ≠ e) →
      ((sortBy S Prod.fst (none, none) (powers u m)).map Prod.fst).count (some e) ≤ 1 := by
    intro e he
    rw [List.count_eq_zero_of_not_mem]
    · exact Nat.zero_le _
    · intro hm
      obtain ⟨p, hp, he'⟩ := List.mem_map.1 hm
      obtain ⟨x, y, rfl⟩ := hnum p hp
      exact he x (Option.some.inj he')
  have hchk := (checkSorted_iff Prod.fst _ (sortBy_sorted S Prod.fst (none, none) (powers u m)) (by
    intro r hr
    obtain ⟨x, y, rfl⟩ := hnum r hr
    exact num_ne_none _)).2 ⟨by rw [hperm.length_eq, hlen]; exact h2, hcount ⊤ (fun x => EReal.coe_ne_top x),
      hcount ⊥ (fun x => EReal.coe_ne_bot x)⟩
  have hk : ∀ a ∈ points S u m, ∃ x y : ℝ, a = (num x, num y) :=
    fun a ha => hnum a ((keep_sublist Prod.fst _).subset ha)
  obtain ⟨v, hv'⟩ := toReals_total (l := (points S u m).map Prod.fst) (by
    intro a ha
    obtain ⟨p, hp, rfl⟩ := List.mem_map.1 ha
    obtain ⟨x, y, rfl⟩ := hk p hp
    exact ⟨x, rfl⟩)
  obtain ⟨p, hp'⟩ := toReals_total (l := (points S u m).map Prod.snd) (by
    intro a ha
    obtain ⟨p, hp, rfl⟩ := List.mem_map.1 ha
    obtain ⟨x, y, rfl⟩ := hk p hp
    exact ⟨y, rfl⟩)
  have hpts : points S u m ≠ [] := by
    have hne : sortBy S Prod.fst (none, none) (powers u m) ≠ [] := by
      intro he
      have := hperm.length_eq
      rw [he, hlen] at this
      simp at this
      omega
    unfold points
    cases hq : sortBy S Prod.fst (none, none) (powers u m) with
    | nil => exact absurd hq hne
    | cons a l => unfold keep; simp
  have lv := congrArg List.length (toReals_ok hv')
  have lp := congrArg List.length (toReals_ok hp')
  simp only [List.length_map] at lv lp
  have hv0 : v ≠ [] := by
    rintro rfl
    exact hpts (List.eq_nil_of_length_eq_zero (by simpa using lv))
  rw [loadIf_eq S o dc hc hw, hu, py_bind, hchk, py_bind, hv', py_bind, hp', py_bind]
  unfold resample
  rw [hr, py_bind, div_one_elem hg, py_bind, Np.fdiv_ok hg, py_bind, linspace_eq hn, py_bind]
  unfold interp0
  rw [raiseIf_neg (by simp; omega), raiseIf_neg (by simpa using hv0), hs0]
  exact ⟨_, rfl⟩

/-- C88: finite data in two columns with a known unit and two points is always loaded (without smoothing and series
resistance). -/
theorem C88_accepted (S : Sorter) (o : IfOpts) (dc : DCIV) (m : Mat) (hc : m.ncol = 2) (hw : m.WF)
    (hv : o.vFmt ∈ ["uV", "mV", "V"]) (hr : o.rseries = none) (hs0 : o.sigma = none) (hn : 0 ≤ o.npts)
    (hg : dc.vgap ≠ 0) (hreal : ∀ w ∈ m.rows, ∃ x y : ℝ, w.getD 0 none = num x ∧ w.getD 1 none = num y)
    (h2 : 2 ≤ m.rows.length) : ∃ r, loadIf S o dc (.matrix m) = .ok r :=
  accepted_moved S o dc m (J := fun t => t) hc hw hv (fun v => by rw [hr, List.map_id']; rfl) hs0 hn hg hreal h2

/-- C88: what is refused. -/
theorem C88_refused (S : Sorter) (o : IfOpts) (dc : DCIV) :
    loadIf S o dc .other = .error .assertion ∧ loadIf S o dc .array = .error .assertion ∧
    (∀ m : Mat, m.ncol ≠ 2 → loadIf S o dc (.matrix m) = .error .assertion) ∧
    ∀ m : Mat, m.ncol = 2 → o.vFmt ∉ ["uV", "mV", "V"] → loadIf S o dc (.matrix m) = .error .key := by
  refine ⟨rfl, rfl, fun m hm => ?_, fun m hm hu => ?_⟩
  · unfold loadIf
    dsimp only
    rw [pyAssert_neg hm]
  · unfold loadIf
    dsimp only
    rw [pyAssert_pos hm]
    have : vUnit o.vFmt = .error .key := by
      simp only [List.mem_cons, List.not_mem_nil, or_false, not_or] at hu
      unfold vUnit
      rw [if_neg hu.1, if_neg hu.2.1, if_neg hu.2.2]
    rw [this]
    rfl

/-! ## Examples -/

/-- C87: the analysis returns: finite data, no smoothing, a calibration from dc data and a chosen bias point. -/
theorem C87_returns (R : Routines) (o : IfOpts) (t : TnOpts) (dc : DCIV) (d : DCIF) (c : ℝ) (l : List (ℝ × ℝ))
    (T th tc : ℝ) (ht : Loads t th tc) (hb : t.vbest ≠ none ∨ MathFn.lower t.bestPt = "max gain".toList)
    (hd : d.corr = some c) (hl : 2 ≤ l.length) (hv : o.vFmt ∈ ["uV", "mV", "V"]) (hr : o.rseries = none)
    (hs0 : o.sigma = none) (hn : 1 ≤ o.npts) (hg : dc.vgap ≠ 0) :
    ∃ r, ifData R o t dc (some d) (.matrix (delivered l T th)) (.matrix (delivered l T tc)) = .ok r := by
  have acc : ∀ s, ∃ r, loadIf R.sorter o dc (.matrix (delivered l T s)) = .ok r := by
    intro s
    refine C88_accepted R.sorter o dc _ rfl (delivered_wf l T s) hv hr hs0 (by omega) hg ?_ ?_
    · intro w hw
      obtain ⟨p, -, rfl⟩ := List.mem_map.1 hw
      exact ⟨p.1, p.2 * (s + T), rfl, rfl⟩
    · unfold delivered
      rw [List.length_map]
      exact hl
  obtain ⟨a, ha⟩ := acc th
  obtain ⟨b, hb'⟩ := acc tc
  have e := C88_match R.sorter o dc _ _ a b rfl (delivered_wf l T th) rfl (delivered_wf l T tc) ha hb'
  obtain ⟨-, la, la2, -⟩ := C88_grid R.sorter o dc _ a rfl (delivered_wf l T th) ha
  obtain ⟨-, -, lb2, -⟩ := C88_grid R.sorter o dc _ b rfl (delivered_wf l T tc) hb'
  unfold ifData
  rw [ha, py_bind, hb', py_bind]
  unfold calibration
  dsimp only
  rw [hd]
  dsimp only
  rw [py_bind, ← e]
  set M : Meas := a.1.zip ((a.2.map (· * c)).zip (b.2.map (· * c))) with hM
  have hlen : M.length = o.npts.toNat := by
    simp [hM, la, la2, lb2]
  have e1 : ((a.1.zip (a.2.map (· * c))).map fun p => (num p.1, num p.2)) = hotOf M := by
    unfold hotOf
    apply List.ext_getElem
    · simp [hM, la, la2, lb2]
    · intro i h1 h2
      simp [hM]
  have e2 : ((a.1.zip (b.2.map (· * c))).map fun p => (num p.1, num p.2)) = coldOf M := by
    unfold coldOf
    apply List.ext_getElem
    · simp [hM, la, la2, lb2]
    · intro i h1 h2
      simp [hM]
  have hne : M ≠ [] := by
    intro h
    rw [h] at hlen
    simp at hlen
    omega
  obtain ⟨r, hr'⟩ := (C57_returns t dc.vgap M hne).1 th tc ht hb
  dsimp only
  rw [e1, e2, hr', py_bind]
  have ha0 : a.1 ≠ [] := by
    intro h
    rw [h] at la
    simp at la
    omega
  obtain ⟨x, hx⟩ : ∃ x, amax a.1 = .ok x := by
    cases h : a.1 with
    | nil => exact absurd h ha0
    | cons y ys => exact ⟨_, rfl⟩
  rw [hx, py_bind]
  exact ⟨_, rfl⟩

/-- A dc measurement, three bias points, and usual options. -/
noncomputable def sampleDc : DCIV where
  vraw := [0, 0.003]
  iraw := [0, 0.001]
  vnorm := [0, 1]
  inorm := [0, 1]
  vgap := 0.003
  igap := 0.001
  fgap := 7e11
  rn := 3
  rsg := 60
  offset := (0, 0)
  vint := 0
  rseries := none

/-- Four points from 0 to 3 mV. -/
noncomputable def sampleIf : IfOpts where
  vMult := 1
  sigma := none
  vmax := 0.003
  npts := 4
  rseries := none
  vFmt := "mV"
  vshot := .flat [0.005, 0.006]

/-- Loads at room temperature and at the temperature of liquid nitrogen. -/
noncomputable def sampleTn : TnOpts where
  freq := some 230
  tHot := 293
  tCold := 80
  vbest := some 0.002
  bestPt := "max gain"

/-- Gains at 1, 2 and 3 mV. -/
noncomputable def sampleGain : List (ℝ × ℝ) := [(1, 2), (2, 5), (3, 4)]

/-- The hypotheses of C87 (and of C88) are met: a receiver with a noise temperature of 10 K. -/
example (R : Routines) : ∃ th tc, Loads sampleTn th tc ∧ tc < th ∧ 0 < tc + 10 ∧ 10 ≤ (th - tc) * 1e10 - tc ∧
    ∃ r, ifData R sampleIf sampleTn sampleDc (some ⟨0, some 1, true, [], 0.003⟩)
      (.matrix (delivered sampleGain 10 th)) (.matrix (delivered sampleGain 10 tc)) = .ok r := by
  have hf : (0 : ℝ) < 230 * 1e9 := by norm_num
  obtain ⟨th, h1, h2, -, h3⟩ := C58_physical (230 * 1e9) 293 hf (by norm_num)
  obtain ⟨tc, h4, h5, -, h6⟩ := C58_physical (230 * 1e9) 80 hf (by norm_num)
  have hb : Spec.SI.h * (230 * 1e9) / (2 * Spec.SI.k) < 100 := by
    unfold Spec.SI.h Spec.SI.k
    norm_num
  have hl : Loads sampleTn th tc := ⟨230, rfl, h1, h4⟩
  refine ⟨th, tc, hl, by linarith, by linarith, by nlinarith, ?_⟩
  exact C87_returns R sampleIf sampleTn sampleDc _ 1 sampleGain 10 th tc hl (Or.inl (by simp [sampleTn])) rfl
    (by simp [sampleGain]) (by simp [sampleIf]) rfl rfl (by norm_num [sampleIf]) (by norm_num [sampleDc])

/-- The points of this measurement. -/
example : Measured sampleIf sampleDc (delivered sampleGain 10 80) (0.002, 450) :=
  ⟨[num 2, num (5 * (80 + 10))], by simp [delivered, sampleGain], 2, 5 * (80 + 10), rfl, rfl, by
    have : voltUnit "mV" = 1e-3 := by unfold voltUnit; rw [if_neg (by decide), if_pos rfl]
    norm_num [this, sampleIf, sampleDc]⟩

/-- C86 holds in particular for this measurement. -/
example (R : Routines) (g : ℝ) (hg : 0 < g) :
    ifData R sampleIf sampleTn sampleDc (some (DCIF.gain ⟨0, some 1, true, [], 0.003⟩ g))
      (.matrix (amplify g (delivered sampleGain 10 300))) (.matrix (amplify g (delivered sampleGain 10 80))) =
    (ifData R sampleIf sampleTn sampleDc (some ⟨0, some 1, true, [], 0.003⟩) (.matrix (delivered sampleGain 10 300))
      (.matrix (delivered sampleGain 10 80))).map fun r => (r.1, r.2.1, r.2.2.gain g) :=
  C86_pumped R sampleIf sampleTn sampleDc (some ⟨0, some 1, true, [], 0.003⟩) _ _ g hg rfl (delivered_wf _ _ _) rfl
    (delivered_wf _ _ _) (by simp [sampleIf])

end QMix.IfData
