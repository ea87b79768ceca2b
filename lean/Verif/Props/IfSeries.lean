import Verif.Props.IvData6
import Verif.Props.Figures

/-!
# C189: the series resistance and the IF data
-/

namespace QMix.IfData

open Np Fl Clean IvData Spec

/-- The voltage `j` at which an IF point measured at the voltage `v` is placed, for the dc points `raw` and the
series resistance `rs`. At a dc point it is the voltage across the junction. Between two dc points it is the voltage
across the junction for the interpolated current, less a term of second order. -/
def Placed (raw : List (ℝ × ℝ)) (rs v j : ℝ) : Prop :=
  (∃ i, (v, i) ∈ raw ∧ j = v - i * rs) ∨
  ∃ a b t, [a, b] <:+: raw ∧ 0 ≤ t ∧ t ≤ 1 ∧ v = (1 - t) * a.1 + t * b.1 ∧
    j = v - ((1 - t) * a.2 + t * b.2) * rs - t * (1 - t) * ((b.2 - a.2) * (b.1 / b.2 - a.1 / a.2))

/-- The dc points with the static resistance instead of the current. -/
noncomputable def statics (raw : List (ℝ × ℝ)) : List (ℝ × ℝ) := raw.map fun p => (p.1, max (p.1 / p.2) 0)

/-- What the code does to one voltage. -/
noncomputable def move (raw : List (ℝ × ℝ)) (rs v : ℝ) : ℝ := interpAt raw v * (interpAt (statics raw) v - rs)

theorem statics_incr {raw : List (ℝ × ℝ)} (h : Incr raw) : Incr (statics raw) := by
  unfold Incr statics
  rw [List.pairwise_map]
  exact h

theorem ifSeries_map {raw : List (ℝ × ℝ)} {dc : DCIV} (hne : raw ≠ []) (hv : dc.vraw = raw.map Prod.fst)
    (hi : dc.iraw = raw.map Prod.snd) (h0 : ∀ p ∈ raw, p.2 ≠ 0) (rs : ℝ) (v : List ℝ) :
    ifSeries (some rs) dc v = .ok (v.map (move raw rs)) := by
  have e1 : div dc.vraw dc.iraw = .ok (raw.map fun p => p.1 / p.2) := by
    unfold Np.div
    rw [if_neg (by
      rw [hi]
      intro hm
      obtain ⟨p, hp, e⟩ := List.mem_map.1 hm
      exact h0 p hp e), hv, hi]
    unfold Np.zip
    rw [if_pos (by simp), List.zipWith_map, List.zipWith_self]
  have e2 : ∀ f : List ℝ, f.length = raw.length → interp v dc.vraw f = .ok (v.map (RespFn.npInterp dc.vraw f)) := by
    intro f hf
    unfold interp
    rw [raiseIf_neg (by rw [hv]; simp [hf]), raiseIf_neg (by rw [hv]; simpa using hne)]
    rfl
  unfold ifSeries
  dsimp only
  rw [e1, py_bind, e2 _ (by simp), py_bind, e2 _ (by rw [hi]; simp), py_bind, List.map_map]
  unfold Np.zip
  rw [if_pos (by simp), List.zipWith_map, List.zipWith_self]
  refine congrArg Except.ok (List.map_congr_left fun t _ => ?_)
  unfold move interpAt statics
  rw [hv, hi]
  simp only [List.map_map]
  rfl

/-- One voltage between two neighbouring dc points. -/
theorem move_between {raw : List (ℝ × ℝ)} (hinc : Incr raw) {a b : ℝ × ℝ} (hab : [a, b] <:+: raw) {t : ℝ} (ht0 : 0 ≤ t)
    (ht1 : t ≤ 1) (rs : ℝ) : move raw rs ((1 - t) * a.1 + t * b.1) =
      ((1 - t) * a.2 + t * b.2) * ((1 - t) * max (a.1 / a.2) 0 + t * max (b.1 / b.2) 0 - rs) := by
  have k1 := Exp.onLine_unique hinc (x := (1 - t) * a.1 + t * b.1) (Or.inr ⟨a, b, t, hab, ht0, ht1, rfl, rfl⟩)
  have hab' : [(a.1, max (a.1 / a.2) 0), (b.1, max (b.1 / b.2) 0)] <:+: statics raw := by
    obtain ⟨s, u, e⟩ := hab
    exact ⟨s.map fun p => (p.1, max (p.1 / p.2) 0), u.map fun p => (p.1, max (p.1 / p.2) 0), by
      unfold statics
      rw [← e]
      simp⟩
  have k2 := Exp.onLine_unique (statics_incr hinc) (x := (1 - t) * a.1 + t * b.1)
    (Or.inr ⟨_, _, t, hab', ht0, ht1, rfl, rfl⟩)
  unfold move
  rw [← k1, ← k2]

theorem move_sample {raw : List (ℝ × ℝ)} (hinc : Incr raw) {p : ℝ × ℝ} (hp : p ∈ raw) (rs : ℝ) :
    move raw rs p.1 = p.2 * (max (p.1 / p.2) 0 - rs) := by
  have k1 := Exp.onLine_unique hinc (x := p.1) (Or.inl hp)
  have k2 := Exp.onLine_unique (statics_incr hinc) (x := p.1) (y := max (p.1 / p.2) 0)
    (Or.inl (List.mem_map.2 ⟨p, hp, rfl⟩))
  unfold move
  rw [← k1, ← k2]

theorem move_placed {raw : List (ℝ × ℝ)} (hinc : Incr raw) (hq : ∀ p ∈ raw, p.2 ≠ 0 ∧ 0 ≤ p.1 / p.2) {rs v j : ℝ}
    (h : Placed raw rs v j) : move raw rs v = j := by
  rcases h with ⟨i, hp, rfl⟩ | ⟨a, b, t, hab, ht0, ht1, rfl, rfl⟩
  · obtain ⟨h0, h1⟩ := hq _ hp
    dsimp only at h0 h1
    rw [move_sample hinc hp]
    dsimp only
    rw [max_eq_left h1]
    field_simp
  · have ha := hq a (hab.subset (by simp))
    have hb := hq b (hab.subset (by simp))
    rw [move_between hinc hab ht0 ht1, max_eq_left ha.2, max_eq_left hb.2]
    have ha0 := ha.1
    have hb0 := hb.1
    field_simp
    ring

theorem placed_move {raw : List (ℝ × ℝ)} (hinc : Incr raw) (hq : ∀ p ∈ raw, p.2 ≠ 0 ∧ 0 ≤ p.1 / p.2) {v : ℝ}
    (h1 : ∃ p ∈ raw, p.1 ≤ v) (h2 : ∃ p ∈ raw, v ≤ p.1) (rs : ℝ) : Placed raw rs v (move raw rs v) := by
  have key : ∃ j, Placed raw rs v j := by
    rcases interpAt_onLine hinc h1 h2 with h | ⟨a, b, t, hab, ht0, ht1, e, -⟩
    · exact ⟨_, Or.inl ⟨_, h, rfl⟩⟩
    · exact ⟨_, Or.inr ⟨a, b, t, hab, ht0, ht1, e, rfl⟩⟩
  obtain ⟨j, hj⟩ := key
  rw [move_placed hinc hq hj]
  exact hj

/-- C189, what holds: with a series resistance, IF data is loaded whenever the dc currents are not zero. -/
theorem C189_accepted (S : Sorter) (o : IfOpts) (dc : DCIV) (m : Mat) (hc : m.ncol = 2) (hw : m.WF)
    (hv : o.vFmt ∈ ["uV", "mV", "V"]) (hs0 : o.sigma = none) (hn : 0 ≤ o.npts) (hg : dc.vgap ≠ 0)
    (hreal : ∀ w ∈ m.rows, ∃ x y : ℝ, w.getD 0 none = num x ∧ w.getD 1 none = num y) (h2 : 2 ≤ m.rows.length)
    (raw : List (ℝ × ℝ)) (hne : raw ≠ []) (hvr : dc.vraw = raw.map Prod.fst) (hir : dc.iraw = raw.map Prod.snd)
    (h0 : ∀ p ∈ raw, p.2 ≠ 0) : ∃ r, loadIf S o dc (.matrix m) = .ok r := by
  cases hr : o.rseries with
  | none => exact C88_accepted S o dc m hc hw hv hr hs0 hn hg hreal h2
  | some rs =>
    exact accepted_moved S o dc m hc hw hv (fun v => by rw [hr]; exact ifSeries_map hne hvr hir h0 rs v) hs0 hn hg
      hreal h2

/-- C189, what holds: between two neighbouring measured points the power lies on the straight line between the points
placed at the voltages of `Placed`, provided that the order of the points is kept. -/
theorem C189_line_partial (S : Sorter) (o : IfOpts) (dc : DCIV) (m : Mat) (r : List ℝ × List ℝ) (hc : m.ncol = 2)
    (hw : m.WF) (h : loadIf S o dc (.matrix m) = .ok r) (rs : ℝ) (hr : o.rseries = some rs) (hs0 : o.sigma = none)
    (hm : 0 < o.vMult) (hg : 0 < dc.vgap) (raw : List (ℝ × ℝ)) (hvr : dc.vraw = raw.map Prod.fst)
    (hir : dc.iraw = raw.map Prod.snd) (hinc : Incr raw) (hquad : ∀ p ∈ raw, p.2 ≠ 0 ∧ 0 ≤ p.1 / p.2)
    (J : ℝ → ℝ) (hJ : ∀ a, Measured o dc m a → Placed raw rs a.1 (J a.1))
    (hmono : ∀ a b, Measured o dc m a → Measured o dc m b → a.1 < b.1 → J a.1 < J b.1) (p q : ℝ × ℝ)
    (hp : Measured o dc m p) (hq : Measured o dc m q)
    (hone : ∀ a, Measured o dc m a → (a.1 = p.1 → a = p) ∧ (a.1 = q.1 → a = q)) (hpq : p.1 < q.1)
    (hno : ∀ a, Measured o dc m a → a.1 ≤ p.1 ∨ q.1 ≤ a.1) (k : ℕ) (hk : k < r.1.length)
    (h1 : J p.1 ≤ r.1.getD k 0 * dc.vgap) (h2 : r.1.getD k 0 * dc.vgap ≤ J q.1) :
    r.2.getD k 0 = p.2 + (q.2 - p.2) / (J q.1 - J p.1) * (r.1.getD k 0 * dc.vgap - J p.1) := by
  have hne : raw ≠ [] := by
    rintro rfl
    rcases hJ p hp with ⟨i, hi, -⟩ | ⟨a, b, t, hab, -⟩
    · cases hi
    · exact absurd (hab.subset (show a ∈ [a, b] by simp)) (by simp)
  obtain ⟨L, f, -, hL, hmem, hall, hf, hs⟩ := loaded_moved h hc hw
    (fun v => by rw [hr]; exact ifSeries_map hne hvr hir (fun p hp => (hquad p hp).1) rs v) hm hg
  rw [hs0] at hs
  obtain rfl := Except.ok.inj hs
  have hpL : p ∈ L := by
    obtain ⟨a, ha, e⟩ := hall p hp
    rwa [← (hone a (hmem a ha)).1 e]
  have hqL : q ∈ L := by
    obtain ⟨a, ha, e⟩ := hall q hq
    rwa [← (hone a (hmem a ha)).2 e]
  have eJ : (L.map fun p => (move raw rs p.1 / dc.vgap, p.2)) = L.map fun p => (J p.1 / dc.vgap, p.2) :=
    List.map_congr_left fun a ha => by rw [move_placed hinc hquad (hJ a (hmem a ha))]
  rw [eJ] at hf
  have hlt : J p.1 < J q.1 := hmono p q hp hq hpq
  have hM : Incr (L.map fun p => (J p.1 / dc.vgap, p.2)) := by
    unfold Incr
    rw [List.pairwise_map]
    refine List.Pairwise.imp_of_mem (fun {a b} ha hb hab => ?_) hL
    exact div_lt_div_of_pos_right (hmono a b (hmem a ha) (hmem b hb) hab) hg
  have hx1 : J p.1 / dc.vgap ≤ r.1.getD k 0 := (div_le_iff₀ hg).2 h1
  have hx2 : r.1.getD k 0 ≤ J q.1 / dc.vgap := (le_div_iff₀ hg).2 h2
  have hpM : (J p.1 / dc.vgap, p.2) ∈ L.map fun p => (J p.1 / dc.vgap, p.2) := List.mem_map.2 ⟨p, hpL, rfl⟩
  have hqM : (J q.1 / dc.vgap, q.2) ∈ L.map fun p => (J p.1 / dc.vgap, p.2) := List.mem_map.2 ⟨q, hqL, rfl⟩
  rw [interp0_inside hf hk ⟨_, List.mem_map_of_mem hpM, hx1⟩ ⟨_, List.mem_map_of_mem hqM, hx2⟩]
  have := interpAt_neighbours hM hpM hqM (div_lt_div_of_pos_right hlt hg) (by
    intro a ha
    obtain ⟨b, hb, rfl⟩ := List.mem_map.1 ha
    have mono : ∀ x y, Measured o dc m x → Measured o dc m y → x.1 ≤ y.1 → J x.1 / dc.vgap ≤ J y.1 / dc.vgap := by
      intro x y hx hy hxy
      rcases hxy.lt_or_eq with h | h
      · exact div_le_div_of_nonneg_right (hmono x y hx hy h).le hg.le
      · rw [h]
    exact (hno b (hmem b hb)).imp (fun h => mono b p (hmem b hb) hp h) fun h => mono q b hq (hmem b hb) h) hx1 hx2
  unfold interpAt at this
  rw [this]
  have hd : J q.1 - J p.1 ≠ 0 := by linarith
  dsimp only
  rw [← sub_div, div_div_eq_mul_div]
  field_simp

/-- C189: the voltage at which a point is placed is that across the junction up to a quarter of the product of the
steps of the current and of the static resistance between two dc points. -/
theorem C189_second_order (raw : List (ℝ × ℝ)) (rs v j e : ℝ) (h : Placed raw rs v j)
    (he : ∀ a b, [a, b] <:+: raw → |b.2 - a.2| * |b.1 / b.2 - a.1 / a.2| ≤ e) (he0 : 0 ≤ e) :
    ∃ i, OnLine raw v i ∧ |j - (v - i * rs)| ≤ e / 4 := by
  rcases h with ⟨i, hi, rfl⟩ | ⟨a, b, t, hab, ht0, ht1, hv, rfl⟩
  · exact ⟨i, Or.inl hi, by rw [sub_self, abs_zero]; positivity⟩
  · refine ⟨_, Or.inr ⟨a, b, t, hab, ht0, ht1, hv, rfl⟩, ?_⟩
    have hb := he a b hab
    rw [show v - ((1 - t) * a.2 + t * b.2) * rs - t * (1 - t) * ((b.2 - a.2) * (b.1 / b.2 - a.1 / a.2)) -
      (v - ((1 - t) * a.2 + t * b.2) * rs) = -(t * (1 - t) * ((b.2 - a.2) * (b.1 / b.2 - a.1 / a.2))) by ring,
      abs_neg, abs_mul, abs_mul (b.2 - a.2), abs_of_nonneg (mul_nonneg ht0 (by linarith))]
    have ht : t * (1 - t) ≤ 1 / 4 := by nlinarith [sq_nonneg (t - 1 / 2)]
    calc _ ≤ 1 / 4 * e := mul_le_mul ht hb (by positivity) (by norm_num)
      _ = e / 4 := by ring

/-- C189 is false as stated: a dc point whose current and voltage have opposite signs is taken to have no static
resistance, so an IF point measured there is placed at `-i rs`, whatever its voltage. -/
theorem C189_false_sign (raw : List (ℝ × ℝ)) (dc : DCIV) (hvr : dc.vraw = raw.map Prod.fst)
    (hir : dc.iraw = raw.map Prod.snd) (hinc : Incr raw) (h0 : ∀ p ∈ raw, p.2 ≠ 0) (rs v i : ℝ) (hp : (v, i) ∈ raw)
    (hneg : v * i < 0) : ifSeries (some rs) dc [v] = .ok [-i * rs] := by
  rw [ifSeries_map (List.ne_nil_of_mem hp) hvr hir h0]
  have e := move_sample hinc hp rs
  dsimp only at e
  have : v / i ≤ 0 := by
    rcases mul_neg_iff.1 hneg with ⟨a, b⟩ | ⟨a, b⟩
    · exact div_nonpos_of_nonneg_of_nonpos a.le b.le
    · exact div_nonpos_of_nonpos_of_nonneg a.le b.le
  rw [max_eq_right this] at e
  rw [List.map_singleton, e]
  simp

/-- C189 is false as stated: the current is that of the dc curve, also for IF data measured with the local oscillator.
A bias point with the pumped current `ip` and the dc current `id` is placed at `v - ip rs` in the pumped I-V curve and
at `v - id rs` in the IF data. -/
theorem C189_false_pumped (raw : List (ℝ × ℝ)) (dc : DCIV) (hvr : dc.vraw = raw.map Prod.fst)
    (hir : dc.iraw = raw.map Prod.snd) (hinc : Incr raw) (hquad : ∀ p ∈ raw, p.2 ≠ 0 ∧ 0 ≤ p.1 / p.2)
    (rs v id ip : ℝ) (hp : (v, id) ∈ raw) (h0 : ip ≠ 0) (h1 : 0 ≤ v / ip) :
    seriesResistance (some rs) [num v] [num ip] = .ok ([num (v - ip * rs)], [num ip]) ∧
    ifSeries (some rs) dc [v] = .ok [v - id * rs] := by
  constructor
  · exact C54_corrected rs [(v, ip)] (by simpa using ⟨h0, h1⟩)
  · rw [ifSeries_map (List.ne_nil_of_mem hp) hvr hir (fun p hp => (hquad p hp).1), List.map_singleton,
      move_placed hinc hquad (Or.inl ⟨id, hp, rfl⟩)]

/-- C189 is false as stated: IF points beyond the last dc point are all placed at the same voltage. -/
theorem C189_false_outside (raw : List (ℝ × ℝ)) (dc : DCIV) (hvr : dc.vraw = raw.map Prod.fst)
    (hir : dc.iraw = raw.map Prod.snd) (hinc : Incr raw) (hquad : ∀ p ∈ raw, p.2 ≠ 0 ∧ 0 ≤ p.1 / p.2)
    (rs v w i : ℝ) (hp : (w, i) ∈ raw) (hlast : ∀ p ∈ raw, p.1 ≤ w) (hv : w ≤ v) :
    ifSeries (some rs) dc [v] = .ok [w - i * rs] := by
  have hne := List.ne_nil_of_mem hp
  have last : ∀ L : List (ℝ × ℝ), Incr L → ∀ y, (w, y) ∈ L → (∀ p ∈ L, p.1 ≤ w) → interpAt L v = y := by
    intro L hL y hy hall
    have hLne := List.ne_nil_of_mem hy
    rcases interpAt_cases L hL hLne v with ⟨a, l, rfl, hx, -⟩ | ⟨l, a, rfl, hx, e⟩ | ⟨l, a, b, l', rfl, hx, hx', -⟩
    · rcases List.mem_cons.1 hy with h | h
      · rw [← h] at hx
        dsimp only at hx
        linarith
      · have := (List.pairwise_cons.1 hL).1 _ h
        dsimp only at this
        linarith
    · rw [e]
      rcases List.mem_append.1 hy with h | h
      · have := (List.pairwise_append.1 hL).2.2 _ h a (by simp)
        have := hall a (by simp)
        dsimp only at *
        linarith
      · rw [← List.mem_singleton.1 h]
    · have := hall b (by simp)
      linarith
  rw [ifSeries_map hne hvr hir (fun p hp => (hquad p hp).1), List.map_singleton]
  unfold move
  rw [last raw hinc i hp hlast, last (statics raw) (statics_incr hinc) (max (w / i) 0) (List.mem_map.2 ⟨_, hp, rfl⟩) (by
    intro p hp
    obtain ⟨q, hq, rfl⟩ := List.mem_map.1 hp
    exact hlast q hq)]
  obtain ⟨a, b⟩ := hquad _ hp
  dsimp only at a b
  rw [max_eq_left b]
  congr 2
  field_simp

/-! ### A series resistance of zero -/

/-- Two dc points, at 1 V and 1 A and at 2 V and 4 A, and a gap voltage of 1 V. -/
noncomputable def steepDc : DCIV := { sampleDc with vraw := [1, 2], iraw := [1, 4], vgap := 1 }

/-- Five points from 0 to 2 V. -/
noncomputable def steepIf (rseries : Option ℝ) : IfOpts :=
  { sampleIf with vmax := 2, npts := 5, vFmt := "V", rseries := rseries }

/-- Three IF points. -/
noncomputable def steepData : Mat := sweep [(1, 0), (1.5, 1), (2, 0)]

theorem steep_measured (r : Option ℝ) (p : ℝ × ℝ) : Measured (steepIf r) steepDc steepData p ↔
    p = (1, 0) ∨ p = (1.5, 1) ∨ p = (2, 0) := by
  have hu : voltUnit "V" = 1 := by unfold voltUnit; rw [if_neg (by decide), if_neg (by decide)]
  unfold Measured steepData sweep
  simp only [List.map_cons, List.map_nil, List.mem_cons, List.not_mem_nil, or_false, exists_eq_or_imp, exists_eq_left,
    List.getD_cons_zero, List.getD_cons_succ, steepIf, steepDc, sampleIf, sampleDc, hu, Fl.num_inj]
  constructor
  · rintro (⟨x, y, rfl, rfl, rfl⟩ | ⟨x, y, rfl, rfl, rfl⟩ | ⟨x, y, rfl, rfl, rfl⟩) <;> norm_num
  · rintro (rfl | rfl | rfl)
    · exact Or.inl ⟨_, _, rfl, rfl, by norm_num⟩
    · exact Or.inr (Or.inl ⟨_, _, rfl, rfl, by norm_num⟩)
    · exact Or.inr (Or.inr ⟨_, _, rfl, rfl, by norm_num⟩)

theorem steep_wf : steepData.WF := by
  intro r hr
  simp only [steepData, sweep, List.map_cons, List.map_nil, List.mem_cons, List.not_mem_nil, or_false] at hr
  rcases hr with rfl | rfl | rfl <;> rfl

/-- C189 is false as stated: a series resistance of zero is not the same as none. The power measured at 1.5 V is
reported at 1.5 V without series resistance, and 4/7 of it with a series resistance of zero. -/
theorem C189_false_zero (S : Sorter) : ∃ r r', loadIf S (steepIf none) steepDc (.matrix steepData) = .ok r ∧
    loadIf S (steepIf (some 0)) steepDc (.matrix steepData) = .ok r' ∧ r.1.getD 3 0 = 1.5 ∧ r'.1.getD 3 0 = 1.5 ∧
    r.2.getD 3 0 = 1 ∧ r'.2.getD 3 0 = 4 / 7 := by
  have hreal : ∀ w ∈ steepData.rows, ∃ x y : ℝ, w.getD 0 none = num x ∧ w.getD 1 none = num y := by
    intro w hw
    obtain ⟨p, -, rfl⟩ := List.mem_map.1 hw
    exact ⟨p.1, p.2, rfl, rfl⟩
  have hinc : Incr [((1 : ℝ), (1 : ℝ)), (2, 4)] := by
    unfold Incr
    simp
  obtain ⟨r, hr⟩ := C189_accepted S (steepIf none) steepDc steepData rfl steep_wf (by simp [steepIf]) rfl
    (by simp [steepIf]) (by simp [steepDc]) hreal (by simp [steepData, sweep]) [(1, 1), (2, 4)] (by simp) rfl rfl (by simp)
  obtain ⟨r', hr'⟩ := C189_accepted S (steepIf (some 0)) steepDc steepData rfl steep_wf (by simp [steepIf]) rfl
    (by simp [steepIf]) (by simp [steepDc]) hreal (by simp [steepData, sweep]) [(1, 1), (2, 4)] (by simp) rfl rfl (by simp)
  obtain ⟨-, l1, -, g1⟩ := C88_grid S _ _ _ r rfl steep_wf hr
  obtain ⟨-, l2, -, g2⟩ := C88_grid S _ _ _ r' rfl steep_wf hr'
  have k1 : 3 < r.1.length := by rw [l1]; simp [steepIf]
  have k2 : 3 < r'.1.length := by rw [l2]; simp [steepIf]
  have x1 : r.1.getD 3 0 = 1.5 := by
    have := g1 3 k1
    simp only [steepDc, steepIf] at this
    norm_num at this ⊢
    exact this
  have x2 : r'.1.getD 3 0 = 1.5 := by
    have := g2 3 k2
    simp only [steepDc, steepIf] at this
    norm_num at this ⊢
    exact this
  refine ⟨r, r', hr, hr', x1, x2, ?_, ?_⟩
  · have := C88_line S _ _ _ r rfl steep_wf hr rfl rfl (by simp [steepIf, sampleIf]) (by simp [steepDc]) (1.5, 1) (2, 0)
      ((steep_measured _ _).2 (by simp)) ((steep_measured _ _).2 (by simp)) (by
        intro a ha
        rcases (steep_measured _ _).1 ha with rfl | rfl | rfl <;> norm_num) (by norm_num) (by
        intro a ha
        rcases (steep_measured _ _).1 ha with rfl | rfl | rfl <;> norm_num) 3 k1 (by rw [x1]; simp [steepDc]) (by
        rw [x1]; norm_num [steepDc])
    rw [this, x1]
    norm_num [steepDc]
  · have := C189_line_partial S _ _ _ r' rfl steep_wf hr' 0 rfl rfl (by simp [steepIf, sampleIf]) (by simp [steepDc])
      [(1, 1), (2, 4)] rfl rfl hinc (by norm_num) (fun v => v - (v - 1) * (2 - v) * (3 * (1 / 2 - 1))) (by
        intro a ha
        have hb : 1 ≤ a.1 ∧ a.1 ≤ 2 := by
          rcases (steep_measured _ _).1 ha with rfl | rfl | rfl <;> norm_num
        exact Or.inr ⟨(1, 1), (2, 4), a.1 - 1, List.infix_rfl, by linarith, by linarith, by ring, by dsimp only; ring⟩) (by
        intro a b ha hb hab
        rcases (steep_measured _ _).1 ha with rfl | rfl | rfl <;> rcases (steep_measured _ _).1 hb with rfl | rfl | rfl <;>
          first | (norm_num at hab; done) | norm_num) (1, 0) (1.5, 1)
      ((steep_measured _ _).2 (by simp)) ((steep_measured _ _).2 (by simp)) (by
        intro a ha
        rcases (steep_measured _ _).1 ha with rfl | rfl | rfl <;> norm_num) (by norm_num) (by
        intro a ha
        rcases (steep_measured _ _).1 ha with rfl | rfl | rfl <;> norm_num) 3 k2 (by rw [x2]; norm_num [steepDc]) (by
        rw [x2]; norm_num [steepDc])
    rw [this, x2]
    norm_num [steepDc]

/-- C189 applies to these points with a series resistance of 0.1 Ohm: the point at 2 V and 4 A is placed at 1.6 V, and
one at 1.5 V within 0.375 V of 1.25 V. -/
example : Placed [(1, 1), (2, 4)] 0.1 2 1.6 ∧ ∃ j, Placed [(1, 1), (2, 4)] 0.1 1.5 j ∧ |j - 1.25| ≤ 0.375 := by
  refine ⟨Or.inl ⟨4, by simp, by norm_num⟩, ?_⟩
  have hj : Placed [(1, 1), (2, 4)] 0.1 1.5 (1.5 - ((1 - 0.5) * 1 + 0.5 * 4) * 0.1 - 0.5 * (1 - 0.5) * ((4 - 1) * (2 / 4 - 1 / 1))) :=
    Or.inr ⟨(1, 1), (2, 4), 0.5, List.infix_rfl, by norm_num, by norm_num, by norm_num, rfl⟩
  refine ⟨_, hj, ?_⟩
  norm_num [abs_le]

/-- C189_second_order applies to them. -/
example (rs v j : ℝ) (h : Placed [(1, 1), (2, 4)] rs v j) : ∃ i, OnLine [(1, 1), (2, 4)] v i ∧ |j - (v - i * rs)| ≤ 1.5 / 4 := by
  refine C189_second_order _ rs v j 1.5 h (fun a b hab => ?_) (by norm_num)
  have hl : [a, b] = [((1 : ℝ), (1 : ℝ)), (2, 4)] := hab.eq_of_length rfl
  obtain ⟨rfl, rfl⟩ : a = (1, 1) ∧ b = (2, 4) := by simpa using hl
  norm_num

/-- The cases in which the property fails: a leakage of the wrong sign at 0.1 mV, a pumped current of 20 uA at 2 mV
where the dc current is 10 uA, and IF data measured up to 4 mV. -/
example (rs : ℝ) : let raw : List (ℝ × ℝ) := [(1e-4, -1e-8), (2e-3, 1e-5), (3e-3, 1e-4)]
    ifSeries (some rs) { sampleDc with vraw := raw.map Prod.fst, iraw := raw.map Prod.snd } [1e-4] =
      .ok [-(-1e-8) * rs] := by
  intro raw
  refine C189_false_sign raw _ rfl rfl ?_ ?_ rs 1e-4 (-1e-8) (by simp [raw]) (by norm_num)
  · unfold Incr; norm_num [raw]
  · intro p hp
    simp only [raw, List.mem_cons, List.not_mem_nil, or_false] at hp
    rcases hp with rfl | rfl | rfl <;> norm_num

example (rs : ℝ) : let raw : List (ℝ × ℝ) := [(2e-3, 1e-5), (3e-3, 1e-4)]
    seriesResistance (some rs) [num 2e-3] [num 2e-5] = .ok ([num (2e-3 - 2e-5 * rs)], [num 2e-5]) ∧
    ifSeries (some rs) { sampleDc with vraw := raw.map Prod.fst, iraw := raw.map Prod.snd } [2e-3] =
      .ok [2e-3 - 1e-5 * rs] ∧
    ifSeries (some rs) { sampleDc with vraw := raw.map Prod.fst, iraw := raw.map Prod.snd } [4e-3] =
      .ok [3e-3 - 1e-4 * rs] := by
  intro raw
  have hinc : Incr raw := by unfold Incr; norm_num [raw]
  have hq : ∀ p ∈ raw, p.2 ≠ 0 ∧ 0 ≤ p.1 / p.2 := by
    intro p hp
    simp only [raw, List.mem_cons, List.not_mem_nil, or_false] at hp
    rcases hp with rfl | rfl <;> norm_num
  obtain ⟨a, b⟩ := C189_false_pumped raw { sampleDc with vraw := raw.map Prod.fst, iraw := raw.map Prod.snd } rfl rfl hinc
    hq rs 2e-3 1e-5 2e-5 (by simp [raw]) (by norm_num) (by norm_num)
  refine ⟨a, b, C189_false_outside raw _ rfl rfl hinc hq rs 4e-3 3e-3 1e-4 (by simp [raw]) ?_ (by norm_num)⟩
  intro p hp
  simp only [raw, List.mem_cons, List.not_mem_nil, or_false] at hp
  rcases hp with rfl | rfl <;> norm_num

end QMix.IfData
