import Verif.Props.Filters
import Verif.Props.IvData

/-!
# Where the gap voltage is looked for
-/

namespace QMix.Props

open QMix.Np QMix.MathFn QMix.Spec QMix.IvData

theorem pyGet_some {α : Type*} {l : List α} {i : ℕ} {x : α} (h : pyGet l (i : ℤ) = .ok x) : l[i]? = some x := by
  have hi : i < l.length := by
    by_contra hc
    unfold pyGet at h
    split at h
    · cases h
    · rename_i j hj
      have hlt := pyIndex_lt hj
      unfold pyIndex at hj
      split_ifs at hj with h1 h2
      omega
      omega
  have i1 : pyIndex l.length (i : ℤ) = .ok i := by rw [pyIndex_nonneg (by omega) (by omega)]; simp
  obtain ⟨hi, e⟩ := pyGet_eq i1
  rw [e] at h
  rw [List.getElem?_eq_getElem hi, Except.ok.inj h]

/-- C157: the gap voltage is determined at the steepest point of the measured curve above 2 mV (the slope is
smoothed over 0.2 mV, in steps of the first two voltages): the best line through the points within 10 µV of
that point is the transition; the gap voltage is where it reaches half of the current at which it crosses the
normal branch. -/
theorem C157_gap (R : Routines) (o : Opts) (v i : List ℝ) (g : ℝ) (hl : v.length = i.length)
    (h : gapVoltage R o v i = .ok g) :
    ∃ (v0 v1 : ℝ) (p pn pt : ℝ × ℝ) (vc : ℝ), v[0]? = some v0 ∧ v[1]? = some v1 ∧ v1 ≠ v0 ∧
      Steepest ((v.zip i).filter fun p => decide (2e-3 < p.1)) (0.2e-3 / (v1 - v0)) p ∧
      BestLine ((v.zip i).filter fun p => decide (o.vrn.1 < p.1 ∧ p.1 < o.vrn.2)) pn ∧
      BestLine ((v.zip i).filter fun q => decide (|q.1 - p.1| < 1e-5)) pt ∧
      pn.1 * vc + pn.2 = pt.1 * vc + pt.2 ∧
      pt.1 * g + pt.2 = (pt.1 * vc + pt.2) / 2 := by
  obtain ⟨L, rfl, rfl⟩ := exists_points hl
  rw [zip_fst_snd]
  unfold gapVoltage at h
  rw [masked_points, py_bind] at h
  obtain ⟨pn, h1, h⟩ := bind_ok_iff.1 h
  obtain ⟨v1, hv1, h⟩ := bind_ok_iff.1 h
  obtain ⟨v0, hv0, h⟩ := bind_ok_iff.1 h
  rw [masked_points, py_bind] at h
  obtain ⟨der, hder, h⟩ := bind_ok_iff.1 h
  obtain ⟨sg, hsg, h⟩ := bind_ok_iff.1 h
  obtain ⟨der', hder', h⟩ := bind_ok_iff.1 h
  obtain ⟨k, hk, h⟩ := bind_ok_iff.1 h
  obtain ⟨vg, h2, h⟩ := bind_ok_iff.1 h
  rw [masked_points, py_bind] at h
  obtain ⟨pt, h3, h⟩ := bind_ok_iff.1 h
  unfold gapFromLines at h
  obtain ⟨vc, h4, h⟩ := bind_ok_iff.1 h
  unfold Np.fdiv at h4 h hsg
  split_ifs at h4 with c1
  split_ifs at hsg with c3
  dsimp only at h
  split_ifs at h with c2
  obtain rfl := Except.ok.inj h4
  obtain rfl := Except.ok.inj h
  obtain rfl := Except.ok.inj hsg
  obtain ⟨hd1, hd2⟩ := C156_slope hder
  have hav := C155_average hder'
  unfold argmax at hk
  obtain ⟨m, hm1, hm2, hm3⟩ := argmin_spec hk
  rw [List.getElem?_map] at hm1
  obtain ⟨m', hm', rfl⟩ := Option.map_eq_some_iff.1 hm1
  have h2' := pyGet_some h2
  rw [List.getElem?_map] at h2'
  obtain ⟨p, hp, rfl⟩ := Option.map_eq_some_iff.1 h2'
  refine ⟨v0, v1, p, pn, pt, (pt.2 - pn.2) / (pn.1 - pt.1), pyGet_some (i := 0) hv0, pyGet_some (i := 1) hv1,
    sub_ne_zero.1 c3, ⟨der, der', k, m', hd1, hd2, hav, hp, hm', ?_, ?_⟩, polyfit_best h1, ?_, ?_, ?_⟩
  · intro t ht
    have := hm2 (-t) (List.mem_map.2 ⟨t, ht, rfl⟩)
    linarith
  · intro j hj t ht
    have := hm3 j hj (-t) (by rw [List.getElem?_map, ht]; rfl)
    linarith
  · have := polyfit_best h3
    intro q
    have e : (L.filter fun q => decide (|q.1 - p.1| < 1e-5)) =
        L.filter fun q => decide (p.1 - 0.1e-4 < q.1 ∧ q.1 < p.1 + 0.1e-4) := by
      apply List.filter_congr
      intro q _
      rw [decide_eq_decide, abs_lt]
      constructor
      · rintro ⟨h1, h2⟩; constructor <;> linarith
      · rintro ⟨h1, h2⟩; constructor <;> linarith
    rw [e]; exact this q
  · field_simp
    ring
  · field_simp
    ring

/-- A coarse measurement of a junction: subgap, a transition at 2.8 mV and the normal branch at 4 mV. -/
noncomputable def coarse : List (ℝ × ℝ) :=
  [(0, 0), (0.6e-3, 0), (2.8e-3, 0), (2.805e-3, 100), (4e-3, 101), (4.005e-3, 102)]

/-- A gap voltage is found. -/
theorem coarse_gap (R : Routines) (o : Opts) (ho : o.vrn = (3.9e-3, 4.1e-3)) :
    ∃ g, gapVoltage R o (coarse.map Prod.fst) (coarse.map Prod.snd) = .ok g := by
  set P : List (ℝ × ℝ) := [(2.8e-3, 0), (2.805e-3, 100), (4e-3, 101), (4.005e-3, 102)] with hP
  have f1 : (coarse.filter fun p => decide (2e-3 < p.1)) = P := by
    unfold coarse
    norm_num [List.filter, hP]
  have f2 : (coarse.filter fun p => decide (o.vrn.1 < p.1 ∧ p.1 < o.vrn.2)) = [(4e-3, 101), (4.005e-3, 102)] := by
    unfold coarse
    rw [ho]
    norm_num [List.filter]
  have f3 : ∀ g, g = 2.8e-3 ∨ g = 2.805e-3 → (coarse.filter fun p => decide (g - 0.1e-4 < p.1 ∧ p.1 < g + 0.1e-4)) =
      [(2.8e-3, 0), (2.805e-3, 100)] := by
    rintro g (rfl | rfl)
    · unfold coarse
      norm_num [List.filter]
    · unfold coarse
      norm_num [List.filter]
  obtain ⟨d, hd⟩ := (C156_accepts P).2 (by
    refine ⟨by simp [hP], ?_, ?_, ?_⟩
    · intro i p q hp hq
      rcases i with _ | _ | i
      · cases hp; cases hq; norm_num
      · cases hp; cases hq; norm_num
      · simp [hP] at hq
    · intro p q hp hq
      cases hp; cases hq; norm_num
    · intro i p q hi hp hq
      obtain rfl : i = 2 := by simp [hP] at hi; omega
      cases hp; cases hq; norm_num)
  obtain ⟨hd1, hd2⟩ := C156_slope hd
  obtain ⟨y, hy⟩ := (C155_accepts d (0.2e-3 / (0.6e-3 - 0)) 3).2 (by
    rw [hd1]
    constructor <;> norm_num [hP])
  obtain ⟨e, he⟩ := mirrored_exists d
  have hc := C155_centred (r := 1) (by norm_num) hy he
  obtain ⟨k, hk⟩ := argmin_ok (l := y.map fun t => -t) (by
    intro h0
    have := congrArg List.length h0
    rw [List.length_map, (C155_average hy).1, hd1] at this
    simp [hP] at this)
  obtain ⟨m, hm1, hm2, hm3⟩ := argmin_spec hk
  have hdn : d.length = 4 := by rw [hd1]; rfl
  have hyn : y.length = 4 := by rw [(C155_average hy).1, hdn]
  have dv : ∀ j : ℕ, j < 4 → d[j]? = some (e j) ∧ SlopeAt P j (e j) := by
    intro j hj
    have h1 : d[j]? = some d[j] := List.getElem?_eq_getElem (by omega)
    rw [he.inside j _ h1]
    exact ⟨h1, hd2 j _ h1⟩
  have e0 : e 0 = 2e7 := by
    have := slopeAt_unique (dv 0 (by omega)).2 (SlopeAt.first _ _ rfl rfl)
    rw [show e 0 = _ from this]; norm_num [chord]
  have e1 : e 1 = 101 / 1.2e-3 := by
    have := slopeAt_unique (dv 1 (by omega)).2 (SlopeAt.inner 0 _ _ rfl rfl)
    rw [show e 1 = _ from this]; norm_num [chord]
  have e2 : e 2 = 2 / 1.2e-3 := by
    have := slopeAt_unique (dv 2 (by omega)).2 (SlopeAt.inner 1 _ _ rfl rfl)
    rw [show e 2 = _ from this]; norm_num [chord]
  have e3 : e 3 = 2e5 := by
    have := slopeAt_unique (dv 3 (by omega)).2 (SlopeAt.last 2 _ _ rfl rfl rfl)
    rw [show e 3 = _ from this]; norm_num [chord]
  have em : e (-1) = e 1 := he.first 1 (by omega)
  have e4 : e 4 = e 2 := by
    have := he.last 1 (by omega)
    rw [hdn] at this
    exact this
  set s : ℝ := 0.2e-3 / (0.6e-3 - 0) with hs
  have hw : ∀ i : ℕ, ∀ m, y[i]? = some m →
      m * (bell s (-1) + (bell s 0 + bell s 1)) = bell s (-1) * e (i + -1) + (bell s 0 * e (i + 0) + bell s 1 * e (i + 1)) := by
    intro i m hm
    have := hc i m hm
    unfold BellAverage at this
    rw [show Finset.Icc (-((1 : ℕ) : ℤ)) ((1 : ℕ) : ℤ) = {-1, 0, 1} by rfl] at this
    simpa using this
  have hb0 : bell s 0 = 1 := by unfold bell; norm_num
  have hb1 : bell s (-1) = bell s 1 := by unfold bell; congr 1; ring
  have hbp : 0 < bell s 1 := Real.exp_pos _
  have hbl : bell s 1 < 1 := by
    unfold bell
    rw [Real.exp_lt_one_iff]
    norm_num [hs]
  rw [hb0, hb1] at hw
  generalize bell s 1 = w at hw hbp hbl
  have y0 : y[0]? = some (y.getD 0 0) := by
    rw [List.getD_eq_getElem?_getD, List.getElem?_eq_getElem (by omega)]; rfl
  have hy0 := hw 0 _ y0
  have hk4 : k < 4 := by
    by_contra hh
    rw [List.getElem?_eq_none (by rw [List.length_map, hyn]; omega)] at hm1
    cases hm1
  rw [List.getElem?_map] at hm1
  obtain ⟨m', hm', rfl⟩ := Option.map_eq_some_iff.1 hm1
  have hmax := hm2 (-(y.getD 0 0)) (List.mem_map.2 ⟨_, List.mem_of_getElem? y0, rfl⟩)
  have hkw := hw k m' hm'
  have hk2 : k = 0 ∨ k = 1 := by
    by_contra hh
    have hprod := mul_le_mul_of_nonneg_right (show y.getD 0 0 ≤ m' by linarith)
      (show 0 ≤ w + (1 + w) by linarith)
    rw [hy0, hkw] at hprod
    clear hy0 hkw hw hc hy
    rcases (show k = 2 ∨ k = 3 by omega) with rfl | rfl
    · norm_num [em, e0, e1, e2, e3] at hprod
      linarith
    · norm_num [em, e0, e1, e2, e3, e4] at hprod
      linarith
  have hg : pyGet (P.map Prod.fst) (k : ℤ) = .ok 2.8e-3 ∨ pyGet (P.map Prod.fst) (k : ℤ) = .ok 2.805e-3 := by
    rcases hk2 with rfl | rfl
    · left; rfl
    · right; rfl
  unfold gapVoltage
  rw [masked_points, f2, py_bind]
  dsimp only
  rw [polyfit_line (r := (2e5, -699)), py_bind]
  · rw [masked_points, f1]
    have g1 : pyGet (coarse.map Prod.fst) 1 = .ok 0.6e-3 := rfl
    have g0 : pyGet (coarse.map Prod.fst) 0 = .ok 0 := rfl
    rw [g1, py_bind, g0, py_bind, py_bind, hd, py_bind]
    have hf : Np.fdiv 0.2e-3 (0.6e-3 - 0) = .ok s := by
      unfold Np.fdiv
      rw [if_neg (by norm_num)]
    rw [hf, py_bind, hy, py_bind]
    unfold argmax
    rw [hk, py_bind]
    have fin : ∀ g : ℝ, g = 2.8e-3 ∨ g = 2.805e-3 → pyGet (P.map Prod.fst) (k : ℤ) = .ok g → ∃ q, (do
        let vg ← pyGet (P.map Prod.fst) (k : ℤ)
        let b ← masked ((coarse.map Prod.fst).map fun t => decide (vg - 0.1e-4 < t ∧ t < vg + 0.1e-4))
          (coarse.map Prod.fst) (coarse.map Prod.snd)
        let pgap ← polyfit R b.1 b.2
        gapFromLines (2e5, -699) pgap) = .ok q := by
      intro g hg hpg
      rw [hpg, py_bind, masked_points, f3 g hg, py_bind]
      dsimp only
      rw [polyfit_line (r := (2e7, -56000)), py_bind]
      · unfold gapFromLines Np.fdiv
        rw [if_neg (by norm_num), py_bind, if_neg (by norm_num)]
        exact ⟨_, rfl⟩
      · intro q hq
        simp only [List.mem_cons, List.not_mem_nil, or_false] at hq
        rcases hq with rfl | rfl <;> norm_num
      · exact ⟨_, List.mem_cons_self, _, List.mem_cons_of_mem _ List.mem_cons_self, by norm_num⟩
    rcases hg with hg | hg
    · exact fin _ (Or.inl rfl) hg
    · exact fin _ (Or.inr rfl) hg
  · intro q hq
    simp only [List.mem_cons, List.not_mem_nil, or_false] at hq
    rcases hq with rfl | rfl <;> norm_num
  · exact ⟨_, List.mem_cons_self, _, List.mem_cons_of_mem _ List.mem_cons_self, by norm_num⟩

/-- A gap voltage is found. -/
example (R : Routines) (o : Opts) (ho : o.vrn = (3.9e-3, 4.1e-3)) :
    ∃ g, gapVoltage R o (coarse.map Prod.fst) (coarse.map Prod.snd) = .ok g :=
  coarse_gap R o ho

end QMix.Props
