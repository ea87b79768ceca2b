import Verif.Props.IvData6

/-!
# C190: the result does not depend on a series resistance that is taken into account
-/

namespace QMix.IvData

open Np Fl Clean Spec

/-- The points `pts` in the units of the user are what is measured of the points `J` of the junction (in V and A),
through the series resistance `rs` and with the offset `off`. -/
def Through (o : Opts) (rs : ℝ) (off : ℝ × ℝ) (J pts : List (ℝ × ℝ)) : Prop :=
  (pts.map fun p => (p.1 * voltUnit o.vFmt * o.vMult, p.2 * ampUnit o.iFmt * o.iMult)) =
    J.map fun p => (p.1 + p.2 * rs + off.1, p.2 + off.2)

/-- The measurement in V and A, without the offset. -/
theorem Through.fst {o : Opts} {rs : ℝ} {off : ℝ × ℝ} {J pts : List (ℝ × ℝ)} (h : Through o rs off J pts) :
    (pts.map fun p => p.1 * voltUnit o.vFmt).map (· * o.vMult) = J.map fun p => p.1 + p.2 * rs + off.1 := by
  have := congrArg (List.map Prod.fst) h
  rw [List.map_map, List.map_map] at this
  rw [List.map_map]
  exact this

theorem Through.snd {o : Opts} {rs : ℝ} {off : ℝ × ℝ} {J pts : List (ℝ × ℝ)} (h : Through o rs off J pts) :
    (pts.map fun p => p.2 * ampUnit o.iFmt).map (· * o.iMult) = J.map fun p => p.2 + off.2 := by
  have := congrArg (List.map Prod.snd) h
  rw [List.map_map, List.map_map] at this
  rw [List.map_map]
  exact this

/-- Loading a sweep. -/
theorem load_sweep (R : Routines) (o : Opts) (pts : List (ℝ × ℝ)) (h2 : 2 ≤ pts.length)
    (hup : pts.Pairwise fun p q => p.1 < q.1) (rows : List (ℝ × ℝ)) (hrows : rows = pts ∨ rows = pts.reverse)
    (hvf : o.vFmt ∈ ["uV", "mV", "V"]) (hif : o.iFmt ∈ ["uA", "mA", "A"]) :
    loadIv R o (.matrix (sweep rows)) = .ok ((pts.map fun p => p.1 * voltUnit o.vFmt).map num,
      (pts.map fun p => p.2 * ampUnit o.iFmt).map num) := by
  rw [C83_sweep R o pts h2 hup rows hrows hvf hif, List.map_map, List.map_map]
  rfl

/-- The voltages across the junction are found. -/
theorem removed {J : List (ℝ × ℝ)} {rs : ℝ} (hq : ∀ p ∈ J, p.2 ≠ 0 ∧ 0 ≤ (p.1 + p.2 * rs) / p.2) :
    seriesResistance (some rs) ((J.map fun p => p.1 + p.2 * rs).map num) ((J.map Prod.snd).map num) =
      .ok ((J.map Prod.fst).map num, (J.map Prod.snd).map num) := by
  have := C54_corrected rs (J.map fun p => (p.1 + p.2 * rs, p.2)) (by
    intro p hp
    obtain ⟨q, hq', rfl⟩ := List.mem_map.1 hp
    exact hq q hq')
  simp only [List.map_map, Function.comp_def, add_sub_cancel_right] at this ⊢
  exact this

/-- C190: the same junction is measured twice, directly and through a series resistance. If the same offset is found in
both, and the series resistance is given for the second measurement, the two analyses agree in everything except the
record of the uncorrected voltages and of the series resistance itself. This includes the errors raised. -/
theorem C190_dc (R : Routines) (o : Opts) (rs : ℝ) (off : ℝ × ℝ) (J pts ptsS : List (ℝ × ℝ)) (h2 : 2 ≤ J.length)
    (hp : Through o 0 off J pts) (hs : Through o rs off J ptsS) (hup : pts.Pairwise fun p q => p.1 < q.1)
    (hupS : ptsS.Pairwise fun p q => p.1 < q.1) (rows rowsS : List (ℝ × ℝ)) (hrows : rows = pts ∨ rows = pts.reverse)
    (hrowsS : rowsS = ptsS ∨ rowsS = ptsS.reverse) (hvf : o.vFmt ∈ ["uV", "mV", "V"])
    (hif : o.iFmt ∈ ["uA", "mA", "A"]) (hr : o.rseries = none) (hf : o.filterData = false)
    (hq : ∀ p ∈ J, p.2 ≠ 0 ∧ 0 ≤ (p.1 + p.2 * rs) / p.2)
    (hoff : ∃ a b, correctOffset R o (J.map fun p => p.1 + p.2 * 0 + off.1) (J.map fun p => p.2 + off.2) = .ok (a, b, off))
    (hoffS : ∃ a b, correctOffset R o (J.map fun p => p.1 + p.2 * rs + off.1) (J.map fun p => p.2 + off.2) =
      .ok (a, b, off)) :
    dcivCurve R { o with rseries := some rs } (.matrix (sweep rowsS)) =
      (dcivCurve R o (.matrix (sweep rows))).map fun r =>
        (r.1, r.2.1, { r.2.2 with vraw := J.map fun p => p.1 + p.2 * rs, rseries := some rs }) := by
  have l1 : pts.length = J.length := by simpa using congrArg List.length hp
  have l2 : ptsS.length = J.length := by simpa using congrArg List.length hs
  obtain ⟨a, b, hoff⟩ := hoff
  obtain ⟨a', b', hoffS⟩ := hoffS
  obtain ⟨rfl, rfl⟩ := correctOffset_shift hoff
  obtain ⟨rfl, rfl⟩ := correctOffset_shift hoffS
  have ei : (J.map fun p => p.2 + off.2).map (fun t => t - off.2) = J.map Prod.snd := by
    rw [List.map_map]
    exact List.map_congr_left fun p _ => by simp
  have ev : (J.map fun p => p.1 + p.2 * 0 + off.1).map (fun t => t - off.1) = J.map Prod.fst := by
    rw [List.map_map]
    exact List.map_congr_left fun p _ => by simp
  have evS : (J.map fun p => p.1 + p.2 * rs + off.1).map (fun t => t - off.1) = J.map fun p => p.1 + p.2 * rs := by
    rw [List.map_map]
    exact List.map_congr_left fun p _ => by simp
  rw [ei, ev] at hoff
  rw [ei, evS] at hoffS
  have hoffS' : correctOffset R { o with rseries := some rs } (J.map fun p => p.1 + p.2 * rs + off.1)
      (J.map fun p => p.2 + off.2) = .ok (J.map fun p => p.1 + p.2 * rs, J.map Prod.snd, off) := hoffS
  have hfil : ∀ v i, filterIv R o v i = .ok (v, i) := by
    intro v i
    unfold filterIv
    rw [if_pos hf]
  have hfilS : ∀ v i, filterIv R { o with rseries := some rs } v i = .ok (v, i) := hfil
  have e1 := load_sweep R o pts (by omega) hup rows hrows hvf hif
  have e2 : loadIv R { o with rseries := some rs } (.matrix (sweep rowsS)) = _ :=
    load_sweep R o ptsS (by omega) hupS rowsS hrowsS hvf hif
  unfold dcivCurve
  rw [e1, e2, py_bind, py_bind]
  dsimp only
  rw [toReals_num, py_bind, toReals_num, py_bind, toReals_num, py_bind, toReals_num, py_bind, hp.fst, hp.snd, hs.fst,
    hs.snd, hoff, hoffS', py_bind, py_bind]
  dsimp only
  rw [hfil, hfilS, py_bind, py_bind]
  dsimp only
  rw [removed hq, py_bind, hr]
  unfold seriesResistance
  dsimp only
  rw [py_bind]
  dsimp only
  rw [toReals_num, py_bind, toReals_num, py_bind, py_bind, py_bind]
  rw [show chooseGap R { o with rseries := some rs } (J.map Prod.fst) (J.map Prod.snd) =
    chooseGap R o (J.map Prod.fst) (J.map Prod.snd) from rfl]
  cases chooseGap R o (J.map Prod.fst) (J.map Prod.snd) with
  | error e => rfl
  | ok g =>
    rw [py_bind, py_bind]
    rw [show normalResistance R { o with rseries := some rs } (J.map Prod.fst) (J.map Prod.snd) =
      normalResistance R o (J.map Prod.fst) (J.map Prod.snd) from rfl]
    cases normalResistance R o (J.map Prod.fst) (J.map Prod.snd) with
    | error e => rfl
    | ok rn =>
      rw [py_bind, py_bind]
      rw [show subgapResistance R { o with rseries := some rs } (J.map Prod.fst) (J.map Prod.snd) =
        subgapResistance R o (J.map Prod.fst) (J.map Prod.snd) from rfl]
      cases subgapResistance R o (J.map Prod.fst) (J.map Prod.snd) with
      | error e => rfl
      | ok rsg =>
        rw [py_bind, py_bind]
        cases Np.fdiv g rn.1 with
        | error e => rfl
        | ok ig =>
          rw [py_bind, py_bind]
          cases div (J.map Prod.fst) [g] with
          | error e => rfl
          | ok vn =>
            rw [py_bind, py_bind]
            cases div (J.map Prod.snd) [ig] with
            | error e => rfl
            | ok cn =>
              rw [py_bind, py_bind]
              cases linspace (-o.vmax) o.vmax o.npts with
              | error e => rfl
              | ok grid =>
                rw [py_bind, py_bind]
                cases div grid [g] with
                | error e => rfl
                | ok vt =>
                  rw [py_bind, py_bind]
                  cases interp vt vn cn with
                  | error e => rfl
                  | ok cur => rfl

/-- C190 for data on one side of the range in which an offset is searched: the offsets of the user are used. -/
theorem C190_one_sided (R : Routines) (o : Opts) (rs : ℝ) (off : ℝ × ℝ) (J pts ptsS : List (ℝ × ℝ))
    (h2 : 2 ≤ J.length) (hp : Through o 0 off J pts) (hs : Through o rs off J ptsS)
    (hup : pts.Pairwise fun p q => p.1 < q.1) (hupS : ptsS.Pairwise fun p q => p.1 < q.1)
    (rows rowsS : List (ℝ × ℝ)) (hrows : rows = pts ∨ rows = pts.reverse)
    (hrowsS : rowsS = ptsS ∨ rowsS = ptsS.reverse) (hvf : o.vFmt ∈ ["uV", "mV", "V"])
    (hif : o.iFmt ∈ ["uA", "mA", "A"]) (hr : o.rseries = none) (hf : o.filterData = false)
    (hoff : off = (o.voffset.getD 0, o.ioffset.getD 0)) (h0 : 0 ≤ rs) (hpos : ∀ p ∈ J, 0 ≤ p.1 ∧ 0 < p.2)
    (huni : ∀ p ∈ J, o.voffsetRange.pair.1 ≤ p.1 + off.1) :
    dcivCurve R { o with rseries := some rs } (.matrix (sweep rowsS)) =
      (dcivCurve R o (.matrix (sweep rows))).map fun r =>
        (r.1, r.2.1, { r.2.2 with vraw := J.map fun p => p.1 + p.2 * rs, rseries := some rs }) := by
  have hne : J ≠ [] := by
    rintro rfl
    simp at h2
  refine C190_dc R o rs off J pts ptsS h2 hp hs hup hupS rows rowsS hrows hrowsS hvf hif hr hf ?_ ?_ ?_
  · intro p hp
    obtain ⟨a, b⟩ := hpos p hp
    exact ⟨b.ne', by positivity⟩
  · rw [C64_unipolar R o _ _ (by simpa using hne) (Or.inl (by
      intro t ht
      obtain ⟨p, hp, rfl⟩ := List.mem_map.1 ht
      have := huni p hp
      linarith)), ← hoff]
    exact ⟨_, _, rfl⟩
  · rw [C64_unipolar R o _ _ (by simpa using hne) (Or.inl (by
      intro t ht
      obtain ⟨p, hp, rfl⟩ := List.mem_map.1 ht
      have := huni p hp
      have := mul_nonneg (hpos p hp).2.le h0
      linarith)), ← hoff]
    exact ⟨_, _, rfl⟩

/-- C190 for pumped data. -/
theorem C190_pumped (R : Routines) (o : Opts) (rs : ℝ) (dc dcS : DCIV) (J pts ptsS : List (ℝ × ℝ)) (h2 : 2 ≤ J.length)
    (hv : dcS.vgap = dc.vgap) (hi : dcS.igap = dc.igap) (ho : dcS.offset = dc.offset)
    (hp : Through o 0 (pumpedOffset o dc) J pts) (hs : Through o rs (pumpedOffset o dc) J ptsS)
    (hup : pts.Pairwise fun p q => p.1 < q.1)
    (hupS : ptsS.Pairwise fun p q => p.1 < q.1) (rows rowsS : List (ℝ × ℝ)) (hrows : rows = pts ∨ rows = pts.reverse)
    (hrowsS : rowsS = ptsS ∨ rowsS = ptsS.reverse) (hvf : o.vFmt ∈ ["uV", "mV", "V"])
    (hif : o.iFmt ∈ ["uA", "mA", "A"]) (hr : o.rseries = none) (hf : o.filterData = false)
    (hq : ∀ p ∈ J, p.2 ≠ 0 ∧ 0 ≤ (p.1 + p.2 * rs) / p.2) :
    ivCurve R { o with rseries := some rs } (.matrix (sweep rowsS)) dcS = ivCurve R o (.matrix (sweep rows)) dc := by
  have l1 : pts.length = J.length := by simpa using congrArg List.length hp
  have l2 : ptsS.length = J.length := by simpa using congrArg List.length hs
  have hpo : pumpedOffset { o with rseries := some rs } dcS = pumpedOffset o dc := by
    unfold pumpedOffset
    rw [ho]
  set off := pumpedOffset o dc with hoff
  have sub : ∀ (l : List ℝ) (m c : ℝ), (l.map fun t => t * m - c) = (l.map (· * m)).map fun t => t - c := by
    intro l m c
    rw [List.map_map]
    rfl
  have ei : (J.map fun p => p.2 + off.2).map (fun t => t - off.2) = J.map Prod.snd := by
    rw [List.map_map]
    exact List.map_congr_left fun p _ => by simp
  have ev : (J.map fun p => p.1 + p.2 * 0 + off.1).map (fun t => t - off.1) = J.map Prod.fst := by
    rw [List.map_map]
    exact List.map_congr_left fun p _ => by simp
  have evS : (J.map fun p => p.1 + p.2 * rs + off.1).map (fun t => t - off.1) = J.map fun p => p.1 + p.2 * rs := by
    rw [List.map_map]
    exact List.map_congr_left fun p _ => by simp
  have hfil : ∀ v i, filterIv R o v i = .ok (v, i) := by
    intro v i
    unfold filterIv
    rw [if_pos hf]
  have hfilS : ∀ v i, filterIv R { o with rseries := some rs } v i = .ok (v, i) := hfil
  have e1 := load_sweep R o pts (by omega) hup rows hrows hvf hif
  have e2 : loadIv R { o with rseries := some rs } (.matrix (sweep rowsS)) = _ :=
    load_sweep R o ptsS (by omega) hupS rowsS hrowsS hvf hif
  unfold ivCurve
  rw [e1, e2, hpo, py_bind, py_bind]
  dsimp only
  rw [toReals_num, py_bind, toReals_num, py_bind, toReals_num, py_bind, toReals_num, py_bind, sub, sub, sub, sub,
    hp.fst, hp.snd, hs.fst, hs.snd, ← hoff, ei, ev, evS, hfil, hfilS, py_bind, py_bind]
  dsimp only
  rw [removed hq, py_bind, hr]
  unfold seriesResistance
  dsimp only
  rw [py_bind]
  dsimp only
  rw [toReals_num, py_bind, toReals_num, py_bind, hv, hi, py_bind, py_bind]

/-- C190 applies: a junction with a subgap resistance of 1000 ohms and 10 ohms above the gap, measured through 5 ohms. -/
example (R : Routines) (o : Opts) (h1 : o.vFmt = "mV") (h3 : o.iFmt = "uA") (h4 : o.vMult = 1) (h5 : o.iMult = 1)
    (h6 : o.rseries = none) (h7 : o.filterData = false) (h8 : o.voffset = none) (h9 : o.ioffset = some 1e-6)
    (h10 : o.voffsetRange = .one 3e-4) :
    dcivCurve R { o with rseries := some 5 } (.matrix (sweep [(2.01, 3), (5, 201)])) =
      (dcivCurve R o (.matrix (sweep [(2, 3), (4, 201)]))).map fun r =>
        (r.1, r.2.1, { r.2.2 with vraw := [2e-3 + 2e-6 * 5, 4e-3 + 2e-4 * 5], rseries := some 5 }) := by
  have hu : voltUnit "mV" = 1e-3 := by unfold voltUnit; rw [if_neg (by decide), if_pos rfl]
  have ha : ampUnit "uA" = 1e-6 := by unfold ampUnit; rw [if_pos rfl]
  refine C190_one_sided R o 5 (0, 1e-6) [(2e-3, 2e-6), (4e-3, 2e-4)] [(2, 3), (4, 201)] [(2.01, 3), (5, 201)] (by simp) ?_ ?_
    (by simp; norm_num) (by simp; norm_num) _ _ (Or.inl rfl) (Or.inl rfl) (by simp [h1]) (by simp [h3]) h6 h7
    (by simp [h8, h9]) (by norm_num) ?_ ?_
  · unfold Through
    rw [h1, h3, h4, h5, hu, ha]
    norm_num
  · unfold Through
    rw [h1, h3, h4, h5, hu, ha]
    norm_num
  · intro p hp
    simp only [List.mem_cons, List.not_mem_nil, or_false] at hp
    rcases hp with rfl | rfl <;> norm_num
  · intro p hp
    simp only [List.mem_cons, List.not_mem_nil, or_false] at hp
    rcases hp with rfl | rfl <;> rw [h10] <;> norm_num [VRange.pair]

/-- The same for pumped data, with the offset found in the dc data. -/
example (R : Routines) (o : Opts) (dc : DCIV) (h1 : o.vFmt = "mV") (h3 : o.iFmt = "uA") (h4 : o.vMult = 1) (h5 : o.iMult = 1)
    (h6 : o.rseries = none) (h7 : o.filterData = false) (h8 : o.voffset = none) (h9 : dc.offset = (0, 1e-6)) :
    ivCurve R { o with rseries := some 5 } (.matrix (sweep [(2.01, 3), (5, 201)])) dc =
      ivCurve R o (.matrix (sweep [(2, 3), (4, 201)])) dc := by
  have hu : voltUnit "mV" = 1e-3 := by unfold voltUnit; rw [if_neg (by decide), if_pos rfl]
  have ha : ampUnit "uA" = 1e-6 := by unfold ampUnit; rw [if_pos rfl]
  have hpo : pumpedOffset o dc = (0, 1e-6) := by
    unfold pumpedOffset
    rw [h8, h9]
  refine C190_pumped R o 5 dc dc [(2e-3, 2e-6), (4e-3, 2e-4)] [(2, 3), (4, 201)] [(2.01, 3), (5, 201)] (by simp) rfl rfl rfl
    ?_ ?_ (by simp; norm_num) (by simp; norm_num) _ _ (Or.inl rfl) (Or.inl rfl) (by simp [h1]) (by simp [h3]) h6 h7 ?_
  · unfold Through
    rw [h1, h3, h4, h5, hu, ha, hpo]
    norm_num
  · unfold Through
    rw [h1, h3, h4, h5, hu, ha, hpo]
    norm_num
  · intro p hp
    simp only [List.mem_cons, List.not_mem_nil, or_false] at hp
    rcases hp with rfl | rfl <;> norm_num

end QMix.IvData
