import Verif.Lemmas.IvPass
import Verif.Lemmas.IvFit
import Verif.Lemmas.Interp

/-!
# Lemmas about loading I-V data
-/

namespace QMix.IvData

open Np Fl Clean

/-- The measured points in units V and A, without NaN. -/
noncomputable def scaled (vu iu : ℝ) (m : Mat) : List (Flt × Flt) :=
  (m.rows.map fun r => (fmul (r.getD 0 none) (num vu), fmul (r.getD 1 none) (num iu))).filter
    fun p => notNan p.1 && notNan p.2

theorem scaled_valid (vu iu : ℝ) (m : Mat) :
    valid ((m.rows.map fun r => r.getD 0 none).map (fmul · (num vu)))
      ((m.rows.map fun r => r.getD 1 none).map (fmul · (num iu))) = scaled vu iu m := by
  unfold valid scaled
  congr 1
  rw [List.map_map, List.map_map]
  induction m.rows with
  | nil => rfl
  | cons a l ih => simpa using ih

theorem mem_scaled {vu iu : ℝ} {m : Mat} {p : Flt × Flt} : p ∈ scaled vu iu m ↔
    (∃ r ∈ m.rows, p = (fmul (r.getD 0 none) (num vu), fmul (r.getD 1 none) (num iu))) ∧
      p.1 ≠ none ∧ p.2 ≠ none := by
  unfold scaled notNan
  simp only [List.mem_filter, List.mem_map, Bool.and_eq_true, Option.isSome_iff_ne_none]
  constructor
  · rintro ⟨⟨r, hr, rfl⟩, h⟩; exact ⟨⟨r, hr, rfl⟩, h⟩
  · rintro ⟨⟨r, hr, rfl⟩, h⟩; exact ⟨⟨r, hr, rfl⟩, h⟩

theorem col_two {m : Mat} (h : m.ncol = 2) :
    m.col 0 = .ok (m.rows.map fun r => r.getD 0 none) ∧
      m.col 1 = .ok (m.rows.map fun r => r.getD 1 none) := by
  unfold Mat.col
  rw [h]
  exact ⟨rfl, rfl⟩

theorem loadIv_ok {R : Routines} {o : Opts} {m : Mat} {v i : List Flt}
    (h : loadIv R o (.matrix m) = .ok (v, i)) :
    m.ncol = 2 ∧ ∃ vu iu a b Q, vUnit o.vFmt = .ok vu ∧ iUnit o.iFmt = .ok iu ∧
      argminF ((scaled vu iu m).map Prod.fst) = .ok a ∧ argmaxF ((scaled vu iu m).map Prod.fst) = .ok b ∧
      IsPass (scaled vu iu m) a b Q ∧ a < (scaled vu iu m).length ∧ b < (scaled vu iu m).length ∧
      v = (keep Prod.fst (sortBy R.sorter Prod.fst (none, none) Q)).map Prod.fst ∧
      i = (keep Prod.fst (sortBy R.sorter Prod.fst (none, none) Q)).map Prod.snd := by
  unfold loadIv at h
  dsimp only at h
  by_cases hc : m.ncol = 2
  swap
  · rw [pyAssert_neg hc] at h; cases h
  rw [pyAssert_pos hc, (col_two hc).1, py_bind, (col_two hc).2, py_bind] at h
  obtain ⟨vu, h1, h⟩ := bind_ok_iff.1 h
  obtain ⟨iu, h2, h⟩ := bind_ok_iff.1 h
  rw [removeNansXy_eq (by simp), py_bind, scaled_valid] at h
  dsimp only at h
  obtain ⟨r, hr, h⟩ := bind_ok_iff.1 h
  have hne : scaled vu iu m ≠ [] := by
    intro he
    rw [he] at hr
    cases hr
  obtain ⟨a, b, Q, e1, e2, e3, e4, l1, l2⟩ := takeOnePass_eq (scaled vu iu m) hne
  rw [e3] at hr
  obtain rfl := Except.ok.inj hr
  dsimp only at h
  rw [sortXy_eq R.sorter Q (none, none), py_bind, removeDoublesXy_eq] at h
  obtain ⟨u, hu, h⟩ := bind_ok_iff.1 h
  have h5 := pure_ok_iff.1 h
  exact ⟨hc, vu, iu, a, b, Q, h1, h2, e1, e2, e4, l1, l2, (congrArg Prod.fst h5).symm,
    (congrArg Prod.snd h5).symm⟩

/-- The points that are loaded. -/
theorem loadIv_points {R : Routines} {o : Opts} {m : Mat} {v i : List Flt}
    (h : loadIv R o (.matrix m) = .ok (v, i)) :
    ∃ vu iu T, vUnit o.vFmt = .ok vu ∧ iUnit o.iFmt = .ok iu ∧ v = T.map Prod.fst ∧
      i = T.map Prod.snd ∧ (T.map Prod.fst).Pairwise Below ∧ (∀ p ∈ T, p ∈ scaled vu iu m) ∧ T ≠ [] ∧
      (∃ p ∈ T, ∀ q ∈ scaled vu iu m, fle p.1 q.1) ∧ ∃ p ∈ T, ∀ q ∈ scaled vu iu m, fle q.1 p.1 := by
  obtain ⟨-, vu, iu, a, b, Q, h1, h2, ha, hb, hp, l1, l2, rfl, rfl⟩ := loadIv_ok h
  have hperm := sortBy_perm R.sorter Prod.fst (none, none) Q
  have hQ : ∀ p ∈ sortBy R.sorter Prod.fst (none, none) Q, p ∈ scaled vu iu m :=
    fun p h => hp.mem p (hperm.mem_iff.1 h)
  have hn : ∀ p ∈ sortBy R.sorter Prod.fst (none, none) Q, p.1 ≠ none :=
    fun p h => (mem_scaled.1 (hQ p h)).2.1
  have hnn : none ∉ (scaled vu iu m).map Prod.fst := by
    intro h
    obtain ⟨p, hp, he⟩ := List.mem_map.1 h
    exact (mem_scaled.1 hp).2.1 he
  have key : ∀ x ∈ (scaled vu iu m).map Prod.fst, ∀ y ∈ (scaled vu iu m).map Prod.fst,
      ¬ flt x y → fle y x := by
    intro x hx y hy hxy
    cases x with
    | none => exact absurd hx hnn
    | some x =>
      cases y with
      | none => exact absurd hy hnn
      | some y => exact not_lt.1 hxy
  have hin : ∀ c (hc : c < (scaled vu iu m).length), (c = a ∨ c = b) →
      ∃ p ∈ keep Prod.fst (sortBy R.sorter Prod.fst (none, none) Q),
        p.1 = ((scaled vu iu m)[c]).1 := by
    intro c hc hcab
    have h5 : (scaled vu iu m)[c] ∈ Q := hp.ends (by
      rcases hcab with rfl | rfl
      · exact Or.inl (List.getElem?_eq_getElem hc)
      · exact Or.inr (List.getElem?_eq_getElem hc))
    have := keep_mem Prod.fst _ hn (hperm.mem_iff.2 h5)
    obtain ⟨p, hp1, hp2⟩ := List.mem_map.1 this
    exact ⟨p, hp1, hp2⟩
  refine ⟨vu, iu, _, h1, h2, rfl, rfl, keep_below _ _ (sortBy_sorted _ _ _ _) hn,
    fun p h => hQ p ((keep_sublist Prod.fst _).subset h), ?_, ?_, ?_⟩
  · obtain ⟨p, hp, -⟩ := hin a l1 (Or.inl rfl)
    intro he
    rw [he] at hp
    cases hp
  · obtain ⟨p, hp1, hp2⟩ := hin a l1 (Or.inl rfl)
    obtain ⟨x, hx, hm⟩ := argminF_spec ha hnn
    rw [List.getElem?_map, List.getElem?_eq_getElem l1] at hx
    have hx : ((scaled vu iu m)[a]).1 = x := by simpa using hx
    refine ⟨p, hp1, fun q hq => ?_⟩
    rw [hp2, hx]
    have hxm : x ∈ (scaled vu iu m).map Prod.fst := by
      rw [← hx]; exact List.mem_map_of_mem (List.getElem_mem l1)
    exact key q.1 (List.mem_map_of_mem hq) x hxm (hm _ (List.mem_map_of_mem hq))
  · obtain ⟨p, hp1, hp2⟩ := hin b l2 (Or.inr rfl)
    obtain ⟨x, hx, hm⟩ := argmaxF_spec hb hnn
    rw [List.getElem?_map, List.getElem?_eq_getElem l2] at hx
    have hx : ((scaled vu iu m)[b]).1 = x := by simpa using hx
    refine ⟨p, hp1, fun q hq => ?_⟩
    rw [hp2, hx]
    have hxm : x ∈ (scaled vu iu m).map Prod.fst := by
      rw [← hx]; exact List.mem_map_of_mem (List.getElem_mem l2)
    exact key x hxm q.1 (List.mem_map_of_mem hq) (hm _ (List.mem_map_of_mem hq))

/-- Real numbers of an array. -/
theorem toReals_ok {l : List Flt} {r : List ℝ} (h : toReals l = .ok r) : l = r.map num := by
  induction l generalizing r with
  | nil => obtain rfl := Except.ok.inj h; rfl
  | cons a l ih =>
    unfold toReals at h
    rw [List.mapM_cons] at h
    obtain ⟨x, hx, h⟩ := bind_ok_iff.1 h
    obtain ⟨xs, hxs, h⟩ := bind_ok_iff.1 h
    obtain rfl := Except.ok.inj h
    rw [ih hxs, List.map_cons]
    congr 1
    cases a with
    | none => cases hx
    | some a =>
      dsimp only at hx
      split_ifs at hx with hc
      obtain rfl := Except.ok.inj hx
      push Not at hc
      unfold num
      rw [EReal.coe_toReal hc.1 hc.2]

theorem toReals_num (r : List ℝ) : toReals (r.map num) = .ok r := by
  unfold toReals
  induction r with
  | nil => rfl
  | cons a l ih =>
    rw [List.map_cons, List.mapM_cons, ih]
    simp [num, py_bind]

theorem div_one_elem {l : List ℝ} {c : ℝ} (h : c ≠ 0) : Np.div l [c] = .ok (l.map (· / c)) := by
  unfold Np.div
  rw [if_neg (by simpa using h.symm)]
  unfold Np.zip
  match l with
  | [] => simp
  | [a] => simp
  | a :: b :: l => simp

theorem div_one_ok {l r : List ℝ} {c : ℝ} (h : Np.div l [c] = .ok r) : c ≠ 0 ∧ r = l.map (· / c) := by
  by_cases hc : c = 0
  · unfold Np.div at h
    rw [if_pos (by simp [hc])] at h
    cases h
  · rw [div_one_elem hc] at h
    exact ⟨hc, (Except.ok.inj h).symm⟩

theorem zip_map {α β γ δ : Type} (f : α → β → γ) (g : δ → α) (h : δ → β) (l : List δ) :
    Np.zip f (l.map g) (l.map h) = .ok (l.map fun p => f (g p) (h p)) := by
  unfold Np.zip
  rw [if_pos (by simp)]
  congr 1
  induction l with
  | nil => rfl
  | cons a l ih => simp [ih]

theorem amax_eq {l : List ℝ} {m : ℝ} (hm : m ∈ l) (h : ∀ y ∈ l, y ≤ m) : amax l = .ok m := by
  obtain ⟨x, hx⟩ := amax_ok (l := l) (by rintro rfl; cases hm)
  rw [hx, le_antisymm (h x (amax_mem hx)) ((amax_le hx x).1 le_rfl m hm)]

theorem minimum_eq {l : List ℝ} {m : ℝ} (hm : m ∈ l) (h : ∀ y ∈ l, m ≤ y) : minimum l = .ok m := by
  unfold minimum
  rw [amax_eq (m := -m) (List.mem_map.2 ⟨m, hm, rfl⟩), py_bind, neg_neg]
  · rfl
  · intro y hy
    obtain ⟨t, ht, rfl⟩ := List.mem_map.1 hy
    exact neg_le_neg (h t ht)

theorem linspace_eq {a b : ℝ} {n : ℤ} (h : 0 ≤ n) :
    linspace a b n = .ok (tab n.toNat fun i => a + i * ((b - a) / (n - 1 : ℤ))) := by
  unfold linspace
  rw [raiseIf_neg (not_lt.2 h)]
  rfl

theorem linspace_ok {a b : ℝ} {n : ℤ} {r : List ℝ} (h : linspace a b n = .ok r) :
    0 ≤ n ∧ r = tab n.toNat fun i => a + i * ((b - a) / (n - 1 : ℤ)) := by
  by_cases hn : 0 ≤ n
  · rw [linspace_eq hn] at h; exact ⟨hn, (Except.ok.inj h).symm⟩
  · unfold linspace at h
    rw [raiseIf_pos (not_le.1 hn)] at h
    cases h

theorem interp_points {x : List ℝ} {L : List (ℝ × ℝ)} (h : L ≠ []) :
    interp x (L.map Prod.fst) (L.map Prod.snd) = .ok (x.map (interpAt L)) := by
  unfold interp
  rw [raiseIf_neg (by simp), raiseIf_neg (by simpa using h)]
  rfl

theorem interp_ok {x xp fp r : List ℝ} (h : interp x xp fp = .ok r) :
    ∃ L : List (ℝ × ℝ), L ≠ [] ∧ xp = L.map Prod.fst ∧ fp = L.map Prod.snd ∧ r = x.map (interpAt L) := by
  unfold interp at h
  obtain ⟨_, h1, h⟩ := bind_ok_iff.1 h
  obtain ⟨_, h2, h⟩ := bind_ok_iff.1 h
  rw [raiseIf_ok] at h1 h2
  push Not at h1
  obtain ⟨L, e1, e2⟩ := exists_points h1
  refine ⟨L, ?_, e1.symm, e2.symm, ?_⟩
  · rintro rfl; exact h2 e1.symm
  · rw [← Except.ok.inj h, ← e1, ← e2]

end QMix.IvData
