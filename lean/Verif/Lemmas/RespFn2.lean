import Verif.Lemmas.RespFn

/-!
# Lemmas about the response functions: sampling and interpolation
-/

namespace QMix.RespFn

open QMix.Np QMix.MathFn

theorem pyGet_nat {l : List ℝ} {i : ℕ} {x : ℝ} (h : pyGet l (i : ℤ) = .ok x) : i < l.length ∧ x = l.getD i 0 := by
  have hi : i < l.length := by
    by_contra hc
    unfold pyGet at h
    split at h
    · cases h
    · rename_i j hj
      have hlt := pyIndex_lt hj
      unfold pyIndex at hj
      split_ifs at hj with h1 h2
      omega
      omega
  refine ⟨hi, ?_⟩
  have i1 : pyIndex l.length (i : ℤ) = .ok i := by rw [pyIndex_nonneg (by omega) (by omega)]; simp
  rw [eq_tab l 0, pyGet_tab _ i1] at h
  cases h
  rfl

theorem pyGet_nat_ok {l : List ℝ} {i : ℕ} (h : i < l.length) : pyGet l (i : ℤ) = .ok (l.getD i 0) := by
  have i1 : pyIndex l.length (i : ℤ) = .ok i := by rw [pyIndex_nonneg (by omega) (by omega)]; simp
  conv_lhs => rw [eq_tab l 0]
  exact pyGet_tab _ i1

theorem pyGet_last_ok {l : List ℝ} (h : 0 < l.length) : pyGet l (-1) = .ok (l.getD (l.length - 1) 0) := by
  have i1 : pyIndex l.length (-1) = .ok (l.length - 1) := by
    rw [pyIndex_neg (by omega) (by omega)]
    congr 1
    omega
  conv_lhs => rw [eq_tab l 0]
  exact pyGet_tab _ i1

theorem argmin_lt {l : List ℝ} {i : ℕ} (h : argmin l = .ok i) : i < l.length := by
  obtain ⟨m, hm, -⟩ := argmin_spec h
  exact (List.getElem?_eq_some_iff.1 hm).1

theorem sampleCurve_ok {voltage current : List ℝ} {maxNpts : ℤ} {sm : ℝ} {r : List ℤ}
    (h : sampleCurve voltage current maxNpts sm = .ok r) :
    ∃ (g : List ℝ) (s : Sample) (first final middle : List ℤ) (lo hi : ℕ),
      0 < voltage.length ∧ g.length = voltage.length ∧ (∀ x ∈ g, 0 ≤ x) ∧
      pyFor (List.range voltage.length) { idx := [0], cumsumLast := 0, voltageLast := voltage.getD 0 0 }
        (loopBody voltage (cumsum g) maxNpts ((cumsum g).getD (voltage.length - 1) 0)) = .ok s ∧
      pyRangeStep 0 NSTEP 20 = .ok first ∧
      pyRangeStep (voltage.length - NSTEP - 1) voltage.length 20 = .ok final ∧
      lo < voltage.length ∧ hi < voltage.length ∧
      pyRangeStep lo hi (((hi : ℤ) - lo) / 30) = .ok middle ∧
      r = (s.idx ++ first ++ final ++ middle).toFinset.sort (· ≤ ·) := by
  unfold sampleCurve at h
  obtain ⟨s1, h1, h⟩ := bind_ok_iff.1 h
  obtain ⟨s2, h2, h⟩ := bind_ok_iff.1 h
  obtain ⟨v1, hv1, h⟩ := bind_ok_iff.1 h
  obtain ⟨v0, hv0, h⟩ := bind_ok_iff.1 h
  obtain ⟨sigma, hs, h⟩ := bind_ok_iff.1 h
  obtain ⟨g, hg, h⟩ := bind_ok_iff.1 h
  obtain ⟨total, ht, h⟩ := bind_ok_iff.1 h
  obtain ⟨s, hloop, h⟩ := bind_ok_iff.1 h
  obtain ⟨first, hf, h⟩ := bind_ok_iff.1 h
  obtain ⟨final, hfi, h⟩ := bind_ok_iff.1 h
  obtain ⟨lo, hlo, h⟩ := bind_ok_iff.1 h
  obtain ⟨hi, hhi, h⟩ := bind_ok_iff.1 h
  obtain ⟨middle, hm, h⟩ := bind_ok_iff.1 h
  cases h
  obtain ⟨hpos, rfl⟩ := pyGet_nat (i := 0) hv0
  obtain ⟨g1, g2, g3⟩ := gaussConv_ok hg
  have l2 := slope_length h2
  have glen : g.length = voltage.length := by rw [g3, tab_length, List.length_map, l2]
  have clen : (cumsum g).length = voltage.length := by unfold cumsum; rw [tab_length, glen]
  rw [pyGet_last_ok (by omega), clen] at ht
  cases ht
  have a := argmin_lt hlo
  have b := argmin_lt hhi
  rw [List.length_map] at a b
  refine ⟨g, s, first, final, middle, lo, hi, hpos, glen, ?_, hloop, hf, hfi, a, b, hm, rfl⟩
  intro x hx
  rw [g3, List.length_map] at hx
  obtain ⟨i, hi', rfl⟩ := mem_tab.1 hx
  unfold smoothAt
  refine Finset.sum_nonneg fun j _ => mul_nonneg (win_pos g1 j).le ?_
  rw [List.getD_eq_getElem?_getD, List.getElem?_map]
  cases s2[reflect (s2.map fun t => |t|).length ((i : ℤ) + (winLen sigma 3 / 2 : ℕ) - j)]? with
  | none => simp
  | some y => simpa using abs_nonneg y

theorem cumsum_getD {g : List ℝ} {i : ℕ} (h : i < g.length) : (cumsum g).getD i 0 = (g.take (i + 1)).sum := by
  unfold cumsum
  rw [tab_getD h]

theorem cumsum_mono {g : List ℝ} (h : ∀ x ∈ g, 0 ≤ x) {i j : ℕ} (hij : i ≤ j) (hj : j < g.length) :
    0 ≤ (cumsum g).getD i 0 ∧ (cumsum g).getD i 0 ≤ (cumsum g).getD j 0 := by
  rw [cumsum_getD (by omega), cumsum_getD hj]
  refine ⟨List.sum_nonneg fun x hx => h x (List.mem_of_mem_take hx), ?_⟩
  have e : g.take (j + 1) = g.take (i + 1) ++ (g.drop (i + 1)).take (j - i) := by
    rw [← List.take_add]
    congr 1
    omega
  rw [e, List.sum_append]
  have : 0 ≤ ((g.drop (i + 1)).take (j - i)).sum :=
    List.sum_nonneg fun x hx => h x (List.mem_of_mem_drop (List.mem_of_mem_take hx))
  linarith

/-- Membership in the sampled indices. -/
theorem sampleCurve_mem {voltage current : List ℝ} {maxNpts : ℤ} {sm : ℝ} {r : List ℤ}
    (h : sampleCurve voltage current maxNpts sm = .ok r) :
    r.SortedLT ∧
    (∀ i < voltage.length, nearGap (voltage.getD i 0) ∨ nearEnd voltage.length i → (i : ℤ) ∈ r) ∧
    (201 ≤ voltage.length → ∀ k ∈ r, 0 ≤ k ∧ k < voltage.length) ∧
    (voltage.length < 201 → ∃ k ∈ r, k < 0) := by
  obtain ⟨g, s, first, final, middle, lo, hi, hpos, glen, gpos, hloop, hf, hfi, hlo, hhi, hm, rfl⟩ :=
    sampleCurve_ok h
  obtain ⟨k1, k2⟩ := loop_keeps (by unfold cumsum; rw [tab_length, glen]) hloop
  refine ⟨Finset.sortedLT_sort _, ?_, ?_, ?_⟩
  · intro i hi hne
    rw [Finset.mem_sort, List.mem_toFinset]
    simp only [List.mem_append]
    exact Or.inl (Or.inl (Or.inl (k2 i hi hne)))
  · intro hn k hk
    rw [Finset.mem_sort, List.mem_toFinset] at hk
    simp only [List.mem_append] at hk
    rcases hk with ((hk | hk) | hk) | hk
    · rcases k1 k hk with h' | h'
      · omega
      · exact h'
    · have := pyRangeStep_mem hf hk
      unfold NSTEP at this
      omega
    · have := pyRangeStep_mem hfi hk
      unfold NSTEP at this
      omega
    · have := pyRangeStep_mem hm hk
      omega
  · intro hn
    refine ⟨(voltage.length : ℤ) - NSTEP - 1, ?_, by unfold NSTEP; omega⟩
    rw [Finset.mem_sort, List.mem_toFinset]
    simp only [List.mem_append]
    refine Or.inl (Or.inr ?_)
    unfold pyRangeStep at hfi
    rw [if_neg (by norm_num), if_pos (by norm_num)] at hfi
    cases hfi
    rw [List.mem_map]
    refine ⟨0, ?_, by simp⟩
    rw [List.mem_range]
    unfold NSTEP
    omega

/-- The number of sampled indices. -/
theorem sampleCurve_count {voltage current : List ℝ} {maxNpts : ℤ} {sm : ℝ} {r : List ℤ}
    (hm0 : 0 ≤ maxNpts) (hv : voltage.SortedLT)
    (h : sampleCurve voltage current maxNpts sm = .ok r) :
    (r.length : ℝ) ≤ maxNpts + (voltage.getD (voltage.length - 1) 0 - voltage.getD 0 0)
      + gapCount voltage voltage.length + 87 := by
  obtain ⟨g, s, first, final, middle, lo, hi, hpos, glen, gpos, hloop, hf, hfi, hlo, hhi, hm, rfl⟩ :=
    sampleCurve_ok h
  have mono : ∀ i j, i ≤ j → j < voltage.length → voltage.getD i 0 ≤ voltage.getD j 0 := by
    intro i j hij hj
    rcases hij.eq_or_lt with rfl | hlt
    · exact le_rfl
    · have := List.SortedLT.getElem_lt_getElem_of_lt hv (i := i) (j := j) (hi := by omega) (hj := hj) hlt
      rw [List.getD_eq_getElem?_getD, List.getD_eq_getElem?_getD, List.getElem?_eq_getElem (by omega),
        List.getElem?_eq_getElem hj]
      exact this.le
  have c := loop_count (by unfold cumsum; rw [tab_length, glen]) hm0
    (cumsum_mono gpos (i := voltage.length - 1) (j := voltage.length - 1) le_rfl (by omega)).1 mono
    (fun i j hij hj => (cumsum_mono gpos hij (by omega)).2)
    (fun j hj => (cumsum_mono gpos (le_refl j) (by omega)).1)
    (fun j hj => (cumsum_mono gpos (i := j) (j := voltage.length - 1) (by omega) (by omega)).2) hpos hloop
  have l1 : first.length = 10 := by cases hf; rfl
  have l2 : final.length = 11 := by
    unfold pyRangeStep at hfi
    rw [if_neg (by norm_num), if_pos (by norm_num)] at hfi
    cases hfi
    rw [List.length_map, List.length_range]
    unfold NSTEP
    omega
  have l3 := middle_length rfl hm
  have l4 : ((s.idx ++ first ++ final ++ middle).toFinset.sort (· ≤ ·)).length
      ≤ s.idx.length + 80 := by
    rw [Finset.length_sort]
    refine (List.toFinset_card_le _).trans ?_
    simp only [List.length_append]
    omega
  have l4' : (((s.idx ++ first ++ final ++ middle).toFinset.sort (· ≤ ·)).length : ℝ)
      ≤ s.idx.length + 80 := by exact_mod_cast l4
  linarith

/-! ## Taking the samples -/

theorem mapM_ok {α β : Type} {f : α → Py β} {l : List α} {r : List β} (h : l.mapM f = .ok r) :
    List.Forall₂ (fun a b => f a = .ok b) l r := by
  induction l generalizing r with
  | nil =>
    rw [List.mapM_nil] at h
    cases h
    exact List.Forall₂.nil
  | cons a l ih =>
    rw [List.mapM_cons] at h
    obtain ⟨b, hb, h⟩ := bind_ok_iff.1 h
    obtain ⟨bs, hbs, h⟩ := bind_ok_iff.1 h
    cases h
    exact List.Forall₂.cons hb (ih hbs)

theorem mapM_of {α β : Type} {f : α → Py β} (g : α → β) {l : List α} (h : ∀ a ∈ l, f a = .ok (g a)) :
    l.mapM f = .ok (l.map g) := by
  induction l with
  | nil => rfl
  | cons a l ih =>
    rw [List.mapM_cons, h a (by simp), py_bind, ih fun b hb => h b (by simp [hb]), py_bind]
    rfl

theorem takeIdx_get {a : List ℝ} {idx : List ℤ} {r : List ℝ} (h : takeIdx a idx = .ok r) :
    r.length = idx.length ∧ ∀ j (hj : j < idx.length), pyGet a idx[j] = .ok (r.getD j 0) := by
  have := mapM_ok h
  have hl := this.length_eq
  refine ⟨hl.symm, ?_⟩
  intro j hj
  rw [List.getD_eq_getElem?_getD, List.getElem?_eq_getElem (by omega)]
  exact this.get hj (by omega)

theorem takeIdx_of {a : List ℝ} {idx : List ℤ} (h : ∀ k ∈ idx, 0 ≤ k ∧ k < a.length) :
    takeIdx a idx = .ok (idx.map fun (k : ℤ) => a.getD k.toNat 0) := by
  apply mapM_of
  intro k hk
  obtain ⟨h1, h2⟩ := h k hk
  have : k = (k.toNat : ℤ) := by omega
  conv_lhs => rw [this]
  exact pyGet_nat_ok (by omega)

/-- What a successful interpolation needs and gives. -/
theorem interp_ok {S : Splines} {x y : List ℝ} {k : ℤ} {f : ℝ → ℝ} (h : interp S x y k = .ok f) :
    x.length = y.length ∧ x.SortedLT ∧ f = S.eval x y k ∧ ∀ i, i < x.length → f (x.getD i 0) = y.getD i 0 := by
  unfold interp at h
  obtain ⟨_, h1, h⟩ := bind_ok_iff.1 h
  obtain ⟨_, h2, h⟩ := bind_ok_iff.1 h
  obtain ⟨_, h3, h⟩ := bind_ok_iff.1 h
  obtain ⟨_, h4, h⟩ := bind_ok_iff.1 h
  have h1 := not_not.1 (raiseIf_ok.1 h1)
  have h2 := not_not.1 (raiseIf_ok.1 h2)
  have h3 := not_not.1 (raiseIf_ok.1 h3)
  have h4 := not_not.1 (raiseIf_ok.1 h4)
  cases h
  exact ⟨h1, h2, rfl, S.passes x y k h2 h1 h3.1 h3.2 h4⟩

theorem interp_of (S : Splines) {x y : List ℝ} {k : ℤ} (h1 : x.length = y.length) (h2 : x.SortedLT)
    (h3 : 1 ≤ k ∧ k ≤ 5) (h4 : k < x.length) : interp S x y k = .ok (S.eval x y k) := by
  unfold interp
  rw [raiseIf_neg (not_not.2 h1), raiseIf_neg (not_not.2 h2), raiseIf_neg (not_not.2 h3),
    raiseIf_neg (not_not.2 h4)]
  rfl

/-- The interpolation passes through the samples. -/
theorem samples_exact {S : Splines} {v c x y : List ℝ} {idx : List ℤ} {k : ℤ} {f : ℝ → ℝ}
    (hx : takeIdx v idx = .ok x) (hy : takeIdx c idx = .ok y) (h : interp S x y k = .ok f)
    {i : ℕ} (hi : (i : ℤ) ∈ idx) : f (v.getD i 0) = c.getD i 0 := by
  obtain ⟨-, -, -, he⟩ := interp_ok h
  obtain ⟨lx, gx⟩ := takeIdx_get hx
  obtain ⟨ly, gy⟩ := takeIdx_get hy
  obtain ⟨j, hj, hji⟩ := List.getElem_of_mem hi
  have e := he j (by omega)
  have a := gx j hj
  have b := gy j hj
  rw [hji] at a b
  rw [← (pyGet_nat a).2, ← (pyGet_nat b).2]
  exact e

theorem setup_ok {S : Splines} {v c kk : List ℝ} {p : Params} {f : Interps}
    (h : setupInterpolation S v c kk p = .ok f) :
    ∃ dcIdx kkIdx xd yd xk yk, sampleCurve v c p.maxNptsDc 0.25 = .ok dcIdx ∧
      sampleCurve v c p.maxNptsKk 1 = .ok kkIdx ∧ takeIdx v dcIdx = .ok xd ∧ takeIdx c dcIdx = .ok yd ∧
      takeIdx v kkIdx = .ok xk ∧ takeIdx kk kkIdx = .ok yk ∧
      interp S xd yd p.splineOrder = .ok f.dc ∧ interp S xk yk p.splineOrder = .ok f.kk ∧
      checkErr p.checkError (errors v c f.dc) p.maxInterpError = .ok () ∧
      checkErr p.checkError (errors v kk f.kk) p.maxInterpError = .ok () := by
  unfold setupInterpolation at h
  obtain ⟨dcIdx, h1, h⟩ := bind_ok_iff.1 h
  obtain ⟨kkIdx, h2, h⟩ := bind_ok_iff.1 h
  obtain ⟨xd, h3, h⟩ := bind_ok_iff.1 h
  obtain ⟨yd, h4, h⟩ := bind_ok_iff.1 h
  obtain ⟨fd, h5, h⟩ := bind_ok_iff.1 h
  obtain ⟨xk, h6, h⟩ := bind_ok_iff.1 h
  obtain ⟨yk, h7, h⟩ := bind_ok_iff.1 h
  obtain ⟨fk, h8, h⟩ := bind_ok_iff.1 h
  obtain ⟨_, h9, h⟩ := bind_ok_iff.1 h
  obtain ⟨_, h10, h⟩ := bind_ok_iff.1 h
  cases h
  exact ⟨dcIdx, kkIdx, xd, yd, xk, yk, h1, h2, h3, h4, h6, h7, h5, h8, h9, h10⟩

theorem respInit_ok {S : Splines} {v c : List ℝ} {p : Params} {r : Obj} (h : respInit S v c p = .ok r) :
    0 < v.length ∧ v.getD 0 0 = 0 ∧ 5 < v.getD (v.length - 1) 0 ∧ r.voltage = reflected v ∧
      smear p.vSmear (reflected v) (reflected c) = .ok r.current ∧
      kkTrans r.voltage r.current p.kkN = .ok r.currentKk ∧
      ∃ f, setupInterpolation S r.voltage r.current r.currentKk p = .ok f ∧ r.fIdc = f.dc ∧ r.fIkk = f.kk := by
  unfold respInit at h
  obtain ⟨a, h1, h⟩ := bind_ok_iff.1 h
  obtain ⟨_, h2, h⟩ := bind_ok_iff.1 h
  obtain ⟨b, h3, h⟩ := bind_ok_iff.1 h
  obtain ⟨_, h4, h⟩ := bind_ok_iff.1 h
  obtain ⟨cur, h5, h⟩ := bind_ok_iff.1 h
  obtain ⟨kk, h6, h⟩ := bind_ok_iff.1 h
  obtain ⟨f, h7, h⟩ := bind_ok_iff.1 h
  cases h
  obtain ⟨hpos, rfl⟩ := pyGet_nat (i := 0) h1
  rw [pyGet_last_ok hpos] at h3
  cases h3
  exact ⟨hpos, pyAssert_ok.1 h2, pyAssert_ok.1 h4, rfl, h5, h6, f, h7, rfl, rfl⟩

end QMix.RespFn
