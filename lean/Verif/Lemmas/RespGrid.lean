import Verif.Lemmas.RespFn3

/-!
# Response functions on evenly spaced voltages are always accepted
-/

namespace QMix.RespFn

open QMix.Np QMix.MathFn

/-- The voltages `0, 1 / M, ..., N / M`. -/
noncomputable def grid (M N : ℕ) : List ℝ := tab (N + 1) fun t => (t : ℝ) / M

theorem grid_reflected {M N : ℕ} (hM : 0 < M) :
    reflected (grid M N) = tab (2 * N + 1) fun t => -(N / M : ℝ) + 1 / M * (t : ℝ) := by
  have hM' : (M : ℝ) ≠ 0 := by exact_mod_cast hM.ne'
  unfold grid
  rw [reflected_tab (N + 1) (by omega)]
  apply tab_ext (by omega)
  intro i hi
  split_ifs with h
  · rw [show N + 1 - 1 - i = N - i by omega, Nat.cast_sub (by omega)]
    field_simp
    ring
  · rw [show i - (N + 1 - 1) = i - N by omega, Nat.cast_sub (by omega)]
    field_simp
    ring

theorem argmin_grid {n : ℕ} {a d x : ℝ} {k i : ℕ} (hd : d ≠ 0) (hk : k < n) (he : a + d * k = x)
    (h : argmin ((tab n fun t => a + d * (t : ℝ)).map fun t => |t - x|) = .ok i) : i = k := by
  rw [map_tab] at h
  obtain ⟨m, h1, h2, -⟩ := argmin_spec h
  have h3 := h2 0 (mem_tab.2 ⟨k, hk, by rw [he]; simp⟩)
  rw [tab_get?] at h1
  split_ifs at h1 with h4
  cases h1
  have h5 := abs_eq_zero.1 (le_antisymm h3 (abs_nonneg _))
  have : d * (i : ℝ) = d * k := by linarith
  exact_mod_cast mul_left_cancel₀ hd this

theorem grid_sample {M N k : ℕ} {sm : ℝ} (hM : 15 ≤ M) (hN : 5 * M < N) (hk : 3 * (sm * M) = k) (h1 : 1 ≤ k)
    (h2 : k ≤ N) (c : ℕ → ℝ) (m : ℤ) :
    ∃ r, sampleCurve (reflected (grid M N)) (tab (2 * N + 1) c) m sm = .ok r := by
  have hM' : (0 : ℝ) < M := by exact_mod_cast (show 0 < M by omega)
  have e : sm / (1 / (M : ℝ)) = sm * M := by field_simp
  rw [grid_reflected (by omega)]
  apply sampleCurve_even (by positivity) (by omega)
  · rw [e, mul_comm, hk]
    exact_mod_cast h1
  · rw [e, winLen_int hk]
    omega
  · intro lo hi hlo hhi
    have e1 : (fun t : ℝ => |t + 1|) = fun t => |t - -1| := by
      funext t
      rw [sub_neg_eq_add]
    rw [e1] at hlo
    have a := argmin_grid (k := N - M) (by positivity) (by omega) (by
      rw [Nat.cast_sub (by omega)]
      field_simp
      ring) hlo
    have b := argmin_grid (k := N + M) (by positivity) (by omega) (by
      push_cast
      field_simp
      ring) hhi
    subst a b
    omega

theorem takeIdx_sorted {v : List ℝ} {idx : List ℤ} (hv : v.SortedLT) (hi : idx.SortedLT)
    (hb : ∀ k ∈ idx, 0 ≤ k ∧ k < v.length) : (idx.map fun (k : ℤ) => v.getD k.toNat 0).SortedLT := by
  apply List.Pairwise.sortedLT
  rw [List.pairwise_map]
  refine List.Pairwise.imp_of_mem ?_ (List.SortedLT.pairwise hi)
  intro a b ha hb' hab
  obtain ⟨a1, a2⟩ := hb a ha
  obtain ⟨b1, b2⟩ := hb b hb'
  have := List.SortedLT.getElem_lt_getElem_of_lt hv (i := a.toNat) (j := b.toNat) (hi := by omega) (hj := by omega)
    (by omega)
  rw [List.getD_eq_getElem?_getD, List.getD_eq_getElem?_getD, List.getElem?_eq_getElem (by omega),
    List.getElem?_eq_getElem (by omega)]
  exact this

theorem six_le {v c : List ℝ} {m : ℤ} {sm : ℝ} {r : List ℤ} (h : sampleCurve v c m sm = .ok r)
    (hl : 201 ≤ v.length) : 6 ≤ r.length := by
  have hm := (sampleCurve_mem h).2.1
  have : ({0, 1, 2, (v.length : ℤ) - 3, (v.length : ℤ) - 2, (v.length : ℤ) - 1} : Finset ℤ) ⊆ r.toFinset := by
    intro x hx
    rw [List.mem_toFinset]
    simp only [Finset.mem_insert, Finset.mem_singleton] at hx
    have h0 : 0 ≤ x := by omega
    have := hm x.toNat (by omega) (Or.inr (by unfold nearEnd; omega))
    rwa [Int.toNat_of_nonneg h0] at this
  have c6 : ({0, 1, 2, (v.length : ℤ) - 3, (v.length : ℤ) - 2, (v.length : ℤ) - 1} : Finset ℤ).card = 6 := by
    have hn : (201 : ℤ) ≤ v.length := by exact_mod_cast hl
    generalize (v.length : ℤ) = n at hn
    rw [Finset.card_insert_of_notMem, Finset.card_insert_of_notMem, Finset.card_insert_of_notMem,
      Finset.card_insert_of_notMem, Finset.card_insert_of_notMem, Finset.card_singleton]
    all_goals simp only [Finset.mem_insert, Finset.mem_singleton]
    all_goals omega
  rw [← c6]
  exact (Finset.card_le_card this).trans (List.toFinset_card_le r)

/-- Interpolation succeeds once sampling does, for increasing voltages, if errors are not checked. -/
theorem setup_of {S : Splines} {v c kk : List ℝ} {p : Params} {d k : List ℤ} (hv : v.SortedLT)
    (hl : 201 ≤ v.length) (hc : c.length = v.length) (hkk : kk.length = v.length)
    (ho : 1 ≤ p.splineOrder ∧ p.splineOrder ≤ 5)
    (hd : sampleCurve v c p.maxNptsDc 0.25 = .ok d) (hk : sampleCurve v c p.maxNptsKk 1 = .ok k)
    (e1 : checkErr p.checkError (errors v c (S.eval (d.map fun (k : ℤ) => v.getD k.toNat 0)
      (d.map fun (k : ℤ) => c.getD k.toNat 0) p.splineOrder)) p.maxInterpError = .ok ())
    (e2 : checkErr p.checkError (errors v kk (S.eval (k.map fun (k : ℤ) => v.getD k.toNat 0)
      (k.map fun (k : ℤ) => kk.getD k.toNat 0) p.splineOrder)) p.maxInterpError = .ok ()) :
    ∃ f, setupInterpolation S v c kk p = .ok f ∧
      f.dc = S.eval (d.map fun (k : ℤ) => v.getD k.toNat 0) (d.map fun (k : ℤ) => c.getD k.toNat 0) p.splineOrder := by
  obtain ⟨d1, -, d3, -⟩ := sampleCurve_mem hd
  obtain ⟨k1, -, k3, -⟩ := sampleCurve_mem hk
  have d3 := d3 hl
  have k3 := k3 hl
  have d6 := six_le hd hl
  have k6 := six_le hk hl
  unfold setupInterpolation
  rw [hd, py_bind, hk, py_bind, takeIdx_of d3, py_bind, takeIdx_of (by rw [hc]; exact d3), py_bind,
    interp_of S (by simp) (takeIdx_sorted hv d1 d3) ho (by rw [List.length_map]; omega), py_bind,
    takeIdx_of k3, py_bind, takeIdx_of (by rw [hkk]; exact k3), py_bind,
    interp_of S (by simp) (takeIdx_sorted hv k1 k3) ho (by rw [List.length_map]; omega), py_bind,
    e1, py_bind, e2, py_bind]
  exact ⟨_, rfl, rfl⟩

theorem grid_sorted {M N : ℕ} (hM : 0 < M) : (reflected (grid M N)).SortedLT := by
  have hM' : (0 : ℝ) < M := by exact_mod_cast hM
  rw [grid_reflected hM]
  apply List.Pairwise.sortedLT
  unfold tab
  rw [List.pairwise_map]
  refine List.Pairwise.imp ?_ List.pairwise_lt_range
  intro i j hij
  have : (i : ℝ) < j := by exact_mod_cast hij
  have : 1 / (M : ℝ) * i < 1 / M * j := mul_lt_mul_of_pos_left this (by positivity)
  linarith

theorem grid_smear {M N : ℕ} (hM : 0 < M) (hN : 0 < N) {c : ℕ → ℝ} {sm : Option ℝ}
    (hs : ∀ s, sm = some s → 1 ≤ 3 * (s * M) ∧ 6 * (s * M) + 1 / 10 ^ 5 ≤ 2 * N + 1) :
    ∃ cur, smear sm (reflected (grid M N)) (tab (2 * N + 1) c) = .ok (tab (2 * N + 1) cur) ∧
      (sm = none → cur = c) ∧ ∀ s, sm = some s → cur = fun i =>
        smoothAt (s * M) 3 (tab (2 * N + 1) fun t => c t - (-(N / M : ℝ) + 1 / M * (t : ℝ))) i
          + (-(N / M : ℝ) + 1 / M * (i : ℝ)) := by
  have hM' : (0 : ℝ) < M := by exact_mod_cast hM
  cases sm with
  | none => exact ⟨c, rfl, fun _ => rfl, fun s h => by cases h⟩
  | some s =>
    obtain ⟨s1, s2⟩ := hs s rfl
    unfold smear
    dsimp only
    rw [grid_reflected hM]
    have i0 : pyIndex (2 * N + 1) 0 = .ok 0 := pyIndex_nonneg (by omega) (by omega)
    have i1 : pyIndex (2 * N + 1) 1 = .ok 1 := pyIndex_nonneg (by omega) (by omega)
    rw [pyGet_tab _ i1, py_bind, pyGet_tab _ i0, py_bind, zip_tab, py_bind]
    have e : -(N / M : ℝ) + 1 / M * ((1 : ℕ) : ℝ) - (-(N / M : ℝ) + 1 / M * ((0 : ℕ) : ℝ)) = 1 / M := by
      push_cast; ring
    have e2 : s / (1 / (M : ℝ)) = s * M := by field_simp
    have hw : winLen (s * M) 3 ≤ 2 * N + 1 := by
      unfold winLen
      have : ⌈3 * (s * M) + 1 / 10 ^ 5 - -(3 * (s * M))⌉ ≤ ((2 * N + 1 : ℕ) : ℤ) := by
        rw [Int.ceil_le]
        push_cast
        linarith
      omega
    rw [e, fdiv_ok (by positivity), py_bind, e2, gaussConv_eq (by linarith) (by rw [tab_length]; exact hw), py_bind,
      tab_length, zip_tab]
    refine ⟨_, rfl, fun h => (by cases h), fun s' h => ?_⟩
    cases h
    rfl

theorem checkErr_off (err : List ℝ) (l : ℝ) : checkErr false err l = .ok () := rfl

/-- On the grid every current is accepted if errors are not checked. -/
theorem grid_init (S : Splines) {M N : ℕ} (h4 : 4 ∣ M) (hM : 15 ≤ M) (hN : 5 * M < N) (hN1 : 100 ≤ N)
    {c : List ℝ} (hc : c.length = N + 1) {p : Params}
    (hs : ∀ s, p.vSmear = some s → 1 ≤ 3 * (s * M) ∧ 6 * (s * M) + 1 / 10 ^ 5 ≤ 2 * N + 1)
    (hk : 1 ≤ p.kkN) (ho : 1 ≤ p.splineOrder ∧ p.splineOrder ≤ 5) (hce : p.checkError = false) :
    ∃ r, respInit S (grid M N) c p = .ok r := by
  have hM' : (0 : ℝ) < M := by exact_mod_cast (show 0 < M by omega)
  have hgl : (grid M N).length = N + 1 := tab_length _ _
  have g0 : pyGet (grid M N) 0 = .ok 0 := by
    have := pyGet_tab (n := N + 1) (k := 0) (i := 0) (fun t => (t : ℝ) / M) (pyIndex_nonneg (by omega) (by omega))
    rw [Nat.cast_zero, zero_div] at this
    exact this
  have gl : pyGet (grid M N) (-1) = .ok ((N : ℝ) / M) := by
    have := pyGet_tab (n := N + 1) (k := -1) (i := N) (fun t => (t : ℝ) / M) (by
      rw [pyIndex_neg (by omega) (by omega)]
      congr 1
      omega)
    exact this
  have g5 : (N : ℝ) / M > 5 := by
    rw [gt_iff_lt, lt_div_iff₀ hM']
    exact_mod_cast hN
  have rc : reflected c = tab (2 * N + 1) fun i => (reflected c).getD i 0 := by
    conv_lhs => rw [eq_tab (reflected c) 0, reflected_length (by omega), hc]
    exact tab_ext (by omega) fun i _ => rfl
  obtain ⟨cur, hcur, -⟩ := grid_smear (M := M) (N := N) (by omega) (by omega) (c := fun i => (reflected c).getD i 0) hs
  obtain ⟨kk, hkk⟩ := kkTrans_even (2 * N + 1) (by omega) (-(N / M : ℝ)) (1 / M) (tab (2 * N + 1) cur)
    (tab_length _ _) hk
  obtain ⟨q, hq⟩ := h4
  have hq1 : 3 * ((0.25 : ℝ) * M) = ((3 * q : ℕ) : ℝ) := by
    rw [hq]
    push_cast
    ring
  obtain ⟨d, hd⟩ := grid_sample hM hN hq1 (by omega) (by omega) cur p.maxNptsDc
  obtain ⟨k, hk'⟩ := grid_sample (sm := 1) (k := 3 * M) hM hN (by push_cast; ring) (by omega) (by omega) cur p.maxNptsKk
  have hvl : (reflected (grid M N)).length = 2 * N + 1 := by
    rw [reflected_length (by omega), hgl]
    omega
  have hkl : kk.length = 2 * N + 1 := by
    obtain ⟨-, -, rfl⟩ := kkTrans_ok (by rw [tab_length, tab_length]) hkk
    rw [tab_length, tab_length]
  rw [← grid_reflected (by omega)] at hkk
  obtain ⟨f, hf, -⟩ := setup_of (S := S) (p := p) (grid_sorted (by omega)) (by omega) (by rw [tab_length, hvl])
    (by rw [hkl, hvl]) ho hd hk' (by rw [hce]; rfl) (by rw [hce]; rfl)
  unfold respInit
  rw [g0, py_bind, pyAssert_pos rfl, gl, py_bind, pyAssert_pos g5]
  dsimp only
  rw [rc, hcur, py_bind, hkk, py_bind, hf, py_bind]
  exact ⟨_, rfl⟩

theorem VINIT_grid : VINIT = grid 200 7000 := by
  unfold VINIT grid
  apply tab_ext (by norm_num)
  intro i _
  push_cast
  ring

end QMix.RespFn
