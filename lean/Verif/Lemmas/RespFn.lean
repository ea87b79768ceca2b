import Verif.Model.RespFn
import Verif.Lemmas.MathFn2
import Verif.Lemmas.KkTrans

/-!
# Lemmas about the response functions: reflection and sampling
-/

namespace QMix.RespFn

open QMix.Np QMix.MathFn

/-! ## Reflection -/

theorem reflected_tab (n : ℕ) (hn : 1 ≤ n) (f : ℕ → ℝ) :
    reflected (tab n f) = tab (2 * n - 1) fun i => if i < n - 1 then -f (n - 1 - i) else f (i - (n - 1)) := by
  unfold reflected
  rw [reverse_tab, List.dropLast_eq_take, tab_length, take_tab (by omega), map_tab, append_tab]
  exact tab_ext (by omega) fun i _ => rfl

theorem reflected_length {a : List ℝ} (h : 1 ≤ a.length) : (reflected a).length = 2 * a.length - 1 := by
  unfold reflected
  simp
  omega

/-! ## Ranges -/

theorem pyRangeStep_mem {lo hi step : ℤ} {l : List ℤ} (h : pyRangeStep lo hi step = .ok l) {x : ℤ}
    (hx : x ∈ l) : (lo ≤ x ∧ x < hi) ∨ (hi < x ∧ x ≤ lo) := by
  unfold pyRangeStep at h
  by_cases h0 : step = 0
  · rw [if_pos h0] at h; cases h
  rw [if_neg h0] at h
  by_cases hp : 0 < step
  · rw [if_pos hp] at h
    cases h
    obtain ⟨i, hi', rfl⟩ := List.mem_map.1 hx
    have hi' := List.mem_range.1 hi'
    left
    have h1 : ((i : ℤ) + 1) ≤ (hi - lo + step - 1) / step := by omega
    rw [Int.le_ediv_iff_mul_le hp] at h1
    constructor
    · nlinarith
    · nlinarith
  · rw [if_neg hp] at h
    cases h
    obtain ⟨i, hi', rfl⟩ := List.mem_map.1 hx
    have hi' := List.mem_range.1 hi'
    right
    have h1 : ((i : ℤ) + 1) ≤ (lo - hi + -step - 1) / -step := by omega
    rw [Int.le_ediv_iff_mul_le (by omega)] at h1
    constructor
    · nlinarith
    · nlinarith

theorem middle_length {d lo hi : ℤ} (hd : d = hi - lo) {l : List ℤ}
    (h : pyRangeStep lo hi (d / 30) = .ok l) : l.length ≤ 59 := by
  subst hd
  unfold pyRangeStep at h
  by_cases h0 : (hi - lo) / 30 = 0
  · rw [if_pos h0] at h; cases h
  rw [if_neg h0] at h
  have e := Int.mul_ediv_add_emod (hi - lo) 30
  have e1 := Int.emod_nonneg (hi - lo) (show (30 : ℤ) ≠ 0 by norm_num)
  have e2 := Int.emod_lt_of_pos (hi - lo) (show (0 : ℤ) < 30 by norm_num)
  set q := (hi - lo) / 30 with hq
  by_cases hp : 0 < q
  · rw [if_pos hp] at h
    cases h
    rw [List.length_map, List.length_range]
    have : (hi - lo + q - 1) / q ≤ 59 := by
      have : (hi - lo + q - 1) / q < 60 := by
        rw [Int.ediv_lt_iff_lt_mul hp]
        nlinarith
      omega
    omega
  · rw [if_neg hp] at h
    cases h
    rw [List.length_map, List.length_range]
    have : (lo - hi + -q - 1) / -q < 60 := by
      rw [Int.ediv_lt_iff_lt_mul (by omega)]
      nlinarith
    omega

/-! ## The loop of `_sample_curve` -/

/-- Invariants of a loop over `range(n)`. -/
theorem pyFor_range_inv {σ : Type} {body : σ → ℕ → Py σ} (inv : ℕ → σ → Prop) :
    ∀ (n : ℕ) {s t : σ}, inv 0 s →
      (∀ i s s', i < n → inv i s → body s i = .ok s' → inv (i + 1) s') →
      pyFor (List.range n) s body = .ok t → inv n t := by
  intro n
  induction n with
  | zero =>
    intro s t h0 _ h
    cases h
    exact h0
  | succ n ih =>
    intro s t h0 hs h
    rw [List.range_succ, pyFor_append] at h
    obtain ⟨u, hu, h⟩ := bind_ok_iff.1 h
    rw [pyFor_single] at h
    exact hs n u t (by omega) (ih h0 (fun i s s' hi => hs i s s' (by omega)) hu) h

theorem sampleStep_ok {n : ℕ} {maxNpts : ℤ} {total v c : ℝ} {s s' : Sample} {i : ℕ}
    (h : sampleStep n maxNpts total s i v c = .ok s') :
    (∃ last, pyGet s.idx (-1) = .ok last ∧
      (nearGap v ∨ v - s.voltageLast ≥ 1 ∨ (total ≠ 0 ∧ (c - s.cumsumLast) * maxNpts / total > 1) ∨ nearEnd n i) ∧
      s' = { idx := if (i : ℤ) ≠ last then s.idx ++ [(i : ℤ)] else s.idx, cumsumLast := c, voltageLast := v }) ∨
    (¬ (nearGap v ∨ v - s.voltageLast ≥ 1 ∨ (total ≠ 0 ∧ (c - s.cumsumLast) * maxNpts / total > 1) ∨ nearEnd n i)
      ∧ s' = s) := by
  unfold sampleStep at h
  obtain ⟨last, hl, h⟩ := bind_ok_iff.1 h
  by_cases hc : nearGap v ∨ v - s.voltageLast ≥ 1 ∨ (total ≠ 0 ∧ (c - s.cumsumLast) * maxNpts / total > 1)
      ∨ nearEnd n i
  · rw [if_pos hc] at h
    cases h
    exact Or.inl ⟨last, hl, hc, rfl⟩
  · rw [if_neg hc] at h
    cases h
    exact Or.inr ⟨hc, rfl⟩

theorem pyGet_last_mem {l : List ℤ} {x : ℤ} (h : pyGet l (-1) = .ok x) : x ∈ l := by
  unfold pyGet at h
  split at h
  · cases h
  · rename_i i hi
    have hlt := pyIndex_lt hi
    split at h
    · rename_i y hy
      cases h
      exact List.mem_of_getElem? hy
    · cases h

/-- The loop body as a function of the position. -/
noncomputable def loopBody (voltage cs : List ℝ) (maxNpts : ℤ) (total : ℝ) (s : Sample) (i : ℕ) : Py Sample := do
  let v ← pyGet voltage i
  let c ← pyGet cs i
  sampleStep voltage.length maxNpts total s i v c

theorem loopBody_ok {voltage cs : List ℝ} {maxNpts : ℤ} {total : ℝ} {s s' : Sample} {i : ℕ}
    (hi : i < voltage.length) (hc : cs.length = voltage.length)
    (h : loopBody voltage cs maxNpts total s i = .ok s') :
    sampleStep voltage.length maxNpts total s i (voltage.getD i 0) (cs.getD i 0) = .ok s' := by
  unfold loopBody at h
  obtain ⟨v, hv, h⟩ := bind_ok_iff.1 h
  obtain ⟨c, hcc, h⟩ := bind_ok_iff.1 h
  have e1 := eq_tab voltage 0
  have e2 := eq_tab cs 0
  have i1 : pyIndex voltage.length (i : ℤ) = .ok i := by rw [pyIndex_nonneg (by omega) (by omega)]; simp
  have i2 : pyIndex cs.length (i : ℤ) = .ok i := by rw [pyIndex_nonneg (by omega) (by omega)]; simp
  rw [e1, pyGet_tab _ i1] at hv
  rw [e2, pyGet_tab _ i2] at hcc
  cases hv; cases hcc
  exact h

/-- What the loop keeps: valid indices, and all those near a gap or near an end. -/
theorem loop_keeps {voltage cs : List ℝ} {maxNpts : ℤ} {total v0 : ℝ} {t : Sample}
    (hc : cs.length = voltage.length)
    (h : pyFor (List.range voltage.length) { idx := [0], cumsumLast := 0, voltageLast := v0 }
      (loopBody voltage cs maxNpts total) = .ok t) :
    (∀ k ∈ t.idx, k = 0 ∨ 0 ≤ k ∧ k < voltage.length) ∧
    ∀ i < voltage.length, nearGap (voltage.getD i 0) ∨ nearEnd voltage.length i → (i : ℤ) ∈ t.idx := by
  refine pyFor_range_inv (fun j s => (∀ k ∈ s.idx, k = 0 ∨ 0 ≤ k ∧ k < (j : ℤ)) ∧
    ∀ i < j, nearGap (voltage.getD i 0) ∨ nearEnd voltage.length i → (i : ℤ) ∈ s.idx) voltage.length
    ⟨by simp, by simp⟩ ?_ h
  intro i s s' hi ⟨h1, h2⟩ hs
  rcases sampleStep_ok (loopBody_ok hi hc hs) with ⟨last, hl, hcond, rfl⟩ | ⟨hcond, rfl⟩
  · refine ⟨?_, ?_⟩
    · intro k hk
      dsimp only at hk
      split_ifs at hk
      · rcases List.mem_append.1 hk with hk | hk
        · rcases h1 k hk with h' | h'
          · exact Or.inl h'
          · exact Or.inr ⟨h'.1, by push_cast; omega⟩
        · rw [List.mem_singleton.1 hk]
          exact Or.inr ⟨by omega, by push_cast; omega⟩
      · rcases h1 k hk with h' | h'
        · exact Or.inl h'
        · exact Or.inr ⟨h'.1, by push_cast; omega⟩
    · intro j hj hne
      dsimp only
      by_cases hji : j = i
      · subst hji
        split_ifs with hlast
        · simp
        · rw [not_not] at hlast
          rw [hlast]
          exact pyGet_last_mem hl
      · have := h2 j (by omega) hne
        split_ifs
        · exact List.mem_append_left _ this
        · exact this
  · refine ⟨?_, ?_⟩
    · intro k hk
      rcases h1 k hk with h' | h'
      · exact Or.inl h'
      · exact Or.inr ⟨h'.1, by push_cast; omega⟩
    · intro j hj hne
      by_cases hji : j = i
      · subst hji
        exact absurd (hne.elim Or.inl fun h => Or.inr (Or.inr (Or.inr h))) hcond
      · exact h2 j (by omega) hne

open Classical in
/-- Number of positions below `j` near a gap. -/
noncomputable def gapCount (voltage : List ℝ) (j : ℕ) : ℕ :=
  ((Finset.range j).filter fun i => nearGap (voltage.getD i 0)).card

open Classical in
/-- Number of positions below `j` near an end. -/
noncomputable def endCount (n : ℕ) (j : ℕ) : ℕ := ((Finset.range j).filter fun i => nearEnd n i).card

theorem gapCount_succ (voltage : List ℝ) (j : ℕ) : gapCount voltage j ≤ gapCount voltage (j + 1) ∧
    (nearGap (voltage.getD j 0) → gapCount voltage (j + 1) = gapCount voltage j + 1) := by
  classical
  unfold gapCount
  rw [Finset.range_add_one, Finset.filter_insert]
  constructor
  · split_ifs
    · exact Finset.card_le_card (Finset.subset_insert _ _)
    · exact le_rfl
  · intro h
    rw [if_pos h, Finset.card_insert_of_notMem (by simp)]

theorem endCount_succ (n j : ℕ) : endCount n j ≤ endCount n (j + 1) ∧
    (nearEnd n j → endCount n (j + 1) = endCount n j + 1) := by
  classical
  unfold endCount
  rw [Finset.range_add_one, Finset.filter_insert]
  constructor
  · split_ifs
    · exact Finset.card_le_card (Finset.subset_insert _ _)
    · exact le_rfl
  · intro h
    rw [if_pos h, Finset.card_insert_of_notMem (by simp)]

theorem endCount_le (n : ℕ) : endCount n n ≤ 6 := by
  classical
  unfold endCount
  refine (Finset.card_le_card (t := {0, 1, 2} ∪ {n - 1, n - 2, n - 3}) ?_).trans ?_
  · intro i hi
    rw [Finset.mem_filter, Finset.mem_range] at hi
    simp only [Finset.mem_union, Finset.mem_insert, Finset.mem_singleton]
    rcases hi.2 with h | h
    · omega
    · omega
  · refine (Finset.card_union_le _ _).trans ?_
    have h1 : ({0, 1, 2} : Finset ℕ).card ≤ 3 := Finset.card_le_three
    have h2 : ({n - 1, n - 2, n - 3} : Finset ℕ).card ≤ 3 := Finset.card_le_three
    omega

/-- The number of points kept by the loop. -/
theorem loop_count {voltage cs : List ℝ} {maxNpts : ℤ} {total : ℝ} {t : Sample}
    (hc : cs.length = voltage.length) (hm : 0 ≤ maxNpts) (ht : 0 ≤ total)
    (hv : ∀ i j, i ≤ j → j < voltage.length → voltage.getD i 0 ≤ voltage.getD j 0)
    (hcs : ∀ i j, i ≤ j → j < voltage.length → cs.getD i 0 ≤ cs.getD j 0)
    (hcs0 : ∀ j < voltage.length, 0 ≤ cs.getD j 0)
    (hcsT : ∀ j < voltage.length, cs.getD j 0 ≤ total) (hn : 0 < voltage.length)
    (h : pyFor (List.range voltage.length) { idx := [0], cumsumLast := 0, voltageLast := voltage.getD 0 0 }
      (loopBody voltage cs maxNpts total) = .ok t) :
    (t.idx.length : ℝ) ≤ 7 + gapCount voltage voltage.length + maxNpts
      + (voltage.getD (voltage.length - 1) 0 - voltage.getD 0 0) := by
  have hM : (0 : ℝ) ≤ maxNpts := by exact_mod_cast hm
  have key := pyFor_range_inv (fun j (s : Sample) =>
    (s.idx.length : ℝ) ≤ 1 + endCount voltage.length j + gapCount voltage j
      + maxNpts * s.cumsumLast / total + (s.voltageLast - voltage.getD 0 0) ∧
    (∀ k, j ≤ k → k < voltage.length → s.voltageLast ≤ voltage.getD k 0 ∧ s.cumsumLast ≤ cs.getD k 0) ∧
    s.cumsumLast ≤ total ∧ s.voltageLast ≤ voltage.getD (voltage.length - 1) 0) voltage.length
    (s := { idx := [0], cumsumLast := 0, voltageLast := voltage.getD 0 0 })
    ⟨by simp [endCount, gapCount], fun k _ hk => ⟨hv 0 k (by omega) hk, hcs0 k hk⟩, ht,
      hv 0 _ (by omega) (by omega)⟩ ?_ h
  · obtain ⟨k1, -, k3, k4⟩ := key
    have h6 : (endCount voltage.length voltage.length : ℝ) ≤ 6 := by exact_mod_cast endCount_le _
    have h7 : maxNpts * t.cumsumLast / total ≤ maxNpts := by
      rcases ht.eq_or_lt with h0 | h0
      · rw [← h0, div_zero]; exact hM
      · rw [div_le_iff₀ h0]
        exact mul_le_mul_of_nonneg_left k3 hM
    linarith
  · intro i s s' hi ⟨h1, h2, h3, h4⟩ hs
    obtain ⟨e1, e2⟩ := endCount_succ voltage.length i
    obtain ⟨g1, g2⟩ := gapCount_succ voltage i
    have e1' : (endCount voltage.length i : ℝ) ≤ endCount voltage.length (i + 1) := by exact_mod_cast e1
    have g1' : (gapCount voltage i : ℝ) ≤ gapCount voltage (i + 1) := by exact_mod_cast g1
    rcases sampleStep_ok (loopBody_ok hi hc hs) with ⟨last, hl, hcond, rfl⟩ | ⟨hcond, rfl⟩
    · obtain ⟨v1, c1⟩ := h2 i le_rfl hi
      have hlen : ((if (i : ℤ) ≠ last then s.idx ++ [(i : ℤ)] else s.idx).length : ℝ) ≤ s.idx.length + 1 := by
        split_ifs
        · simp
        · linarith
      have hmono : maxNpts * s.cumsumLast / total ≤ maxNpts * cs.getD i 0 / total :=
        div_le_div_of_nonneg_right (mul_le_mul_of_nonneg_left c1 hM) ht
      refine ⟨?_, ?_, hcsT i hi, hv i _ (by omega) (by omega)⟩
      · dsimp only
        rcases hcond with hc' | hc' | hc' | hc'
        · have : (gapCount voltage (i + 1) : ℝ) = gapCount voltage i + 1 := by exact_mod_cast g2 hc'
          linarith
        · linarith
        · have : maxNpts * s.cumsumLast / total + 1 < maxNpts * cs.getD i 0 / total := by
            have hlt := hc'.2
            rw [show (cs.getD i 0 - s.cumsumLast) * maxNpts / total
              = maxNpts * cs.getD i 0 / total - maxNpts * s.cumsumLast / total by ring] at hlt
            linarith
          linarith
        · have : (endCount voltage.length (i + 1) : ℝ) = endCount voltage.length i + 1 := by exact_mod_cast e2 hc'
          linarith
      · intro k hk hkn
        exact ⟨hv i k (by omega) hkn, hcs i k (by omega) hkn⟩
    · exact ⟨by linarith, fun k hk hkn => h2 k (by omega) hkn, h3, h4⟩

end QMix.RespFn
