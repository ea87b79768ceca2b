import Verif.Lemmas.RespFn2

/-!
# Lemmas about the response functions: accepted data and `np.interp`
-/

namespace QMix.RespFn

open QMix.Np QMix.MathFn

theorem pyFor_range_ok {σ : Type} {body : σ → ℕ → Py σ} (inv : σ → Prop) :
    ∀ (n : ℕ) {s : σ}, inv s →
      (∀ i s, i < n → inv s → ∃ s', body s i = .ok s' ∧ inv s') →
      ∃ t, pyFor (List.range n) s body = .ok t ∧ inv t := by
  intro n
  induction n with
  | zero => intro s h0 _; exact ⟨s, rfl, h0⟩
  | succ n ih =>
    intro s h0 hs
    obtain ⟨t, ht, it⟩ := ih h0 fun i s hi => hs i s (by omega)
    obtain ⟨u, hu, iu⟩ := hs n t (by omega) it
    refine ⟨u, ?_, iu⟩
    rw [List.range_succ, pyFor_append, ht, py_bind, pyFor_single, hu]

theorem pyRangeStep_ok (lo hi : ℤ) {step : ℤ} (h : step ≠ 0) : ∃ l, pyRangeStep lo hi step = .ok l := by
  unfold pyRangeStep
  rw [if_neg h]
  split_ifs
  · exact ⟨_, rfl⟩
  · exact ⟨_, rfl⟩

/-- Sampling succeeds on evenly spaced voltages. -/
theorem sampleCurve_even {n : ℕ} {a d sm : ℝ} {c : ℕ → ℝ} {m : ℤ} (hd : 0 < d) (hn : 2 ≤ n)
    (hs : 1 ≤ sm / d * 3) (hw : winLen (sm / d) 3 ≤ n)
    (hmid : ∀ lo hi, argmin ((tab n fun t => a + d * t).map fun t => |t + 1|) = .ok lo →
      argmin ((tab n fun t => a + d * t).map fun t => |t - 1|) = .ok hi → ((hi : ℤ) - lo) / 30 ≠ 0) :
    ∃ r, sampleCurve (tab n fun t => a + d * t) (tab n c) m sm = .ok r := by
  have ne : ∀ i j : ℕ, i ≠ j → a + d * (i : ℝ) ≠ a + d * j := by
    intro i j hij he
    apply hij
    have : d * (i : ℝ) = d * j := by linarith
    exact_mod_cast mul_left_cancel₀ hd.ne' this
  unfold sampleCurve
  rw [slope_eq n _ c hn (fun i _ => ne _ _ (by omega)) (ne _ _ (by omega)) (ne _ _ (by omega)), py_bind,
    slope_eq n _ _ hn (fun i _ => ne _ _ (by omega)) (ne _ _ (by omega)) (ne _ _ (by omega)), py_bind]
  have i0 : pyIndex n 0 = .ok 0 := pyIndex_nonneg (by omega) (by omega)
  have i1 : pyIndex n 1 = .ok 1 := pyIndex_nonneg (by omega) (by omega)
  rw [pyGet_tab _ i1, py_bind, pyGet_tab _ i0, py_bind]
  have e : a + d * ((1 : ℕ) : ℝ) - (a + d * ((0 : ℕ) : ℝ)) = d := by push_cast; ring
  rw [e, fdiv_ok hd.ne', py_bind, gaussConv_eq hs (by simpa using hw), py_bind]
  dsimp only
  generalize (smoothAt (sm / d) 3 _) = G
  have il : pyIndex n (-1) = .ok (n - 1) := by
    rw [pyIndex_neg (by omega) (by omega)]
    congr 1
    omega
  unfold cumsum
  simp only [List.length_map, tab_length]
  rw [pyGet_tab _ il, py_bind]
  obtain ⟨s, hs', -⟩ := pyFor_range_ok (fun s : Sample => s.idx ≠ [])
    (body := fun s i => do
      let v ← pyGet (tab n fun t => a + d * (t : ℝ)) (i : ℤ)
      let c ← pyGet (tab n fun i => ((tab n G).take (i + 1)).sum) (i : ℤ)
      sampleStep n m ((tab n G).take (n - 1 + 1)).sum s i v c) n
    (s := { idx := [0], cumsumLast := 0, voltageLast := a + d * ((0 : ℕ) : ℝ) }) (by simp)
    (by
      intro i s hi hne
      have ii : pyIndex n (i : ℤ) = .ok i := by rw [pyIndex_nonneg (by omega) (by omega)]; simp
      rw [pyGet_tab _ ii, py_bind, pyGet_tab _ ii, py_bind]
      unfold sampleStep
      have hpos : 0 < s.idx.length := List.length_pos_of_ne_nil hne
      have iil : pyIndex s.idx.length (-1) = .ok (s.idx.length - 1) := by
        rw [pyIndex_neg (by omega) (by omega)]
        congr 1
        omega
      have : pyGet s.idx (-1) = .ok (s.idx.getD (s.idx.length - 1) 0) := by
        conv_lhs => rw [eq_tab s.idx 0]
        exact pyGet_tab _ iil
      rw [this, py_bind]
      split_ifs
      · exact ⟨_, rfl, by simp⟩
      · exact ⟨_, rfl, hne⟩
      · exact ⟨_, rfl, hne⟩)
  rw [hs', py_bind]
  obtain ⟨l1, h1⟩ := pyRangeStep_ok 0 NSTEP (step := 20) (by norm_num)
  obtain ⟨l2, h2⟩ := pyRangeStep_ok ((n : ℤ) - NSTEP - 1) n (step := 20) (by norm_num)
  obtain ⟨lo, hlo⟩ := argmin_ok (l := (tab n fun t => a + d * (t : ℝ)).map fun t => |t + 1|) (by
    intro h0; have := congrArg List.length h0; simp at this; omega)
  obtain ⟨hi, hhi⟩ := argmin_ok (l := (tab n fun t => a + d * (t : ℝ)).map fun t => |t - 1|) (by
    intro h0; have := congrArg List.length h0; simp at this; omega)
  obtain ⟨l3, h3⟩ := pyRangeStep_ok lo hi (hmid lo hi hlo hhi)
  rw [h1, py_bind, h2, py_bind, hlo, py_bind, hhi, py_bind, h3, py_bind]
  exact ⟨_, rfl⟩

/-! ## `np.interp` -/

/-- Between two neighbouring points. -/
theorem npInterp_between {x a b p q : ℝ} : ∀ (pre post pre' post' : List ℝ), pre.length = pre'.length →
    (pre ++ a :: b :: post).SortedLT → a ≤ x → x < b →
    npInterp (pre ++ a :: b :: post) (pre' ++ p :: q :: post') x = p + (q - p) / (b - a) * (x - a) := by
  intro pre
  induction pre with
  | nil =>
    intro post pre' post' hl hs ha hb
    obtain rfl : pre' = [] := List.length_eq_zero_iff.1 hl.symm
    rw [List.nil_append, List.nil_append]
    unfold npInterp
    rw [if_neg, if_neg (by linarith)]
    rintro ⟨c, hc, hcx⟩
    have := List.SortedLT.pairwise hs
    rw [List.nil_append, List.pairwise_cons, List.pairwise_cons] at this
    rcases List.mem_cons.1 hc with rfl | hc
    · linarith
    · have := this.2.1 c hc
      linarith
  | cons c pre ih =>
    intro post pre' post' hl hs ha hb
    cases pre' with
    | nil => simp at hl
    | cons c' pre' =>
      have hs' : (pre ++ a :: b :: post).SortedLT := by
        have := List.SortedLT.pairwise hs
        rw [List.cons_append, List.pairwise_cons] at this
        exact this.2.sortedLT
      have hl' : pre.length = pre'.length := by simpa using hl
      have := ih post pre' post' hl' hs' ha hb
      rw [← this]
      cases pre with
      | nil =>
        obtain rfl : pre' = [] := List.length_eq_zero_iff.1 hl'.symm
        simp only [List.cons_append, List.nil_append]
        conv_lhs => unfold npInterp
        rw [if_pos ⟨a, by simp, ha⟩]
      | cons e pre =>
        cases pre' with
        | nil => simp at hl'
        | cons e' pre' =>
          simp only [List.cons_append]
          conv_lhs => unfold npInterp
          rw [if_pos ⟨a, by simp, ha⟩]

/-- Below the first point. -/
theorem npInterp_below {x a p : ℝ} {xs ys : List ℝ} (hs : (a :: xs).SortedLT) (h : x < a) :
    npInterp (a :: xs) (p :: ys) x = p := by
  cases xs with
  | nil => cases ys <;> rfl
  | cons b xs =>
    cases ys with
    | nil => rfl
    | cons q ys =>
      unfold npInterp
      rw [if_neg, if_pos h]
      rintro ⟨c, hc, hcx⟩
      have := List.SortedLT.pairwise hs
      rw [List.pairwise_cons] at this
      have := this.1 c hc
      linarith

end QMix.RespFn
