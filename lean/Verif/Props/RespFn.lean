import Verif.Lemmas.RespGrid
import Verif.Props.MathFn

/-!
# Properties of the response functions (C36-C40, C73-C77)
-/

namespace QMix.RespFn

open QMix.Np QMix.MathFn

/-! ## C36: reflection -/

/-- C36, both lists: what the reflection of a list `a` about its first entry is. -/
theorem C36_reflection (a : List ℝ) (ha : a ≠ []) :
    (reflected a).length = 2 * a.length - 1 ∧
    (∀ i < a.length, (reflected a).getD (a.length - 1 + i) 0 = a.getD i 0) ∧
    (∀ i < a.length, 0 < i → (reflected a).getD (a.length - 1 - i) 0 = -a.getD i 0) ∧
    (a.SortedLT → a.getD 0 0 = 0 → (reflected a).SortedLT) ∧
    ((reflected a).reverse = (reflected a).map (fun t => -t) ↔ a.getD 0 0 = 0) := by
  have hn : 1 ≤ a.length := List.length_pos_of_ne_nil ha
  have e : reflected a = tab (2 * a.length - 1) fun i =>
      if i < a.length - 1 then -a.getD (a.length - 1 - i) 0 else a.getD (i - (a.length - 1)) 0 := by
    conv_lhs => rw [eq_tab a 0]
    exact reflected_tab _ hn _
  refine ⟨reflected_length hn, ?_, ?_, ?_, ?_⟩
  · intro i hi
    rw [e, tab_getD (by omega), if_neg (by omega)]
    congr 1
    omega
  · intro i hi h0
    rw [e, tab_getD (by omega), if_pos (by omega)]
    congr 2
    omega
  · intro hs h0
    have mono : ∀ i j, i < j → j < a.length → a.getD i 0 < a.getD j 0 := by
      intro i j hij hj
      have := List.SortedLT.getElem_lt_getElem_of_lt hs (i := i) (j := j) (hi := by omega) (hj := hj) hij
      rw [List.getD_eq_getElem?_getD, List.getD_eq_getElem?_getD, List.getElem?_eq_getElem (by omega),
        List.getElem?_eq_getElem hj]
      exact this
    rw [e]
    apply List.Pairwise.sortedLT
    unfold tab
    rw [List.pairwise_map]
    refine List.Pairwise.imp_of_mem ?_ List.pairwise_lt_range
    intro i j hi hj hij
    have hj := List.mem_range.1 hj
    by_cases h1 : j < a.length - 1
    · rw [if_pos (by omega), if_pos h1]
      exact neg_lt_neg (mono _ _ (by omega) (by omega))
    · rw [if_neg h1]
      by_cases h2 : i < a.length - 1
      · rw [if_pos h2]
        have p := mono 0 (a.length - 1 - i) (by omega) (by omega)
        rw [h0] at p
        rcases Nat.eq_zero_or_pos (j - (a.length - 1)) with hz | hz
        · rw [hz, h0]; linarith
        · have := mono 0 _ hz (by omega)
          rw [h0] at this
          linarith
      · rw [if_neg h2]
        exact mono _ _ (by omega) (by omega)
  · rw [e, reverse_tab, map_tab]
    constructor
    · intro h
      have := congrArg (fun l : List ℝ => l.getD (a.length - 1) 0) h
      beta_reduce at this
      rw [tab_getD (by omega), tab_getD (by omega), if_neg (by omega), if_neg (by omega),
        show 2 * a.length - 1 - 1 - (a.length - 1) - (a.length - 1) = 0 by omega,
        show a.length - 1 - (a.length - 1) = 0 by omega] at this
      linarith
    · intro h0
      apply tab_ext rfl
      intro i hi
      rcases lt_trichotomy i (a.length - 1) with h | h | h
      · rw [if_neg (by omega), if_pos h, neg_neg]
        congr 1
        omega
      · subst h
        rw [if_neg (by omega), if_neg (by omega), show 2 * a.length - 1 - 1 - (a.length - 1) - (a.length - 1) = 0 by omega,
          show a.length - 1 - (a.length - 1) = 0 by omega, h0, neg_zero]
      · rw [if_pos (by omega), if_neg (by omega)]
        congr 2
        omega

/-- C36: the data of a response function without smearing. -/
theorem C36_data {S : Splines} {v c : List ℝ} {p : Params} {r : Obj} (hl : c.length = v.length)
    (hs : p.vSmear = none) (h : respInit S v c p = .ok r) :
    r.voltage.length = 2 * v.length - 1 ∧ r.current.length = 2 * v.length - 1 ∧
    (∀ i < v.length, r.voltage.getD (v.length - 1 + i) 0 = v.getD i 0 ∧
      r.voltage.getD (v.length - 1 - i) 0 = -v.getD i 0) ∧
    (∀ i < v.length, r.current.getD (v.length - 1 + i) 0 = c.getD i 0 ∧
      (0 < i → r.current.getD (v.length - 1 - i) 0 = -c.getD i 0)) ∧
    (v.SortedLT → r.voltage.SortedLT) ∧
    r.voltage.reverse = r.voltage.map (fun t => -t) ∧
    (r.current.reverse = r.current.map (fun t => -t) ↔ c.getD 0 0 = 0) := by
  obtain ⟨hpos, h0, -, hv, hc, -⟩ := respInit_ok h
  rw [hs] at hc
  have hc : reflected c = r.current := Except.ok.inj hc
  have hvne : v ≠ [] := by rintro rfl; simp at hpos
  have hcne : c ≠ [] := by rintro rfl; simp at hl; omega
  obtain ⟨v1, v2, v3, v4, v5⟩ := C36_reflection v hvne
  obtain ⟨c1, c2, c3, -, c5⟩ := C36_reflection c hcne
  rw [hv, ← hc]
  rw [hl] at c1 c2 c3
  refine ⟨v1, c1, ?_, ?_, fun hs => v4 hs h0, v5.2 h0, c5⟩
  · intro i hi
    refine ⟨v2 i hi, ?_⟩
    rcases Nat.eq_zero_or_pos i with rfl | hp
    · have := v2 0 hi
      rw [Nat.add_zero] at this
      rw [Nat.sub_zero, this, h0, neg_zero]
    · exact v3 i hi hp
  · intro i hi
    exact ⟨c2 i hi, c3 i hi⟩

theorem smoothAt_neg (sigma ext : ℝ) (n : ℕ) (f : ℕ → ℝ) (i : ℕ)
    (hr : ∀ j < winLen sigma ext, reflect n ((i : ℤ) + (winLen sigma ext / 2 : ℕ) - j) < n) :
    smoothAt sigma ext (tab n fun k => -f k) i = -smoothAt sigma ext (tab n f) i := by
  unfold smoothAt
  rw [← Finset.sum_neg_distrib]
  refine Finset.sum_congr rfl fun j hj => ?_
  have := hr j (Finset.mem_range.1 hj)
  simp only [tab_length]
  rw [tab_getD this, tab_getD this]
  ring

/-- C36 with smearing, when three standard deviations are a whole number of voltage steps (otherwise the
window used is not symmetric): the smeared current is odd too. -/
theorem C36_smeared_partial {S : Splines} {v c : List ℝ} {p : Params} {r : Obj} {s : ℝ} {k : ℕ}
    (hl : c.length = v.length) (hc0 : c.getD 0 0 = 0) (hs : p.vSmear = some s)
    (hk : 3 * (s / (r.voltage.getD 1 0 - r.voltage.getD 0 0)) = k) (h : respInit S v c p = .ok r) :
    r.current.reverse = r.current.map fun t => -t := by
  obtain ⟨hpos, h0, -, hv, hc, -⟩ := respInit_ok h
  rw [hs] at hc
  unfold smear at hc
  dsimp only at hc
  rw [← hv] at hc
  obtain ⟨v1, hv1, hc1⟩ := bind_ok_iff.1 hc
  obtain ⟨v0, hv0, hc2⟩ := bind_ok_iff.1 hc1
  obtain ⟨x, hx, hc3⟩ := bind_ok_iff.1 hc2
  obtain ⟨sigma, hsg, hc4⟩ := bind_ok_iff.1 hc3
  obtain ⟨y, hy, hc5⟩ := bind_ok_iff.1 hc4
  clear hc hc1 hc2 hc3 hc4
  have hvne : v ≠ [] := by rintro rfl; simp at hpos
  have hcne : c ≠ [] := by rintro rfl; simp at hl; omega
  obtain ⟨lv, -, -, -, v5⟩ := C36_reflection v hvne
  obtain ⟨lc, -, -, -, c5⟩ := C36_reflection c hcne
  have v5 := v5.2 h0
  have c5 := c5.2 hc0
  rw [← hv] at lv v5
  obtain ⟨-, rfl⟩ := pyGet_nat (i := 1) hv1
  obtain ⟨-, rfl⟩ := pyGet_nat (i := 0) hv0
  set n := 2 * v.length - 1 with hn
  have odd : ∀ l : List ℝ, l.length = n → l.reverse = l.map (fun t => -t) →
      l = tab n (fun i => l.getD i 0) ∧ ∀ i < n, l.getD (n - 1 - i) 0 = -l.getD i 0 := by
    intro l hl' ho
    have e := eq_tab l 0
    rw [hl'] at e
    refine ⟨e, fun i hi => ?_⟩
    rw [e, reverse_tab, map_tab] at ho
    have := congrArg (fun l : List ℝ => l.getD i 0) ho
    beta_reduce at this
    rwa [tab_getD hi, tab_getD hi] at this
  obtain ⟨ev, ov⟩ := odd r.voltage lv v5
  obtain ⟨ec, oc⟩ := odd (reflected c) (by rw [lc, hl]) c5
  rw [ec, ev, zip_tab] at hx
  cases hx
  have hne : r.voltage.getD 1 0 - r.voltage.getD 0 0 ≠ 0 := by
    intro he
    rw [fdiv, if_pos he] at hsg
    cases hsg
  rw [fdiv_ok hne] at hsg
  cases hsg
  obtain ⟨g1, g2, g3⟩ := gaussConv_ok hy
  rw [tab_length] at g2 g3
  rw [g3] at hc5
  conv at hc5 => lhs; arg 3; rw [ev]
  rw [zip_tab] at hc5
  have hc5 := Except.ok.inj hc5
  have hk1 : 1 ≤ k := by
    have : (1 : ℝ) ≤ k := by rw [← hk]; linarith
    exact_mod_cast this
  have w3 := winLen_ge g1
  rw [← hc5, reverse_tab, map_tab]
  apply tab_ext rfl
  intro i hi
  rw [ov i hi]
  have rev := smoothAt_reverse hk (x := tab n fun i => (reflected c).getD i 0 - r.voltage.getD i 0)
    (by rw [tab_length]; exact g2) (i := i) (by rw [tab_length]; exact hi) hk1
  rw [tab_length] at rev
  rw [← rev, reverse_tab]
  have : (tab n fun i => (reflected c).getD (n - 1 - i) 0 - r.voltage.getD (n - 1 - i) 0)
      = tab n fun i => -((reflected c).getD i 0 - r.voltage.getD i 0) :=
    tab_ext rfl fun t ht => by rw [oc t ht, ov t ht]; ring
  rw [this, smoothAt_neg _ _ _ _ _ fun j hj => reflect_lt w3 g2 hi hj]
  ring

/-- C36, consequence: the Kramers-Kronig transform stored with the data is even. -/
theorem C36_kk_even {S : Splines} {v c : List ℝ} {p : Params} {r : Obj} (hl : c.length = v.length)
    (hc0 : c.getD 0 0 = 0) (hs : p.vSmear = none) (h : respInit S v c p = .ok r) :
    r.currentKk.reverse = r.currentKk := by
  obtain ⟨l1, l2, -, -, -, ov, oc⟩ := C36_data hl hs h
  obtain ⟨-, -, -, -, -, hk, -⟩ := respInit_ok h
  exact Props.C42_parity (by rw [l1, l2]) ov (oc.2 hc0) hk

/-! ## C37: the three complex responses -/

/-- C37. -/
theorem C37_consistent (r : Obj) (v : ℝ) :
    (r.resp v).re = r.ikk v ∧ (r.resp v).im = r.idc v ∧
    r.respConj v = (starRingEnd ℂ) (r.resp v) ∧ r.respSwap v = Complex.I * r.respConj v := by
  unfold Obj.resp Obj.respConj Obj.respSwap Obj.ikk Obj.idc
  refine ⟨by simp, by simp, ?_, ?_⟩
  · apply Complex.ext <;> simp
  · apply Complex.ext <;> simp

/-! ## C38: sampling -/

/-- C38: the sampled indices. -/
theorem C38_sampling {voltage current : List ℝ} {maxNpts : ℤ} {sm : ℝ} {r : List ℤ}
    (h : sampleCurve voltage current maxNpts sm = .ok r) :
    r.SortedLT ∧
    (∀ i < voltage.length, i < 3 ∨ voltage.length ≤ i + 3 → (i : ℤ) ∈ r) ∧
    (201 ≤ voltage.length → ∀ k ∈ r, 0 ≤ k ∧ k < voltage.length) ∧
    (voltage.length < 201 → ∃ k ∈ r, k < 0) := by
  obtain ⟨h1, h2, h3, h4⟩ := sampleCurve_mem h
  refine ⟨h1, fun i hi hne => h2 i hi (Or.inr ?_), h3, h4⟩
  unfold nearEnd
  omega

/-- C38, consequence: with fewer than 101 points (fewer than 201 after the reflection) and increasing
voltages no response function can be made. -/
theorem C38_points_needed {S : Splines} {v c : List ℝ} {p : Params} {r : Obj} (hv : v.SortedLT)
    (h : respInit S v c p = .ok r) : 101 ≤ v.length := by
  obtain ⟨hpos, h0, -, hvr, -, -, f, hf, -⟩ := respInit_ok h
  by_contra hlt
  have hvne : v ≠ [] := by rintro rfl; simp at hpos
  obtain ⟨lv, -, -, sv, -⟩ := C36_reflection v hvne
  have sv := sv hv h0
  rw [← hvr] at lv sv
  obtain ⟨dcIdx, kkIdx, xd, yd, xk, yk, h1, -, h3, -, -, -, h7, -⟩ := setup_ok hf
  obtain ⟨s1, s2, -, s4⟩ := C38_sampling h1
  obtain ⟨k, hk, hk0⟩ := s4 (by omega)
  have z : ((0 : ℕ) : ℤ) ∈ dcIdx := s2 0 (by omega) (by omega)
  obtain ⟨-, sx, -⟩ := interp_ok h7
  obtain ⟨lx, gx⟩ := takeIdx_get h3
  obtain ⟨j, hj, rfl⟩ := List.getElem_of_mem hk
  obtain ⟨j', hj', hz⟩ := List.getElem_of_mem z
  have hjj : j < j' := by
    by_contra hc
    rcases (not_lt.1 hc).eq_or_lt with he | hl
    · subst he
      omega
    · have := List.SortedLT.getElem_lt_getElem_of_lt s1 (i := j') (j := j) (hi := hj') (hj := hj) hl
      omega
  have hlt' := List.SortedLT.getElem_lt_getElem_of_lt sx (i := j) (j := j') (hi := by omega) (hj := by omega) hjj
  have a := gx j hj
  have b := gx j' hj'
  rw [hz] at b
  have b := (pyGet_nat b).2
  rw [List.getD_eq_getElem?_getD, List.getElem?_eq_getElem (by omega), Option.getD_some] at b
  unfold pyGet at a
  split at a
  · cases a
  · rename_i i hi
    have hil := pyIndex_lt hi
    rw [List.getElem?_eq_getElem hil] at a
    have a := Except.ok.inj a
    rw [List.getD_eq_getElem?_getD, List.getElem?_eq_getElem (by omega), Option.getD_some] at a
    rw [← a, b, List.getD_eq_getElem?_getD, List.getElem?_eq_getElem (by omega), Option.getD_some] at hlt'
    rcases Nat.eq_zero_or_pos i with rfl | hp
    · exact absurd hlt' (lt_irrefl _)
    · have := List.SortedLT.getElem_lt_getElem_of_lt sv (i := 0) (j := i) (hi := by omega) (hj := hil) hp
      exact absurd hlt' this.not_gt

/-! ## A concrete data set -/

/-- The straight line at 241 evenly spaced voltages between 0 and 6. -/
noncomputable def line : List ℝ := grid 40 240

theorem line_length : (reflected line).length = 481 := by
  unfold line
  rw [grid_reflected (by norm_num), tab_length]

theorem line_sample (sm : ℝ) (k : ℕ) (hk : 3 * (sm * 40) = k) (h1 : 1 ≤ k) (h2 : k ≤ 240) (m : ℤ) :
    ∃ r, sampleCurve (reflected line) (reflected line) m sm = .ok r := by
  obtain ⟨r, hr⟩ := grid_sample (M := 40) (N := 240) (k := k) (sm := sm) (by norm_num) (by norm_num)
    (by exact_mod_cast hk) h1 h2 (fun t => -((240 : ℕ) / (40 : ℕ) : ℝ) + 1 / ((40 : ℕ) : ℝ) * (t : ℝ)) m
  refine ⟨r, ?_⟩
  unfold line
  rw [← grid_reflected (by norm_num)] at hr
  exact hr

/-- The line satisfies the hypotheses of `C38_sampling`. -/
example : ∃ r, sampleCurve (reflected line) (reflected line) 101 0.25 = .ok r ∧ r.SortedLT ∧ (480 : ℤ) ∈ r := by
  obtain ⟨r, hr⟩ := line_sample 0.25 30 (by norm_num) (by norm_num) (by norm_num) 101
  refine ⟨r, hr, (C38_sampling hr).1, (C38_sampling hr).2.1 480 ?_ ?_⟩
  · rw [line_length]; norm_num
  · rw [line_length]; norm_num

/-! ## C39: the limit on the number of points -/

/-- C39 is false: for the line with the limit 1 at least six points are kept. -/
theorem C39_false_limit : ∃ r, sampleCurve (reflected line) (reflected line) 1 0.25 = .ok r ∧ 6 ≤ r.length := by
  obtain ⟨r, hr⟩ := line_sample 0.25 30 (by norm_num) (by norm_num) (by norm_num) 1
  refine ⟨r, hr, ?_⟩
  have hm := (C38_sampling hr).2.1
  have hl : (reflected line).length = 481 := by rw [line_length]
  rw [hl] at hm
  have : ({0, 1, 2, 478, 479, 480} : Finset ℤ) ⊆ r.toFinset := by
    intro x hx
    rw [List.mem_toFinset]
    simp only [Finset.mem_insert, Finset.mem_singleton] at hx
    rcases hx with rfl | rfl | rfl | rfl | rfl | rfl
    · exact hm 0 (by norm_num) (by norm_num)
    · exact hm 1 (by norm_num) (by norm_num)
    · exact hm 2 (by norm_num) (by norm_num)
    · exact hm 478 (by norm_num) (by norm_num)
    · exact hm 479 (by norm_num) (by norm_num)
    · exact hm 480 (by norm_num) (by norm_num)
  exact (Finset.card_le_card this).trans (List.toFinset_card_le r)

open Classical in
/-- C39, what does hold for increasing voltages: the limit is exceeded by at most the voltage range, the
number of data points near zero and near the gaps, and 87. -/
theorem C39_limit_partial {voltage current : List ℝ} {maxNpts : ℤ} {sm : ℝ} {r : List ℤ}
    (hm : 0 ≤ maxNpts) (hv : voltage.SortedLT) (h : sampleCurve voltage current maxNpts sm = .ok r) :
    (r.length : ℝ) ≤ maxNpts + (voltage.getD (voltage.length - 1) 0 - voltage.getD 0 0)
      + (voltage.filter fun v => |v| < 0.05 ∨ |v - 1| < 0.1 ∨ |v + 1| < 0.1).length + 87 := by
  have := sampleCurve_count hm hv h
  have e : gapCount voltage voltage.length
      = (voltage.filter fun v => |v| < 0.05 ∨ |v - 1| < 0.1 ∨ |v + 1| < 0.1).length := by
    unfold gapCount
    conv_rhs => rw [eq_tab voltage 0]
    unfold tab
    rw [List.filter_map, List.length_map]
    rw [← List.toFinset_card_of_nodup (List.nodup_range.filter _)]
    congr 1
    ext i
    simp [nearGap]
  rw [e] at this
  exact this

/-! ## C40: measured data -/

open Classical in
/-- The data kept by `RespFnFromIVData`: the samples strictly between 0 and the limit. -/
noncomputable def keptData (voltage current : List ℝ) (vmax : ℝ) : List (ℝ × ℝ) :=
  (voltage.zip current).filter fun p => 0 < p.1 ∧ p.1 < vmax

theorem VINIT_getD {k : ℕ} (hk : k < 7001) : VINIT.getD k 0 = k * (35 / 7000) := tab_getD hk 0

theorem kept_sorted {voltage current : List ℝ} {vmax : ℝ} (hv : voltage.SortedLT)
    (hl : current.length = voltage.length) (h50 : vmax ≤ 50) :
    ((keptData voltage current vmax).map Prod.fst ++ [50]).SortedLT := by
  classical
  apply List.Pairwise.sortedLT
  rw [List.pairwise_append]
  refine ⟨?_, List.pairwise_singleton _ _, ?_⟩
  · have : ((keptData voltage current vmax).map Prod.fst).Sublist voltage := by
      have h1 : ((voltage.zip current).map Prod.fst) = voltage := List.map_fst_zip (by omega)
      conv_rhs => rw [← h1]
      exact List.Sublist.map _ List.filter_sublist
    exact (List.SortedLT.pairwise hv).sublist this
  · intro a ha b hb
    obtain ⟨⟨x, y⟩, hx, rfl⟩ := List.mem_map.1 ha
    have := (List.mem_filter.1 hx).2
    simp only [decide_eq_true_eq] at this
    rw [List.mem_singleton.1 hb]
    linarith [this.2]

theorem ivResample_ok {voltage current i : List ℝ} {vmax : ℝ} (h : ivResample voltage current vmax = .ok i) :
    current.length = voltage.length ∧ ∃ pre vl il, keptData voltage current vmax = pre ++ [(vl, il)] ∧
      i = tab 7001 fun k => npInterp ((pre.map Prod.fst ++ [vl]) ++ [50]) ((pre.map Prod.snd ++ [il]) ++ [50 + (il - vl)])
        (k * (35 / 7000)) := by
  unfold ivResample at h
  obtain ⟨pts, h1, h⟩ := bind_ok_iff.1 h
  have h := Except.ok.inj h
  unfold ivPoints at h1
  obtain ⟨_, h2, h1⟩ := bind_ok_iff.1 h1
  have h2 := not_not.1 (raiseIf_ok.1 h2)
  obtain ⟨il, h3, h1⟩ := bind_ok_iff.1 h1
  obtain ⟨vl, h4, h1⟩ := bind_ok_iff.1 h1
  cases h1
  refine ⟨h2, ?_⟩
  rcases List.eq_nil_or_concat (keptData voltage current vmax) with he | ⟨pre, ⟨a, b⟩, he⟩
  · unfold keptData at he
    rw [he] at h3
    cases h3
  · unfold keptData at he
    rw [he] at h3 h4
    simp only [List.concat_eq_append, List.map_append, List.map_cons, List.map_nil] at h3 h4
    rw [pyGet_last_ok (by simp)] at h3 h4
    have l1 := Except.ok.inj h3
    have l2 := Except.ok.inj h4
    simp at l1 l2
    refine ⟨pre, a, b, by unfold keptData; simpa using he, ?_⟩
    rw [← h]
    unfold VINIT
    rw [map_tab, he]
    simp [l1, l2]

/-- C40: for increasing voltages and a limit of at most 50, the resampled current is the last kept current
plus `v` minus the last kept voltage from there on, lies on the segment between neighbouring kept samples,
and equals the first kept sample below it. -/
theorem C40_resampling {voltage current i : List ℝ} {vmax : ℝ} (hv : voltage.SortedLT) (h50 : vmax ≤ 50)
    (h : ivResample voltage current vmax = .ok i) :
    i.length = 7001 ∧
    (∀ vl il, (keptData voltage current vmax).getLast? = some (vl, il) → ∀ k < 7001,
      vl ≤ VINIT.getD k 0 → i.getD k 0 = VINIT.getD k 0 + (il - vl)) ∧
    (∀ pre post a p b q, keptData voltage current vmax = pre ++ (a, p) :: (b, q) :: post → ∀ k < 7001,
      a ≤ VINIT.getD k 0 → VINIT.getD k 0 < b →
        (b - a) * i.getD k 0 = (b - VINIT.getD k 0) * p + (VINIT.getD k 0 - a) * q ∧
        min p q ≤ i.getD k 0 ∧ i.getD k 0 ≤ max p q) ∧
    (∀ v0 i0 post, keptData voltage current vmax = (v0, i0) :: post → ∀ k < 7001,
      VINIT.getD k 0 < v0 → i.getD k 0 = i0) := by
  obtain ⟨hl, pre, vl, il, hkept, hi⟩ := ivResample_ok h
  have hsort := kept_sorted hv hl h50 (current := current)
  rw [hkept] at hsort
  have hs : ((pre.map Prod.fst ++ [vl]) ++ [50]).SortedLT := by simpa using hsort
  refine ⟨by rw [hi, tab_length], ?_, ?_, ?_⟩
  · intro vl' il' hlast k hk hle
    rw [hkept] at hlast
    simp at hlast
    obtain ⟨rfl, rfl⟩ := hlast
    rw [hi, tab_getD hk]
    rw [VINIT_getD hk] at hle ⊢
    have hx : (k : ℝ) * (35 / 7000) < 50 := by
      have : (k : ℝ) ≤ 7000 := by exact_mod_cast (show k ≤ 7000 by omega)
      linarith
    have h50' : vl < 50 := by linarith
    have hp := npInterp_between (p := il) (q := 50 + (il - vl)) (pre.map Prod.fst) [] (pre.map Prod.snd) [] (by simp)
      (by simpa using hs) hle hx
    simp only [List.append_assoc, List.cons_append, List.nil_append]
    rw [hp]
    have : (50 : ℝ) - vl ≠ 0 := by linarith
    field_simp
    ring
  · intro pre' post a p b q hk' k hk ha hb
    rw [hi, tab_getD hk]
    rw [VINIT_getD hk] at ha hb ⊢
    have e1 : (pre.map Prod.fst ++ [vl]) ++ [50] = pre'.map Prod.fst ++ a :: b :: (post.map Prod.fst ++ [50]) := by
      have := congrArg (List.map Prod.fst) (hkept.symm.trans hk')
      simp at this
      simpa using congrArg (· ++ [(50 : ℝ)]) this
    have e2 : (pre.map Prod.snd ++ [il]) ++ [50 + (il - vl)]
        = pre'.map Prod.snd ++ p :: q :: (post.map Prod.snd ++ [50 + (il - vl)]) := by
      have := congrArg (List.map Prod.snd) (hkept.symm.trans hk')
      simp at this
      simpa using congrArg (· ++ [50 + (il - vl)]) this
    rw [e1] at hs
    rw [e1, e2, npInterp_between _ _ _ _ (by simp) hs ha hb]
    set x := (k : ℝ) * (35 / 7000)
    have hba : 0 < b - a := by linarith
    have e3 : (b - a) * (p + (q - p) / (b - a) * (x - a)) = (b - x) * p + (x - a) * q := by
      field_simp
      ring
    refine ⟨e3, ?_, ?_⟩
    · have h1 := min_le_left p q
      have h2 := min_le_right p q
      have : (b - a) * min p q ≤ (b - a) * (p + (q - p) / (b - a) * (x - a)) := by
        rw [e3]
        nlinarith
      exact le_of_mul_le_mul_left this hba
    · have h1 := le_max_left p q
      have h2 := le_max_right p q
      have : (b - a) * (p + (q - p) / (b - a) * (x - a)) ≤ (b - a) * max p q := by
        rw [e3]
        nlinarith
      exact le_of_mul_le_mul_left this hba
  · intro v0 i0 post hk' k hk hlt
    rw [hi, tab_getD hk]
    rw [VINIT_getD hk] at hlt
    have e1 : (pre.map Prod.fst ++ [vl]) ++ [50] = v0 :: (post.map Prod.fst ++ [50]) := by
      have := congrArg (List.map Prod.fst) (hkept.symm.trans hk')
      simp at this
      simpa using congrArg (· ++ [(50 : ℝ)]) this
    have e2 : (pre.map Prod.snd ++ [il]) ++ [50 + (il - vl)] = i0 :: (post.map Prod.snd ++ [50 + (il - vl)]) := by
      have := congrArg (List.map Prod.snd) (hkept.symm.trans hk')
      simp at this
      simpa using congrArg (· ++ [50 + (il - vl)]) this
    rw [e1] at hs
    rw [e1, e2]
    exact npInterp_below hs hlt

/-- C40: resampling fails only if the lists have different lengths or nothing is kept. -/
theorem C40_accepted {voltage current : List ℝ} {vmax : ℝ} (hl : current.length = voltage.length)
    (hk : keptData voltage current vmax ≠ []) : ∃ i, ivResample voltage current vmax = .ok i := by
  unfold ivResample ivPoints
  unfold keptData at hk
  have hpos := List.length_pos_of_ne_nil hk
  rw [raiseIf_neg (not_not.2 hl)]
  dsimp only
  rw [pyGet_last_ok (by rw [List.length_map]; exact hpos), py_bind,
    pyGet_last_ok (by rw [List.length_map]; exact hpos), py_bind]
  exact ⟨_, rfl⟩

/-- Three samples, one outside the limit. -/
example : ∃ i, ivResample [-1, 1, 1.5, 2] [-1, 0.25, 1.5, 2] 1.8 = .ok i ∧ i.getD 7000 0 = 35 := by
  have hk : keptData [-1, 1, 1.5, 2] [-1, 0.25, 1.5, 2] 1.8 = [(1, 0.25), (1.5, 1.5)] := by
    unfold keptData
    simp [List.filter_cons]
    norm_num
  obtain ⟨i, hi⟩ := C40_accepted (voltage := [-1, 1, 1.5, 2]) (current := [-1, 0.25, 1.5, 2]) (vmax := 1.8) rfl
    (by rw [hk]; simp)
  refine ⟨i, hi, ?_⟩
  have := (C40_resampling (List.Pairwise.sortedLT (by simp; norm_num)) (by norm_num) hi).2.1 1.5 1.5
    (by rw [hk]; rfl) 7000 (by norm_num) (by rw [VINIT_getD (by norm_num)]; norm_num)
  rw [this, VINIT_getD (by norm_num)]
  norm_num

/-! ## C73: the data is reproduced -/

/-- C73: `idc` and `ikk` reproduce the data at every data point near zero, near a gap and at the ends. -/
theorem C73_exact {S : Splines} {v c : List ℝ} {p : Params} {r : Obj} (h : respInit S v c p = .ok r)
    {i : ℕ} (hi : i < r.voltage.length)
    (hp : |r.voltage.getD i 0| < 0.05 ∨ |r.voltage.getD i 0 - 1| < 0.1 ∨ |r.voltage.getD i 0 + 1| < 0.1
      ∨ i < 3 ∨ r.voltage.length ≤ i + 3) :
    r.idc (r.voltage.getD i 0) = r.current.getD i 0 ∧ r.ikk (r.voltage.getD i 0) = r.currentKk.getD i 0 := by
  obtain ⟨-, -, -, -, -, -, f, hf, e1, e2⟩ := respInit_ok h
  obtain ⟨dcIdx, kkIdx, xd, yd, xk, yk, h1, h2, h3, h4, h5, h6, h7, h8, -⟩ := setup_ok hf
  have hp' : nearGap (r.voltage.getD i 0) ∨ nearEnd r.voltage.length i := by
    unfold nearGap nearEnd
    rcases hp with hp | hp | hp | hp | hp
    · exact Or.inl (Or.inl hp)
    · exact Or.inl (Or.inr (Or.inl hp))
    · exact Or.inl (Or.inr (Or.inr hp))
    · exact Or.inr (Or.inl hp)
    · exact Or.inr (Or.inr (by omega))
  have m1 := (sampleCurve_mem h1).2.1 i hi hp'
  have m2 := (sampleCurve_mem h2).2.1 i hi hp'
  unfold Obj.idc Obj.ikk
  rw [e1, e2]
  exact ⟨samples_exact h3 h4 h7 m1, samples_exact h5 h6 h8 m2⟩

/-! ## C74: only evenly spaced data is accepted -/

/-- C74 is false: all voltage steps of accepted data agree with the last one (the first after the
reflection) to within `1e-5`, so data with more points in the curved regions is rejected. -/
theorem C74_false_only_even {S : Splines} {v c : List ℝ} {p : Params} {r : Obj}
    (h : respInit S v c p = .ok r) {i : ℕ} (hi : i + 1 < v.length) :
    |(v.getD (v.length - 1) 0 - v.getD (v.length - 2) 0) - (v.getD (i + 1) 0 - v.getD i 0)| < 1 / 10 ^ 5 := by
  obtain ⟨hpos, h0, -, hv, -, hk, -⟩ := respInit_ok h
  have hvne : v ≠ [] := by rintro rfl; simp at hpos
  obtain ⟨lv, up, dn, -⟩ := C36_reflection v hvne
  rw [← hv] at lv up dn
  unfold kkTrans at hk
  dsimp only at hk
  obtain ⟨v1, hv1, hk⟩ := bind_ok_iff.1 hk
  obtain ⟨v0, hv0, hk⟩ := bind_ok_iff.1 hk
  obtain ⟨d, hd, hk⟩ := bind_ok_iff.1 hk
  obtain ⟨m, hm, hk⟩ := bind_ok_iff.1 hk
  obtain ⟨_, hlt, -⟩ := bind_ok_iff.1 hk
  obtain ⟨l1, rfl⟩ := pyGet_nat (i := 1) hv1
  obtain ⟨-, rfl⟩ := pyGet_nat (i := 0) hv0
  have hlt := (amax_lt hm _).1 (pyAssert_ok.1 hlt)
  have e := eq_tab r.voltage 0
  have s1 : slice r.voltage (some 1) none = tab (r.voltage.length - 1) fun i => r.voltage.getD (1 + i) 0 := by
    conv_lhs => rw [e]
    exact slice_tab _ _ _ (by rw [Option.elim, bound_nonneg (by norm_num) (by omega)]; rfl) rfl le_rfl
  have s2 : slice r.voltage none (some (-1)) = tab (r.voltage.length - 1) fun i => r.voltage.getD i 0 := by
    conv_lhs => rw [e]
    rw [slice_tab (a := 0) (b := r.voltage.length - 1) _ _ _ rfl (by
      rw [Option.elim, bound_neg (by norm_num)]; omega) (by omega)]
    exact tab_ext (by omega) fun i _ => by rw [Nat.zero_add]
  rw [s1, s2, zip_tab] at hd
  cases hd
  rw [map_tab] at hlt
  have := hlt _ (mem_tab.2 ⟨v.length - 1 + i, by omega, rfl⟩)
  rw [show 1 + (v.length - 1 + i) = v.length - 1 + (i + 1) by omega, up (i + 1) (by omega), up i (by omega)] at this
  have d0 := dn (v.length - 1) (by omega) (by omega)
  have d1 : r.voltage.getD 1 0 = -v.getD (v.length - 2) 0 := by
    rcases Nat.eq_zero_or_pos (v.length - 2) with hz | hz
    · have := up 0 (by omega)
      rw [show v.length - 1 + 0 = 1 by omega] at this
      rw [this, hz, h0, neg_zero]
    · have := dn (v.length - 2) (by omega) hz
      rw [show v.length - 1 - (v.length - 2) = 1 by omega] at this
      exact this
  rw [show v.length - 1 - (v.length - 1) = 0 by omega] at d0
  rw [d0, d1] at this
  rw [show -v.getD (v.length - 2) 0 - -v.getD (v.length - 1) 0
    = v.getD (v.length - 1) 0 - v.getD (v.length - 2) 0 by ring] at this
  exact this

/-- C74, a concrete case: steps of 0.5 up to 2 and steps of 1 from there on are rejected. -/
theorem C74_false_rejected (S : Splines) (p : Params) (r : Obj) (c : List ℝ) :
    respInit S [0, 0.5, 1, 1.5, 2, 3, 4, 5, 6] c p ≠ .ok r := by
  intro h
  have := C74_false_only_even h (i := 0) (by simp)
  norm_num at this

/-! ## C77: derivatives -/

/-- C77 is false: the perfect response function without smearing has no derivatives. -/
theorem C77_false_perfect (S : Splines) (p : Params) (hp : p.vSmear = none) :
    ∃ r, respPerfect S p = .ok r ∧ ∀ v, r.didc v = .error .type ∧ r.dikk v = .error .type := by
  unfold respPerfect
  rw [hp]
  exact ⟨_, rfl, fun v => ⟨rfl, rfl⟩⟩

/-- C77 for all objects made by `RespFn.__init__`: the derivatives exist everywhere, and they are the
derivatives of the splines used for `idc` and `ikk`. -/
theorem C77_partial {S : Splines} {v c : List ℝ} {p : Params} {r : Obj} (h : respInit S v c p = .ok r) :
    ∃ xd yd xk yk k, (∀ t, r.idc t = S.eval xd yd k t ∧ r.didc t = .ok (S.deriv xd yd k t)) ∧
      ∀ t, r.ikk t = S.eval xk yk k t ∧ r.dikk t = .ok (S.deriv xk yk k t) := by
  unfold respInit at h
  obtain ⟨a, -, h⟩ := bind_ok_iff.1 h
  obtain ⟨_, -, h⟩ := bind_ok_iff.1 h
  obtain ⟨b, -, h⟩ := bind_ok_iff.1 h
  obtain ⟨_, -, h⟩ := bind_ok_iff.1 h
  obtain ⟨cur, -, h⟩ := bind_ok_iff.1 h
  obtain ⟨kk, -, h⟩ := bind_ok_iff.1 h
  obtain ⟨f, hf, h⟩ := bind_ok_iff.1 h
  cases h
  unfold setupInterpolation at hf
  obtain ⟨dcIdx, h1, h⟩ := bind_ok_iff.1 hf
  obtain ⟨kkIdx, h2, h⟩ := bind_ok_iff.1 h
  obtain ⟨xd, h3, h⟩ := bind_ok_iff.1 h
  obtain ⟨yd, h4, h⟩ := bind_ok_iff.1 h
  obtain ⟨fd, h5, h⟩ := bind_ok_iff.1 h
  obtain ⟨xk, h6, h⟩ := bind_ok_iff.1 h
  obtain ⟨yk, h7, h⟩ := bind_ok_iff.1 h
  obtain ⟨fk, h8, h⟩ := bind_ok_iff.1 h
  obtain ⟨_, h9, h⟩ := bind_ok_iff.1 h
  obtain ⟨_, h10, h⟩ := bind_ok_iff.1 h
  cases h
  obtain ⟨-, -, rfl, -⟩ := interp_ok h5
  obtain ⟨-, -, rfl, -⟩ := interp_ok h8
  exact ⟨xd, yd, xk, yk, p.splineOrder, fun t => ⟨rfl, rfl⟩, fun t => ⟨rfl, rfl⟩⟩

end QMix.RespFn
