import Verif.Lemmas.CleanMatrix

/-!
# Cleaning measured data: C50, C51

Independent specification: `Below a b` says that both are numbers (not NaN) and the first is smaller;
`Measured x y p` says that `p` is a measured point without NaN.
-/

namespace QMix.Clean

open Np Fl

/-- `p` is one of the points `(x[i], y[i])` and has no NaN. -/
def Measured (x y : List Flt) (p : Flt × Flt) : Prop :=
  (∃ i : ℕ, x[i]? = some p.1 ∧ y[i]? = some p.2) ∧ p.1 ≠ none ∧ p.2 ≠ none

theorem mem_zip_iff {x y : List Flt} {p : Flt × Flt} :
    p ∈ x.zip y ↔ ∃ i : ℕ, x[i]? = some p.1 ∧ y[i]? = some p.2 := by
  rw [List.mem_iff_getElem?]
  constructor
  · rintro ⟨i, hi⟩
    exact ⟨i, List.getElem?_zip_eq_some.1 hi⟩
  · rintro ⟨i, hi⟩
    exact ⟨i, List.getElem?_zip_eq_some.2 hi⟩

theorem measured_iff {x y : List Flt} {p : Flt × Flt} : Measured x y p ↔ p ∈ valid x y := by
  rw [valid_ne, mem_zip_iff]; rfl

/-- C50: whenever `clean_xy` returns, the result is strictly increasing in `x` (so without NaN and
without doubles), every returned point is a measured point without NaN, and the `x` of every measured
point without NaN is in the result. For every sorting algorithm. -/
theorem C50_clean (S : Sorter) (x y x' y' : List Flt) (h : cleanXy S x y = .ok (x', y')) :
    x'.length = y'.length ∧ x'.Pairwise Below ∧
    (∀ (i : ℕ) a b, x'[i]? = some a → y'[i]? = some b → Measured x y (a, b)) ∧
    (∀ p, Measured x y p → p.1 ∈ x') := by
  obtain ⟨hl, hu, rfl, rfl⟩ := cleanXy_ok S h
  have hp := sortBy_perm S Prod.fst (none, none) (valid x y)
  have hn : ∀ r ∈ sortBy S Prod.fst (none, none) (valid x y), r.1 ≠ none :=
    fun r hr => (valid_ne.1 (hp.mem_iff.1 hr)).2.1
  refine ⟨by simp, keep_below _ _ (sortBy_sorted S _ _ _) hn, ?_, ?_⟩
  · intro i a b ha hb
    rw [measured_iff]
    apply hp.mem_iff.1
    apply (keep_sublist Prod.fst _).subset
    rw [List.getElem?_map, Option.map_eq_some_iff] at ha hb
    obtain ⟨p, hp', rfl⟩ := ha
    obtain ⟨q, hq, rfl⟩ := hb
    rw [hp'] at hq
    obtain rfl := Option.some.inj hq
    exact List.mem_of_getElem? hp'
  · intro p hm
    exact keep_mem Prod.fst _ hn (hp.mem_iff.2 (measured_iff.1 hm))

/-- The number of measured points without NaN. -/
def goodCount (x y : List Flt) : ℕ :=
  ((x.zip y).countP fun p => notNan p.1 && notNan p.2)

/-- The number of measured points without NaN whose `x` is `t`. -/
noncomputable def goodCountAt (x y : List Flt) (t : EReal) : ℕ :=
  open Classical in (x.zip y).countP fun p => decide (p.1 = some t) && notNan p.2

/-- C50: exactly the data that `clean_xy` accepts: equal lengths, at least two points without NaN, and
no infinite `x` measured twice. -/
theorem C50_accepted (S : Sorter) (x y : List Flt) :
    (∃ r, cleanXy S x y = .ok r) ↔
      x.length = y.length ∧ 2 ≤ goodCount x y ∧ goodCountAt x y ⊤ ≤ 1 ∧ goodCountAt x y ⊥ ≤ 1 := by
  classical
  have hp := sortBy_perm S Prod.fst (none, none) (valid x y)
  have hn : ∀ r ∈ sortBy S Prod.fst (none, none) (valid x y), r.1 ≠ none :=
    fun r hr => (valid_ne.1 (hp.mem_iff.1 hr)).2.1
  have hc := checkSorted_iff Prod.fst _ (sortBy_sorted S Prod.fst (none, none) (valid x y)) hn
  have e1 : (sortBy S Prod.fst (none, none) (valid x y)).length = goodCount x y := by
    rw [hp.length_eq, valid, goodCount, List.countP_eq_length_filter]
  have e2 : ∀ t, ((sortBy S Prod.fst (none, none) (valid x y)).map Prod.fst).count (some t)
      = goodCountAt x y t := by
    intro t
    rw [(hp.map _).count_eq, goodCountAt, valid, List.count, List.countP_map, List.countP_filter]
    apply List.countP_congr
    intro p _
    simp only [Function.comp, beq_iff_eq, Bool.and_eq_true, decide_eq_true_eq]
    constructor
    · rintro ⟨h, h', h''⟩; exact ⟨h, h''⟩
    · rintro ⟨h, h'⟩; exact ⟨h, by rw [h]; rfl, h'⟩
  rw [e1, e2, e2] at hc
  constructor
  · rintro ⟨⟨x', y'⟩, h⟩
    obtain ⟨hl, hu, -, -⟩ := cleanXy_ok S h
    exact ⟨hl, hc.1 hu⟩
  · rintro ⟨hl, h⟩
    rw [cleanXy_eq S hl, hc.2 h]
    exact ⟨_, rfl⟩

/-- C50: the cleaned `x` does not depend on the sorting algorithm nor on the order of the points. -/
theorem C50_order (S S' : Sorter) (x y u v x' y' u' v' : List Flt)
    (hp : (x.zip y).Perm (u.zip v))
    (h : cleanXy S x y = .ok (x', y')) (h' : cleanXy S' u v = .ok (u', v')) : x' = u' := by
  obtain ⟨hl, hb, hs, hm⟩ := C50_clean S x y x' y' h
  obtain ⟨hl', hb', hs', hm'⟩ := C50_clean S' u v u' v' h'
  have hq : ∀ p, Measured x y p ↔ Measured u v p := by
    intro p
    unfold Measured
    rw [← mem_zip_iff, ← mem_zip_iff, hp.mem_iff]
  apply below_unique hb hb'
  have aux : ∀ {x y x' y' u v u' v' : List Flt}, x'.length = y'.length →
      (∀ (i : ℕ) a b, x'[i]? = some a → y'[i]? = some b → Measured x y (a, b)) →
      (∀ p, Measured x y p ↔ Measured u v p) → (∀ p, Measured u v p → p.1 ∈ u') →
      ∀ a, a ∈ x' → a ∈ u' := by
    intro x y x' y' u v u' v' hl hs hq hm a ha
    obtain ⟨i, hi⟩ := List.mem_iff_getElem?.1 ha
    have hi' : i < y'.length := by
      rw [← hl]; exact (List.getElem?_eq_some_iff.1 hi).1
    exact hm _ ((hq _).1 (hs i a _ hi (List.getElem?_eq_getElem hi')))
  exact fun a => ⟨aux (v' := v') hl hs hq hm' a, aux (v' := y') hl' hs' (fun p => (hq p).symm) hm a⟩

/-- C50, the part about cleaning twice that holds: if at least two points remain, cleaning again
changes nothing. Missing: one remaining point, see `C50_false_twice`. -/
theorem C50_twice_partial (S S' : Sorter) (x y x' y' : List Flt)
    (h : cleanXy S x y = .ok (x', y')) (h2 : 2 ≤ x'.length) :
    cleanXy S' x' y' = .ok (x', y') := by
  obtain ⟨hl, hb, hs, hm⟩ := C50_clean S x y x' y' h
  have hz : ∀ p ∈ x'.zip y', p.1 ≠ none ∧ p.2 ≠ none := by
    intro p hp
    obtain ⟨i, h1, h2⟩ := mem_zip_iff.1 hp
    exact (hs i p.1 p.2 h1 h2).2
  have hv : valid x' y' = x'.zip y' := by
    unfold valid
    rw [List.filter_eq_self]
    intro p hp
    obtain ⟨h1, h2⟩ := hz p hp
    simp [notNan, Option.isSome_iff_ne_none, h1, h2]
  have hk : (x'.zip y').map Prod.fst = x' := List.map_fst_zip hl.le
  have hk' : (x'.zip y').map Prod.snd = y' := List.map_snd_zip hl.ge
  have hp := sortBy_perm S' Prod.fst (none, none) (valid x' y')
  rw [hv] at hp
  have hbz : (x'.zip y').Pairwise fun p q => Below p.1 q.1 := by
    rw [← hk, List.pairwise_map] at hb
    exact hb
  have hss := sortBy_sorted S' Prod.fst (none, none) (valid x' y')
  have he : sortBy S' Prod.fst (none, none) (valid x' y') = x'.zip y' := by
    rw [hv] at hss ⊢
    have hnd : (x'.zip y').Pairwise fun p q => p.1 ≠ q.1 := hbz.imp (fun {p q} hpq e => by
      rw [e] at hpq; exact Below.irrefl _ hpq)
    have hnd' : (sortBy S' Prod.fst (none, none) (x'.zip y')).Pairwise fun p q => p.1 ≠ q.1 := by
      have h1 : ((x'.zip y').map Prod.fst).Nodup := by
        rw [List.Nodup, List.pairwise_map]; exact hnd
      have h2 := (hp.map Prod.fst).nodup_iff.2 h1
      rw [List.Nodup, List.pairwise_map] at h2
      exact h2
    have hb2 : (sortBy S' Prod.fst (none, none) (x'.zip y')).Pairwise fun p q => Below p.1 q.1 := by
      rw [List.pairwise_map] at hss
      refine (List.pairwise_and_iff.2 ⟨hss, hnd'⟩ |>.imp_of_mem ?_)
      rintro p q hp' hq' ⟨h1, h2⟩
      obtain ⟨a, ha⟩ := Option.ne_none_iff_exists'.1 (hz p (hp.mem_iff.1 hp')).1
      obtain ⟨b, hb⟩ := Option.ne_none_iff_exists'.1 (hz q (hp.mem_iff.1 hq')).1
      rw [ha, hb] at h1 h2
      exact ⟨a, b, ha, hb, lt_of_le_of_ne h1 (fun e => h2 (by rw [e]))⟩
    have : Std.Antisymm fun p q : Flt × Flt => Below p.1 q.1 :=
      ⟨fun a b h h' => absurd (h.trans h') (Below.irrefl a.1)⟩
    exact List.Perm.eq_of_pairwise' hb2 hbz hp
  rw [cleanXy_eq S' hl, he, hk, keep_eq _ _ (by rw [hk]; exact hb), hk, hk']
  have hnd : x'.Nodup := List.Pairwise.imp (S := (· ≠ ·)) (fun {a b} (hab : Below a b) e => by
    rw [e] at hab; exact Below.irrefl _ hab) hb
  have hc := (checkSorted_iff Prod.fst (x'.zip y') (by rw [hk]; exact hb.imp Below.le)
    (fun r hr => (hz r hr).1)).2 ⟨by rw [List.length_zip, ← hl]; simpa using h2,
      by rw [hk]; exact List.nodup_iff_count_le_one.1 hnd _,
      by rw [hk]; exact List.nodup_iff_count_le_one.1 hnd _⟩
  rw [hk] at hc
  rw [hc]
  rfl

/-- A sorting algorithm: merge sort of the positions. -/
noncomputable def mergeSorter : Sorter where
  argsort l := open Classical in
    (List.range l.length).mergeSort fun i j => decide (Flt.le (l.getD i none) (l.getD j none))
  perm l := List.mergeSort_perm _ _
  sorted l := by
    rw [List.pairwise_map]
    refine (List.pairwise_mergeSort (le := fun i j =>
      open Classical in decide (Flt.le (l.getD i none) (l.getD j none))) ?_ ?_ _).imp ?_
    · intro a b c h1 h2
      simp only [decide_eq_true_eq] at *
      exact Flt.le_trans h1 h2
    · intro a b
      simp only [Bool.or_eq_true, decide_eq_true_eq]
      cases l.getD a none <;> cases l.getD b none <;> simp [Flt.le, le_total]
    · intro a b h
      simpa using h

theorem num_inj {a b : ℝ} : num a = num b ↔ a = b := by
  unfold num
  rw [Option.some.injEq, EReal.coe_eq_coe_iff]

theorem top_ne_num (a : ℝ) : (some ⊤ : Flt) ≠ num a := fun h =>
  EReal.coe_ne_top a (Option.some.inj h).symm

theorem bot_ne_num (a : ℝ) : (some ⊥ : Flt) ≠ num a := fun h =>
  EReal.coe_ne_bot a (Option.some.inj h).symm

theorem goodCountAt_zero {x y : List Flt} {t : EReal} (h : some t ∉ x) : goodCountAt x y t ≤ 1 := by
  unfold goodCountAt
  rw [List.countP_eq_zero.2]
  · exact Nat.zero_le 1
  · intro p hp hc
    simp only [Bool.and_eq_true, decide_eq_true_eq] at hc
    exact h (hc.1 ▸ (List.of_mem_zip (a := p.1) (b := p.2) hp).1)

/-- C50 is false for a measurement with repeated `x`: `clean_xy` of two points at the same voltage
returns one point, and cleaning this again raises `ValueError` (the minimum of an empty array). -/
theorem C50_false_twice (S S' : Sorter) : ∃ x' y',
    cleanXy S [num 1, num 1] [num 2, num 2] = .ok (x', y') ∧ cleanXy S' x' y' = .error .value := by
  obtain ⟨⟨x', y'⟩, h⟩ := (C50_accepted S [num 1, num 1] [num 2, num 2]).2 (by
    exact ⟨rfl, by simp [goodCount, num, notNan],
      goodCountAt_zero (by simp [top_ne_num]), goodCountAt_zero (by simp [bot_ne_num])⟩)
  refine ⟨x', y', h, ?_⟩
  obtain ⟨hl, hb, hs, hm⟩ := C50_clean S _ _ x' y' h
  have hx : x' = [num 1] := by
    apply below_unique hb (by simp)
    intro a
    simp only [List.mem_singleton]
    constructor
    · intro ha
      obtain ⟨i, hi⟩ := List.mem_iff_getElem?.1 ha
      have hi' : i < y'.length := by
        rw [← hl]; exact (List.getElem?_eq_some_iff.1 hi).1
      obtain ⟨⟨j, hj, -⟩, -⟩ := hs i a _ hi (List.getElem?_eq_getElem hi')
      match j, hj with
      | 0, hj => exact (Option.some.inj hj).symm
      | 1, hj => exact (Option.some.inj hj).symm
    · rintro rfl
      exact hm (num 1, num 2) ⟨⟨0, rfl, rfl⟩, by simp [num], by simp [num]⟩
  subst hx
  rw [cleanXy_eq S' hl, checkSorted_few]
  · rfl
  · rw [(sortBy_perm S' _ _ _).length_eq]
    refine lt_of_le_of_lt (List.length_filter_le _ _) ?_
    simp

/-- C50: fewer than two points without NaN raise `ValueError`. -/
theorem C50_few (S : Sorter) (x y : List Flt) (hl : x.length = y.length) (h : goodCount x y < 2) :
    cleanXy S x y = .error .value := by
  rw [cleanXy_eq S hl, checkSorted_few]
  · rfl
  · rw [(sortBy_perm S _ _ _).length_eq, valid, ← List.countP_eq_length_filter]
    exact h

/-- Unsorted data with a NaN and a repeated `x`: it is accepted, and the result has the three
different values of `x`. -/
example : ∃ x' y', cleanXy mergeSorter [num 3, none, num 1, num 3, num 2] [num 1, num 2, num 3, num 4, num 5]
    = .ok (x', y') ∧ num 1 ∈ x' ∧ num 2 ∈ x' ∧ num 3 ∈ x' := by
  obtain ⟨⟨x', y'⟩, h⟩ := (C50_accepted mergeSorter [num 3, none, num 1, num 3, num 2]
    [num 1, num 2, num 3, num 4, num 5]).2 (by
      exact ⟨rfl, by simp [goodCount, num, notNan],
        goodCountAt_zero (by simp [top_ne_num]), goodCountAt_zero (by simp [bot_ne_num])⟩)
  have hm := (C50_clean _ _ _ _ _ h).2.2.2
  exact ⟨x', y', h, hm (num 1, num 3) ⟨⟨2, rfl, rfl⟩, by simp [num], by simp [num]⟩,
    hm (num 2, num 5) ⟨⟨4, rfl, rfl⟩, by simp [num], by simp [num]⟩,
    hm (num 3, num 1) ⟨⟨0, rfl, rfl⟩, by simp [num], by simp [num]⟩⟩

/-! ### Matrices -/

/-- C51: cleaning a two-column matrix and splitting it gives the same as splitting it and cleaning
the columns, including the exceptions. -/
theorem C51_matrix (S : Sorter) (m : Mat) (h : m.ncol = 2) :
    (do let m' ← cleanMatrix S m; matrixToXy m')
      = (do let p ← matrixToXy m; cleanXy S p.1 p.2) := by
  have hr : (do let p ← matrixToXy m; cleanXy S p.1 p.2)
      = cleanXy S (m.rows.map (entry 0)) (m.rows.map (entry 1)) := by
    unfold matrixToXy
    rw [(col_two h).1, py_bind, (col_two h).2, py_bind]
    rfl
  have hs := sortBy_map S Prod.fst pair (none, none) [] (validRows m.rows)
  rw [hr, cleanMatrix_eq S h, cleanXy_eq S (by simp), valid_rows, hs, keep_map]
  rw [List.map_map, List.map_map, List.map_map]
  have e0 : Prod.fst ∘ pair = entry 0 := rfl
  have e1 : Prod.snd ∘ pair = entry 1 := rfl
  rw [e0, e1]
  cases checkSorted ((sortBy S (entry 0) [] (validRows m.rows)).map (entry 0)) with
  | error e => rfl
  | ok u =>
    rw [py_bind, py_bind]
    change matrixToXy ⟨2, _⟩ = _
    unfold matrixToXy
    rw [(col_two rfl).1, py_bind, (col_two rfl).2, py_bind]

/-- C51: cleaning a matrix only removes and reorders rows; it accepts only two columns. -/
theorem C51_rows (S : Sorter) (m m' : Mat) (h : cleanMatrix S m = .ok m') :
    m.ncol = 2 ∧ m'.ncol = 2 ∧ (∃ l, l.Perm m.rows ∧ m'.rows.Sublist l) ∧ (m.WF → m'.WF) := by
  have h2 : m.ncol = 2 := by
    by_contra hc
    unfold cleanMatrix at h
    rw [pyAssert_neg hc] at h
    cases h
  rw [cleanMatrix_eq S h2] at h
  obtain ⟨_, _, h⟩ := bind_ok_iff.1 h
  obtain rfl := pure_ok_iff.1 h
  have hsub : ∃ l, l.Perm m.rows ∧
      (keep (entry 0) (sortBy S (entry 0) [] (validRows m.rows))).Sublist l := by
    refine ⟨sortBy S (entry 0) [] (validRows m.rows)
      ++ m.rows.filter (fun r => !(notNan (entry 0 r) && notNan (entry 1 r))), ?_, ?_⟩
    · refine ((sortBy_perm S _ _ _).append_right _).trans ?_
      exact List.filter_append_perm _ _
    · exact (keep_sublist _ _).trans (List.sublist_append_left _ _)
  refine ⟨h2, rfl, hsub, fun hw r hr => ?_⟩
  obtain ⟨l, hl, hs⟩ := hsub
  exact (hw r (hl.mem_iff.1 (hs.subset hr))).trans h2

/-- C51: sorting by any column (counted from either side) reorders the rows and sorts that column,
NaN last; a column that does not exist raises `IndexError`. -/
theorem C51_sort (S : Sorter) (m : Mat) (col : ℤ) :
    (∀ j, pyIndex m.ncol col = .ok j → ∃ m', sortMatrix S m col = .ok m' ∧ m'.ncol = m.ncol ∧
      m'.rows.Perm m.rows ∧ (m'.rows.map fun r => r.getD j none).Pairwise Flt.le) ∧
    (¬ (-(m.ncol : ℤ) ≤ col ∧ col < m.ncol) → sortMatrix S m col = .error .index) := by
  constructor
  · intro j hj
    exact ⟨_, sortMatrix_eq S hj, rfl, sortBy_perm S _ _ _, sortBy_sorted S (entry j) [] m.rows⟩
  · intro h
    have : pyIndex m.ncol col = .error .index := by
      unfold pyIndex
      rw [if_neg (by omega), if_neg (by omega)]
    unfold sortMatrix Mat.col
    rw [this]
    rfl

/-- C51, the part about `remove_doubles_matrix` that holds: on a matrix sorted by the chosen column
(without NaN there), if it returns then the chosen column is strictly increasing, the rows are rows
of the input in the same order, and every value of the column is still there. It returns whenever
the check is off, or the first column passes the check. Missing: with the check on it may raise
although the chosen column is sorted, see `C51_false_check`. -/
theorem C51_doubles_partial (m : Mat) (col : ℤ) (j : ℕ) (hj : pyIndex m.ncol col = .ok j)
    (hs : (m.rows.map fun r => r.getD j none).Pairwise Flt.le)
    (hn : ∀ r ∈ m.rows, r.getD j none ≠ none) :
    (∀ check m', removeDoublesMatrix m col check = .ok m' → m'.ncol = m.ncol ∧
      m'.rows.Sublist m.rows ∧ (m'.rows.map fun r => r.getD j none).Pairwise Below ∧
      ∀ r ∈ m.rows, r.getD j none ∈ m'.rows.map fun r => r.getD j none) ∧
    (∃ m', removeDoublesMatrix m col false = .ok m') ∧
    (j = 0 → 2 ≤ m.rows.length → (∀ r ∈ m.rows, ∃ a : ℝ, r.getD 0 none = num a) →
      ∃ m', removeDoublesMatrix m col true = .ok m') := by
  refine ⟨?_, ?_, ?_⟩
  · intro check m' h
    rw [removeDoublesMatrix_eq hj] at h
    have hm : m' = ⟨m.ncol, keep (entry j) m.rows⟩ := by
      cases check with
      | false => exact (pure_ok_iff.1 h).symm
      | true =>
        obtain ⟨_, _, h⟩ := bind_ok_iff.1 h
        exact (pure_ok_iff.1 h).symm
    subst hm
    exact ⟨rfl, keep_sublist _ _, keep_below (entry j) _ hs hn,
      fun r hr => keep_mem (entry j) _ hn hr⟩
  · rw [removeDoublesMatrix_eq hj]
    exact ⟨_, rfl⟩
  · rintro rfl h2 hr
    rw [removeDoublesMatrix_eq hj]
    have h0 : ∀ t : EReal, (∀ a : ℝ, (a : EReal) ≠ t) →
        (m.rows.map (entry 0)).count (some t) ≤ 1 := by
      intro t ht
      rw [List.count_eq_zero.2]
      · exact Nat.zero_le 1
      · intro hm
        obtain ⟨r, hr', he⟩ := List.mem_map.1 hm
        obtain ⟨a, ha⟩ := hr r hr'
        unfold entry at he
        rw [ha] at he
        exact ht a (Option.some.inj he)
    have hc := (checkSorted_iff (entry 0) m.rows hs hn).2
      ⟨h2, h0 ⊤ EReal.coe_ne_top, h0 ⊥ EReal.coe_ne_bot⟩
    simp only [if_true]
    rw [hc]
    exact ⟨_, rfl⟩

/-- C51 is false with the check on: a matrix sorted by its second column (and without doubles) is
refused, because the check looks at the first column. -/
theorem C51_false_check : ∃ m : Mat, m.WF ∧ m.ncol = 2 ∧
    (m.rows.map fun r => r.getD 1 none).Pairwise Below ∧
    removeDoublesMatrix m 1 true = .error .assertion ∧
    removeDoublesMatrix m 1 false = .ok m := by
  have hb : Below (num 1) (num 2) := ⟨_, _, rfl, rfl, by exact_mod_cast one_lt_two⟩
  refine ⟨⟨2, [[num 2, num 1], [num 1, num 2]]⟩, ?_, rfl, ?_, ?_, ?_⟩
  · intro r hr
    simp only [List.mem_cons, List.not_mem_nil, or_false] at hr
    rcases hr with rfl | rfl <;> rfl
  · simpa using hb
  · rw [removeDoublesMatrix_eq (j := 1) rfl]
    have : checkSorted [num 2, num 1] = .error .assertion := by
      classical
      have hz := zip_diff fsub [num 2, num 1] id
      rw [List.map_id] at hz
      unfold checkSorted
      rw [hz, py_bind]
      obtain ⟨k, hk⟩ := amin_total (l := List.zipWith (fun a b : Flt => fsub (id a) (id b))
        [num 2, num 1].tail [num 2, num 1].dropLast) (by simp)
      have hm := amin_ge0 hk
      rw [hk, py_bind]
      have : ¬ ge0 k := by
        rw [hm]
        intro h
        have h1 := h (fsub (num 1) (num 2)) (by simp)
        unfold fsub num ge0 at h1
        simp only [EReal.coe_ne_top, EReal.coe_ne_bot, false_and, or_self, if_false] at h1
        have h2 : (0 : ℝ) ≤ 1 - 2 := by exact_mod_cast h1
        norm_num at h2
      unfold pyAssert
      rw [if_neg this]
    simp only [if_true]
    have e : List.map (entry 0) [[num 2, num 1], [num 1, num 2]] = [num 2, num 1] := rfl
    rw [e, this]
    rfl
  · rw [removeDoublesMatrix_eq (j := 1) rfl]
    have : keep (entry 1) [[num 2, num 1], [num 1, num 2]] = [[num 2, num 1], [num 1, num 2]] :=
      keep_eq _ _ (by simpa [entry] using hb)
    simp only [this]
    rfl

/-- C51: combining two arrays into a matrix and splitting it returns them. -/
theorem C51_roundtrip (x y : List Flt) (h : x.length = y.length) :
    (do let m ← xyToMatrix x y; matrixToXy m) = .ok (x, y) := by
  unfold xyToMatrix
  rw [raiseIf_neg (by simpa using h)]
  change matrixToXy ⟨2, _⟩ = _
  unfold matrixToXy
  rw [(col_two rfl).1, py_bind, (col_two rfl).2, py_bind, List.map_zipWith, List.map_zipWith]
  have aux : ∀ x y : List Flt, x.length = y.length →
      List.zipWith (fun a b : Flt => entry 0 [a, b]) x y = x ∧
      List.zipWith (fun a b : Flt => entry 1 [a, b]) x y = y := by
    intro x
    induction x with
    | nil => intro y h; cases y with
      | nil => exact ⟨rfl, rfl⟩
      | cons b y => simp at h
    | cons a x ih =>
      intro y h
      cases y with
      | nil => simp at h
      | cons b y =>
        obtain ⟨h1, h2⟩ := ih y (by simpa using h)
        constructor
        · rw [List.zipWith_cons_cons, h1]; rfl
        · rw [List.zipWith_cons_cons, h2]; rfl
  rw [(aux x y h).1, (aux x y h).2]
  rfl

end QMix.Clean
