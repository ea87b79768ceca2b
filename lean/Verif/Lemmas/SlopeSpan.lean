import Verif.Lemmas.MathFn

/-!
# Lemmas about `slope_span_n`
-/

namespace QMix.MathFn

open QMix.Np

theorem pyFor_append {σ κ : Type} (l l' : List κ) (s : σ) (body : σ → κ → Py σ) :
    pyFor (l ++ l') s body = (pyFor l s body >>= fun s' => pyFor l' s' body) := by
  induction l generalizing s with
  | nil => rfl
  | cons k l ih =>
    simp only [List.cons_append, pyFor]
    cases body s k with
    | error e => rfl
    | ok s' => exact ih s'

theorem pyFor_single {σ κ : Type} (k : κ) (s : σ) (body : σ → κ → Py σ) :
    pyFor [k] s body = body s k := by
  simp only [pyFor]
  cases body s k <;> rfl

theorem pyRange_succ (j : ℕ) : pyRange 1 ((j : ℤ) + 1 + 1) = pyRange 1 ((j : ℤ) + 1) ++ [(j : ℤ) + 1] := by
  unfold pyRange
  rw [show ((j : ℤ) + 1 + 1 - 1).toNat = j + 1 by omega, show ((j : ℤ) + 1 - 1).toNat = j by omega,
    List.range_succ, List.map_append]
  congr 1
  simp [add_comm]

theorem spanDiff_tab (N k : ℕ) (h : 2 * k + 1 ≤ N) (f : ℕ → ℝ) :
    spanDiff (tab N f) k = .ok (tab (N - (2 * k + 1)) fun i => f (i + (2 * k + 1)) - f i) := by
  unfold spanDiff
  rw [slice_tab (a := 2 * k + 1) (b := N) _ _ _ (by simp [bound]; rw [if_neg (by omega)]; omega) rfl le_rfl,
    slice_tab (a := 0) (b := N - (2 * k + 1)) _ _ _ rfl (by simp [bound]; rw [if_pos (by omega)]; omega)
      (by omega), Nat.sub_zero, zip_tab]
  congr 1
  apply tab_ext rfl
  intro i _
  rw [add_comm (2 * k + 1) i, zero_add]

theorem spanDiff_short (N k : ℕ) (h : N < 2 * k + 1) (f : ℕ → ℝ) :
    spanDiff (tab N f) k = .ok [] := by
  unfold spanDiff
  rw [slice_tab (a := N) (b := N) _ _ _ (by simp [bound]; rw [if_neg (by omega)]; omega) rfl le_rfl,
    slice_tab (a := 0) (b := 0) _ _ _ rfl (by simp [bound]; rw [if_pos (by omega)]; omega) (by omega)]
  simp [tab, zip]

/-- The difference quotient of the points `a`, `b`. -/
noncomputable def quot (x y : ℕ → ℝ) (a b : ℕ) : ℝ := (y a - y b) / (x a - x b)

theorem spanStep_tab (N k : ℕ) (hk : 1 ≤ k) (h : 3 * k + 2 ≤ N) (x y d : ℕ → ℝ)
    (h1 : x (3 * k + 1) ≠ x k) (h2 : x (N - k) ≠ x (N - 3 * k - 1)) :
    spanStep (tab N x) (tab N y) (tab N d) k = .ok (tab N fun i =>
      if i = N - k then quot x y (N - k) (N - 3 * k - 1)
      else if i = k then quot x y (3 * k + 1) k else d i) := by
  have i1 : pyIndex (N - (2 * k + 1)) k = .ok k := by
    rw [pyIndex_nonneg (by omega) (by omega)]; simp
  have i2 : pyIndex (N - (2 * k + 1)) (-k) = .ok (N - (2 * k + 1) - k) := by
    rw [pyIndex_neg (by omega) (by omega)]; congr 1; omega
  have j1 : pyIndex N k = .ok k := by rw [pyIndex_nonneg (by omega) (by omega)]; simp
  have j2 : pyIndex N (-k) = .ok (N - k) := by
    rw [pyIndex_neg (by omega) (by omega)]; congr 1; omega
  have e1 : k + (2 * k + 1) = 3 * k + 1 := by omega
  have e2 : N - (2 * k + 1) - k + (2 * k + 1) = N - k := by omega
  have e3 : N - (2 * k + 1) - k = N - 3 * k - 1 := by omega
  unfold spanStep
  rw [spanDiff_tab N k (by omega), py_bind, spanDiff_tab N k (by omega), py_bind, pyGet_tab _ i1, py_bind,
    pyGet_tab _ i1, py_bind, e1, fdiv_ok (sub_ne_zero.2 h1), py_bind, pySet_tab _ _ j1, py_bind,
    pyGet_tab _ i2, py_bind, pyGet_tab _ i2, py_bind, e2, e3, fdiv_ok (sub_ne_zero.2 h2), py_bind,
    pySet_tab _ _ j2]
  rfl

/-- The loop of `slope_span_n`. -/
theorem spanLoop (N k : ℕ) (h : 3 * k + 2 ≤ N) (x y d : ℕ → ℝ)
    (hx : ∀ i j, i < N → j < N → x i = x j → i = j) (j : ℕ) (hj : j ≤ k) :
    pyFor (pyRange 1 ((j : ℤ) + 1)) (tab N d) (spanStep (tab N x) (tab N y)) = .ok (tab N fun i =>
      if 1 ≤ i ∧ i ≤ j then quot x y (3 * i + 1) i
      else if N - j ≤ i then quot x y i (i - 2 * (N - i) - 1) else d i) := by
  induction j with
  | zero =>
    show pyFor (pyRange 1 1) _ _ = _
    simp only [pyRange, sub_self, Int.toNat_zero, List.range_zero, List.map_nil, pyFor]
    congr 1
    apply tab_ext rfl
    intro i hi
    rw [if_neg (by omega), if_neg (by omega)]
  | succ j ih =>
    rw [Nat.cast_succ, pyRange_succ, pyFor_append, ih (by omega), py_bind, pyFor_single]
    have := spanStep_tab N (j + 1) (by omega) (by omega) x y (fun i =>
      if 1 ≤ i ∧ i ≤ j then quot x y (3 * i + 1) i
      else if N - j ≤ i then quot x y i (i - 2 * (N - i) - 1) else d i)
      (fun he => by have := hx _ _ (by omega) (by omega) he; omega)
      (fun he => by have := hx _ _ (by omega) (by omega) he; omega)
    rw [Nat.cast_succ] at this
    rw [this]
    congr 1
    apply tab_ext rfl
    intro i hi
    beta_reduce
    by_cases h1 : i = N - (j + 1)
    · rw [if_pos h1, if_neg (by omega), if_pos (by omega)]
      congr 1
      · omega
      · omega
    · rw [if_neg h1]
      by_cases h2 : i = j + 1
      · rw [if_pos h2, if_pos (by omega), h2]
      · rw [if_neg h2]
        by_cases h3 : 1 ≤ i ∧ i ≤ j
        · rw [if_pos h3, if_pos (by omega)]
        · rw [if_neg h3]
          by_cases h4 : N - j ≤ i
          · rw [if_pos h4, if_neg (by omega), if_pos (by omega)]
          · rw [if_neg h4, if_neg (by omega), if_neg (by omega)]

/-- The pair of points whose difference quotient `slope_span_n` puts at position `i`, for half span
`k` and `N` points. -/
def spanPts (N k i : ℕ) : ℕ × ℕ :=
  if i = 0 then (4, 1)
  else if i = N - 1 then (if k = 1 then (N - 1, N - 4) else (N - 2, N - 7))
  else if i ≤ k then (3 * i + 1, i)
  else if N - k ≤ i then (i, i - 2 * (N - i) - 1)
  else (i + k, i - k - 1)

theorem spanPts_range {N k i : ℕ} (hk : 1 ≤ k) (h : 3 * k + 2 ≤ N) (hi : i < N) :
    (spanPts N k i).1 < N ∧ (spanPts N k i).2 < (spanPts N k i).1 := by
  unfold spanPts
  split_ifs <;> simp only <;> omega

theorem slopeSpanN_eq (N k : ℕ) (hk : 1 ≤ k) (h : 3 * k + 2 ≤ N) (x y : ℕ → ℝ) (nz : Bool)
    (hx : ∀ i j, i < N → j < N → x i = x j → i = j) :
    slopeSpanN (tab N x) (tab N y) (2 * k + 1) nz
      = .ok (noZeros nz (tab N fun i => quot x y (spanPts N k i).1 (spanPts N k i).2)) := by
  have j0 : pyIndex N 0 = .ok 0 := pyIndex_nonneg (by omega) (by omega)
  have j1 : pyIndex N 1 = .ok 1 := pyIndex_nonneg (by omega) (by omega)
  have ja : pyIndex N (-1) = .ok (N - 1) := by
    rw [pyIndex_neg (by omega) (by omega)]; congr 1; omega
  have jb : pyIndex N (-2) = .ok (N - 2) := by
    rw [pyIndex_neg (by omega) (by omega)]; congr 1; omega
  unfold slopeSpanN
  rw [pyAssert_pos (by omega)]
  dsimp only
  rw [show ((2 : ℤ) * k + 1 - 1) / 2 = k by omega, spanDiff_tab N k (by omega), py_bind,
    spanDiff_tab N k (by omega), py_bind, div_tab (fun i hi => sub_ne_zero.2 fun he => by
      have := hx _ _ (by omega) (by omega) he; omega), py_bind, tab_length, replicate_tab,
    setSlice_tab (a := k + 1) (b := N - k) (n := N) _ _ _ _
      (by simp [bound]; rw [if_neg (by omega)]; omega) (by simp [bound]; rw [if_pos (by omega)]; omega) (by omega) (by omega)
      (by omega), py_bind, spanLoop N k h x y _ hx k le_rfl, py_bind, pyGet_tab _ j1, py_bind,
    pySet_tab _ _ j0, py_bind, pyGet_tab _ jb, py_bind, pySet_tab _ _ ja, py_bind]
  show Except.ok _ = _
  congr 2
  apply tab_ext rfl
  intro i hi
  unfold spanPts
  beta_reduce
  have hN0 : ¬ N - 2 = 0 := by omega
  by_cases h0 : i = 0
  · rw [if_neg (by omega), if_pos h0, if_pos h0, if_pos (by omega)]
  · rw [if_neg h0]
    by_cases h1 : i = N - 1
    · rw [if_pos h1, if_pos h1, if_neg hN0, if_neg (by omega), if_neg h0]
      by_cases hk1 : k = 1
      · rw [if_neg (by omega), if_pos hk1, if_pos (by omega)]
        unfold quot
        rw [show N - 2 - (k + 1) + (2 * k + 1) = N - 1 by omega, show N - 2 - (k + 1) = N - 4 by omega]
      · rw [if_pos (by omega), if_neg hk1]
        congr 1
        omega
    · rw [if_neg h1, if_neg h1, if_neg h0]
      by_cases h2 : i ≤ k
      · rw [if_pos (by omega), if_pos h2]
      · rw [if_neg (by omega), if_neg h2]
        by_cases h3 : N - k ≤ i
        · rw [if_pos h3, if_pos h3]
        · rw [if_neg h3, if_neg h3, if_pos (by omega)]
          unfold quot
          rw [show i - (k + 1) + (2 * k + 1) = i + k by omega, show i - (k + 1) = i - k - 1 by omega]

/-- Too few points. -/
theorem slopeSpanN_short (N k : ℕ) (hk : 1 ≤ k) (h : N < 3 * k + 2) (x y : ℕ → ℝ) (nz : Bool)
    (d : List ℝ) : slopeSpanN (tab N x) (tab N y) (2 * k + 1) nz ≠ .ok d := by
  intro hd
  unfold slopeSpanN at hd
  rw [pyAssert_pos (by omega)] at hd
  dsimp only at hd
  rw [show ((2 : ℤ) * k + 1 - 1) / 2 = k by omega] at hd
  obtain ⟨rise, -, hd⟩ := bind_ok_iff.1 hd
  obtain ⟨run, -, hd⟩ := bind_ok_iff.1 hd
  obtain ⟨q, -, hd⟩ := bind_ok_iff.1 hd
  obtain ⟨d0, -, hd⟩ := bind_ok_iff.1 hd
  obtain ⟨d1, hd1, -⟩ := bind_ok_iff.1 hd
  obtain ⟨j, rfl⟩ : ∃ j, k = j + 1 := ⟨k - 1, by omega⟩
  rw [Nat.cast_succ, pyRange_succ, pyFor_append] at hd1
  obtain ⟨d2, -, hd2⟩ := bind_ok_iff.1 hd1
  rw [pyFor_single] at hd2
  unfold spanStep at hd2
  obtain ⟨r, hr, hd2⟩ := bind_ok_iff.1 hd2
  obtain ⟨r2, -, hd2⟩ := bind_ok_iff.1 hd2
  obtain ⟨a, ha, -⟩ := bind_ok_iff.1 hd2
  have hlen : (r.length : ℤ) ≤ j + 1 := by
    have hr' : spanDiff (tab N y) ((j + 1 : ℕ) : ℤ) = .ok r := by rw [Nat.cast_succ]; exact hr
    by_cases hN : 2 * (j + 1) + 1 ≤ N
    · rw [spanDiff_tab N (j + 1) hN] at hr'
      cases hr'
      rw [tab_length]
      omega
    · rw [spanDiff_short N (j + 1) (by omega)] at hr'
      cases hr'
      simp
      omega
  unfold pyGet pyIndex at ha
  rw [if_neg (by omega), if_neg (by omega)] at ha
  cases ha

end QMix.MathFn
