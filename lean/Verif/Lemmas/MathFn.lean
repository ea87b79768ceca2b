import Verif.Model.MathFn
import Verif.Lemmas.NumPy
import Mathlib.Analysis.SpecialFunctions.Gaussian.GaussianIntegral

/-!
# Lemmas about the filters and derivatives
-/

namespace QMix.MathFn

open QMix.Np

/-! ## `gauss_conv` -/

/-- Number of points of the window. -/
noncomputable def winLen (sigma ext : ℝ) : ℕ := ⌈ext * sigma + 1 / 10 ^ 5 - -(ext * sigma)⌉.toNat

/-- The window without its prefactor. -/
noncomputable def winExp (sigma ext : ℝ) (j : ℕ) : ℝ :=
  Real.exp (-0.5 * ((-(ext * sigma) + j) / sigma) ^ 2)

/-- The normalised window. -/
noncomputable def win (sigma ext : ℝ) (j : ℕ) : ℝ :=
  winExp sigma ext j / ∑ k ∈ Finset.range (winLen sigma ext), winExp sigma ext k

/-- Reflection of an index at both ends of an array of length `n`. -/
def reflect (n : ℕ) (k : ℤ) : ℕ :=
  if k < 0 then (-k).toNat else if (n : ℤ) ≤ k then (2 * ((n : ℤ) - 1) - k).toNat else k.toNat

theorem winExp_pos (sigma ext : ℝ) (j : ℕ) : 0 < winExp sigma ext j := Real.exp_pos _

theorem winLen_ge {sigma ext : ℝ} (h : 1 ≤ sigma * ext) : 3 ≤ winLen sigma ext := by
  unfold winLen
  have : (2 : ℤ) < ⌈ext * sigma + 1 / 10 ^ 5 - -(ext * sigma)⌉ := by
    rw [Int.lt_ceil]
    push_cast
    nlinarith
  omega

theorem winSum_pos {sigma ext : ℝ} (h : 1 ≤ sigma * ext) :
    0 < ∑ k ∈ Finset.range (winLen sigma ext), winExp sigma ext k := by
  apply Finset.sum_pos
  · exact fun _ _ => winExp_pos _ _ _
  · exact ⟨0, by have := winLen_ge h; simp; omega⟩

theorem win_pos {sigma ext : ℝ} (h : 1 ≤ sigma * ext) (j : ℕ) : 0 < win sigma ext j :=
  div_pos (winExp_pos _ _ _) (winSum_pos h)

theorem win_sum {sigma ext : ℝ} (h : 1 ≤ sigma * ext) :
    ∑ k ∈ Finset.range (winLen sigma ext), win sigma ext k = 1 := by
  unfold win
  rw [← Finset.sum_div]
  exact div_self (winSum_pos h).ne'

/-- The value of `gauss_conv` at position `i`. -/
noncomputable def smoothAt (sigma ext : ℝ) (x : List ℝ) (i : ℕ) : ℝ :=
  ∑ j ∈ Finset.range (winLen sigma ext), win sigma ext j *
    x.getD (reflect x.length ((i : ℤ) + (winLen sigma ext / 2 : ℕ) - j)) 0

theorem gauss_eq {sigma ext : ℝ} (h0 : sigma ≠ 0) : gauss sigma ext
    = .ok (tab (winLen sigma ext) fun j => 1 / (sigma * √(2 * Real.pi)) * winExp sigma ext j) := by
  unfold gauss
  dsimp only
  rw [raiseIf_neg h0, arange, map_tab]
  rfl

theorem gaussConv_eq {sigma ext : ℝ} {x : List ℝ} (h : 1 ≤ sigma * ext)
    (hl : winLen sigma ext ≤ x.length) :
    gaussConv x sigma ext = .ok (tab x.length (smoothAt sigma ext x)) := by
  have h0 : sigma ≠ 0 := by rintro rfl; norm_num at h
  have h3 := winLen_ge h
  set L := winLen sigma ext with hL
  set n := x.length with hn
  have hC : 1 / (sigma * √(2 * Real.pi)) ≠ 0 := by
    apply one_div_ne_zero
    apply mul_ne_zero h0
    exact (Real.sqrt_pos.2 (by positivity)).ne'
  unfold gaussConv
  rw [pyAssert_pos h0, gauss_eq h0, py_bind]
  dsimp only
  rw [tab_length, pyAssert_pos hl, pyAssert_pos h]
  have hw : div (tab L fun j => 1 / (sigma * √(2 * Real.pi)) * winExp sigma ext j)
      [(tab L fun j => 1 / (sigma * √(2 * Real.pi)) * winExp sigma ext j).sum]
      = .ok (tab L (win sigma ext)) := by
    have hs := (winSum_pos h).ne'
    rw [← hL] at hs
    rw [sum_tab, ← Finset.mul_sum]
    unfold div
    rw [if_neg (by simp only [List.mem_singleton]; exact (mul_ne_zero hC hs).symm)]
    unfold zip
    rw [if_neg (by simp; omega)]
    obtain ⟨a, b, l, hab⟩ : ∃ a b l, tab L (fun j => 1 / (sigma * √(2 * Real.pi)) * winExp sigma ext j)
        = a :: b :: l := by
      rcases hh : tab L (fun j => 1 / (sigma * √(2 * Real.pi)) * winExp sigma ext j) with _ | ⟨a, _ | ⟨b, l⟩⟩
      · have := congrArg List.length hh; simp at this; omega
      · have := congrArg List.length hh; simp at this; omega
      · exact ⟨a, b, l, rfl⟩
    rw [hab]
    dsimp only
    rw [← hab, map_tab]
    congr 1
    apply tab_ext rfl
    intro i hi
    rw [mul_div_mul_left _ _ hC]
    rfl
  rw [hw, py_bind]
  -- the extended array
  have hx := eq_tab x 0
  rw [← hn] at hx
  have hs : sliceRev x (some ((L : ℤ) - 1)) (some 0) ++ x ++ sliceRev x (some (-2)) (some (-(L : ℤ) - 1))
      = tab (n + 2 * (L - 1)) fun t => x.getD (reflect n ((t : ℤ) - (L - 1 : ℕ))) 0 := by
    conv_lhs => rw [hx]
    rw [sliceRev_tab (a := 1) (b := L) _ _ _ (by simp [boundRev]; omega) (by
        simp [boundRev]; rw [if_neg (by omega)]; omega) hl,
      sliceRev_tab (a := n - L) (b := n - 1) _ _ _ (by simp [boundRev]; rw [if_pos (by omega)]; omega)
        (by simp [boundRev]; omega) (by omega), append_tab, append_tab]
    apply tab_ext (by omega)
    intro i hi
    beta_reduce
    by_cases h1 : i < L - 1
    · rw [if_pos (by omega), if_pos h1]
      congr 1
      unfold reflect
      rw [if_pos (by omega)]
      omega
    · by_cases h2 : i < L - 1 + n
      · rw [if_pos h2, if_neg h1]
        congr 1
        unfold reflect
        rw [if_neg (by omega), if_neg (by omega)]
        omega
      · rw [if_neg h2]
        congr 1
        unfold reflect
        rw [if_neg (by omega), if_pos (by omega)]
        omega
  rw [hs]
  unfold convolveValid
  rw [if_neg (by
    rintro (hh | hh)
    · have := congrArg List.length hh; simp at this; omega
    · have := congrArg List.length hh; simp at this; omega)]
  dsimp only
  rw [tab_length, tab_length, min_eq_left (by omega), max_eq_right (by omega), py_bind,
    slice_tab (a := L / 2) (b := n + L - 1 - ((L + 1) / 2 - 1)) _ _ _
      (by simp [bound]; rw [if_neg (by omega)]; omega)
      (by simp [bound]; rw [if_pos (by omega)]; omega) (by omega)]
  show Except.ok _ = _
  congr 1
  apply tab_ext (by omega)
  intro i hi
  unfold smoothAt
  rw [← hL, ← hn]
  apply Finset.sum_congr rfl
  intro j hj
  have hj := Finset.mem_range.1 hj
  rw [if_pos (by omega), tab_getD hj, tab_getD (by omega)]
  congr 2
  congr 1
  omega

theorem gaussConv_ok {sigma ext : ℝ} {x y : List ℝ} (h : gaussConv x sigma ext = .ok y) :
    1 ≤ sigma * ext ∧ winLen sigma ext ≤ x.length ∧ y = tab x.length (smoothAt sigma ext x) := by
  have h' := h
  unfold gaussConv at h
  obtain ⟨_, h0, h⟩ := bind_ok_iff.1 h
  rw [pyAssert_ok] at h0
  obtain ⟨w, hw, h⟩ := bind_ok_iff.1 h
  obtain ⟨_, h1, h⟩ := bind_ok_iff.1 h
  obtain ⟨_, h2, h⟩ := bind_ok_iff.1 h
  rw [pyAssert_ok] at h1 h2
  rw [gauss_eq h0] at hw
  cases hw
  rw [tab_length] at h1
  refine ⟨h2, h1, ?_⟩
  rw [gaussConv_eq h2 h1] at h'
  cases h'
  rfl

/-- The reflected index is in range. -/
theorem reflect_lt {n L : ℕ} {i j : ℕ} (h3 : 3 ≤ L) (hl : L ≤ n) (hi : i < n) (hj : j < L) :
    reflect n ((i : ℤ) + (L / 2 : ℕ) - j) < n := by
  unfold reflect
  split_ifs <;> omega

/-! ## `slope` -/

theorem slope_eq (n : ℕ) (x y : ℕ → ℝ) (hn : 2 ≤ n) (hx1 : ∀ i, i + 2 < n → x (i + 2) ≠ x i)
    (hx0 : x 1 ≠ x 0) (hxl : x (n - 1) ≠ x (n - 2)) :
    slope (tab n x) (tab n y) = .ok (tab n fun i =>
      if i = n - 1 then (y (n - 1) - y (n - 2)) / (x (n - 1) - x (n - 2))
      else if i = 0 then (y 1 - y 0) / (x 1 - x 0)
      else (y (i + 1) - y (i - 1)) / (x (i + 1) - x (i - 1))) := by
  have i0 : pyIndex n 0 = .ok 0 := pyIndex_nonneg (by omega) (by omega)
  have i1 : pyIndex n 1 = .ok 1 := pyIndex_nonneg (by omega) (by omega)
  have ia : pyIndex n (-1) = .ok (n - 1) := by
    rw [pyIndex_neg (by omega) (by omega)]; congr 1; omega
  have ib : pyIndex n (-2) = .ok (n - 2) := by
    rw [pyIndex_neg (by omega) (by omega)]; congr 1; omega
  have hs : ∀ f : ℕ → ℝ, zip (· - ·) (slice (tab n f) (some 2) none) (slice (tab n f) none (some (-2)))
      = .ok (tab (n - 2) fun i => f (i + 2) - f i) := by
    intro f
    rw [slice_tab (a := 2) (b := n) _ _ _ (by simp [bound]; omega) rfl le_rfl,
      slice_tab (a := 0) (b := n - 2) _ _ _ rfl (by simp [bound]; omega) (by omega), Nat.sub_zero, zip_tab]
    congr 1
    apply tab_ext rfl
    intro i _
    rw [add_comm 2 i, zero_add]
  unfold slope
  dsimp only
  rw [hs, py_bind, hs, py_bind, div_tab (fun i hi => sub_ne_zero.2 (hx1 i (by omega))), py_bind,
    tab_length, replicate_tab, setSlice_tab (a := 1) (b := n - 1) (n := n) _ _ _ _ (by simp [bound]; omega)
      (by simp [bound]; omega) (by omega) (by omega) (by omega), py_bind,
    pyGet_tab _ i1, py_bind, pyGet_tab _ i0, py_bind, pyGet_tab _ i1, py_bind, pyGet_tab _ i0, py_bind,
    fdiv_ok (sub_ne_zero.2 hx0), py_bind, pySet_tab _ _ i0, py_bind,
    pyGet_tab _ ia, py_bind, pyGet_tab _ ib, py_bind, pyGet_tab _ ia, py_bind, pyGet_tab _ ib, py_bind,
    fdiv_ok (sub_ne_zero.2 hxl), py_bind, pySet_tab _ _ ia]
  congr 1
  apply tab_ext rfl
  intro i hi
  by_cases h1 : i = n - 1
  · rw [if_pos h1, if_pos h1]
  · rw [if_neg h1, if_neg h1]
    by_cases h2 : i = 0
    · rw [if_pos h2, if_pos h2]
    · rw [if_neg h2, if_neg h2, if_pos (by omega), show i - 1 + 2 = i + 1 by omega]

end QMix.MathFn
