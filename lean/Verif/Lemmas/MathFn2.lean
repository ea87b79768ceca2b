import Verif.Lemmas.SlopeSpan

/-!
# More lemmas about the filters and derivatives
-/

namespace QMix.MathFn

open QMix.Np

theorem bound_le (n : ℕ) (i : ℤ) : bound n i ≤ n := by
  unfold bound
  split_ifs <;> omega

theorem setSlice_length {l r vals : List ℝ} {lo hi : ℤ}
    (h : setSlice l (some lo) (some hi) vals = .ok r) : r.length = l.length := by
  unfold setSlice at h
  dsimp only [Option.elim] at h
  have h1 := bound_le l.length lo
  have h2 := bound_le l.length hi
  split_ifs at h with hc
  · cases h
    simp only [List.length_append, List.length_take, List.length_drop]
    omega
  · rcases vals with _ | ⟨a, _ | ⟨b, t⟩⟩
    · cases h
    · cases h
      simp only [List.length_append, List.length_take, List.length_drop, List.length_replicate]
      omega
    · cases h

theorem slope_length {x y d : List ℝ} (h : slope x y = .ok d) : d.length = x.length := by
  unfold slope at h
  dsimp only at h
  obtain ⟨_, -, h⟩ := bind_ok_iff.1 h
  obtain ⟨_, -, h⟩ := bind_ok_iff.1 h
  obtain ⟨_, -, h⟩ := bind_ok_iff.1 h
  obtain ⟨d1, h1, h⟩ := bind_ok_iff.1 h
  obtain ⟨_, -, h⟩ := bind_ok_iff.1 h
  obtain ⟨_, -, h⟩ := bind_ok_iff.1 h
  obtain ⟨_, -, h⟩ := bind_ok_iff.1 h
  obtain ⟨_, -, h⟩ := bind_ok_iff.1 h
  obtain ⟨_, -, h⟩ := bind_ok_iff.1 h
  obtain ⟨d2, h2, h⟩ := bind_ok_iff.1 h
  obtain ⟨_, -, h⟩ := bind_ok_iff.1 h
  obtain ⟨_, -, h⟩ := bind_ok_iff.1 h
  obtain ⟨_, -, h⟩ := bind_ok_iff.1 h
  obtain ⟨_, -, h⟩ := bind_ok_iff.1 h
  obtain ⟨_, -, h⟩ := bind_ok_iff.1 h
  rw [pySet_length h, pySet_length h2, setSlice_length h1, List.length_replicate]

theorem pyFor_length {l : List ℤ} {body : List ℝ → ℤ → Py (List ℝ)}
    (hb : ∀ s k s', body s k = .ok s' → s'.length = s.length) {s s' : List ℝ}
    (h : pyFor l s body = .ok s') : s'.length = s.length := by
  induction l generalizing s with
  | nil => cases h; rfl
  | cons k l ih =>
    simp only [pyFor] at h
    cases hk : body s k with
    | error e => rw [hk] at h; cases h
    | ok s1 =>
      rw [hk] at h
      rw [ih h, hb _ _ _ hk]

theorem spanStep_length {x y s s' : List ℝ} {k : ℤ} (h : spanStep x y s k = .ok s') :
    s'.length = s.length := by
  unfold spanStep at h
  obtain ⟨_, -, h⟩ := bind_ok_iff.1 h
  obtain ⟨_, -, h⟩ := bind_ok_iff.1 h
  obtain ⟨_, -, h⟩ := bind_ok_iff.1 h
  obtain ⟨_, -, h⟩ := bind_ok_iff.1 h
  obtain ⟨_, -, h⟩ := bind_ok_iff.1 h
  obtain ⟨d1, h1, h⟩ := bind_ok_iff.1 h
  obtain ⟨_, -, h⟩ := bind_ok_iff.1 h
  obtain ⟨_, -, h⟩ := bind_ok_iff.1 h
  obtain ⟨_, -, h⟩ := bind_ok_iff.1 h
  rw [pySet_length h, pySet_length h1]

theorem slopeSpanN_last {x y d : List ℝ} {n : ℤ} {nz : Bool} (h : slopeSpanN x y n nz = .ok d) :
    ∃ e : List ℝ, e.length = x.length ∧ d = noZeros nz e := by
  unfold slopeSpanN at h
  dsimp only at h
  obtain ⟨_, -, h⟩ := bind_ok_iff.1 h
  obtain ⟨_, -, h⟩ := bind_ok_iff.1 h
  obtain ⟨_, -, h⟩ := bind_ok_iff.1 h
  obtain ⟨_, -, h⟩ := bind_ok_iff.1 h
  obtain ⟨d1, h1, h⟩ := bind_ok_iff.1 h
  obtain ⟨d2, h2, h⟩ := bind_ok_iff.1 h
  obtain ⟨_, -, h⟩ := bind_ok_iff.1 h
  obtain ⟨d3, h3, h⟩ := bind_ok_iff.1 h
  obtain ⟨_, -, h⟩ := bind_ok_iff.1 h
  obtain ⟨d4, h4, h⟩ := bind_ok_iff.1 h
  cases h
  refine ⟨d4, ?_, rfl⟩
  rw [pySet_length h4, pySet_length h3, pyFor_length (fun _ _ _ => spanStep_length) h2, setSlice_length h1,
    List.length_replicate]

theorem noZeros_length (nz : Bool) (l : List ℝ) : (noZeros nz l).length = l.length := by
  unfold noZeros
  split_ifs
  · rw [List.length_map]
  · rfl

theorem noZeros_ne (l : List ℝ) : (0 : ℝ) ∉ noZeros true l := by
  unfold noZeros
  rw [if_pos rfl, List.mem_map]
  rintro ⟨d, -, hd⟩
  by_cases h : d = 0
  · rw [if_pos h] at hd; norm_num at hd
  · rw [if_neg h] at hd; exact h hd

theorem tab_nodup {n : ℕ} {f : ℕ → ℝ} (h : (tab n f).Nodup) (i j : ℕ) (hi : i < n) (hj : j < n)
    (he : f i = f j) : i = j :=
  List.inj_on_of_nodup_map h (List.mem_range.2 hi) (List.mem_range.2 hj) he

/-- What a successful call of `slope` needs. -/
theorem slope_ok {n : ℕ} {x y : ℕ → ℝ} {d : List ℝ} (h : slope (tab n x) (tab n y) = .ok d) :
    2 ≤ n ∧ (∀ i, i + 2 < n → x (i + 2) ≠ x i) ∧ x 1 ≠ x 0 ∧ x (n - 1) ≠ x (n - 2) := by
  have i0 : 2 ≤ n → pyIndex n 0 = .ok 0 := fun _ => pyIndex_nonneg (by omega) (by omega)
  have i1 : 2 ≤ n → pyIndex n 1 = .ok 1 := fun _ => pyIndex_nonneg (by omega) (by omega)
  have ia : 2 ≤ n → pyIndex n (-1) = .ok (n - 1) := fun _ => by
    rw [pyIndex_neg (by omega) (by omega)]; congr 1; omega
  have ib : 2 ≤ n → pyIndex n (-2) = .ok (n - 2) := fun _ => by
    rw [pyIndex_neg (by omega) (by omega)]; congr 1; omega
  unfold slope at h
  dsimp only at h
  obtain ⟨_, -, h⟩ := bind_ok_iff.1 h
  obtain ⟨run, hrun, h⟩ := bind_ok_iff.1 h
  obtain ⟨_, hq, h⟩ := bind_ok_iff.1 h
  obtain ⟨d1, -, h⟩ := bind_ok_iff.1 h
  obtain ⟨y1, hy1, h⟩ := bind_ok_iff.1 h
  obtain ⟨_, -, h⟩ := bind_ok_iff.1 h
  obtain ⟨x1, hx1, h⟩ := bind_ok_iff.1 h
  obtain ⟨x0, hx0, h⟩ := bind_ok_iff.1 h
  obtain ⟨_, he, h⟩ := bind_ok_iff.1 h
  obtain ⟨d2, -, h⟩ := bind_ok_iff.1 h
  obtain ⟨_, -, h⟩ := bind_ok_iff.1 h
  obtain ⟨_, -, h⟩ := bind_ok_iff.1 h
  obtain ⟨xa, hxa, h⟩ := bind_ok_iff.1 h
  obtain ⟨xb, hxb, h⟩ := bind_ok_iff.1 h
  obtain ⟨_, hf, h⟩ := bind_ok_iff.1 h
  have hn : 2 ≤ n := by
    by_contra hn
    unfold pyGet pyIndex at hy1
    rw [tab_length, if_neg (by omega), if_neg (by omega)] at hy1
    cases hy1
  rw [pyGet_tab _ (i0 hn)] at hx0
  rw [pyGet_tab _ (i1 hn)] at hx1
  rw [pyGet_tab _ (ia hn)] at hxa
  rw [pyGet_tab _ (ib hn)] at hxb
  cases hx0; cases hx1; cases hxa; cases hxb
  refine ⟨hn, ?_, ?_, ?_⟩
  · rw [slice_tab (a := 2) (b := n) _ _ _ (by simp [bound]; omega) rfl le_rfl,
      slice_tab (a := 0) (b := n - 2) _ _ _ rfl (by simp [bound]; omega) (by omega), Nat.sub_zero,
      zip_tab] at hrun
    cases hrun
    intro i hi hxi
    unfold Np.div at hq
    rw [if_pos (mem_tab.2 ⟨i, by omega, by rw [add_comm 2 i, zero_add, hxi, sub_self]⟩)] at hq
    cases hq
  · intro hxx
    unfold fdiv at he
    rw [if_pos (sub_eq_zero.2 hxx)] at he
    cases he
  · intro hxx
    unfold fdiv at hf
    rw [if_pos (sub_eq_zero.2 hxx)] at hf
    cases hf

/-! ## Windows with an integer half width -/

theorem winLen_int {sigma ext : ℝ} {r : ℕ} (h : ext * sigma = r) : winLen sigma ext = 2 * r + 1 := by
  unfold winLen
  have : ⌈ext * sigma + 1 / 10 ^ 5 - -(ext * sigma)⌉ = 2 * r + 1 := by
    rw [Int.ceil_eq_iff, h]
    push_cast
    constructor <;> norm_num <;> linarith
  rw [this]
  omega

theorem winExp_symm {sigma ext : ℝ} {r : ℕ} (h : ext * sigma = r) {j : ℕ} (hj : j ≤ 2 * r) :
    winExp sigma ext (2 * r - j) = winExp sigma ext j := by
  unfold winExp
  rw [h, Nat.cast_sub hj]
  congr 2
  push_cast
  rw [show -(r : ℝ) + (2 * r - j) = -(-(r : ℝ) + j) by ring, neg_div, neg_sq]

theorem reflect_symm {n : ℕ} {k : ℤ} (h1 : -(n : ℤ) < k) (h2 : k < 2 * n - 1) :
    reflect n ((n : ℤ) - 1 - k) = n - 1 - reflect n k := by
  unfold reflect
  split_ifs <;> omega

theorem smoothAt_reverse {sigma ext : ℝ} {r : ℕ} (h : ext * sigma = r) {x : List ℝ}
    (hl : winLen sigma ext ≤ x.length) {i : ℕ} (hi : i < x.length) (hr : 1 ≤ r) :
    smoothAt sigma ext x.reverse i = smoothAt sigma ext x (x.length - 1 - i) := by
  unfold smoothAt
  rw [winLen_int h] at hl ⊢
  rw [← Finset.sum_range_reflect]
  apply Finset.sum_congr rfl
  intro j hj
  have hj := Finset.mem_range.1 hj
  rw [List.length_reverse]
  have hw : win sigma ext (2 * r + 1 - 1 - j) = win sigma ext j := by
    unfold win
    rw [show 2 * r + 1 - 1 - j = 2 * r - j by omega, winExp_symm h (by omega)]
  rw [hw]
  congr 1
  have hx := eq_tab x 0
  conv_lhs => rw [hx]
  rw [reverse_tab, tab_length]
  have hlt := reflect_lt (n := x.length) (L := 2 * r + 1) (i := i) (j := 2 * r + 1 - 1 - j) (by omega) hl hi
    (by omega)
  rw [tab_getD hlt]
  congr 1
  rw [← reflect_symm (by omega) (by omega)]
  congr 1
  omega

end QMix.MathFn
