import Verif.Py.NumPy
import Verif.Lemmas.Py
import Mathlib.Algebra.BigOperators.Intervals

/-!
# Lemmas about the NumPy primitives
-/

namespace QMix.Np

variable {α β γ : Type}

@[simp] theorem tab_length (n : ℕ) (f : ℕ → α) : (tab n f).length = n := by simp [tab]

theorem tab_get? (n : ℕ) (f : ℕ → α) (i : ℕ) : (tab n f)[i]? = if i < n then some (f i) else none := by
  unfold tab
  split_ifs with h
  · rw [List.getElem?_map, List.getElem?_range h]; rfl
  · rw [List.getElem?_eq_none]; simpa using h

theorem tab_getD {n : ℕ} {f : ℕ → α} {i : ℕ} (h : i < n) (d : α) : (tab n f).getD i d = f i := by
  rw [List.getD_eq_getElem?_getD, tab_get?, if_pos h]; rfl

theorem eq_tab (l : List α) (d : α) : l = tab l.length fun i => l.getD i d := by
  apply List.ext_getElem?
  intro i
  rw [tab_get?]
  split_ifs with h
  · rw [List.getD_eq_getElem?_getD, List.getElem?_eq_getElem h]; rfl
  · rw [List.getElem?_eq_none]; omega

theorem tab_ext {n m : ℕ} {f g : ℕ → α} (h : n = m) (hf : ∀ i, i < n → f i = g i) :
    tab n f = tab m g := by
  subst h
  unfold tab
  apply List.map_congr_left
  intro i hi
  exact hf i (List.mem_range.1 hi)

theorem ext_tab {l : List α} {n : ℕ} {f : ℕ → α} (hl : l.length = n)
    (h : ∀ i, i < n → l[i]? = some (f i)) : l = tab n f := by
  apply List.ext_getElem?
  intro i
  rw [tab_get?]
  split_ifs with hi
  · exact h i hi
  · rw [List.getElem?_eq_none]; omega

theorem mem_tab {n : ℕ} {f : ℕ → α} {a : α} : a ∈ tab n f ↔ ∃ i, i < n ∧ f i = a := by
  simp [tab]

theorem map_tab (g : α → β) (n : ℕ) (f : ℕ → α) : (tab n f).map g = tab n fun i => g (f i) := by
  simp [tab]

theorem zipWith_tab (g : α → β → γ) (n : ℕ) (f : ℕ → α) (h : ℕ → β) :
    List.zipWith g (tab n f) (tab n h) = tab n fun i => g (f i) (h i) := by
  apply ext_tab
  · simp
  · intro i hi
    rw [List.getElem?_zipWith, tab_get?, tab_get?, if_pos hi, if_pos hi]

theorem zip_tab (g : α → β → γ) (n : ℕ) (f : ℕ → α) (h : ℕ → β) :
    zip g (tab n f) (tab n h) = .ok (tab n fun i => g (f i) (h i)) := by
  unfold zip
  rw [if_pos (by simp), zipWith_tab]

theorem take_tab {n k : ℕ} (h : k ≤ n) (f : ℕ → α) : (tab n f).take k = tab k f := by
  apply ext_tab
  · simp [h]
  · intro i hi
    rw [List.getElem?_take, if_pos hi, tab_get?, if_pos (by omega)]

theorem drop_tab (n k : ℕ) (f : ℕ → α) : (tab n f).drop k = tab (n - k) fun i => f (k + i) := by
  apply ext_tab
  · simp
  · intro i hi
    rw [List.getElem?_drop, tab_get?, if_pos (by omega)]

theorem reverse_tab (n : ℕ) (f : ℕ → α) : (tab n f).reverse = tab n fun i => f (n - 1 - i) := by
  apply ext_tab
  · simp
  · intro i hi
    rw [List.getElem?_reverse (by simpa using hi), tab_length, tab_get?, if_pos (by omega)]

theorem append_tab (n m : ℕ) (f g : ℕ → α) :
    tab n f ++ tab m g = tab (n + m) fun i => if i < n then f i else g (i - n) := by
  apply ext_tab
  · simp
  · intro i hi
    by_cases h : i < n
    · rw [List.getElem?_append_left (by simpa using h), tab_get?, if_pos h, if_pos h]
    · rw [List.getElem?_append_right (by simpa using h), tab_length, tab_get?, if_pos (by omega), if_neg h]

theorem bound_nonneg {n : ℕ} {i : ℤ} (h0 : 0 ≤ i) (h1 : i ≤ n) : bound n i = i.toNat := by
  unfold bound
  rw [if_neg (by omega)]
  omega

theorem bound_neg {n : ℕ} {i : ℤ} (h0 : i < 0) : bound n i = (i + n).toNat := by
  unfold bound
  rw [if_pos h0]

theorem slice_tab {n a b : ℕ} (f : ℕ → α) (lo hi : Option ℤ)
    (ha : lo.elim 0 (bound n) = a) (hb : hi.elim n (bound n) = b) (hbn : b ≤ n) :
    slice (tab n f) lo hi = tab (b - a) fun i => f (a + i) := by
  unfold slice
  rw [tab_length, ha, hb, take_tab hbn, drop_tab]

theorem sliceRev_tab {n a b : ℕ} (f : ℕ → α) (hi lo : Option ℤ)
    (ha : lo.elim 0 (boundRev n) = a) (hb : hi.elim n (boundRev n) = b) (hbn : b ≤ n) :
    sliceRev (tab n f) hi lo = tab (b - a) fun i => f (b - 1 - i) := by
  unfold sliceRev
  rw [tab_length, ha, hb, take_tab hbn, drop_tab, reverse_tab]
  apply tab_ext rfl
  intro i h
  congr 1
  omega

theorem setSlice_tab {n a b m : ℕ} (f g : ℕ → α) (lo hi : Option ℤ)
    (ha : lo.elim 0 (bound n) = a) (hb : hi.elim n (bound n) = b) (hab : a ≤ b) (hbn : b ≤ n)
    (hm : m = b - a) :
    setSlice (tab n f) lo hi (tab m g)
      = .ok (tab n fun i => if a ≤ i ∧ i < b then g (i - a) else f i) := by
  subst hm
  unfold setSlice
  simp only [tab_length, ha, hb]
  rw [max_eq_right hab, if_pos rfl, take_tab (by omega), drop_tab, append_tab, append_tab]
  congr 1
  apply tab_ext (by omega)
  intro i hi
  by_cases h1 : i < a
  · rw [if_pos (by omega), if_pos h1, if_neg (by omega)]
  · by_cases h2 : i < b
    · rw [if_pos (by omega), if_neg h1, if_pos (by omega)]
    · rw [if_neg (by omega), if_neg (by omega)]
      congr 1
      omega

theorem pyGet_tab {n : ℕ} {k : ℤ} {i : ℕ} (f : ℕ → α) (h : pyIndex n k = .ok i) :
    pyGet (tab n f) k = .ok (f i) := by
  have hi := pyIndex_lt h
  apply pyGet_ok_of_getElem? (i := i)
  · rw [tab_length]; exact h
  · rw [tab_get?, if_pos hi]

theorem pySet_tab {n : ℕ} {k : ℤ} {i : ℕ} (f : ℕ → α) (a : α) (h : pyIndex n k = .ok i) :
    pySet (tab n f) k a = .ok (tab n fun j => if j = i then a else f j) := by
  rw [pySet_eq (i := i) a (by rw [tab_length]; exact h)]
  congr 1
  apply ext_tab
  · simp
  · intro j hj
    rw [List.getElem?_set]
    by_cases hji : j = i
    · subst hji
      simp [hj]
    · rw [if_neg (fun h => hji h.symm), tab_get?, if_pos hj, if_neg hji]

theorem replicate_tab (n : ℕ) (a : α) : List.replicate n a = tab n fun _ => a := by
  apply ext_tab
  · simp
  · intro i hi
    simp [hi]

theorem fdiv_ok {a b : ℝ} (h : b ≠ 0) : fdiv a b = .ok (a / b) := by
  unfold fdiv
  rw [if_neg h]

theorem div_tab {n : ℕ} {f g : ℕ → ℝ} (h : ∀ i, i < n → g i ≠ 0) :
    div (tab n f) (tab n g) = .ok (tab n fun i => f i / g i) := by
  unfold div
  rw [if_neg, zip_tab]
  rw [mem_tab]
  rintro ⟨i, hi, h0⟩
  exact h i hi h0

theorem sum_tab (n : ℕ) (f : ℕ → ℝ) : (tab n f).sum = ∑ i ∈ Finset.range n, f i := by
  induction n with
  | zero => simp [tab]
  | succ n ih =>
    rw [Finset.sum_range_succ, ← ih]
    simp [tab, List.range_succ]

/-! ## `max`, `argmin` -/

theorem foldl_max_le (l : List ℝ) (x c : ℝ) : l.foldl max x ≤ c ↔ x ≤ c ∧ ∀ y ∈ l, y ≤ c := by
  induction l generalizing x with
  | nil => simp
  | cons y l ih => rw [List.foldl_cons, ih]; simp [and_assoc]

theorem foldl_max_lt (l : List ℝ) (x c : ℝ) : l.foldl max x < c ↔ x < c ∧ ∀ y ∈ l, y < c := by
  induction l generalizing x with
  | nil => simp
  | cons y l ih => rw [List.foldl_cons, ih]; simp [and_assoc]

theorem amax_lt {l : List ℝ} {m : ℝ} (h : amax l = .ok m) (c : ℝ) : m < c ↔ ∀ y ∈ l, y < c := by
  cases l with
  | nil => cases h
  | cons x l => cases h; rw [foldl_max_lt]; simp

theorem amax_le {l : List ℝ} {m : ℝ} (h : amax l = .ok m) (c : ℝ) : m ≤ c ↔ ∀ y ∈ l, y ≤ c := by
  cases l with
  | nil => cases h
  | cons x l => cases h; rw [foldl_max_le]; simp

theorem amax_mem {l : List ℝ} {m : ℝ} (h : amax l = .ok m) : m ∈ l := by
  by_contra hm
  have h1 : ∀ y ∈ l, y ≤ m := (amax_le h m).1 le_rfl
  have : m < m := (amax_lt h m).2 fun y hy => lt_of_le_of_ne (h1 y hy) fun he => hm (he ▸ hy)
  exact lt_irrefl _ this

theorem amax_ok {l : List ℝ} (h : l ≠ []) : ∃ m, amax l = .ok m := by
  cases l with
  | nil => exact absurd rfl h
  | cons x l => exact ⟨_, rfl⟩

/-- The first minimum of the list `pre ++ l`, where `besti` is that of `pre`. -/
theorem argminFrom_spec (pre l : List ℝ) (besti : ℕ) (best : ℝ) (hb : pre[besti]? = some best)
    (hmin : ∀ y ∈ pre, best ≤ y) (hfirst : ∀ j, j < besti → ∀ y, pre[j]? = some y → best < y) :
    ∃ m, (pre ++ l)[argminFrom best besti pre.length l]? = some m ∧ (∀ y ∈ pre ++ l, m ≤ y) ∧
      ∀ j, j < argminFrom best besti pre.length l → ∀ y, (pre ++ l)[j]? = some y → m < y := by
  induction l generalizing pre besti best with
  | nil => exact ⟨best, by simpa [argminFrom] using hb, by simpa using hmin, by
      simpa [argminFrom] using hfirst⟩
  | cons x l ih =>
    have hlt : besti < pre.length := by
      by_contra h
      rw [List.getElem?_eq_none (by omega)] at hb
      cases hb
    have happ : pre ++ x :: l = (pre ++ [x]) ++ l := by simp
    have hlen : pre.length + 1 = (pre ++ [x]).length := by simp
    unfold argminFrom
    by_cases hx : x < best
    · rw [if_pos hx, happ, hlen]
      apply ih
      · simp
      · intro y hy
        rcases List.mem_append.1 hy with h | h
        · exact hx.le.trans (hmin y h)
        · rw [List.mem_singleton.1 h]
      · intro j hj y hy
        rw [List.getElem?_append_left hj] at hy
        exact lt_of_lt_of_le hx (hmin y (List.mem_of_getElem? hy))
    · rw [if_neg hx, happ, hlen]
      apply ih
      · rw [List.getElem?_append_left hlt]; exact hb
      · intro y hy
        rcases List.mem_append.1 hy with h | h
        · exact hmin y h
        · rw [List.mem_singleton.1 h]; exact not_lt.1 hx
      · intro j hj y hy
        rw [List.getElem?_append_left (by omega)] at hy
        exact hfirst j hj y hy

theorem argmin_spec {l : List ℝ} {i : ℕ} (h : argmin l = .ok i) :
    ∃ m, l[i]? = some m ∧ (∀ y ∈ l, m ≤ y) ∧ ∀ j, j < i → ∀ y, l[j]? = some y → m < y := by
  cases l with
  | nil => cases h
  | cons x l =>
    cases h
    have := argminFrom_spec [x] l 0 x rfl (by simp) (by intro j hj; omega)
    simpa using this

theorem argmin_ok {l : List ℝ} (h : l ≠ []) : ∃ i, argmin l = .ok i := by
  cases l with
  | nil => exact absurd rfl h
  | cons x l => exact ⟨_, rfl⟩

end QMix.Np
