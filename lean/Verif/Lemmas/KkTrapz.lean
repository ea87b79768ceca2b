import Verif.Lemmas.KkLimit2
import Verif.Lemmas.RespFn2

/-!
# Lemmas about `kk_trans_trapz`
-/

namespace QMix.MathFn

open QMix.Np

/-- The place in the full array of place `t` of the array without place `k`. -/
def skip (k t : ℕ) : ℕ := if t < k then t else t + 1

theorem skip_ne (k t : ℕ) : skip k t ≠ k := by unfold skip; split_ifs <;> omega

theorem skip_lt {N k t : ℕ} (ht : t < N - 1) : skip k t < N := by unfold skip; split_ifs <;> omega

theorem delete_tab {N k : ℕ} (hk : k < N) (f : ℕ → ℝ) :
    delete (tab N f) k = .ok (tab (N - 1) fun t => f (skip k t)) := by
  unfold delete
  rw [if_pos (by simpa using hk)]
  congr 1
  apply ext_tab
  · rw [List.length_eraseIdx, tab_length, if_pos hk]
  · intro t ht
    rw [List.getElem?_eraseIdx]
    unfold skip
    split_ifs with h
    · rw [tab_get?, if_pos (by omega)]
    · rw [tab_get?, if_pos (by omega)]

theorem trapz_tab (M : ℕ) (y x : ℕ → ℝ) : trapz (tab M y) (tab M x) =
    .ok (∑ t ∈ Finset.range (M - 1), (x (t + 1) - x t) * (y (t + 1) + y t) / 2) := by
  unfold trapz
  have s1 : ∀ f : ℕ → ℝ, slice (tab M f) (some 1) none = tab (M - 1) fun t => f (t + 1) := by
    intro f
    rcases Nat.eq_zero_or_pos M with rfl | h
    · simp [tab, slice]
    · rw [slice_tab (a := 1) (b := M) _ _ _ (by simp [bound]; omega) rfl le_rfl]
      apply tab_ext rfl
      intro t _
      rw [add_comm]
  have s2 : ∀ f : ℕ → ℝ, slice (tab M f) none (some (-1)) = tab (M - 1) f := by
    intro f
    rw [slice_tab (a := 0) (b := M - 1) _ _ _ rfl (by simp [bound]; omega) (by omega), Nat.sub_zero]
    apply tab_ext rfl
    intro t _
    rw [zero_add]
  rw [s1, s2, s1, s2, zip_tab, py_bind, zip_tab, py_bind, zip_tab, py_bind, sum_tab]
  rfl

/-- The integrand at place `t` for the output at place `k` (zero for `t = k`). -/
noncomputable def trapY (x f : ℕ → ℝ) (k t : ℕ) : ℝ := (f t - x t) / (x t - x k)

/-- The trapezoidal sum without place `k`. -/
noncomputable def trapVal (N : ℕ) (x f : ℕ → ℝ) (k : ℕ) : ℝ :=
  ∑ t ∈ Finset.range (N - 2), (x (skip k (t + 1)) - x (skip k t)) *
    (trapY x f k (skip k (t + 1)) + trapY x f k (skip k t)) / 2

theorem trapzAt_tab {N k : ℕ} (hk : k < N) (x f : ℕ → ℝ) (hx : ∀ t < N, t ≠ k → x t ≠ x k) :
    trapzAt (tab N x) (tab N f) k = .ok (trapVal N x f k) := by
  unfold trapzAt
  have hg : pyGet (tab N x) (k : ℤ) = .ok (x k) :=
    pyGet_tab _ (pyIndex_nonneg (by omega) (by omega))
  rw [delete_tab hk, py_bind, delete_tab hk, py_bind, zip_tab, py_bind, hg, py_bind, map_tab, div_tab,
    py_bind, trapz_tab]
  · rfl
  · intro t ht
    exact sub_ne_zero.2 (hx _ (skip_lt ht) (skip_ne k t))

/-- The output only exists if no other voltage equals the output voltage. -/
theorem trapzAt_ne {N k : ℕ} (hk : k < N) (x f : ℕ → ℝ) {r : ℝ}
    (h : trapzAt (tab N x) (tab N f) k = .ok r) : ∀ t < N, t ≠ k → x t ≠ x k := by
  unfold trapzAt at h
  have hg : pyGet (tab N x) (k : ℤ) = .ok (x k) :=
    pyGet_tab _ (pyIndex_nonneg (by omega) (by omega))
  rw [delete_tab hk, py_bind, delete_tab hk, py_bind, zip_tab, py_bind, hg, py_bind, map_tab] at h
  intro t ht hne heq
  unfold div at h
  rw [if_pos] at h
  · cases h
  · rw [mem_tab]
    rcases lt_or_gt_of_ne hne with h' | h'
    · exact ⟨t, by omega, by unfold skip; rw [if_pos h', heq, sub_self]⟩
    · refine ⟨t - 1, by omega, ?_⟩
      unfold skip
      rw [if_neg (by omega), Nat.sub_add_cancel (by omega), heq, sub_self]

/-- What a successful call computes. -/
theorem kkTransTrapz_ok {v i r : List ℝ} (hl : i.length = v.length) (h : kkTransTrapz v i = .ok r) :
    2 ≤ v.length ∧ (∀ s < v.length, ∀ t < v.length, s ≠ t → v.getD s 0 ≠ v.getD t 0) ∧
      r = tab v.length fun k => trapVal v.length (fun t => v.getD t 0) (fun t => i.getD t 0) k / Real.pi := by
  unfold kkTransTrapz at h
  obtain ⟨d, -, h⟩ := bind_ok_iff.1 h
  obtain ⟨v1, hv1, h⟩ := bind_ok_iff.1 h
  obtain ⟨v0, -, h⟩ := bind_ok_iff.1 h
  obtain ⟨m, -, h⟩ := bind_ok_iff.1 h
  obtain ⟨_, -, h⟩ := bind_ok_iff.1 h
  obtain ⟨q, hq, h⟩ := bind_ok_iff.1 h
  cases h
  have h2 : 2 ≤ v.length := by
    by_contra h2
    unfold pyGet pyIndex at hv1
    rw [if_neg (by omega), if_neg (by omega)] at hv1
    cases hv1
  have hF := RespFn.mapM_ok hq
  have hlen := hF.length_eq
  rw [List.length_range] at hlen
  have hi' := eq_tab i 0
  rw [hl] at hi'
  have hat : ∀ k (hk : k < v.length), trapzAt (tab v.length fun t => v.getD t 0)
      (tab v.length fun t => i.getD t 0) k = .ok (q[k]'(by omega)) := by
    intro k hk
    have := hF.get (i := k) (by simpa using hk) (by simpa [← hlen] using hk)
    rw [← hi', ← eq_tab v 0]
    simpa using this
  have hne : ∀ k < v.length, ∀ t < v.length, t ≠ k → v.getD t 0 ≠ v.getD k 0 :=
    fun k hk => trapzAt_ne hk (fun t => v.getD t 0) _ (hat k hk)
  refine ⟨h2, fun s hs t ht hst => hne t ht s hs hst, ?_⟩
  apply ext_tab
  · rw [List.length_map, ← hlen]
  · intro k hk
    have h1 := hat k hk
    rw [trapzAt_tab hk _ _ (hne k hk)] at h1
    rw [List.getElem?_map, List.getElem?_eq_getElem (by omega)]
    rw [← Except.ok.inj h1]
    rfl

/-- Even spacing, upwards or downwards, is accepted. -/
theorem kkTransTrapz_even (N : ℕ) (hN : 2 ≤ N) (a d : ℝ) (hd : d ≠ 0) (i : List ℝ) (hl : i.length = N) :
    ∃ r, kkTransTrapz (tab N fun t => a + d * t) i = .ok r := by
  have i0 : pyIndex N 0 = .ok 0 := pyIndex_nonneg (by omega) (by omega)
  have i1 : pyIndex N 1 = .ok 1 := pyIndex_nonneg (by omega) (by omega)
  have hx' := eq_tab i 0
  rw [hl] at hx'
  unfold kkTransTrapz
  rw [slice_tab (a := 1) (b := N) _ _ _ (by simp [bound]; omega) rfl le_rfl,
    slice_tab (a := 0) (b := N - 1) _ _ _ rfl (by simp [bound]; omega) (by omega), Nat.sub_zero, zip_tab,
    py_bind, pyGet_tab _ i1, py_bind, pyGet_tab _ i0, py_bind, map_tab]
  have hz : ∀ t : ℕ, a + d * ((1 + t : ℕ) : ℝ) - (a + d * ((0 + t : ℕ) : ℝ)) -
      (a + d * ((1 : ℕ) : ℝ) - (a + d * ((0 : ℕ) : ℝ))) = 0 := by
    intro t
    push_cast
    ring
  simp only [hz]
  obtain ⟨m, hm⟩ := amax_ok (l := tab (N - 1) fun _ => (0 : ℝ)) (by
    intro hh; have := congrArg List.length hh; simp at this; omega)
  have hmem := amax_mem hm
  rw [mem_tab] at hmem
  obtain ⟨_, -, hm0⟩ := hmem
  rw [hm, py_bind, pyAssert_pos (by rw [← hm0]; norm_num), tab_length, hx']
  change ∃ r, (do
    let ikk ← (List.range N).mapM (trapzAt (tab N fun t : ℕ => a + d * t) (tab N fun t => i.getD t 0))
    pure (ikk.map fun t => t / Real.pi)) = Except.ok r
  rw [RespFn.mapM_of (fun k => trapVal N (fun t : ℕ => a + d * t) (fun t => i.getD t 0) k), py_bind]
  · exact ⟨_, rfl⟩
  · intro k hk
    apply trapzAt_tab (List.mem_range.1 hk)
    intro t _ hne heq
    have : d * ((t : ℝ) - k) = 0 := by linarith
    rcases mul_eq_zero.1 this with h | h
    · exact hd h
    · exact hne (by exact_mod_cast sub_eq_zero.1 h)

theorem trap_sum (m : ℕ) (f : ℕ → ℝ) : ∑ t ∈ Finset.range m, (f (t + 1) + f t) / 2 =
    ∑ t ∈ Finset.range (m + 1), f t - (f 0 + f m) / 2 := by
  induction m with
  | zero => simp
  | succ m ih =>
    rw [Finset.sum_range_succ, ih, Finset.sum_range_succ _ (m + 1)]
    ring

/-- For even spacing, all samples have the same weight, except the ends (half) and the neighbours of
the output voltage (one and a half times). -/
theorem trapVal_even {N k : ℕ} (h0 : 0 < k) (hk : k + 1 < N) (a d : ℝ) (f : ℕ → ℝ) :
    trapVal N (fun t : ℕ => a + d * t) f k =
      ∑ t ∈ Finset.range N, d * trapY (fun t : ℕ => a + d * t) f k t +
      d / 2 * (trapY (fun t : ℕ => a + d * t) f k (k - 1) + trapY (fun t : ℕ => a + d * t) f k (k + 1)) -
      d / 2 * (trapY (fun t : ℕ => a + d * t) f k 0 + trapY (fun t : ℕ => a + d * t) f k (N - 1)) := by
  have hyk : trapY (fun t : ℕ => a + d * t) f k k = 0 := by unfold trapY; rw [sub_self, div_zero]
  unfold trapVal
  generalize hY : trapY (fun t : ℕ => a + d * t) f k = Y at hyk ⊢
  obtain ⟨c, rfl⟩ : ∃ c, k = c + 1 := ⟨k - 1, by omega⟩
  obtain ⟨m, rfl⟩ : ∃ m, N = c + (2 + (m + 1)) := ⟨N - c - 3, by omega⟩
  rw [show c + (2 + (m + 1)) - 2 = c + (1 + m) by omega, show c + 1 - 1 = c by omega,
    show c + (2 + (m + 1)) - 1 = c + 2 + m by omega, Finset.sum_range_add _ c (1 + m),
    Finset.sum_range_add _ 1 m, Finset.sum_range_one, Finset.sum_range_add _ c (2 + (m + 1)),
    Finset.sum_range_add _ 2 (m + 1), Finset.sum_range_succ _ 1, Finset.sum_range_one]
  have p1 : ∑ t ∈ Finset.range c, (a + d * (skip (c + 1) (t + 1) : ℕ) - (a + d * (skip (c + 1) t : ℕ))) *
      (Y (skip (c + 1) (t + 1)) + Y (skip (c + 1) t)) / 2 =
      d * ∑ t ∈ Finset.range c, (Y (t + 1) + Y t) / 2 := by
    rw [Finset.mul_sum]
    apply Finset.sum_congr rfl
    intro t ht
    rw [Finset.mem_range] at ht
    have e1 : skip (c + 1) (t + 1) = t + 1 := by unfold skip; rw [if_pos (by omega)]
    have e2 : skip (c + 1) t = t := by unfold skip; rw [if_pos (by omega)]
    rw [e1, e2]
    push_cast
    ring
  have p2 : ∑ t ∈ Finset.range m, (a + d * (skip (c + 1) (c + (1 + t) + 1) : ℕ) -
      (a + d * (skip (c + 1) (c + (1 + t)) : ℕ))) *
      (Y (skip (c + 1) (c + (1 + t) + 1)) + Y (skip (c + 1) (c + (1 + t)))) / 2 =
      d * ∑ t ∈ Finset.range m, (Y (c + 2 + (t + 1)) + Y (c + 2 + t)) / 2 := by
    rw [Finset.mul_sum]
    apply Finset.sum_congr rfl
    intro t ht
    have e1 : skip (c + 1) (c + (1 + t) + 1) = c + 2 + (t + 1) := by
      unfold skip; rw [if_neg (by omega)]; omega
    have e2 : skip (c + 1) (c + (1 + t)) = c + 2 + t := by unfold skip; rw [if_neg (by omega)]; omega
    rw [e1, e2]
    push_cast
    ring
  have q1 : skip (c + 1) (c + 0 + 1) = c + 2 := by unfold skip; rw [if_neg (by omega)]
  have q2 : skip (c + 1) (c + 0) = c := by unfold skip; rw [if_pos (by omega)]; omega
  rw [p1, p2, q1, q2, trap_sum c Y, trap_sum m fun t => Y (c + 2 + t), Finset.sum_range_succ _ c,
    ← Finset.mul_sum, ← Finset.mul_sum]
  have e3 : ∀ t : ℕ, Y (c + (2 + t)) = Y (c + 2 + t) := fun t => by rw [add_assoc]
  simp only [e3, hyk, add_zero, mul_zero]
  push_cast
  ring

end QMix.MathFn
