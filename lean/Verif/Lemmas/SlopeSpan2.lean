import Verif.Lemmas.SlopeSpan

/-!
# `slope_span_n` fails only for too few points: other results are finite or not
-/

namespace QMix.MathFn

open QMix.Np

/-- A result, or values that are not finite. -/
def Finished {α : Type} (P : α → Prop) (p : Py α) : Prop := (∃ a, p = .ok a ∧ P a) ∨ p = .error .nonFinite

theorem Finished.bind {α β : Type} {P : α → Prop} {Q : β → Prop} {p : Py α} {f : α → Py β} (hp : Finished P p)
    (hf : ∀ a, P a → Finished Q (f a)) : Finished Q (p >>= f) := by
  rcases hp with ⟨a, rfl, ha⟩ | rfl
  · exact hf a ha
  · exact Or.inr rfl

theorem Finished.ok {α : Type} {P : α → Prop} {a : α} (h : P a) : Finished P (.ok a) := Or.inl ⟨a, rfl, h⟩

theorem fdiv_finished (a b : ℝ) : Finished (fun _ => True) (fdiv a b) := by
  unfold fdiv
  split
  · exact Or.inr rfl
  · exact .ok trivial

theorem length_tab {N : ℕ} {l : List ℝ} (h : l.length = N) : ∃ f, l = tab N f := ⟨_, h ▸ eq_tab l 0⟩

theorem spanStep_finished (N k : ℕ) (hk : 1 ≤ k) (h : 3 * k + 2 ≤ N) (x y : ℕ → ℝ) (d : List ℝ) (hd : d.length = N) :
    Finished (fun l => l.length = N) (spanStep (tab N x) (tab N y) d k) := by
  have i1 : pyIndex (N - (2 * k + 1)) k = .ok k := by
    rw [pyIndex_nonneg (by omega) (by omega)]; simp
  have i2 : pyIndex (N - (2 * k + 1)) (-k) = .ok (N - (2 * k + 1) - k) := by
    rw [pyIndex_neg (by omega) (by omega)]; congr 1; omega
  have j1 : pyIndex N k = .ok k := by rw [pyIndex_nonneg (by omega) (by omega)]; simp
  have j2 : pyIndex N (-k) = .ok (N - k) := by
    rw [pyIndex_neg (by omega) (by omega)]; congr 1; omega
  obtain ⟨f, rfl⟩ := length_tab hd
  unfold spanStep
  rw [spanDiff_tab N k (by omega), py_bind, spanDiff_tab N k (by omega), py_bind, pyGet_tab _ i1, py_bind,
    pyGet_tab _ i1, py_bind]
  refine (fdiv_finished _ _).bind fun q _ => ?_
  rw [pySet_tab _ _ j1, py_bind, pyGet_tab _ i2, py_bind, pyGet_tab _ i2, py_bind]
  refine (fdiv_finished _ _).bind fun q _ => ?_
  rw [pySet_tab _ _ j2]
  exact .ok (tab_length _ _)

theorem spanLoop_finished (N k : ℕ) (h : 3 * k + 2 ≤ N) (x y : ℕ → ℝ) (d : List ℝ) (hd : d.length = N) (j : ℕ)
    (hj : j ≤ k) :
    Finished (fun l => l.length = N) (pyFor (pyRange 1 ((j : ℤ) + 1)) d (spanStep (tab N x) (tab N y))) := by
  induction j with
  | zero =>
    show Finished _ (pyFor (pyRange 1 1) _ _)
    simp only [pyRange, sub_self, Int.toNat_zero, List.range_zero, List.map_nil, pyFor]
    exact .ok hd
  | succ j ih =>
    rw [Nat.cast_succ, pyRange_succ, pyFor_append]
    refine (ih (by omega)).bind fun l hl => ?_
    rw [pyFor_single]
    have := spanStep_finished N (j + 1) (by omega) (by omega) x y l hl
    rwa [Nat.cast_succ] at this

theorem div_finished (n : ℕ) (f g : ℕ → ℝ) : Finished (fun l => l.length = n) (div (tab n f) (tab n g)) := by
  by_cases hz : ∀ i < n, g i ≠ 0
  · rw [div_tab hz]
    exact .ok (tab_length _ _)
  · right
    push Not at hz
    obtain ⟨i, hi, h0⟩ := hz
    unfold div
    rw [if_pos (mem_tab.2 ⟨i, hi, h0⟩)]

theorem slopeSpanN_finished (x y : List ℝ) (k : ℕ) (hk : 1 ≤ k) (hl : y.length = x.length)
    (h : 3 * k + 2 ≤ x.length) (nz : Bool) :
    Finished (fun l => l.length = x.length) (slopeSpanN x y (2 * k + 1) nz) := by
  set N := x.length with hN
  have j0 : pyIndex N 0 = .ok 0 := pyIndex_nonneg (by omega) (by omega)
  have j1 : pyIndex N 1 = .ok 1 := pyIndex_nonneg (by omega) (by omega)
  have ja : pyIndex N (-1) = .ok (N - 1) := by
    rw [pyIndex_neg (by omega) (by omega)]; congr 1; omega
  have jb : pyIndex N (-2) = .ok (N - 2) := by
    rw [pyIndex_neg (by omega) (by omega)]; congr 1; omega
  obtain ⟨f, hf⟩ := length_tab hN.symm
  obtain ⟨g, hg⟩ := length_tab hl
  clear_value N
  subst hf hg
  unfold slopeSpanN
  rw [pyAssert_pos (by omega)]
  dsimp only
  rw [show ((2 : ℤ) * k + 1 - 1) / 2 = k by omega, spanDiff_tab N k (by omega), py_bind,
    spanDiff_tab N k (by omega), py_bind]
  refine (div_finished _ _ _).bind fun q hq => ?_
  obtain ⟨q', rfl⟩ := length_tab hq
  rw [tab_length, replicate_tab, setSlice_tab (a := k + 1) (b := N - k) (n := N) _ _ _ _
      (by simp [bound]; rw [if_neg (by omega)]; omega) (by simp [bound]; rw [if_pos (by omega)]; omega) (by omega) (by omega)
      (by omega), py_bind]
  refine (spanLoop_finished N k h _ _ _ (tab_length _ _) k le_rfl).bind fun l hl => ?_
  obtain ⟨e, rfl⟩ := length_tab hl
  rw [pyGet_tab _ j1, py_bind, pySet_tab _ _ j0, py_bind, pyGet_tab _ jb, py_bind, pySet_tab _ _ ja, py_bind]
  refine .ok ?_
  unfold noZeros
  split
  · rw [List.length_map, tab_length]
  · exact tab_length _ _

end QMix.MathFn
