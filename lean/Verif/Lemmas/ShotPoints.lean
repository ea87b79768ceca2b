import Verif.Spec.ShotPoints
import Verif.Props.IfNoise
import Verif.Props.MathFn

/-!
# Lemmas about the choice of the points for the calibration
-/

namespace QMix.IfData

open Np Fl Clean IvData Spec

/-- Two best lines through points with two different abscissae are the same. -/
theorem best_line_unique {L : List (ℝ × ℝ)} {p r : ℝ × ℝ} (hp : ∀ q, resid L p ≤ resid L q)
    (hr : ∀ q, resid L r ≤ resid L q) (h2 : ∃ a ∈ L, ∃ b ∈ L, a.1 ≠ b.1) : p = r := by
  have key : resid L p + resid L r = 2 * resid L ((p.1 + r.1) / 2, (p.2 + r.2) / 2) +
      (L.map fun q => ((p.1 - r.1) * q.1 + (p.2 - r.2)) ^ 2 / 2).sum := by
    unfold resid
    rw [← List.sum_map_mul_left, ← List.sum_map_add, ← List.sum_map_add]
    congr 1
    apply List.map_congr_left
    intro q _
    ring
  have hz : (L.map fun q => ((p.1 - r.1) * q.1 + (p.2 - r.2)) ^ 2 / 2).sum ≤ 0 := by
    have h1 := hp ((p.1 + r.1) / 2, (p.2 + r.2) / 2)
    have h3 := hr ((p.1 + r.1) / 2, (p.2 + r.2) / 2)
    linarith
  have all : ∀ q ∈ L, (p.1 - r.1) * q.1 + (p.2 - r.2) = 0 := by
    intro q hq
    have := List.single_le_sum (l := L.map fun q => ((p.1 - r.1) * q.1 + (p.2 - r.2)) ^ 2 / 2)
      (by intro t ht; obtain ⟨q, -, rfl⟩ := List.mem_map.1 ht; positivity) _ (List.mem_map_of_mem hq)
    have h0 : ((p.1 - r.1) * q.1 + (p.2 - r.2)) ^ 2 ≤ 0 := by linarith
    exact pow_eq_zero_iff (two_ne_zero) |>.1 (le_antisymm h0 (sq_nonneg _))
  obtain ⟨a, ha, b, hb, hne⟩ := h2
  have e1 := all a ha
  have e2 := all b hb
  have h3 : (p.1 - r.1) * (a.1 - b.1) = 0 := by linarith
  rcases mul_eq_zero.1 h3 with h | h
  · rw [h, zero_mul, zero_add] at e1
    exact Prod.ext (by linarith) (by linarith)
  · exact absurd (by linarith) hne

theorem middle_spec {l : List ℝ} (h : l ≠ []) : ∃ m : ℝ, median l = num m ∧ MiddleValue l m := by
  classical
  unfold median
  rw [if_neg h]
  refine ⟨_, rfl, l.mergeSort fun a b => decide (a ≤ b), List.mergeSort_perm _ _, ?_, ?_⟩
  · have := List.pairwise_mergeSort (le := fun a b : ℝ => decide (a ≤ b)) (by intro a b c; simp; exact le_trans)
      (by intro a b; simp; exact le_total a b) l
    exact this.imp (by simp)
  · have hl : 0 < l.length := List.length_pos_iff.2 h
    have hs : (l.mergeSort fun a b => decide (a ≤ b)).length = l.length := List.length_mergeSort _
    refine ⟨_, _, List.getElem?_eq_getElem (by rw [hs]; omega), List.getElem?_eq_getElem (by rw [hs]; omega), ?_⟩
    rw [List.getD_eq_getElem?_getD, List.getElem?_eq_getElem (by rw [hs]; omega), List.getD_eq_getElem?_getD,
      List.getElem?_eq_getElem (by rw [hs]; omega)]
    simp only [Option.getD_some, hs]

theorem tab_range {α : Type} (n : ℕ) (f : ℕ → α) : tab n f = (List.range n).map f := by
  apply List.ext_getElem (by simp)
  intro i h1 h2
  simp [tab]


open Classical in
/-- The last part of the automatic choice. -/
theorem auto_tail {N : ℕ} (hN : 1 ≤ N) (X D E : ℕ → ℝ) (top : ℝ) {mask : List Bool}
    (h : (do
      let m1 ← zip (fun a b => decide (1.7 < a ∧ |b| < top * 1e-2)) (tab N X) (tab N E)
      let sel ← select (tab N D) m1
      let m2 := (tab N D).map fun t => decide (0 < t ∧ flt (num t) (fmul (median sel) (num 2)))
      let m ← zip (· && ·) m1 m2
      let both ← zip (· && ·) (slice m none (some (-1))) (slice m (some 1) none)
      let m3 ← setSlice (List.replicate m.length false) none (some (-1)) both
      zip (· && ·) m m3 : Py (List Bool)) = .ok mask) :
    ∃ med, ((∃ i < N, 1.7 < X i ∧ |E i| < top / 100) → MiddleValue (((List.range N).filter
        fun i => decide (1.7 < X i ∧ |E i| < top / 100)).map D) med) ∧
      mask = tab N fun i => decide (i + 1 < N ∧ ((1.7 < X i ∧ |E i| < top / 100) ∧ 0 < D i ∧ D i < 2 * med) ∧
        (1.7 < X (i + 1) ∧ |E (i + 1)| < top / 100) ∧ 0 < D (i + 1) ∧ D (i + 1) < 2 * med) := by
  have e0 : top * 1e-2 = top / 100 := by norm_num; ring
  rw [e0, zip_tab, py_bind] at h
  dsimp only at h
  set F : ℕ → Bool := fun i => decide (1.7 < X i ∧ |E i| < top / 100) with hF
  have esel : select (tab N D) (tab N F) = .ok (((List.range N).filter F).map D) := by
    rw [tab_range, tab_range]
    exact select_map _ _ _
  rw [esel, py_bind] at h
  have hmed : ∃ med : ℝ, ((∃ i < N, 1.7 < X i ∧ |E i| < top / 100) → MiddleValue (((List.range N).filter F).map D) med) ∧
      ∀ i < N, (F i && decide (0 < D i ∧ flt (num (D i)) (fmul (median (((List.range N).filter F).map D)) (num 2)))) =
        decide ((1.7 < X i ∧ |E i| < top / 100) ∧ 0 < D i ∧ D i < 2 * med) := by
    by_cases hex : ∃ i < N, 1.7 < X i ∧ |E i| < top / 100
    · obtain ⟨i, hi, hf⟩ := hex
      have hne : ((List.range N).filter F).map D ≠ [] := by
        intro h0
        have : i ∈ (List.range N).filter F := List.mem_filter.2 ⟨List.mem_range.2 hi, decide_eq_true hf⟩
        have h1 := List.mem_map_of_mem (f := D) this
        rw [h0] at h1
        cases h1
      obtain ⟨med, hm, his⟩ := middle_spec hne
      refine ⟨med, fun _ => his, fun j hj => ?_⟩
      rw [hm, fmul_num, flt_num, hF]
      dsimp only
      rw [mul_comm med 2, Bool.decide_and (1.7 < X j ∧ |E j| < top / 100)]
    · refine ⟨0, fun hc => absurd hc hex, fun j hj => ?_⟩
      have h1 : ¬ (1.7 < X j ∧ |E j| < top / 100) := fun hc => hex ⟨j, hj, hc⟩
      have h2 : F j = false := decide_eq_false h1
      rw [h2, Bool.false_and]
      symm
      exact decide_eq_false fun hc => h1 hc.1
  obtain ⟨med, h1, h2⟩ := hmed
  refine ⟨med, h1, ?_⟩
  set S : ℕ → Bool := fun i => decide ((1.7 < X i ∧ |E i| < top / 100) ∧ 0 < D i ∧ D i < 2 * med) with hS
  rw [map_tab, zip_tab, py_bind] at h
  have em : (tab N fun i => F i && decide (0 < D i ∧
      flt (num (D i)) (fmul (median (((List.range N).filter F).map D)) (num 2)))) = tab N S := by
    apply tab_ext rfl
    intro i hi
    exact h2 i hi
  rw [em] at h
  have b1 : bound N (-1) = N - 1 := by
    unfold bound
    rw [if_pos (by norm_num)]
    omega
  rw [slice_tab S none (some (-1)) (a := 0) (b := N - 1) rfl b1 (by omega),
    slice_tab S (some 1) none (a := 1) (b := N) (by
      show bound N 1 = 1
      unfold bound
      rw [if_neg (by norm_num)]
      omega) rfl le_rfl] at h
  simp only [Nat.sub_zero, zero_add] at h
  rw [zip_tab, py_bind] at h
  have er : List.replicate (tab N S).length false = tab N fun _ => false := by
    rw [tab_length, tab_range]
    simp
  rw [er, setSlice_tab (a := 0) (b := N - 1) (m := N - 1) _ _ none (some (-1)) rfl b1 (by omega) (by omega) (by omega),
    py_bind, zip_tab] at h
  obtain rfl := Except.ok.inj h
  apply tab_ext rfl
  intro i hi
  by_cases hi1 : i < N - 1
  · rw [if_pos ⟨by omega, hi1⟩]
    rw [Nat.sub_zero, add_comm 1 i, ← Bool.and_assoc, Bool.and_self, hS]
    dsimp only
    rw [← Bool.decide_and, decide_eq_decide]
    constructor
    · rintro ⟨h3, h4⟩; exact ⟨by omega, h3, h4⟩
    · rintro ⟨-, h3, h4⟩; exact ⟨h3, h4⟩
  · rw [if_neg (by omega), Bool.and_false]
    symm
    exact decide_eq_false fun hc => by omega

theorem getElem?_getD {l : List ℝ} {i : ℕ} (h : i < l.length) : l[i]? = some (l.getD i 0) := by
  rw [List.getD_eq_getElem?_getD, List.getElem?_eq_getElem h]
  rfl

theorem straight_iff {x d e : List ℝ} (hd : d.length = x.length) (he : e.length = x.length) {top med : ℝ} {i : ℕ} :
    Straight x d e top med i ↔ i < x.length ∧
      ((1.7 < x.getD i 0 ∧ |e.getD i 0| < top / 100) ∧ 0 < d.getD i 0 ∧ d.getD i 0 < 2 * med) := by
  unfold Straight Flat
  by_cases hi : i < x.length
  · rw [getElem?_getD hi, getElem?_getD (by omega : i < e.length), getElem?_getD (by omega : i < d.length)]
    simp [hi]
  · rw [List.getElem?_eq_none (by omega)]
    simp [hi]

/-- Choosing with a mask, by indices. -/
theorem chosen_range (c : ℕ → Bool) (x y : List ℝ) (h : y.length = x.length) :
    chosen (tab x.length c) x y = ((List.range x.length).filter c).map fun i => (x.getD i 0, y.getD i 0) := by
  unfold chosen
  have ez : (x.zip y).zip (tab x.length c) =
      (List.range x.length).map fun i => ((x.getD i 0, y.getD i 0), c i) := by
    apply List.ext_getElem (by simp [h])
    intro i h1 h2
    simp only [List.length_map, List.length_range] at h2
    rw [List.getElem_map, List.getElem_range, List.getElem_zip, List.getElem_zip]
    have e1 := getElem?_getD h2
    have e2 := getElem?_getD (l := y) (i := i) (by omega)
    rw [List.getElem?_eq_getElem h2] at e1
    rw [List.getElem?_eq_getElem (by omega)] at e2
    rw [Option.some.inj e1, Option.some.inj e2]
    simp [tab]
  rw [ez, List.filter_map, List.map_map]
  rfl

end QMix.IfData
