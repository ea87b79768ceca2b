import Verif.Model.HbPrint
import Verif.Spec.HbPrint
import Verif.Lemmas.Report
import Verif.Lemmas.HarmonicBalance
import Mathlib.Data.List.Sort

/-!
# Lemmas about the text of harmonic balance
-/

namespace QMix.HbPrint

open QMix Np Fl HB Qt Spec Results Report

/-! ## Numbers -/

theorem count_nat (n : ℕ) : Count (IO.natChars n) n := by
  refine ⟨[], _, rfl, IO.natChars_ne_nil n, ?_, .inl ⟨rfl, ?_⟩⟩
  · rw [List.all_eq_true]
    exact IO.natChars_digits n
  · have := IO.digitsVal_natChars n
    exact_mod_cast this

theorem count_int (n : ℤ) : Count (intChars n) n := by
  unfold intChars
  obtain ⟨sg, ds, h1, h2, h3, h4⟩ := count_nat n.natAbs
  rcases h4 with ⟨h4, h5⟩ | ⟨h4, h5⟩
  · subst h4
    split_ifs with h
    · exact ⟨['-'], ds, by rw [h1]; rfl, h2, h3, .inr ⟨rfl, by omega⟩⟩
    · exact ⟨[], ds, h1, h2, h3, .inl ⟨rfl, by omega⟩⟩
  · subst h4
    have hd := IO.natChars_digits n.natAbs '-' (by rw [h1]; simp)
    exact absurd hd (by decide)

theorem plain_nat (n : ℕ) : Plain (IO.natChars n) := fun c hc => .inl (IO.natChars_digits n c hc)

theorem plain_int (n : ℤ) : Plain (intChars n) := by
  unfold intChars
  split_ifs
  · exact plain_cons (by simp) (plain_nat _)
  · exact plain_nat _

theorem timeText_spec (t : ℝ) : TimeText (timeText t) t :=
  ⟨_, _, _, rfl, shows_fmt _ _ _, shows_fmt _ _ _, shows_fmt _ _ _⟩

theorem timeText_line (t : ℝ) : '\n' ∉ timeText t := by
  unfold timeText
  simp only [List.mem_append, not_or]
  refine ⟨⟨⟨⟨⟨?_, ?_⟩, ?_⟩, ?_⟩, ?_⟩, ?_⟩ <;> first | exact not_nl (plain_fmt _ _ _) | decide

/-! ## The median -/

section Median

variable {s : List EReal} (hs : s.Pairwise (· ≤ ·))
include hs

open Classical in
theorem countP_le_of_lt {k : ℕ} (hk : k < s.length) {x : EReal} (hx : x < s[k]) :
    (s.countP fun y => decide (y ≤ x)) ≤ k := by
  rw [← List.take_append_drop k s, List.countP_append]
  have h1 : ((s.drop k).countP fun y => decide (y ≤ x)) = 0 := by
    rw [List.countP_eq_zero]
    intro y hy
    obtain ⟨j, hj, rfl⟩ := List.mem_iff_getElem.1 hy
    rw [List.getElem_drop]
    have : s[k] ≤ s[k + j]'(by simp at hj; omega) := by
      rcases Nat.eq_zero_or_pos j with rfl | h0
      · exact le_rfl
      · exact List.pairwise_iff_getElem.1 hs k (k + j) _ _ (by omega)
    simpa using lt_of_lt_of_le hx this
  rw [h1, Nat.add_zero]
  exact (List.countP_le_length).trans (by simp)

open Classical in
theorem countP_le_ge {k : ℕ} (hk : k < s.length) : k + 1 ≤ s.countP fun y => decide (y ≤ s[k]) := by
  have h1 : ((s.take (k + 1)).countP fun y => decide (y ≤ s[k])) = k + 1 := by
    have : (s.take (k + 1)).countP (fun y => decide (y ≤ s[k])) = (s.take (k + 1)).length := by
      rw [List.countP_eq_length]
      intro y hy
      obtain ⟨j, hj, rfl⟩ := List.mem_iff_getElem.1 hy
      rw [List.getElem_take]
      simp only [List.length_take] at hj
      have hjk : j ≤ k := by omega
      rcases Nat.eq_or_lt_of_le hjk with rfl | h0
      · simp
      · simpa using List.pairwise_iff_getElem.1 hs j k _ _ h0
    rw [this, List.length_take]
    omega
  calc k + 1 = _ := h1.symm
    _ ≤ _ := (List.take_sublist (k + 1) s).countP_le

open Classical in
theorem countP_ge_of_lt {k : ℕ} (hk : k < s.length) {x : EReal} (hx : s[k] < x) :
    (s.countP fun y => decide (x ≤ y)) ≤ s.length - 1 - k := by
  have e : s.countP (fun y => decide (x ≤ y)) = (s.take (k + 1)).countP (fun y => decide (x ≤ y)) +
      (s.drop (k + 1)).countP (fun y => decide (x ≤ y)) := by
    rw [← List.countP_append, List.take_append_drop]
  have h1 : ((s.take (k + 1)).countP fun y => decide (x ≤ y)) = 0 := by
    rw [List.countP_eq_zero]
    intro y hy
    obtain ⟨j, hj, rfl⟩ := List.mem_iff_getElem.1 hy
    rw [List.getElem_take]
    simp only [List.length_take] at hj
    have : s[j]'(by omega) ≤ s[k] := by
      have hjk : j ≤ k := by omega
      rcases Nat.eq_or_lt_of_le hjk with rfl | h0
      · exact le_rfl
      · exact List.pairwise_iff_getElem.1 hs j k _ _ h0
    simpa using lt_of_le_of_lt this hx
  rw [e, h1, Nat.zero_add]
  exact (List.countP_le_length).trans (by simp; omega)

open Classical in
theorem countP_ge_ge {k : ℕ} (hk : k < s.length) : s.length - k ≤ s.countP fun y => decide (s[k] ≤ y) := by
  have h1 : ((s.drop k).countP fun y => decide (s[k] ≤ y)) = s.length - k := by
    have : (s.drop k).countP (fun y => decide (s[k] ≤ y)) = (s.drop k).length := by
      rw [List.countP_eq_length]
      intro y hy
      obtain ⟨j, hj, rfl⟩ := List.mem_iff_getElem.1 hy
      rw [List.getElem_drop]
      simp only [List.length_drop] at hj
      rcases Nat.eq_zero_or_pos j with rfl | h0
      · simp
      · simpa using List.pairwise_iff_getElem.1 hs k (k + j) _ _ (by omega)
    rw [this, List.length_drop]
  calc s.length - k = _ := h1.symm
    _ ≤ _ := (List.drop_sublist k s).countP_le

theorem median_sorted (h0 : s ≠ []) :
    IsMedian s ((s.getD ((s.length - 1) / 2) 0 + s.getD (s.length / 2) 0) / 2) := by
  have hl : 0 < s.length := List.length_pos_of_ne_nil h0
  have ha : (s.length - 1) / 2 < s.length := by omega
  have hb : s.length / 2 < s.length := by omega
  have e1 : s.getD ((s.length - 1) / 2) 0 = s[(s.length - 1) / 2] := by simp [List.getD, ha]
  have e2 : s.getD (s.length / 2) 0 = s[s.length / 2] := by simp [List.getD, hb]
  rw [e1, e2]
  refine ⟨_, _, ⟨?_, ?_⟩, ⟨?_, ?_⟩, rfl⟩
  · have := countP_le_ge hs ha
    simp only [Set.mem_setOf_eq]
    omega
  · intro x hx
    by_contra hlt
    have := countP_le_of_lt hs ha (not_le.1 hlt)
    simp only [Set.mem_setOf_eq] at hx
    omega
  · have := countP_ge_ge hs hb
    simp only [Set.mem_setOf_eq]
    omega
  · intro x hx
    by_contra hlt
    have := countP_ge_of_lt hs hb (not_le.1 hlt)
    simp only [Set.mem_setOf_eq] at hx
    omega

end Median

theorem isMedian_perm {a b : List EReal} (h : a.Perm b) {m : EReal} (hm : IsMedian a m) : IsMedian b m := by
  obtain ⟨lo, hi, h1, h2, h3⟩ := hm
  refine ⟨lo, hi, ?_, ?_, h3⟩
  · simpa [h.length_eq, h.countP_eq] using h1
  · simpa [h.length_eq, h.countP_eq] using h2

theorem npMedian_spec {l : List EReal} (h0 : l ≠ []) : ∃ m, npMedian (l.map some) = some m ∧ IsMedian l m := by
  classical
  unfold npMedian
  rw [if_neg (by simp)]
  have e : ((l.map some).filterMap id) = l := by
    rw [List.filterMap_map]
    simp
  simp only [e]
  refine ⟨_, rfl, isMedian_perm (List.mergeSort_perm l _) (median_sorted ?_ ?_)⟩
  · have := List.pairwise_mergeSort (le := fun a b : EReal => decide (a ≤ b)) (fun a b c => by simpa using le_trans)
      (fun a b => by simpa using le_total a b) l
    simpa using this
  · intro hn
    have := (List.mergeSort_perm l fun a b : EReal => decide (a ≤ b)).length_eq
    rw [hn] at this
    exact h0 (List.eq_nil_of_length_eq_zero this.symm)

theorem npMedian_nan {l : List Flt} (h : none ∈ l) : npMedian l = none := by
  unfold npMedian
  rw [if_pos h]

/-! ## Display -/

theorem displays_clip {x : Flt} (hx : ∀ y, x = some y → 0 ≤ y) : Displays (fmt 9 3 (clip x)) x := by
  unfold clip
  cases x with
  | none =>
    rw [if_neg (by simp [flt])]
    exact fmt_nan _ _
  | some y =>
    have h0 := hx y rfl
    simp only [Displays]
    by_cases h : ((99999.999 : ℝ) : EReal) < y
    · rw [if_pos (by simpa [flt, num] using h), min_eq_right h.le]
      exact shows_fmt 9 3 _
    · rw [if_neg (by simpa [flt, num] using h), min_eq_left (not_lt.1 h)]
      have ht : y ≠ ⊤ := fun e => h (by rw [e]; exact EReal.coe_lt_top _)
      have hb : y ≠ ⊥ := fun e => by rw [e] at h0; exact absurd h0 (by simp)
      obtain ⟨r, rfl⟩ : ∃ r : ℝ, y = (r : EReal) := ⟨y.toReal, (EReal.coe_toReal ht hb).symm⟩
      rw [EReal.toReal_coe]
      exact shows_fmt 9 3 r

end QMix.HbPrint
