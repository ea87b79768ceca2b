import Verif.Props.IvData4
import Verif.Props.IvData5
import Mathlib.Tactic.IntervalCases

/-!
Concrete cases for the theorems about I-V data (C52, C54, C55, C64): data that meets their hypotheses.
-/

namespace QMix.IvData

open Np Fl Clean Spec

/-- C52, upward and downward. -/
example : takeOnePass [num 0, num 1, num 3] [num 5, num 4, num 6] = .ok ([num 0, num 1, num 3], [num 5, num 4, num 6]) ∧
    takeOnePass [num 3, num 1, num 0] [num 6, num 4, num 5] = .ok ([num 0, num 1, num 3], [num 5, num 4, num 6]) := by
  have b : ∀ x y : ℝ, x < y → Below (num x) (num y) := fun x y h => ⟨_, _, rfl, rfl, by exact_mod_cast h⟩
  have e : ([num 0, num 1, num 3] : List Flt).Pairwise Below := by
    simp only [List.pairwise_cons, List.mem_cons, List.not_mem_nil, or_false]
    refine ⟨?_, ?_, ?_, List.Pairwise.nil⟩
    · rintro a (rfl | rfl)
      · exact b _ _ (by norm_num)
      · exact b _ _ (by norm_num)
    · rintro a rfl
      exact b _ _ (by norm_num)
    · simp
  exact ⟨C52_upward _ _ rfl (by simp) (by simp [num]) e,
    C52_downward [num 3, num 1, num 0] _ rfl (by simp) (by simp [num]) (List.pairwise_reverse.1 e)⟩

/-- Five voltages: up from zero, down, with a different current on the way back. -/
noncomputable def loop5 (k : ℕ) : ℝ × ℝ := [(0, 0), (2, 7), (1, 5), (-1, -5), (-2, -7)].getD k 0

/-- C52, points and range: also for a sweep that turns around. -/
example : ∃ v i, takeOnePass (volts 5 loop5) (amps 5 loop5) = .ok (v, i) ∧ v ≠ [] ∧
    (∀ p ∈ v.zip i, p ∈ (volts 5 loop5).zip (amps 5 loop5)) ∧ (∃ a ∈ v, ∀ b ∈ volts 5 loop5, fle a b) ∧
    ∃ a ∈ v, ∀ b ∈ volts 5 loop5, fle b a := by
  have hl : (volts 5 loop5).length = (amps 5 loop5).length := by simp [volts, amps, tab]
  have hne : volts 5 loop5 ≠ [] := by simp [volts, tab, List.range_succ]
  obtain ⟨v, i, h, h1, -, h2⟩ := (C52_points _ _ hl).2 hne
  obtain ⟨h3, h4⟩ := C52_range _ _ v i hl (by simp [volts, tab, num]) h
  exact ⟨v, i, h, h1, h2, h3, h4⟩

/-- C52, a cycle: the way down below zero, then the way up. -/
example : ∃ s, 1 ≤ s ∧ s ≤ 4 ∧ takeOnePass (volts 5 loop5) (amps 5 loop5) =
    .ok (volts (5 - s) (fun j => loop5 (4 - j)) ++ volts 2 loop5, amps (5 - s) (fun j => loop5 (4 - j)) ++ amps 2 loop5) := by
  obtain ⟨s, h1, h2, h3, -⟩ := C52_cycle 5 1 4 loop5 (by norm_num) (by norm_num) (Or.inl (by norm_num))
    (by
      intro i j h1 h2 h3
      have : i < 5 := by omega
      interval_cases j <;> interval_cases i <;> norm_num [loop5])
    (by intro i h1 h2; interval_cases i <;> first | exact absurd rfl h2 | norm_num [loop5])
    (by intro i h1 h2; interval_cases i <;> first | exact absurd rfl h2 | norm_num [loop5])
  exact ⟨s, h1, h2, h3⟩

/-- C52, a cycle in the other direction. -/
example : ∃ s, 1 ≤ s ∧ s ≤ 4 ∧ takeOnePass (volts 5 fun k => -loop5 k) (amps 5 fun k => -loop5 k) =
    .ok (volts 2 (fun j => -loop5 (1 - j)) ++ volts (5 - s) (fun j => -loop5 (s + j)),
      amps 2 (fun j => -loop5 (1 - j)) ++ amps (5 - s) (fun j => -loop5 (s + j))) := by
  obtain ⟨s, h1, h2, h3, -⟩ := C52_cycle_down 5 4 1 (fun k => -loop5 k) (by norm_num) (by norm_num) (Or.inl (by norm_num))
    (by
      intro i j h1 h2 h3
      have : i < 5 := by omega
      interval_cases j <;> interval_cases i <;> norm_num [loop5])
    (by intro i h1 h2; interval_cases i <;> first | exact absurd rfl h2 | norm_num [loop5])
    (by intro i h1 h2; interval_cases i <;> first | exact absurd rfl h2 | norm_num [loop5])
  exact ⟨s, h1, h2, h3⟩

/-- C54: 3 V and 1 A, -2 V and -1 A behind half an ohm. -/
example : seriesResistance (some (1 / 2)) [num 3, num (-2)] [num 1, num (-1)] =
    .ok ([num (5 / 2), num (-3 / 2)], [num 1, num (-1)]) := by
  have := C54_corrected (1 / 2) [(3, 1), (-2, -1)] (by
    intro p hp
    simp only [List.mem_cons, List.not_mem_nil, or_false] at hp
    rcases hp with rfl | rfl <;> norm_num)
  simp only [List.map_cons, List.map_nil] at this
  rw [this]
  norm_num

/-- Points of a junction: a subgap resistance of 1000 ohms, 10 ohms above the gap, displaced by 1 mV. -/
noncomputable def kinkV : List ℝ := [1.95e-3, 2.05e-3, 4e-3, 4.4e-3]

/-- The currents. -/
noncomputable def kinkI : List ℝ := [1.95e-6, 2.05e-6, 3e-4, 3.4e-4]

/-- Options with the default regions. -/
noncomputable def kinkOpts : Opts := { sampleOpts with vrn := (3.5e-3, 4.5e-3), vrsg := 2e-3 }

/-- C55: both resistances and the intercept are found. -/
example (R : Routines) : normalResistance R kinkOpts kinkV kinkI = .ok (10, 1e-3) ∧
    subgapResistance R kinkOpts kinkV kinkI = .ok 1000 := by
  constructor
  · apply C55_normal R kinkOpts kinkV kinkI 10 1e-3 rfl (by norm_num)
    · intro p hp
      simp only [kinkV, kinkI, List.zip_cons_cons, List.zip_nil_right, List.mem_cons, List.not_mem_nil, or_false] at hp
      rcases hp with rfl | rfl | rfl | rfl <;> norm_num [kinkOpts]
    · exact ⟨4e-3, by simp [kinkV], 4.4e-3, by simp [kinkV], by norm_num [kinkOpts]⟩
  · apply C55_subgap R kinkOpts kinkV kinkI 1000 0 rfl (by norm_num)
    · intro p hp
      simp only [kinkV, kinkI, List.zip_cons_cons, List.zip_nil_right, List.mem_cons, List.not_mem_nil, or_false] at hp
      rcases hp with rfl | rfl | rfl | rfl <;> norm_num [kinkOpts, abs_lt]
    · exact ⟨1.95e-3, by simp [kinkV], 2.05e-3, by simp [kinkV], by norm_num [kinkOpts, abs_lt]⟩

/-- C64, data on one side: only the offsets of the user are subtracted, and they can be added again. -/
example (R : Routines) : ∃ v i off, correctOffset R { sampleOpts with voffset := some (1 / 4) } [1, 2] [3, 5] = .ok (v, i, off) ∧
    v = [3 / 4, 7 / 4] ∧ i = [3, 5] ∧ off = (1 / 4, 0) ∧ v.map (· + off.1) = [1, 2] := by
  have h := C64_unipolar R { sampleOpts with voffset := some (1 / 4) } [1, 2] [3, 5] (by simp)
    (Or.inl (by intro t ht; simp at ht; rcases ht with rfl | rfl <;> norm_num [sampleOpts, VRange.pair]))
  refine ⟨_, _, _, h, ?_, ?_, rfl, (C64_offset R _ _ _ _ _ _ h).1⟩
  · norm_num
  · norm_num [sampleOpts]

/-- C64: an exact minimiser exists. -/
example (o : Opts) : ∃ v' i' off, correctOffset ideal (biased o) [-2, -1, 1, 2] [-2, -1, 1, 2] = .ok (v', i', off) ∧ off ≠ (1 / 4, 0) :=
  C64_false_user ideal o ideal_exact

/-- C64, dc data without filter: the result for two points of a resistor returns the measured points. -/
example (R : Routines) : ∃ v i dc, dcivCurve R
    { vFmt := "mV", iFmt := "uA", vmax := 6e-3, npts := 6001, voffset := none, ioffset := none,
      voffsetRange := .one 3e-4, rseries := none, iMult := 1, vMult := 1, filterData := false, theta := 0,
      nwind := 21, npoly := 1, vrn := (3.5e-3, 4.5e-3), vrsg := 2e-3, vgap := some 2.8e-3 }
    (.matrix (sweep [(4.4, 440), (3.6, 360), (2.05, 2.05), (1.95, 1.95)])) = .ok (v, i, dc) ∧
      ∃ vm, dc.vraw.map (· + dc.offset.1) = vm ∧ vm = [1.95e-3, 2.05e-3, 3.6e-3, 4.4e-3] := by
  obtain ⟨v, i, dc, h, -⟩ := C85_junction R
    { vFmt := "mV", iFmt := "uA", vmax := 6e-3, npts := 6001, voffset := none, ioffset := none,
      voffsetRange := .one 3e-4, rseries := none, iMult := 1, vMult := 1, filterData := false, theta := 0,
      nwind := 21, npoly := 1, vrn := (3.5e-3, 4.5e-3), vrsg := 2e-3, vgap := some 2.8e-3 }
    [(1.95, 1.95), (2.05, 2.05), (3.6, 360), (4.4, 440)] (by simp) 10 0 1000 0 2.8e-3
    (by simp; norm_num) [(4.4, 440), (3.6, 360), (2.05, 2.05), (1.95, 1.95)] (Or.inr (by simp)) (by simp) (by simp)
    (by norm_num)
    [(1.95e-3, 1.95e-6), (2.05e-3, 2.05e-6), (3.6e-3, 360e-6), (4.4e-3, 440e-6)]
    (by simp [voltUnit, ampUnit]; norm_num) (by simp [VRange.pair]; norm_num) rfl rfl rfl rfl (by norm_num) rfl
    (by norm_num) (by norm_num) (by norm_num) (by simp; norm_num)
    ⟨(3.6e-3, 360e-6), by simp, (4.4e-3, 440e-6), by simp, by norm_num, by norm_num, by norm_num, by norm_num, by norm_num⟩
    (by
      simp only [List.mem_cons, List.not_mem_nil, or_false]
      rintro p (rfl | rfl | rfl | rfl) hp
      · norm_num
      · norm_num
      · rw [abs_lt] at hp; norm_num at hp
      · rw [abs_lt] at hp; norm_num at hp)
    ⟨(1.95e-3, 1.95e-6), by simp, (2.05e-3, 2.05e-6), by simp, by norm_num, by rw [abs_lt]; norm_num,
      by rw [abs_lt]; norm_num⟩
  obtain ⟨raw, vm, im, h1, h2, -, h3, -⟩ := C64_dc R _ _ v i dc rfl h
  refine ⟨v, i, dc, h, _, h3, ?_⟩
  rw [C83_sweep R _ [(1.95, 1.95), (2.05, 2.05), (3.6, 360), (4.4, 440)] (by simp) (by simp; norm_num) _ (Or.inr (by simp)) (by simp)
    (by simp)] at h1
  cases h1
  change toReals ([num (1.95 * voltUnit "mV"), num (2.05 * voltUnit "mV"), num (3.6 * voltUnit "mV"), num (4.4 * voltUnit "mV")]) = _ at h2
  rw [show voltUnit "mV" = 1e-3 by simp [voltUnit]] at h2
  have e : toReals ([1.95 * 1e-3, 2.05 * 1e-3, 3.6 * 1e-3, 4.4 * 1e-3].map num) = .ok vm := h2
  rw [toReals_num] at e
  cases e
  norm_num

end QMix.IvData
