import Verif.Model.IfResponse
import Verif.Lemmas.Float
import Verif.Lemmas.Py
import Verif.Lemmas.NumPy
import Mathlib.Analysis.SpecialFunctions.Log.Base

/-!
# Noise temperature versus IF frequency: C56, C79
-/

namespace QMix.IfResp

open Np Fl Clean

/-- A measured spectrum: frequency, hot power (dBm), cold power (dBm). -/
noncomputable def spectrum (l : List (ℝ × ℝ × ℝ)) : Mat :=
  { ncol := 3, rows := l.map fun p => [num p.1, num p.2.1, num p.2.2] }

theorem dbToLin_num (a : ℝ) : dbToLin (num a) = num ((10 : ℝ) ^ (a / 10)) := by
  unfold dbToLin num
  simp

theorem yFactor_num (ph pc : ℝ) : yFactor (num ph) (num pc)
    = num (if (10 : ℝ) ^ (ph / 10) / (10 : ℝ) ^ (pc / 10) ≤ 1 then 1 + 1e-6
      else (10 : ℝ) ^ (ph / 10) / (10 : ℝ) ^ (pc / 10)) := by
  have h : (10 : ℝ) ^ (pc / 10) ≠ 0 := (Real.rpow_pos_of_pos (by norm_num) _).ne'
  unfold yFactor
  rw [dbToLin_num, dbToLin_num, fdiv_num _ h]
  simp only [fle_num]
  split_ifs <;> rfl

theorem noiseTemp_num (th tc maxtn ph pc : ℝ) {y : ℝ} (hy : 1 < y)
    (h : yFactor (num ph) (num pc) = num y) :
    noiseTemp th tc maxtn (num ph) (num pc)
      = num (if (th - tc * y) / (y - 1) < 0 ∨ maxtn < (th - tc * y) / (y - 1) then maxtn
        else (th - tc * y) / (y - 1)) := by
  unfold noiseTemp
  dsimp only
  rw [h, fmul_num, fsub_num, fsub_num, fdiv_num _ (by linarith : y - 1 ≠ 0)]
  generalize (th - tc * y) / (y - 1) = t
  have key : (flt (num t) (num 0) ∨ flt (num maxtn) (num t)) ↔ (t < 0 ∨ maxtn < t) :=
    or_congr flt_num flt_num
  by_cases hk : t < 0 ∨ maxtn < t
  · rw [if_pos (key.2 hk), if_pos hk]
  · rw [if_neg (fun h => hk (key.1 h)), if_neg hk]

theorem yFactor_gt (ph pc : ℝ) : ∃ y, 1 < y ∧ yFactor (num ph) (num pc) = num y ∧
    (ph ≤ pc → y = 1 + 1e-6) ∧
    (pc < ph → y = (10 : ℝ) ^ (ph / 10) / (10 : ℝ) ^ (pc / 10)) := by
  have hc : 0 < (10 : ℝ) ^ (pc / 10) := Real.rpow_pos_of_pos (by norm_num) _
  refine ⟨_, ?_, yFactor_num ph pc, fun h => ?_, fun h => ?_⟩
  · split_ifs with h
    · norm_num
    · exact not_le.1 h
  · rw [if_pos]
    rw [div_le_one hc]
    exact Real.rpow_le_rpow_of_exponent_le (by norm_num) (by linarith)
  · rw [if_neg]
    rw [not_le, one_lt_div hc]
    exact Real.rpow_lt_rpow_of_exponent_lt (by norm_num) (by linarith)

theorem ifResponse_spectrum (l : List (ℝ × ℝ × ℝ)) (th tc maxtn : ℝ) :
    ifResponse (.matrix (spectrum l)) th tc maxtn = .ok
      { freq := l.map fun p => num p.1
        tn := l.map fun p => noiseTemp th tc maxtn (num p.2.1) (num p.2.2)
        hot := l.map fun p => num p.2.1
        cold := l.map fun p => num p.2.2 } := by
  have e : ∀ j : ℕ, ∀ k : ℤ, pyIndex 3 k = .ok j → (spectrum l).col k
      = .ok (l.map fun p => [num p.1, num p.2.1, num p.2.2].getD j none) := by
    intro j k h
    unfold Mat.col spectrum
    simp only
    rw [h, py_bind, List.map_map]
    rfl
  unfold ifResponse
  simp only [show (spectrum l).ncol = 3 from rfl, ne_eq, not_true_eq_false, if_false]
  rw [pyAssert_pos trivial, e 0 0 rfl, py_bind, e 1 1 rfl, py_bind, e 2 2 rfl, py_bind]
  unfold zip
  rw [if_pos (by simp), py_bind, List.zipWith_map, List.zipWith_self]
  rfl

/-- C56: for every spectrum, the response has one noise temperature per point, between 0 and the
maximum, and the measured frequencies and powers are returned unchanged. -/
theorem C56_bounded (l : List (ℝ × ℝ × ℝ)) (th tc maxtn : ℝ) (hm : 0 ≤ maxtn) :
    ∃ r, ifResponse (.matrix (spectrum l)) th tc maxtn = .ok r ∧ r.tn.length = l.length ∧
      (∀ t ∈ r.tn, ∃ a : ℝ, t = num a ∧ 0 ≤ a ∧ a ≤ maxtn) ∧
      r.freq = l.map (fun p => num p.1) ∧ r.hot = l.map (fun p => num p.2.1) ∧
      r.cold = l.map (fun p => num p.2.2) := by
  refine ⟨_, ifResponse_spectrum l th tc maxtn, by simp, ?_, rfl, rfl, rfl⟩
  intro t ht
  obtain ⟨p, -, rfl⟩ := List.mem_map.1 ht
  obtain ⟨y, hy, he, -⟩ := yFactor_gt p.2.1 p.2.2
  refine ⟨_, noiseTemp_num th tc maxtn _ _ hy he, ?_⟩
  split_ifs with h
  · exact ⟨hm, le_rfl⟩
  · rw [not_or, not_lt, not_lt] at h
    exact h

example : ∃ r, ifResponse (.matrix (spectrum [(1, -30, -33), (2, -31, -31)])) 293 78 1e6 = .ok r ∧
    r.tn.length = 2 := by
  obtain ⟨r, h, hl, -⟩ := C56_bounded [(1, -30, -33), (2, -31, -31)] 293 78 1e6 (by norm_num)
  exact ⟨r, h, hl⟩

/-- What a receiver with gain `g` and noise temperature `t` delivers from a load at temperature `tl`,
in dB. -/
noncomputable def delivered (g t tl : ℝ) : ℝ := 10 * Real.logb 10 (g * (tl + t))

theorem lin_delivered {g t tl : ℝ} (hg : 0 < g) (h : 0 < tl + t) :
    (10 : ℝ) ^ (delivered g t tl / 10) = g * (tl + t) := by
  unfold delivered
  rw [mul_div_cancel_left₀ _ (by norm_num)]
  exact Real.rpow_logb (by norm_num) (by norm_num) (mul_pos hg h)

/-- C56: for the powers delivered by a receiver with any gain and a noise temperature in the range,
at every frequency, the response is that noise temperature. -/
theorem C56_exact (l : List (ℝ × ℝ × ℝ)) (th tc maxtn : ℝ) (hT : tc < th)
    (hl : ∀ p ∈ l, 0 < p.2.1 ∧ 0 < tc + p.2.2 ∧ 0 ≤ p.2.2 ∧ p.2.2 ≤ maxtn) :
    ∃ r, ifResponse (.matrix (spectrum (l.map fun p =>
        (p.1, delivered p.2.1 p.2.2 th, delivered p.2.1 p.2.2 tc)))) th tc maxtn = .ok r ∧
      r.tn = l.map fun p => num p.2.2 := by
  refine ⟨_, ifResponse_spectrum _ th tc maxtn, ?_⟩
  simp only [List.map_map]
  apply List.map_congr_left
  rintro ⟨f, g, t⟩ hp
  obtain ⟨hg, hc, h0, h1⟩ := hl _ hp
  simp only at hg hc h0 h1
  have hh : 0 < th + t := by linarith
  have hlt : delivered g t tc < delivered g t th := by
    unfold delivered
    have := Real.logb_lt_logb (b := 10) (by norm_num) (mul_pos hg hc)
      (mul_lt_mul_of_pos_left (show tc + t < th + t by linarith) hg)
    linarith
  obtain ⟨y, hy, he, -, hy'⟩ := yFactor_gt (delivered g t th) (delivered g t tc)
  have hyv := hy' hlt
  rw [lin_delivered hg hh, lin_delivered hg hc, mul_div_mul_left _ _ hg.ne'] at hyv
  simp only [Function.comp]
  rw [noiseTemp_num th tc maxtn _ _ hy he]
  have hd : th - tc ≠ 0 := by linarith
  have e : (th - tc * y) / (y - 1) = t := by
    rw [div_eq_iff (by linarith), hyv]
    field_simp
    ring
  rw [e, if_neg (by rw [not_or, not_lt, not_lt]; exact ⟨h0, h1⟩)]

/-- C56: with the default load temperatures and maximum, a point whose hot power does not exceed its
cold power gets the maximum. More generally whenever the maximum is below the noise temperature that
corresponds to the smallest Y-factor. -/
theorem C56_no_contrast (th tc maxtn : ℝ) (h : maxtn < (th - tc * (1 + 1e-6)) / 1e-6)
    (l : List (ℝ × ℝ × ℝ)) :
    ∃ r, ifResponse (.matrix (spectrum l)) th tc maxtn = .ok r ∧
      ∀ (i : ℕ) p, l[i]? = some p → p.2.1 ≤ p.2.2 → r.tn[i]? = some (num maxtn) := by
  refine ⟨_, ifResponse_spectrum l th tc maxtn, fun i p hp hle => ?_⟩
  simp only [List.getElem?_map, hp, Option.map_some]
  obtain ⟨y, hy, he, hy', -⟩ := yFactor_gt p.2.1 p.2.2
  rw [noiseTemp_num th tc maxtn _ _ hy he, hy' hle, if_pos]
  right
  have e : (1 + 1e-6 - 1 : ℝ) = 1e-6 := by norm_num
  rw [e]
  exact h

/-- The hypothesis of `C56_no_contrast` holds for the defaults. -/
example : (1e6 : ℝ) < (293 - 78 * (1 + 1e-6)) / 1e-6 := by norm_num

/-- C56 needs that hypothesis: with the default loads and a maximum of 1e9 K, a point without any
contrast gets an ordinary value below the maximum. -/
theorem C56_false_large_max : ∃ r, ifResponse (.matrix (spectrum [(1, 0, 0)])) 293 78 1e9 = .ok r ∧
    r.tn = [num 214999922] := by
  refine ⟨_, ifResponse_spectrum _ _ _ _, ?_⟩
  obtain ⟨y, hy, he, hy', -⟩ := yFactor_gt 0 0
  simp only [List.map_cons, List.map_nil]
  rw [noiseTemp_num _ _ _ _ _ hy he, hy' le_rfl, if_neg (by norm_num)]
  norm_num

/-- C56 is false for NaN in the data: the noise temperature is NaN. -/
theorem C56_false_nan (f pc : Flt) (th tc maxtn : ℝ) :
    ∃ r, ifResponse (.matrix ⟨3, [[f, none, pc]]⟩) th tc maxtn = .ok r ∧ r.tn = [none] := by
  have hn : noiseTemp th tc maxtn none pc = none := by
    have hy : yFactor none pc = none := by
      unfold yFactor
      simp only [show dbToLin none = none from rfl, fdiv_none_left, fle_none_left, if_false]
    unfold noiseTemp
    rw [hy]
    simp only [fmul_none_right, fsub_none_right, fdiv_none_left, flt_none_left, flt_none_right,
      or_self, if_false]
  refine ⟨⟨[f], [none], [none], [pc]⟩, ?_, rfl⟩
  unfold ifResponse
  simp only [ne_eq, not_true_eq_false, if_false]
  rw [pyAssert_pos trivial]
  unfold Mat.col zip
  simp only [show pyIndex 3 0 = .ok 0 from rfl, show pyIndex 3 1 = .ok 1 from rfl,
    show pyIndex 3 2 = .ok 2 from rfl, py_bind, List.map_cons, List.map_nil]
  simp only [List.getD_cons_zero, List.getD_cons_succ, pure, Except.pure, py_bind, List.length_cons,
    if_true, List.zipWith_cons_cons, List.zipWith_nil_left, hn]

/-! ### Orientation of the matrix -/

theorem transpose_transpose (m : Mat) (h : m.WF) : transpose (transpose m) = m := by
  obtain ⟨n, rows⟩ := m
  unfold transpose
  simp only [tab_length, Mat.mk.injEq, true_and]
  apply List.ext_getElem (by simp)
  intro i h1 h2
  simp only [tab, List.getElem_map, List.getElem_range, List.map_map]
  have hr : (rows[i]).length = n := h _ (List.getElem_mem h2)
  apply List.ext_getElem (by simp [hr])
  intro j h3 h4
  simp [h2, h4]

/-- C79: data with any number of points other than three gives the same result whether the three
quantities are in columns or in rows. -/
theorem C79_orientation_partial (m : Mat) (h : m.WF) (h3 : m.ncol = 3) (hn : m.rows.length ≠ 3)
    (th tc maxtn : ℝ) :
    ifResponse (.matrix (transpose m)) th tc maxtn = ifResponse (.matrix m) th tc maxtn := by
  unfold ifResponse
  have e1 : (transpose m).ncol ≠ 3 := hn
  simp only [e1, h3, ne_eq, not_true_eq_false, not_false_eq_true, if_true, if_false,
    transpose_transpose m h]

/-- C79 is false for three points: a 3 by 3 array is always read by columns, so the transposed data of
a valid measurement gives another result. -/
theorem C79_false_three : ∃ l : List (ℝ × ℝ × ℝ), l.length = 3 ∧ ∃ r r',
    ifResponse (.matrix (spectrum l)) 293 78 1e6 = .ok r ∧
    ifResponse (.matrix (transpose (spectrum l))) 293 78 1e6 = .ok r' ∧ r.freq ≠ r'.freq := by
  refine ⟨[(1, 0, 0), (2, 0, 0), (3, 0, 0)], rfl, ?_⟩
  have e : transpose (spectrum [(1, 0, 0), (2, 0, 0), (3, 0, 0)])
      = spectrum [(1, 2, 3), (0, 0, 0), (0, 0, 0)] := by
    unfold transpose spectrum tab
    simp [List.range_succ]
  refine ⟨_, _, ifResponse_spectrum _ _ _ _, by rw [e]; exact ifResponse_spectrum _ _ _ _, ?_⟩
  simp [num_inj]

/-- C79: an array that has three columns neither way round is refused, as is anything that is not a
two-dimensional array. -/
theorem C79_refused (m : Mat) (h : m.ncol ≠ 3) (h' : m.rows.length ≠ 3) (th tc maxtn : ℝ) :
    ifResponse (.matrix m) th tc maxtn = .error .assertion ∧
    ifResponse .array th tc maxtn = .error .assertion ∧
    ifResponse .other th tc maxtn = .error .value := by
  refine ⟨?_, rfl, rfl⟩
  unfold ifResponse
  simp only [h, ne_eq, not_false_eq_true, if_true]
  rw [pyAssert_neg (show ¬ (transpose m).ncol = 3 from h')]

end QMix.IfResp
