import Verif.Model.QtFreqRound
import Verif.Props.RespFnSteps
import Verif.Lemmas.Py
import Verif.Lemmas.Terminal

/-!
# C184: a tone is found at its own frequency, in double precision
-/

namespace QMix.Props

open QMix.Spec QMix.FreqRound

theorem rhe_near {x : ℝ} {n : ℤ} (h : |x - n| < 1 / 2) : roundHalfEven x = n := by
  have h4 := abs_roundHalfEven_sub_le x
  have h5 : |((roundHalfEven x - n : ℤ) : ℝ)| < 1 := by
    have := abs_add_le ((roundHalfEven x : ℝ) - x) (x - n)
    rw [sub_add_sub_cancel] at this
    push_cast
    linarith
  have h6 : |roundHalfEven x - n| < 1 := by exact_mod_cast h5
  rw [abs_lt] at h6
  omega

theorem u64_tiny : u64 < 1 / 10 ^ 15 := by unfold u64; norm_num

/-- Two rounded operations in sequence. -/
theorem fl_mul_le (x : ℝ) {d : ℝ} {y : ℝ} (h : |y - x| ≤ d) : |fl y - x| ≤ d + u64 * (|x| + d) := by
  have h1 := fl_le y
  have h2 : |y| ≤ |x| + d := by
    have := abs_add_le (y - x) x
    rw [sub_add_cancel] at this
    linarith
  have h3 := abs_add_le (fl y - y) (y - x)
  rw [sub_add_sub_cancel] at h3
  have := mul_le_mul_of_nonneg_left h2 u64_pos.le
  linarith

/-- A number with four decimals, stored as a float, is its own rounding. -/
theorem npRound_dec (n : ℤ) (h : |(n : ℝ)| ≤ 10 ^ 14) : npRound (fl (n / 10 ^ 4)) = fl (n / 10 ^ 4) := by
  have u0 := u64_pos
  have u1 := u64_tiny
  have h1 := fl_le ((n : ℝ) / 10 ^ 4)
  have h2 : |fl ((n : ℝ) / 10 ^ 4) * 10 ^ 4 - n| ≤ u64 * |(n : ℝ)| := by
    have e : fl ((n : ℝ) / 10 ^ 4) * 10 ^ 4 - n = (fl ((n : ℝ) / 10 ^ 4) - n / 10 ^ 4) * 10 ^ 4 := by ring
    rw [e, abs_mul, abs_of_pos (by norm_num : (0 : ℝ) < 10 ^ 4)]
    rw [abs_div, abs_of_pos (by norm_num : (0 : ℝ) < 10 ^ 4)] at h1
    calc _ ≤ u64 * (|(n : ℝ)| / 10 ^ 4) * 10 ^ 4 := by gcongr
      _ = _ := by ring
  have h3 := fl_mul_le _ h2
  have h4 : |fl (fl ((n : ℝ) / 10 ^ 4) * 10 ^ 4) - n| < 1 / 2 := by
    refine lt_of_le_of_lt h3 ?_
    have a : u64 * |(n : ℝ)| ≤ 1 / 10 := by
      calc u64 * |(n : ℝ)| ≤ 1 / 10 ^ 15 * 10 ^ 14 := by gcongr
        _ = 1 / 10 := by norm_num
    nlinarith
  unfold npRound
  rw [rhe_near h4]

theorem npRound_twice (x : ℝ) (h : |x| ≤ 10 ^ 9) : npRound (npRound x) = npRound x := by
  have u0 := u64_pos
  have u1 := u64_tiny
  refine npRound_dec _ ?_
  have h1 := fl_le (x * 10 ^ 4)
  have h2 := abs_roundHalfEven_sub_le (fl (x * 10 ^ 4))
  have h3 : |x * 10 ^ 4| ≤ 10 ^ 13 := by
    rw [abs_mul, abs_of_pos (by norm_num : (0 : ℝ) < 10 ^ 4)]
    nlinarith
  have h4 := abs_add_le ((roundHalfEven (fl (x * 10 ^ 4)) : ℝ) - fl (x * 10 ^ 4)) (fl (x * 10 ^ 4))
  have h5 := abs_add_le (fl (x * 10 ^ 4) - x * 10 ^ 4) (x * 10 ^ 4)
  rw [sub_add_cancel] at h4 h5
  have h6 : u64 * |x * 10 ^ 4| ≤ 1 := by
    calc u64 * |x * 10 ^ 4| ≤ 1 / 10 ^ 15 * 10 ^ 13 := by gcongr
      _ ≤ 1 := by norm_num
  have h7 : (10 ^ 13 + 1 + 1 / 2 : ℝ) ≤ 10 ^ 14 := by norm_num
  generalize roundHalfEven (fl (x * 10 ^ 4)) = r at *
  generalize fl (x * 10 ^ 4) = y at *
  generalize x * 10 ^ 4 = z at *
  calc |(r : ℝ)| ≤ |(r : ℝ) - y| + |y| := h4
    _ ≤ 1 / 2 + (1 + 10 ^ 13) := add_le_add h2 (h5.trans (add_le_add (h1.trans h6) h3))
    _ ≤ 10 ^ 14 := by norm_num

/-- Numbers with at most 53 significant bits are not rounded. -/
theorem fl_of_mul (m k : ℤ) (h : |(m : ℝ)| ≤ 2 ^ 53) : fl (m * 2 ^ k) = m * 2 ^ k := by
  have key : ∀ x : ℝ, (∃ j : ℤ, x = j * ulp x) → fl x = x := by
    rintro x ⟨j, hj⟩
    unfold fl
    have : x / ulp x = j := by
      rw [div_eq_iff (ulp_pos x).ne']
      exact hj
    rw [this, roundHalfEven_intCast]
    exact hj.symm
  apply key
  rcases eq_or_ne m 0 with rfl | hm
  · exact ⟨0, by simp⟩
  set x : ℝ := m * 2 ^ k with hx
  have hx0 : x ≠ 0 := mul_ne_zero (by exact_mod_cast hm) (by positivity)
  have hax : |x| = |(m : ℝ)| * 2 ^ k := by rw [hx, abs_mul, abs_of_pos (by positivity : (0 : ℝ) < 2 ^ k)]
  have h1 : (2 : ℝ) ^ Int.log 2 |x| ≤ |x| := by
    have := Int.zpow_log_le_self (b := 2) (R := ℝ) (by norm_num) (abs_pos.2 hx0)
    exact_mod_cast this
  rcases le_or_gt (Int.log 2 |x| - 52) k with hk | hk
  · refine ⟨m * 2 ^ (k - (Int.log 2 |x| - 52)).toNat, ?_⟩
    unfold ulp
    generalize Int.log 2 |x| = e at *
    push_cast
    rw [hx, mul_assoc]
    congr 1
    rw [← zpow_natCast, Int.toNat_of_nonneg (by omega), ← zpow_add₀ (by norm_num)]
    congr 1
    ring
  · have h2 : |x| ≤ 2 ^ (53 + k) := by
      rw [hax, zpow_add₀ (by norm_num)]
      refine mul_le_mul_of_nonneg_right ?_ (by positivity)
      exact_mod_cast h
    have h3 := (zpow_le_zpow_iff_right₀ (by norm_num : (1 : ℝ) < 2)).1 (h1.trans h2)
    have h4 : Int.log 2 |x| = 53 + k := by omega
    have h5 : |x| = 2 ^ (53 + k) := le_antisymm h2 (by rw [← h4]; exact h1)
    rcases abs_choice x with h6 | h6
    · refine ⟨2 ^ 52, ?_⟩
      unfold ulp
      rw [h4, ← h6, h5]
      push_cast
      rw [show (53 + k : ℤ) = 52 + (53 + k - 52) by ring, zpow_add₀ (by norm_num)]
      norm_num
    · refine ⟨-2 ^ 52, ?_⟩
      unfold ulp
      rw [h4]
      have h7 : x = -2 ^ (53 + k) := by linarith
      rw [h7]
      push_cast
      rw [show (53 + k : ℤ) = 52 + (53 + k - 52) by ring, zpow_add₀ (by norm_num)]
      norm_num

/-- Rounding twice is rounding once. -/
theorem fl_fl (x : ℝ) : fl (fl x) = fl x := by
  rcases eq_or_ne x 0 with rfl | hx
  · have : fl 0 = 0 := by simpa using fl_of_mul 0 0 (by norm_num)
    rw [this, this]
  refine fl_of_mul _ _ ?_
  have hp := ulp_pos x
  have h1 := Int.lt_zpow_succ_log_self (b := 2) (R := ℝ) (by norm_num) |x|
  have h2 : |x / ulp x| ≤ 2 ^ 53 := by
    rw [abs_div, abs_of_pos hp, div_le_iff₀ hp]
    unfold ulp
    have : (2 : ℝ) ^ (53 : ℕ) * 2 ^ (Int.log 2 |x| - 52) = 2 ^ (Int.log 2 |x| + 1) := by
      rw [← zpow_natCast, ← zpow_add₀ (by norm_num)]
      congr 1
      push_cast
      ring
    rw [this]
    exact_mod_cast h1.le
  have h3 : roundHalfEven (x / ulp x) ≤ 2 ^ 53 := by
    have := Term.rhe_mono (abs_le.1 h2).2
    have e : roundHalfEven ((2 : ℝ) ^ 53) = 2 ^ 53 := by
      have := roundHalfEven_intCast (2 ^ 53)
      norm_num at this ⊢
      exact this
    rwa [e] at this
  have h4 : -2 ^ 53 ≤ roundHalfEven (x / ulp x) := by
    have := Term.rhe_mono (abs_le.1 h2).1
    have e : roundHalfEven (-(2 : ℝ) ^ 53) = -2 ^ 53 := by
      have := roundHalfEven_intCast (-2 ^ 53)
      norm_num at this ⊢
      exact this
    rwa [e] at this
  rw [abs_le]
  exact ⟨by exact_mod_cast h4, by exact_mod_cast h3⟩

theorem fl_zero : fl 0 = 0 := by simpa using fl_of_mul 0 0 (by norm_num)

theorem foldl_zeros (fs : List ℝ) {s : ℝ} (hs : fl s = s) :
    (fs.zip (List.replicate fs.length (0 : ℤ))).foldl (fun s x => fl (s + fl (x.2 * x.1))) s = s := by
  induction fs with
  | nil => rfl
  | cons f fs ih =>
    simp only [List.length_cons, List.replicate_succ, List.zip_cons_cons, List.foldl_cons, Int.cast_zero, zero_mul, fl_zero, add_zero, hs]
    exact ih

/-- The sum of the frequencies with all orders but one equal to zero is the rounded product. -/
theorem mixFreq_one (as bs : List ℝ) (f : ℝ) (k : ℤ) :
    mixFreq (as ++ f :: bs) (List.replicate as.length 0 ++ k :: List.replicate bs.length 0) = fl (k * f) := by
  cases as with
  | nil => exact foldl_zeros bs (fl_fl _)
  | cons a as =>
    simp only [List.length_cons, List.replicate_succ, List.cons_append, mixFreq, Int.cast_zero, zero_mul, fl_zero]
    rw [List.zip_append (by simp), List.foldl_append, foldl_zeros as fl_zero, List.zip_cons_cons, List.foldl_cons, zero_add, fl_fl]
    exact foldl_zeros bs (fl_fl _)

/-- C184. The requests of the harmonic balance, and of a caller who passes a list of NumPy floats, are found: the rounded frequency of
harmonic `p` of any tone passes the comparison for this harmonic of this tone, whatever the other tones are. -/
theorem C184_own_partial (as bs : List ℝ) (freq : ℝ) (p : ℕ) (h : |fl (freq * p)| ≤ 10 ^ 9) :
    hit (as ++ freq :: bs) (prepare true (hbRequest freq p)) (List.replicate as.length 0 ++ (p : ℤ) :: List.replicate bs.length 0) ∧
    hit (as ++ freq :: bs) (prepare true (.np (fl (freq * p)))) (List.replicate as.length 0 ++ (p : ℤ) :: List.replicate bs.length 0) := by
  have e : fl (((p : ℤ) : ℝ) * freq) = fl (freq * p) := by rw [mul_comm]; push_cast; rfl
  have t := npRound_twice _ h
  unfold hit
  rw [mixFreq_one, e]
  refine ⟨?_, ?_⟩
  · simp only [prepare, hbRequest, PFloat.round, PFloat.val, if_true]
    rw [t, t]
  · simp only [prepare, PFloat.round, PFloat.val, if_true]
    rw [t]

theorem fl_neg (x : ℝ) : fl (-x) = -fl x := by
  unfold fl ulp
  rw [abs_neg, neg_div, roundHalfEven_neg]
  push_cast
  ring

/-- C184. So is the intermediate frequency of two tones: the difference of two frequencies, as NumPy computes it, in a list. -/
theorem C184_if_partial (f1 f2 : ℝ) (h1 : fl f1 = f1) (h2 : fl f2 = f2) (h : |fl (f1 - f2)| ≤ 10 ^ 9) :
    hit [f1, f2] (prepare true (.np (fl (f1 - f2)))) [1, -1] := by
  have t := npRound_twice _ h
  have e : fl (-1 * f2) = -f2 := by rw [neg_one_mul, fl_neg, h2]
  unfold hit
  simp only [mixFreq, List.zip_cons_cons, List.zip_nil_left, List.foldl_cons, List.foldl_nil, Int.cast_one, one_mul, h1, Int.cast_neg, e,
    prepare, PFloat.round, PFloat.val, if_true, ← sub_eq_add_neg, t]

/-- C184. Away from the middle between two numbers with four decimals, the two ways of rounding agree: a scalar, or a Python float, is
found as well. -/
theorem C184_scalar_partial (as bs : List ℝ) (freq : ℝ) (p : ℕ) (n : ℤ) (hn : |(n : ℝ)| ≤ 10 ^ 8)
    (h : |fl (freq * p) - n / 10 ^ 4| ≤ 1 / 20000 - 1 / 10 ^ 10) (isList : Bool) :
    hit (as ++ freq :: bs) (prepare isList (.np (fl (freq * p)))) (List.replicate as.length 0 ++ (p : ℤ) :: List.replicate bs.length 0) ∧
    hit (as ++ freq :: bs) (prepare isList (.py (fl (freq * p)))) (List.replicate as.length 0 ++ (p : ℤ) :: List.replicate bs.length 0) := by
  have u0 := u64_pos
  have u1 := u64_tiny
  have e : fl (((p : ℤ) : ℝ) * freq) = fl (freq * p) := by rw [mul_comm]; push_cast; rfl
  generalize fl (freq * p) = x at *
  have d : |x * 10 ^ 4 - n| ≤ 1 / 2 - 1 / 10 ^ 6 := by
    rw [show x * 10 ^ 4 - n = (x - n / 10 ^ 4) * 10 ^ 4 by ring, abs_mul, abs_of_pos (by norm_num : (0 : ℝ) < 10 ^ 4)]
    linarith
  have a1 : npRound x = fl (n / 10 ^ 4) := by
    unfold npRound
    have h3 := fl_mul_le _ d
    rw [rhe_near (lt_of_le_of_lt h3 ?_)]
    have : u64 * (|(n : ℝ)| + (1 / 2 - 1 / 10 ^ 6)) ≤ 1 / 10 ^ 15 * (10 ^ 8 + 1 / 2) := by gcongr; norm_num
    have : (1 / 10 ^ 15 * (10 ^ 8 + 1 / 2) : ℝ) < 1 / 10 ^ 5 := by norm_num
    norm_num at *
    linarith
  have a2 : pyRound x = fl (n / 10 ^ 4) := by
    unfold pyRound round4
    rw [rhe_near (lt_of_le_of_lt d (by norm_num))]
  have b1 := npRound_dec n (hn.trans (by norm_num))
  have b2 : pyRound (fl (n / 10 ^ 4)) = fl (n / 10 ^ 4) := by
    have h1 := fl_le ((n : ℝ) / 10 ^ 4)
    unfold pyRound round4
    rw [rhe_near (n := n) ?_]
    rw [show fl ((n : ℝ) / 10 ^ 4) * 10 ^ 4 - n = (fl ((n : ℝ) / 10 ^ 4) - n / 10 ^ 4) * 10 ^ 4 by ring, abs_mul,
      abs_of_pos (by norm_num : (0 : ℝ) < 10 ^ 4)]
    rw [abs_div, abs_of_pos (by norm_num : (0 : ℝ) < 10 ^ 4)] at h1
    have : u64 * (|(n : ℝ)| / 10 ^ 4) ≤ 1 / 10 ^ 15 * (10 ^ 8 / 10 ^ 4) := by gcongr
    have : (1 / 10 ^ 15 * (10 ^ 8 / 10 ^ 4) : ℝ) ≤ 1 / 10 ^ 9 := by norm_num
    have : |fl ((n : ℝ) / 10 ^ 4) - n / 10 ^ 4| * 10 ^ 4 ≤ 1 / 10 ^ 9 * 10 ^ 4 := by gcongr; linarith
    exact lt_of_le_of_lt this (by norm_num)
  unfold hit
  rw [mixFreq_one, e, a1]
  refine ⟨?_, ?_⟩ <;> cases isList <;> simp [prepare, PFloat.round, PFloat.val, a1, a2, b1, b2]

theorem freq_double : fl (12345 / 10 ^ 5) = 8895509983982204 * 2 ^ (-56 : ℤ) := by
  have := fl_eq (x := 12345 / 10 ^ 5) (-4) 8895509983982204 (by norm_num) (by norm_num) (by norm_num [abs_lt])
  rw [this]
  norm_num

theorem npRound_ge {x : ℝ} (h : 24 / 100 ≤ x) : 23 / 100 ≤ npRound x := by
  have u0 := u64_pos
  have u1 := u64_tiny
  unfold npRound
  have h1 := (abs_le.1 (fl_le (x * 10 ^ 4))).1
  have h2 := (abs_le.1 (abs_roundHalfEven_sub_le (fl (x * 10 ^ 4)))).1
  have h3 := (abs_le.1 (fl_le ((roundHalfEven (fl (x * 10 ^ 4)) : ℝ) / 10 ^ 4))).1
  rw [abs_of_pos (by positivity)] at h1
  have h0 : 2400 ≤ x * 10 ^ 4 := by norm_num; linarith
  generalize roundHalfEven (fl (x * 10 ^ 4)) = r at *
  generalize fl (x * 10 ^ 4) = y at *
  generalize x * 10 ^ 4 = z at *
  have u2 : u64 < 1 / 10000 := u1.trans (by norm_num)
  have h4 : 2399 ≤ y := by nlinarith
  have h5 : (2398 : ℝ) ≤ r := by linarith
  have h6 : 2398 / 10000 ≤ (r : ℝ) / 10 ^ 4 := by norm_num; linarith
  rw [abs_of_pos (by linarith)] at h3
  generalize fl ((r : ℝ) / 10 ^ 4) = q at *
  generalize (r : ℝ) / 10 ^ 4 = t at *
  nlinarith

theorem npRound_nonpos {x : ℝ} (h : x ≤ 0) : npRound x ≤ 0 := by
  have key : ∀ {y : ℝ}, y ≤ 0 → fl y ≤ 0 := by
    intro y hy
    have h1 := (abs_le.1 (fl_le y)).2
    rw [abs_of_nonpos hy] at h1
    have u1 := u64_lt
    nlinarith
  have h2 := key (mul_nonpos_of_nonpos_of_nonneg h (by norm_num : (0 : ℝ) ≤ 10 ^ 4))
  refine key (div_nonpos_of_nonpos_of_nonneg ?_ (by norm_num))
  have h3 := (abs_le.1 (abs_roundHalfEven_sub_le (fl (x * 10 ^ 4)))).2
  generalize roundHalfEven (fl (x * 10 ^ 4)) = r at *
  generalize fl (x * 10 ^ 4) = y at *
  have h4 : (r : ℝ) < 1 := by linarith
  have h5 : r < 1 := by exact_mod_cast h4
  exact_mod_cast (by omega : r ≤ 0)

theorem round_np : npRound (fl (12345 / 10 ^ 5)) = fl (1234 / 10 ^ 4) := by
  unfold npRound
  have h := fl_eq (x := 8895509983982204 * 2 ^ (-56 : ℤ) * 10 ^ 4) 10 (2469 * 2 ^ 41) (by norm_num) (by norm_num) (by norm_num [abs_lt])
  rw [freq_double, h]
  have : roundHalfEven (((2469 * 2 ^ 41 : ℤ) : ℝ) * 2 ^ (10 - 52 : ℤ)) = 1234 := by
    have e : ((2469 * 2 ^ 41 : ℤ) : ℝ) * 2 ^ (10 - 52 : ℤ) = ((1234 : ℤ) : ℝ) + 1 / 2 := by push_cast; norm_num
    have e1 : ⌊((1234 : ℤ) : ℝ) + 1 / 2⌋ = 1234 := by rw [Int.floor_eq_iff]; constructor <;> push_cast <;> norm_num
    have e2 : Int.fract (((1234 : ℤ) : ℝ) + 1 / 2) = 1 / 2 := by rw [Int.fract, e1]; push_cast; ring
    rw [e]
    unfold roundHalfEven
    rw [e1, e2, if_neg (lt_irrefl _), if_neg (lt_irrefl _), if_pos (by decide)]
  rw [this]
  norm_num

theorem round_py : pyRound (fl (12345 / 10 ^ 5)) = fl (1235 / 10 ^ 4) := by
  unfold pyRound round4
  have : roundHalfEven (8895509983982204 * 2 ^ (-56 : ℤ) * 10 ^ 4) = 1235 := by
    refine rhe_near ?_
    norm_num [abs_lt]
  rw [freq_double, this]
  norm_num

/-- The hypotheses hold for a local oscillator at 0.33 and its second harmonic. -/
example : hit [33 / 100, 3 / 10] (prepare true (hbRequest (33 / 100) 2)) [2, 0] ∧
    hit [3 / 10, 33 / 100] (prepare false (.np (fl (33 / 100 * (2 : ℕ))))) [0, 2] := by
  have h := fl_le (33 / 100 * (2 : ℕ))
  have u1 := u64_tiny
  have u0 := u64_pos
  rw [abs_of_pos (by norm_num : (0 : ℝ) < 33 / 100 * (2 : ℕ))] at h
  have h2 : |fl (33 / 100 * (2 : ℕ)) - 66 / 100| ≤ 1 / 10 ^ 10 := by
    rw [show (66 / 100 : ℝ) = 33 / 100 * (2 : ℕ) by norm_num]
    refine h.trans ?_
    norm_num at u1 ⊢
    linarith
  refine ⟨(C184_own_partial [] [3 / 10] (33 / 100) 2 ?_).1, (C184_scalar_partial [3 / 10] [] (33 / 100) 2 6600 (by norm_num) ?_ false).1⟩
  · have := abs_add_le (fl (33 / 100 * (2 : ℕ)) - 66 / 100) (66 / 100)
    rw [sub_add_cancel] at this
    refine this.trans ?_
    norm_num at h2 ⊢
    linarith
  · rw [show (((6600 : ℤ) : ℝ) / 10 ^ 4) = 66 / 100 by norm_num]
    exact h2.trans (by norm_num)

/-- The hypotheses of the difference hold for tones at 3/8 and 1/4. -/
example : hit [3 / 8, 1 / 4] (prepare true (.np (fl (3 / 8 - 1 / 4)))) [1, -1] := by
  have a : fl (3 / 8) = 3 / 8 := by
    have := fl_of_mul 3 (-3) (by norm_num)
    norm_num at this
    exact this
  have b : fl (1 / 4) = 1 / 4 := by
    have := fl_of_mul 1 (-2) (by norm_num)
    norm_num at this ⊢
    exact this
  have c : fl (3 / 8 - 1 / 4) = 1 / 8 := by
    have := fl_of_mul 1 (-3) (by norm_num)
    norm_num at this ⊢
    exact this
  exact C184_if_partial _ _ a b (by rw [c]; norm_num [abs_le])

/-- No product of orders matches: the current is zero. -/
theorem current1_none {γ ρ σ : Type} (O : Rnd.Ops γ ρ σ) (hit : List ℤ → Prop) (ccc : ℕ → List γ) (r : List ρ) (numP n : ℕ)
    (h : ∀ a, ¬ hit [a]) : Rnd.currentAt O 1 numP ccc (.m1 r) [n] hit = .ok O.zeroO := by
  unfold Rnd.currentAt Rnd.current1
  simp only [h, if_false]
  generalize Qt.mixRange numP = l
  induction l with
  | nil => rfl
  | cons a l ih => exact ih

/-- C184 is false of the code. With the tone at 0.12345, `qtcurrent(vj, cct, resp, cct.freq[1])` finds no term, whatever the number of
harmonics, and returns zeros; with `[cct.freq[1]]` the tone is found: the request of the former became a Python float, 0.1235, the mixing
frequency is a NumPy float, 0.1234. -/
theorem C184_false {γ ρ σ : Type} (O : Rnd.Ops γ ρ σ) (numP n : ℕ) (ccc : ℕ → List γ) (r : List ρ) : ∃ freq : ℝ, fl freq = freq ∧
    |freq - 12345 / 10 ^ 5| ≤ 1 / 10 ^ 15 ∧
    Rnd.currentAt O 1 numP ccc (.m1 r) [n] (hit [freq] (prepare false (.np freq))) = .ok O.zeroO ∧
    hit [freq] (prepare true (.np freq)) [1] := by
  have u0 := u64_pos
  have u1 := u64_tiny
  have hd := freq_double
  have hfl : fl (fl (12345 / 10 ^ 5)) = fl (12345 / 10 ^ 5) := by
    rw [freq_double]
    have := fl_eq (x := 8895509983982204 * 2 ^ (-56 : ℤ)) (-4) 8895509983982204 (by norm_num) (by norm_num) (by norm_num)
    rw [this]
    norm_num
  have e5 := abs_le.1 (fl_le (1235 / 10 ^ 4))
  have e4 := abs_le.1 (fl_le (1234 / 10 ^ 4))
  rw [abs_of_pos (by norm_num)] at e5 e4
  have rp5 : pyRound (fl (1235 / 10 ^ 4)) = fl (1235 / 10 ^ 4) := by
    have : roundHalfEven (fl (1235 / 10 ^ 4) * 10 ^ 4) = 1235 := by
      refine rhe_near ?_
      rw [abs_lt]
      push_cast
      constructor <;> norm_num at e5 ⊢ <;> linarith
    unfold pyRound round4
    rw [this]
    norm_num
  refine ⟨fl (12345 / 10 ^ 5), hfl, ?_, ?_, ?_⟩
  · rw [hd]
    norm_num [abs_le]
  · refine current1_none O _ ccc r numP n fun a h => ?_
    simp only [hit, mixFreq, List.zip_nil_left, List.foldl_nil, prepare, PFloat.round, PFloat.val, Bool.false_eq_true, if_false, round_py, rp5] at h
    rcases lt_trichotomy a 1 with h1 | rfl | h1
    · have h0 : fl ((a : ℝ) * fl (12345 / 10 ^ 5)) ≤ 0 := by
        have ha0 : (a : ℝ) ≤ 0 := by exact_mod_cast (by omega : a ≤ 0)
        have hy : (a : ℝ) * fl (12345 / 10 ^ 5) ≤ 0 := mul_nonpos_of_nonpos_of_nonneg ha0 (by rw [hd]; positivity)
        have h1 := (abs_le.1 (fl_le ((a : ℝ) * fl (12345 / 10 ^ 5)))).2
        rw [abs_of_nonpos hy] at h1
        have u1 := u64_lt
        nlinarith
      have := npRound_nonpos h0
      norm_num at e5
      linarith
    · rw [show ((1 : ℤ) : ℝ) * fl (12345 / 10 ^ 5) = fl (12345 / 10 ^ 5) by push_cast; ring, hfl, round_np] at h
      norm_num at e4 e5
      linarith
    · have h0 : 24 / 100 ≤ fl ((a : ℝ) * fl (12345 / 10 ^ 5)) := by
        have ha2 : (2 : ℝ) ≤ a := by exact_mod_cast (by omega : 2 ≤ a)
        have hy : 245 / 1000 ≤ (a : ℝ) * fl (12345 / 10 ^ 5) := by
          have : (123 / 1000 : ℝ) ≤ fl (12345 / 10 ^ 5) := by rw [hd]; norm_num
          nlinarith
        have h1 := (abs_le.1 (fl_le ((a : ℝ) * fl (12345 / 10 ^ 5)))).1
        rw [abs_of_pos (by linarith)] at h1
        have u2 : u64 < 1 / 10000 := u1.trans (by norm_num)
        nlinarith
      have := npRound_ge h0
      norm_num at e5
      linarith
  · have r4 := npRound_dec 1234 (by norm_num)
    push_cast at r4
    simp only [hit, mixFreq, List.zip_nil_left, List.foldl_nil, prepare, PFloat.round, PFloat.val, if_true, round_np, r4]
    rw [show ((1 : ℤ) : ℝ) * fl (12345 / 10 ^ 5) = fl (12345 / 10 ^ 5) by push_cast; ring, hfl, round_np]

end QMix.Props
