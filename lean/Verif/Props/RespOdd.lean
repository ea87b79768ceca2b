import Verif.Props.RespFn2

/-!
# Smeared response functions are not odd in general (C36)
-/

namespace QMix.RespFn

open QMix.Np QMix.MathFn

/-- A line with a single larger sample at 2.5. -/
noncomputable def spike : List ℝ := tab 241 fun t => (t : ℝ) / 40 + if t = 100 then 1 else 0

/-- Smearing by half a voltage step uses a window of four samples. -/
theorem winLen_half : winLen (1 / 2) 3 = 4 := by
  unfold winLen
  have : ⌈(3 : ℝ) * (1 / 2) + 1 / 10 ^ 5 - -(3 * (1 / 2))⌉ = 4 := by
    rw [Int.ceil_eq_iff]
    norm_num
  rw [this]
  rfl

theorem smoothAt_half {n i : ℕ} (h1 : 2 ≤ i) (h2 : i + 2 < n) (f : ℕ → ℝ) :
    smoothAt (1 / 2) 3 (tab n f) i = win (1 / 2) 3 0 * f (i + 2) + win (1 / 2) 3 1 * f (i + 1)
      + win (1 / 2) 3 2 * f i + win (1 / 2) 3 3 * f (i - 1) := by
  have key : smoothAt (1 / 2) 3 (tab n f) i = ∑ j ∈ Finset.range 4, win (1 / 2) 3 j * f (i + 2 - j) := by
    unfold smoothAt
    rw [winLen_half]
    refine Finset.sum_congr rfl fun j hj => ?_
    have hj := Finset.mem_range.1 hj
    rw [tab_length]
    have : reflect n ((i : ℤ) + (4 / 2 : ℕ) - j) = i + 2 - j := by
      unfold reflect
      split_ifs <;> omega
    rw [this, tab_getD (by omega)]
  rw [key]
  simp only [Finset.sum_range_succ, Finset.sum_range_zero, zero_add, Nat.sub_zero]
  rfl

/-- C36 is false with smearing: the voltages 0, 1/40, ..., 6 and a current that is 0 at 0 are reflected to odd
data, but if the smearing is half a voltage step, the stored current is not odd (the window has an even number
of samples, so that everything moves by half a sample). -/
theorem C36_false_smeared (S : Splines) : ∃ r, respInit S line spike { vSmear := some (1 / 80) } = .ok r ∧
    (reflected spike).reverse = (reflected spike).map (fun t => -t) ∧
    r.voltage.reverse = r.voltage.map (fun t => -t) ∧
    r.current.reverse ≠ r.current.map fun t => -t := by
  obtain ⟨r, hr⟩ := grid_init S (M := 40) (N := 240) (by norm_num) (by norm_num) (by norm_num) (by norm_num)
    (c := spike) (tab_length _ _) (p := { vSmear := some (1 / 80) }) (by rintro s ⟨⟩; norm_num) (by norm_num)
    (by norm_num) rfl
  change respInit S line spike _ = .ok r at hr
  have hsn : spike ≠ [] := by
    intro h0
    have := congrArg List.length h0
    rw [spike, tab_length] at this
    cases this
  have s0 : spike.getD 0 0 = 0 := by
    unfold spike
    rw [tab_getD (by norm_num)]
    norm_num
  obtain ⟨hpos, h0, -, hv, hc, -⟩ := respInit_ok hr
  refine ⟨r, hr, (C36_reflection spike hsn).2.2.2.2.2 s0, ?_, ?_⟩
  · rw [hv]
    exact (C36_reflection line (List.ne_nil_of_length_pos hpos)).2.2.2.2.2 h0
  have ev : reflected line = tab 481 fun t => -((240 : ℕ) / (40 : ℕ) : ℝ) + 1 / (40 : ℕ) * (t : ℝ) := by
    unfold line
    rw [grid_reflected (by norm_num)]
  have es : reflected spike = tab 481 fun i =>
      (-((240 : ℕ) / (40 : ℕ) : ℝ) + 1 / (40 : ℕ) * (i : ℝ)) +
        if i = 340 then 1 else if i = 140 then -1 else 0 := by
    unfold spike
    rw [reflected_tab 241 (by norm_num)]
    apply tab_ext rfl
    intro i hi
    by_cases hlt : i < 240
    · rw [if_pos (by omega), if_neg (show i ≠ 340 by omega)]
      have : ((241 - 1 - i : ℕ) : ℝ) = 240 - i := by
        rw [Nat.cast_sub (by omega)]
        norm_num
      rw [this]
      by_cases he : i = 140
      · subst he
        norm_num
      · rw [if_neg (show ¬ 241 - 1 - i = 100 by omega), if_neg he]
        push_cast
        ring
    · rw [if_neg (by omega), if_neg (show i ≠ 140 by omega)]
      have : ((i - (241 - 1) : ℕ) : ℝ) = i - 240 := by
        rw [Nat.cast_sub (by omega)]
        norm_num
      rw [this]
      by_cases he : i = 340
      · subst he
        norm_num
      · rw [if_neg (show ¬ i - (241 - 1) = 100 by omega), if_neg he]
        push_cast
        ring
  unfold smear at hc
  dsimp only at hc
  rw [ev, es] at hc
  have g1 := pyGet_tab (n := 481) (k := 1) (i := 1)
    (fun t => -((240 : ℕ) / (40 : ℕ) : ℝ) + 1 / (40 : ℕ) * (t : ℝ)) (pyIndex_nonneg (by norm_num) (by norm_num))
  have g0 := pyGet_tab (n := 481) (k := 0) (i := 0)
    (fun t => -((240 : ℕ) / (40 : ℕ) : ℝ) + 1 / (40 : ℕ) * (t : ℝ)) (pyIndex_nonneg (by norm_num) (by norm_num))
  rw [g1, py_bind, g0, py_bind, zip_tab, py_bind, fdiv_ok (by norm_num), py_bind,
    show (1 : ℝ) / 80 / (-((240 : ℕ) / (40 : ℕ) : ℝ) + 1 / (40 : ℕ) * ((1 : ℕ) : ℝ)
      - (-((240 : ℕ) / (40 : ℕ) : ℝ) + 1 / (40 : ℕ) * ((0 : ℕ) : ℝ))) = 1 / 2 by norm_num] at hc
  have ex : (tab 481 fun i => -((240 : ℕ) / (40 : ℕ) : ℝ) + 1 / (40 : ℕ) * (i : ℝ)
      + (if i = 340 then 1 else if i = 140 then -1 else 0)
      - (-((240 : ℕ) / (40 : ℕ) : ℝ) + 1 / (40 : ℕ) * (i : ℝ)))
      = tab 481 fun i => if i = 340 then (1 : ℝ) else if i = 140 then -1 else 0 :=
    tab_ext rfl fun i _ => by ring
  rw [ex, gaussConv_eq (by norm_num) (by rw [tab_length, winLen_half]; norm_num), py_bind, tab_length,
    zip_tab] at hc
  have hc := Except.ok.inj hc
  intro ho
  rw [← hc, reverse_tab, map_tab] at ho
  have := congrArg (fun l : List ℝ => l.getD 142 0) ho
  beta_reduce at this
  rw [tab_getD (by norm_num), tab_getD (by norm_num)] at this
  have a1 : smoothAt (1 / 2) 3 (tab 481 fun i => if i = 340 then (1 : ℝ) else if i = 140 then -1 else 0) 142
      = 0 := by
    rw [smoothAt_half (by norm_num) (by norm_num)]
    norm_num
  have a2 : smoothAt (1 / 2) 3 (tab 481 fun i => if i = 340 then (1 : ℝ) else if i = 140 then -1 else 0) 338
      = win (1 / 2) 3 0 := by
    rw [smoothAt_half (by norm_num) (by norm_num)]
    norm_num
  have w0 : 0 < win (1 / 2) 3 0 := div_pos (winExp_pos _ _ _) (winSum_pos (by norm_num))
  rw [show 481 - 1 - 142 = 338 from rfl, a1, a2] at this
  norm_num at this
  linarith

end QMix.RespFn
