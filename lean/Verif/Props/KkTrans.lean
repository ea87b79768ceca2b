import Verif.Spec.KramersKronig
import Verif.Lemmas.KkTrapz
import Verif.Props.MathFn

/-!
# C104, C105: the numerical Kramers-Kronig transforms
-/

namespace QMix.MathFn

open QMix.Np QMix.Spec MeasureTheory Filter Set Topology

/-- The excess current of a regular curve. -/
theorem regular_nice {I : ℝ → ℝ} {a b V B : ℝ} (h : Regular I a b V B) :
    ∃ K, Nice (cut (fun x => I x - x) a b) V B (b - a) K := by
  obtain ⟨δ, hδ, K, hK⟩ := h.slope
  refine cut_nice h.below h.above h.bounded ?_ hδ (K := K + 1) ?_
  · refine h.jumps.mono ?_
    rintro x ⟨hx1, hx2⟩
    refine ⟨hx1, fun hc => hx2 ?_⟩
    exact hc.sub continuousAt_id
  · intro x hx hd
    calc |I x - x - (I V - V)| = |(I x - I V) - (x - V)| := by congr 1; ring
      _ ≤ |I x - I V| + |x - V| := abs_sub _ _
      _ ≤ (K + 1) * |x - V| := by linarith [hK x hx hd]

theorem outside_cut (I : ℝ → ℝ) (a b V ε : ℝ) : kkOutside I a b V ε =
    1 / Real.pi * ∫ x in {x | ε ≤ |x - V|}, cut (fun x => I x - x) a b x / (x - V) := by
  unfold kkOutside
  congr 1
  have hm : MeasurableSet {x : ℝ | ε ≤ |x - V|} := measurableSet_le measurable_const (by fun_prop)
  have e : {x : ℝ | x ∈ Icc a b ∧ ε ≤ |x - V|} = Icc a b ∩ {x | ε ≤ |x - V|} := rfl
  rw [e, ← integral_indicator (measurableSet_Icc.inter hm), ← integral_indicator hm]
  congr 1
  funext x
  by_cases h1 : x ∈ Icc a b
  · by_cases h2 : x ∈ {x : ℝ | ε ≤ |x - V|}
    · rw [indicator_of_mem (mem_inter h1 h2), indicator_of_mem h2, cut_in h1]
    · rw [indicator_of_notMem (fun h => h2 h.2), indicator_of_notMem h2]
  · rw [indicator_of_notMem (fun h => h1 h.1)]
    by_cases h2 : x ∈ {x : ℝ | ε ≤ |x - V|}
    · rw [indicator_of_mem h2, cut_out h1, zero_div]
    · rw [indicator_of_notMem h2]

theorem isKk_value {I : ℝ → ℝ} {a b V B : ℝ} (h : Regular I a b V B) :
    IsKk I a b V (1 / Real.pi * ∫ s in Ioi 0, sym (cut (fun x => I x - x) a b) V s) := by
  obtain ⟨K, hK⟩ := regular_nice h
  have := hK.pv.const_mul (1 / Real.pi)
  unfold IsKk
  refine this.congr fun ε => ?_
  rw [outside_cut]

theorem isKk_unique {I : ℝ → ℝ} {a b V B L : ℝ} (h : Regular I a b V B) (hL : IsKk I a b V L) :
    L = 1 / Real.pi * ∫ s in Ioi 0, sym (cut (fun x => I x - x) a b) V s :=
  tendsto_nhds_unique hL (isKk_value h)

/-- The transform of a regular curve exists. -/
theorem C104_exists {I : ℝ → ℝ} {a b V B : ℝ} (h : Regular I a b V B) : ∃ L, IsKk I a b V L :=
  ⟨_, isKk_value h⟩

/-- Grids that are fine enough. -/
theorem fine_grid {a b δ : ℝ} (hab : a < b) (hδ : 0 < δ) :
    ∃ N₀ : ℕ, 2 ≤ N₀ ∧ ∀ N : ℕ, N₀ ≤ N → 0 < (b - a) / ((N : ℝ) - 1) ∧ (b - a) / ((N : ℝ) - 1) < δ := by
  obtain ⟨m, hm⟩ := exists_nat_gt ((b - a) / δ)
  refine ⟨m + 2, by omega, fun N hN => ?_⟩
  have h1 : ((m + 2 : ℕ) : ℝ) ≤ N := by exact_mod_cast hN
  push_cast at h1
  have h2 : 0 ≤ (m : ℝ) := Nat.cast_nonneg m
  refine ⟨div_pos (by linarith) (by linarith), ?_⟩
  rw [div_lt_iff₀ hδ] at hm
  rw [div_lt_iff₀ (by linarith)]
  nlinarith

/-- C104. For a regular curve sampled at `N` evenly spaced voltages from `a` to `b`, `kk_trans` returns,
and its value at a sampled voltage `V` is the principal value of the Kramers-Kronig integral there, up
to `5 B / n ^ 2` from the finite padding `n` and an error that vanishes as `N` grows. -/
theorem C104_transform {I : ℝ → ℝ} {a b V B L : ℝ} (h : Regular I a b V B) (hL : IsKk I a b V L)
    {η : ℝ} (hη : 0 < η) : ∃ N₀ : ℕ, ∀ N : ℕ, N₀ ≤ N → ∀ k < N, V = a + (b - a) / ((N : ℝ) - 1) * k →
      ∀ n : ℤ, 2 ≤ n → ∃ r, kkTrans (tab N fun t => a + (b - a) / ((N : ℝ) - 1) * t)
        (tab N fun t => I (a + (b - a) / ((N : ℝ) - 1) * t)) n = .ok r ∧ r.length = N ∧
        |r.getD k 0 - L| ≤ 5 * B / n ^ 2 + η := by
  obtain ⟨K, hK⟩ := regular_nice h
  have hab := h.below.trans h.above
  have hpi := Real.pi_pos
  obtain ⟨δ, hδ, hs⟩ := hK.sums (θ := 1 / 2) (by norm_num) (by norm_num) (mul_pos hpi hη)
  obtain ⟨N₀, hN2, hN₀⟩ := fine_grid hab (half_pos hδ)
  refine ⟨N₀, fun N hN k hk hV n hn => ?_⟩
  obtain ⟨hd, hdδ⟩ := hN₀ N hN
  set d := (b - a) / ((N : ℝ) - 1) with hdef
  have hN1 : (1 : ℝ) < N := by exact_mod_cast (by omega : 1 < N)
  have hb : b = a + d * ((N : ℝ) - 1) := by
    rw [hdef, div_mul_cancel₀ _ (by linarith)]; ring
  obtain ⟨r, hr⟩ := kkTrans_even N (by omega) a d (tab N fun t : ℕ => I (a + d * t)) (tab_length _ _)
    (by omega : (1 : ℤ) ≤ n)
  refine ⟨r, hr, ?_⟩
  obtain ⟨-, -, rfl⟩ := kkTrans_ok (by simp) hr
  rw [tab_length N]
  refine ⟨tab_length _ _, ?_⟩
  obtain ⟨n, rfl⟩ : ∃ m : ℕ, n = m := ⟨n.toNat, by omega⟩
  have hn' : 2 ≤ n := by exact_mod_cast hn
  rw [tab_getD hk, Int.toNat_natCast]
  have e : (tab N fun t => (tab N fun t : ℕ => I (a + d * t)).getD t 0 - (tab N fun t : ℕ => a + d * t).getD t 0) =
      tab N fun t : ℕ => I (a + d * t) - (a + d * t) := by
    apply tab_ext rfl
    intro t ht
    rw [tab_getD ht, tab_getD ht]
  rw [e]
  have hBt : ∀ t < N, |I (a + d * t) - (a + d * t)| ≤ B := by
    intro t ht
    apply h.bounded
    have : (t : ℝ) ≤ N - 1 := by
      have : (t : ℝ) + 1 ≤ N := by exact_mod_cast ht
      linarith
    have := mul_le_mul_of_nonneg_left this hd.le
    constructor
    · have : 0 ≤ d * t := by positivity
      linarith
    · linarith
  have h1 := kkAt_near N n (by omega) hn' (fun t : ℕ => I (a + d * t) - (a + d * t)) hBt hk
  have h2 := pv_fold (g := fun x => I x - x) hd hk hV hb
  have h3 := hs (2 * d) (by linarith) (by linarith) N (by
    have : b - a = d * ((N : ℝ) - 1) := by linarith
    rw [this]
    nlinarith)
  rw [h2] at h1
  rw [isKk_unique h hL]
  set S := ∑ m ∈ Finset.range N, 2 * d * sym (cut (fun x => I x - x) a b) V (2 * d * (m + 1 / 2))
  set P := ∫ s in Ioi 0, sym (cut (fun x => I x - x) a b) V s
  have h4 : |1 / Real.pi * S - 1 / Real.pi * P| ≤ η := by
    rw [← mul_sub, abs_mul, abs_of_pos (by positivity), div_mul_eq_mul_div, one_mul, div_le_iff₀ hpi,
      mul_comm η]
    exact h3.le
  have h5 := abs_sub_le (kkAt (N * n) (tab N fun t : ℕ => I (a + d * t) - (a + d * t)) k)
    (1 / Real.pi * S) (1 / Real.pi * P)
  push_cast
  linarith

/-- C105. Without padding and its error, the same holds for `kk_trans_trapz`. -/
theorem C105_transform {I : ℝ → ℝ} {a b V B L : ℝ} (h : Regular I a b V B) (hL : IsKk I a b V L)
    {η : ℝ} (hη : 0 < η) : ∃ N₀ : ℕ, ∀ N : ℕ, N₀ ≤ N → ∀ k < N, V = a + (b - a) / ((N : ℝ) - 1) * k →
      ∃ r, kkTransTrapz (tab N fun t => a + (b - a) / ((N : ℝ) - 1) * t)
        (tab N fun t => I (a + (b - a) / ((N : ℝ) - 1) * t)) = .ok r ∧ r.length = N ∧
        |r.getD k 0 - L| ≤ η := by
  obtain ⟨K, hK⟩ := regular_nice h
  have hVa := h.below
  have hVb := h.above
  have hab := hVa.trans hVb
  have hpi := Real.pi_pos
  have hB0 : 0 ≤ B := (abs_nonneg _).trans (h.bounded V ⟨hVa.le, hVb.le⟩)
  obtain ⟨δ, hδ, hs⟩ := hK.sums (θ := 1) (by norm_num) le_rfl (half_pos (mul_pos hpi hη))
  set C := |K| / 2 + B / (2 * (V - a)) + B / (2 * (b - V)) with hC
  have hC0 : 0 ≤ C := by
    have := sub_pos.2 hVa
    have := sub_pos.2 hVb
    positivity
  obtain ⟨N₀, hN2, hN₀⟩ := fine_grid hab (lt_min hδ (div_pos (half_pos (mul_pos hpi hη))
    (by linarith : 0 < C + 1)))
  refine ⟨N₀, fun N hN k hk hV => ?_⟩
  obtain ⟨hd, hdδ⟩ := hN₀ N hN
  set d := (b - a) / ((N : ℝ) - 1) with hdef
  have hN1 : (1 : ℝ) < N := by exact_mod_cast (by omega : 1 < N)
  have hb : b = a + d * ((N : ℝ) - 1) := by
    rw [hdef, div_mul_cancel₀ _ (by linarith)]; ring
  obtain ⟨r, hr⟩ := kkTransTrapz_even N (by omega) a d hd.ne' (tab N fun t : ℕ => I (a + d * t))
    (tab_length _ _)
  refine ⟨r, hr, ?_⟩
  obtain ⟨-, -, rfl⟩ := kkTransTrapz_ok (by simp) hr
  rw [tab_length N]
  refine ⟨tab_length _ _, ?_⟩
  rw [tab_getD hk]
  have hk0 : 0 < k := by
    rcases Nat.eq_zero_or_pos k with rfl | h0
    · simp at hV; linarith
    · exact h0
  have hk1 : k + 1 < N := by
    rcases Nat.lt_or_ge (k + 1) N with h1 | h1
    · exact h1
    · exfalso
      have : (k : ℝ) + 1 = N := by exact_mod_cast (by omega : k + 1 = N)
      rw [show (k : ℝ) = N - 1 by linarith, ← hb] at hV
      linarith
  -- the voltages and currents as functions of the place
  have e : ∀ j, trapVal N (fun t => (tab N fun t : ℕ => a + d * t).getD t 0)
      (fun t => (tab N fun t : ℕ => I (a + d * t)).getD t 0) j =
      trapVal N (fun t : ℕ => a + d * t) (fun t : ℕ => I (a + d * t)) j ∨ ¬ j < N := by
    intro j
    by_cases hj : j < N
    · left
      unfold trapVal
      apply Finset.sum_congr rfl
      intro t ht
      rw [Finset.mem_range] at ht
      have l1 : skip j (t + 1) < N := skip_lt (by omega)
      have l2 : skip j t < N := skip_lt (by omega)
      unfold trapY
      dsimp only
      rw [tab_getD l1, tab_getD l2, tab_getD l1, tab_getD l2, tab_getD hj]
    · right; exact hj
  rw [(e k).resolve_right (by simpa using hk), trapVal_even hk0 hk1]
  -- the integrand in terms of the distance from the output voltage
  have hY : ∀ t, t < N → trapY (fun t : ℕ => a + d * t) (fun t : ℕ => I (a + d * t)) k t =
      cut (fun x => I x - x) a b (V + d * ((t : ℤ) - k : ℤ)) / (d * ((t : ℤ) - k : ℤ)) := by
    intro t ht
    rw [cut_grid hd hV hb ht]
    unfold trapY
    congr 1
    push_cast
    ring
  have hsum : ∑ t ∈ Finset.range N, d * trapY (fun t : ℕ => a + d * t) (fun t : ℕ => I (a + d * t)) k t =
      ∑ m ∈ Finset.range N, d * sym (cut (fun x => I x - x) a b) V (d * (m + 1)) := by
    rw [← plain_fold hd hk hV hb]
    apply Finset.sum_congr rfl
    intro t ht
    rw [hY t (Finset.mem_range.1 ht)]
  rw [hsum]
  have h3 := hs d hd (hdδ.trans_le (min_le_left _ _)) N (by
    have : b - a = d * ((N : ℝ) - 1) := by linarith
    rw [this]
    nlinarith)
  have hdC : d * C < Real.pi * η / 2 := by
    have := hdδ.trans_le (min_le_right _ _)
    rw [lt_div_iff₀ (by linarith)] at this
    nlinarith
  -- the neighbours of the output voltage
  have hnb : |d / 2 * (trapY (fun t : ℕ => a + d * t) (fun t : ℕ => I (a + d * t)) k (k - 1) +
      trapY (fun t : ℕ => a + d * t) (fun t : ℕ => I (a + d * t)) k (k + 1))| ≤ d * (|K| / 2) := by
    rw [hY _ (by omega), hY _ (by omega)]
    have e1 : (((k - 1 : ℕ) : ℤ) - k : ℤ) = -1 := by omega
    have e2 : (((k + 1 : ℕ) : ℤ) - k : ℤ) = 1 := by push_cast; ring
    rw [e1, e2]
    have e3 : cut (fun x => I x - x) a b (V + d * ((-1 : ℤ) : ℝ)) / (d * ((-1 : ℤ) : ℝ)) +
        cut (fun x => I x - x) a b (V + d * ((1 : ℤ) : ℝ)) / (d * ((1 : ℤ) : ℝ)) =
        sym (cut (fun x => I x - x) a b) V d := by
      unfold sym
      push_cast
      rw [mul_one, mul_neg_one, ← sub_eq_add_neg, div_neg]
      ring
    rw [e3, abs_mul, abs_of_pos (by positivity)]
    have := (hK.symBdd hd).trans (le_abs_self K)
    nlinarith
  -- the ends
  have hend : ∀ t, t < N → ∀ D, 0 < D → |d * (((t : ℤ) - k : ℤ) : ℝ)| = D →
      |trapY (fun t : ℕ => a + d * t) (fun t : ℕ => I (a + d * t)) k t| ≤ B / D := by
    intro t ht D hD he
    rw [hY t ht, abs_div, he]
    have := hK.bdd (V + d * ((t : ℤ) - k : ℤ))
    gcongr
  have hE1 := hend 0 (by omega) (V - a) (by linarith) (by
    rw [hV]
    push_cast
    rw [zero_sub, mul_neg, abs_neg, abs_of_nonneg (by positivity)]
    ring)
  have hE2 := hend (N - 1) (by omega) (b - V) (by linarith) (by
    have : (((N - 1 : ℕ) : ℤ) - k : ℤ) = (N : ℤ) - 1 - k := by omega
    rw [this]
    push_cast
    have hkN : (k : ℝ) + 1 ≤ N := by exact_mod_cast hk
    rw [abs_of_nonneg (mul_nonneg hd.le (by linarith)), hV, hb]
    ring)
  rw [isKk_unique h hL]
  set S := ∑ m ∈ Finset.range N, d * sym (cut (fun x => I x - x) a b) V (d * (m + 1))
  set P := ∫ s in Ioi 0, sym (cut (fun x => I x - x) a b) V s
  set Y := trapY (fun t : ℕ => a + d * t) (fun t : ℕ => I (a + d * t)) k
  have hends : |d / 2 * (Y 0 + Y (N - 1))| ≤ d * (B / (2 * (V - a)) + B / (2 * (b - V))) := by
    rw [abs_mul, abs_of_pos (by positivity)]
    have h0 := (abs_add_le (Y 0) (Y (N - 1))).trans (add_le_add hE1 hE2)
    have e1 : B / (2 * (V - a)) + B / (2 * (b - V)) = (B / (V - a) + B / (b - V)) / 2 := by
      have := (sub_pos.2 hVa).ne'
      have := (sub_pos.2 hVb).ne'
      field_simp
    rw [e1]
    nlinarith
  have e2 : (S + d / 2 * (Y (k - 1) + Y (k + 1)) - d / 2 * (Y 0 + Y (N - 1))) / Real.pi -
      1 / Real.pi * P =
      ((S - P) + d / 2 * (Y (k - 1) + Y (k + 1)) - d / 2 * (Y 0 + Y (N - 1))) / Real.pi := by
    field_simp
    ring
  rw [e2, abs_div, abs_of_pos hpi, div_le_iff₀ hpi]
  have t1 := abs_sub ((S - P) + d / 2 * (Y (k - 1) + Y (k + 1))) (d / 2 * (Y 0 + Y (N - 1)))
  have t2 := abs_add_le (S - P) (d / 2 * (Y (k - 1) + Y (k + 1)))
  have t3 : d * C = d * (|K| / 2) + d * (B / (2 * (V - a)) + B / (2 * (b - V))) := by rw [hC]; ring
  have t4 : |S - P| ≤ Real.pi * η / 2 := by
    have : S = ∑ m ∈ Finset.range N, d * sym (cut (fun x => I x - x) a b) V (d * ((m : ℝ) + 1)) := rfl
    rw [this]
    exact h3.le
  linarith

/-! ## The perfect junction -/

theorem perfect_inside {x : ℝ} (h : |x| < 1) : perfectElem x = 0 := by
  unfold perfectElem; rw [if_pos h]

theorem perfect_outside {x : ℝ} (h : 1 < |x|) : perfectElem x = x := by
  unfold perfectElem
  dsimp only
  rw [if_neg (by linarith), if_neg (by rintro rfl; norm_num at h), if_neg (by rintro rfl; norm_num at h)]

theorem perfect_near (x : ℝ) : |perfectElem x - x| ≤ 1 := by
  rcases lt_trichotomy |x| 1 with h | h | h
  · rw [perfect_inside h, zero_sub, abs_neg]; exact h.le
  · unfold perfectElem
    rcases eq_or_eq_neg_of_abs_eq h with rfl | rfl <;> norm_num [abs_of_pos, abs_of_neg]
  · rw [perfect_outside h, sub_self, abs_zero]; norm_num

theorem perfect_regular {a b V : ℝ} (h1 : a < V) (h2 : V < b) (hV : |V| ≠ 1) :
    Regular perfectElem a b V 1 := by
  refine ⟨h1, h2, fun x _ => perfect_near x, ?_, ?_⟩
  · refine (Set.toFinite ({1, -1} : Set ℝ)).countable.mono ?_
    rintro x ⟨-, hx⟩
    by_contra hn
    simp only [mem_insert_iff, mem_singleton_iff, not_or] at hn
    apply hx
    have hne : |x| ≠ 1 := fun h => by
      rcases eq_or_eq_neg_of_abs_eq h with h | h
      · exact hn.1 h
      · exact hn.2 h
    have hc : ContinuousAt (fun y : ℝ => |y|) x := continuous_abs.continuousAt
    rcases lt_or_gt_of_ne hne with h | h
    · have : perfectElem =ᶠ[𝓝 x] fun _ => 0 := by
        filter_upwards [hc.eventually_lt_const h] with y hy
        exact perfect_inside hy
      exact continuousAt_const.congr this.symm
    · have : perfectElem =ᶠ[𝓝 x] fun y => y := by
        filter_upwards [hc.eventually_const_lt h] with y hy
        exact perfect_outside hy
      exact continuousAt_id.congr this.symm
  · rcases lt_or_gt_of_ne hV with h | h
    · refine ⟨(1 - |V|) / 2, by linarith, 1, fun x _ hx => ?_⟩
      have : |x| < 1 := by
        have := abs_sub_abs_le_abs_sub x V
        linarith
      rw [perfect_inside this, perfect_inside h, sub_self, abs_zero, one_mul]
      exact abs_nonneg _
    · refine ⟨(|V| - 1) / 2, by linarith, 1, fun x _ hx => ?_⟩
      have : 1 < |x| := by
        have := abs_sub_abs_le_abs_sub V x
        rw [abs_sub_comm] at this
        linarith
      rw [perfect_outside this, perfect_outside h, one_mul]

theorem perfect_isKk (m : ℝ) {a b V : ℝ} (ha : a ≤ -1) (hb : 1 ≤ b) (hV : |V| ≠ 1) :
    IsKk perfectElem a b V (perfectKkElem m V) := by
  refine (pv_perfect m hV).congr fun ε => ?_
  rw [outside_cut]
  have : cut (fun x => perfectElem x - x) a b = fun x => perfectElem x - x := by
    funext x
    by_cases hx : x ∈ Icc a b
    · exact cut_in hx
    · rw [cut_out hx]
      have : 1 < |x| := by
        rw [lt_abs]
        by_contra hn
        push Not at hn
        exact hx ⟨by linarith, by linarith⟩
      rw [perfect_outside this, sub_self]
  rw [this]

/-- C104. The padding matters little, for every array: two paddings `n, n' ≥ 2` give results that
differ by at most `5 B / n² + 5 B / n'²`, where `B` bounds the excess current `|i - v|`. -/
theorem C104_padding {v i r r' : List ℝ} {n n' : ℤ} (hl : i.length = v.length) (hn : 2 ≤ n)
    (hn' : 2 ≤ n') {B : ℝ} (hB : ∀ t < v.length, |i.getD t 0 - v.getD t 0| ≤ B)
    (h : kkTrans v i n = .ok r) (h' : kkTrans v i n' = .ok r') {k : ℕ} (hk : k < v.length) :
    |r.getD k 0 - r'.getD k 0| ≤ 5 * B / n ^ 2 + 5 * B / n' ^ 2 := by
  obtain ⟨-, hN, rfl⟩ := kkTrans_ok hl h
  obtain ⟨-, -, rfl⟩ := kkTrans_ok hl h'
  rw [tab_getD hk, tab_getD hk]
  obtain ⟨n, rfl⟩ : ∃ m : ℕ, n = m := ⟨n.toNat, by omega⟩
  obtain ⟨n', rfl⟩ : ∃ m : ℕ, n' = m := ⟨n'.toNat, by omega⟩
  rw [Int.toNat_natCast, Int.toNat_natCast]
  have h1 := kkAt_near v.length n (by omega) (by exact_mod_cast hn) _ hB hk
  have h2 := kkAt_near v.length n' (by omega) (by exact_mod_cast hn') _ hB hk
  rw [abs_sub_comm] at h2
  push_cast
  exact (abs_sub_le _ _ _).trans (add_le_add h1 h2)

example : ∃ r r', kkTrans (tab 5 fun t => (0 : ℝ) + 1 * t) [0, 0, 0, 3, 4] 2 = .ok r ∧
    kkTrans (tab 5 fun t => (0 : ℝ) + 1 * t) [0, 0, 0, 3, 4] 50 = .ok r' := by
  obtain ⟨r, hr⟩ := kkTrans_even 5 (by norm_num) 0 1 [0, 0, 0, 3, 4] rfl (n := 2) (by norm_num)
  obtain ⟨r', hr'⟩ := kkTrans_even 5 (by norm_num) 0 1 [0, 0, 0, 3, 4] rfl (n := 50) (by norm_num)
  exact ⟨r, r', hr, hr'⟩

/-- C104. For data of the perfect junction that reach beyond the gap on both sides, `kk_trans` and
`perfect_kk` agree away from the gap, up to `5 / n ^ 2` and an error that vanishes as the number of
points grows. -/
theorem C104_perfect {a b V : ℝ} (ha : a ≤ -1) (hb : 1 ≤ b) (h1 : a < V) (h2 : V < b) (hV : |V| ≠ 1)
    (m : ℝ) {η : ℝ} (hη : 0 < η) : ∃ I K : ℝ → ℝ, (∀ x, perfect (.flt x) = .num (I x)) ∧
      (∀ x, perfectKk m (.flt x) = .num (K x)) ∧
      ∃ N₀ : ℕ, ∀ N : ℕ, N₀ ≤ N → ∀ k < N, V = a + (b - a) / ((N : ℝ) - 1) * k →
      ∀ n : ℤ, 2 ≤ n → ∃ r, kkTrans (tab N fun t => a + (b - a) / ((N : ℝ) - 1) * t)
        (tab N fun t => I (a + (b - a) / ((N : ℝ) - 1) * t)) n = .ok r ∧ r.length = N ∧
        |r.getD k 0 - K V| ≤ 5 / n ^ 2 + η := by
  refine ⟨perfectElem, perfectKkElem m, perfectScalar_eq, fun x => ?_, ?_⟩
  · simp only [perfectKk, perfectKkScalar_eq]
  · have := C104_transform (perfect_regular h1 h2 hV) (perfect_isKk m ha hb hV) hη
    simpa only [mul_one] using this

/-- C105. The same holds for `kk_trans_trapz`. -/
theorem C105_perfect {a b V : ℝ} (ha : a ≤ -1) (hb : 1 ≤ b) (h1 : a < V) (h2 : V < b) (hV : |V| ≠ 1)
    (m : ℝ) {η : ℝ} (hη : 0 < η) : ∃ I K : ℝ → ℝ, (∀ x, perfect (.flt x) = .num (I x)) ∧
      (∀ x, perfectKk m (.flt x) = .num (K x)) ∧
      ∃ N₀ : ℕ, ∀ N : ℕ, N₀ ≤ N → ∀ k < N, V = a + (b - a) / ((N : ℝ) - 1) * k →
      ∃ r, kkTransTrapz (tab N fun t => a + (b - a) / ((N : ℝ) - 1) * t)
        (tab N fun t => I (a + (b - a) / ((N : ℝ) - 1) * t)) = .ok r ∧ r.length = N ∧
        |r.getD k 0 - K V| ≤ η := by
  refine ⟨perfectElem, perfectKkElem m, perfectScalar_eq, fun x => ?_, ?_⟩
  · simp only [perfectKk, perfectKkScalar_eq]
  · exact C105_transform (perfect_regular h1 h2 hV) (perfect_isKk m ha hb hV) hη

/-- C105. The two numerical transforms agree, for every regular curve. -/
theorem C105_agree {I : ℝ → ℝ} {a b V B : ℝ} (h : Regular I a b V B) {η : ℝ} (hη : 0 < η) :
    ∃ N₀ : ℕ, ∀ N : ℕ, N₀ ≤ N → ∀ k < N, V = a + (b - a) / ((N : ℝ) - 1) * k → ∀ n : ℤ, 2 ≤ n →
      ∃ r q, kkTrans (tab N fun t => a + (b - a) / ((N : ℝ) - 1) * t)
          (tab N fun t => I (a + (b - a) / ((N : ℝ) - 1) * t)) n = .ok r ∧
        kkTransTrapz (tab N fun t => a + (b - a) / ((N : ℝ) - 1) * t)
          (tab N fun t => I (a + (b - a) / ((N : ℝ) - 1) * t)) = .ok q ∧
        |r.getD k 0 - q.getD k 0| ≤ 5 * B / n ^ 2 + η := by
  obtain ⟨L, hL⟩ := C104_exists h
  obtain ⟨N₁, h₁⟩ := C104_transform h hL (half_pos hη)
  obtain ⟨N₂, h₂⟩ := C105_transform h hL (half_pos hη)
  refine ⟨max N₁ N₂, fun N hN k hk hV n hn => ?_⟩
  obtain ⟨r, hr, -, e1⟩ := h₁ N ((le_max_left _ _).trans hN) k hk hV n hn
  obtain ⟨q, hq, -, e2⟩ := h₂ N ((le_max_right _ _).trans hN) k hk hV
  refine ⟨r, q, hr, hq, ?_⟩
  have := abs_sub_le (r.getD k 0) L (q.getD k 0)
  rw [abs_sub_comm L] at this
  linarith

/-- The perfect junction between -2 and 2, at zero, with arbitrarily many points. -/
example : Regular perfectElem (-2) 2 0 1 := perfect_regular (by norm_num) (by norm_num) (by norm_num)

example (N₀ : ℕ) : ∃ N ≥ N₀, ∃ k < N, (0 : ℝ) = -2 + (2 - -2) / ((N : ℝ) - 1) * k := by
  refine ⟨2 * N₀ + 3, by omega, N₀ + 1, by omega, ?_⟩
  have : (N₀ : ℝ) + 1 ≠ 0 := by positivity
  push_cast
  rw [show (2 * (N₀ : ℝ) + 3 - 1) = 2 * (N₀ + 1) by ring]
  field_simp
  ring

/-! ## The trapezoidal transform for any voltages -/

/-- C105. With no excess current the result is zero. -/
theorem C105_zero {v r : List ℝ} (h : kkTransTrapz v v = .ok r) : r = v.map fun _ => (0 : ℝ) := by
  obtain ⟨-, -, rfl⟩ := kkTransTrapz_ok rfl h
  have : ∀ k, trapVal v.length (fun t => v.getD t 0) (fun t => v.getD t 0) k / Real.pi = 0 := by
    intro k
    unfold trapVal trapY
    simp
  simp only [this]
  exact ((List.map_const (l := v) (b := (0 : ℝ))).trans (replicate_tab _ _)).symm

/-- C105. The transform is linear in the excess current. -/
theorem C105_linear {v i₁ i₂ i₃ r₁ r₂ r₃ : List ℝ} (α β : ℝ) (h1 : i₁.length = v.length)
    (h2 : i₂.length = v.length) (h3 : i₃.length = v.length)
    (hi : ∀ t, i₃.getD t 0 - v.getD t 0 =
      α * (i₁.getD t 0 - v.getD t 0) + β * (i₂.getD t 0 - v.getD t 0))
    (k1 : kkTransTrapz v i₁ = .ok r₁) (k2 : kkTransTrapz v i₂ = .ok r₂) (k3 : kkTransTrapz v i₃ = .ok r₃) :
    ∀ k < v.length, r₃.getD k 0 = α * r₁.getD k 0 + β * r₂.getD k 0 := by
  obtain ⟨-, -, rfl⟩ := kkTransTrapz_ok h1 k1
  obtain ⟨-, -, rfl⟩ := kkTransTrapz_ok h2 k2
  obtain ⟨-, -, rfl⟩ := kkTransTrapz_ok h3 k3
  intro k hk
  rw [tab_getD hk, tab_getD hk, tab_getD hk, ← mul_div_assoc, ← mul_div_assoc, ← add_div]
  congr 1
  unfold trapVal trapY
  rw [Finset.mul_sum, Finset.mul_sum, ← Finset.sum_add_distrib]
  apply Finset.sum_congr rfl
  intro t _
  rw [hi, hi]
  ring

theorem skip_reflect {N k t : ℕ} (hk : k < N) (ht : t < N - 1) : skip (N - 1 - k) (N - 2 - t) = N - 1 - skip k t := by
  unfold skip
  split_ifs <;> omega

theorem trapVal_reflect {N k : ℕ} (hk : k < N) {x f : ℕ → ℝ} (hx : ∀ t < N, x (N - 1 - t) = -x t)
    (hf : ∀ t < N, f (N - 1 - t) = -f t) : trapVal N x f (N - 1 - k) = trapVal N x f k := by
  unfold trapVal
  rw [← Finset.sum_range_reflect]
  refine Finset.sum_congr rfl fun t ht => ?_
  rw [Finset.mem_range] at ht
  have y : ∀ s < N, trapY x f (N - 1 - k) (N - 1 - s) = trapY x f k s := by
    intro s hs
    unfold trapY
    rw [hx s hs, hf s hs, hx k hk, show -f s - -x s = -(f s - x s) by ring,
      show -x s - -x k = -(x s - x k) by ring, neg_div_neg_eq]
  have e1 : skip (N - 1 - k) (N - 2 - 1 - t + 1) = N - 1 - skip k t := by
    rw [show N - 2 - 1 - t + 1 = N - 2 - t by omega]
    exact skip_reflect hk (by omega)
  have e2 : skip (N - 1 - k) (N - 2 - 1 - t) = N - 1 - skip k (t + 1) := by
    rw [show N - 2 - 1 - t = N - 2 - (t + 1) by omega]
    exact skip_reflect hk (by omega)
  have b1 : skip k t < N := skip_lt (by omega)
  have b2 : skip k (t + 1) < N := skip_lt (by omega)
  rw [e1, e2, y _ b1, y _ b2, hx _ b1, hx _ b2]
  ring

/-- C105. An odd current gives an even transform. -/
theorem C105_parity {v i r : List ℝ} (hl : i.length = v.length) (hv : v.reverse = v.map fun t => -t)
    (hi : i.reverse = i.map fun t => -t) (h : kkTransTrapz v i = .ok r) : r.reverse = r := by
  obtain ⟨-, -, rfl⟩ := kkTransTrapz_ok hl h
  have key : ∀ l : List ℝ, l.reverse = l.map (fun t => -t) → ∀ t < l.length,
      l.getD (l.length - 1 - t) 0 = -l.getD t 0 := by
    intro l hl t ht
    have e := eq_tab l 0
    rw [e, reverse_tab, map_tab] at hl
    have := congrArg (fun l => l.getD t 0) hl
    beta_reduce at this
    rw [tab_getD ht, tab_getD ht] at this
    exact this
  rw [reverse_tab]
  apply tab_ext rfl
  intro k hk
  rw [trapVal_reflect hk (key v hv) (by
    intro t ht
    have := key i hi t (by rw [hl]; exact ht)
    rwa [hl] at this)]

example : ∃ r, kkTransTrapz (tab 3 fun t => -1 + 1 * t) [-5, 0, 5] = .ok r ∧ r.reverse = r := by
  obtain ⟨r, hr⟩ := kkTransTrapz_even 3 (by norm_num) (-1) 1 (by norm_num) [-5, 0, 5] rfl
  refine ⟨r, hr, C105_parity (by simp) ?_ ?_ hr⟩
  · simp [tab, List.range_succ]; norm_num
  · simp

/-! ## C106: uneven voltages -/

/-- The gaps between neighbouring voltages. -/
theorem gaps_tab (v : List ℝ) : zip (· - ·) (slice v (some 1) none) (slice v none (some (-1))) =
    .ok (tab (v.length - 1) fun t => v.getD (t + 1) 0 - v.getD t 0) := by
  have e := eq_tab v 0
  generalize v.getD = g at e ⊢
  generalize v.length = N at e ⊢
  subst e
  have s1 : slice (tab N fun t => g t 0) (some 1) none = tab (N - 1) fun t => g (t + 1) 0 := by
    rcases Nat.eq_zero_or_pos N with rfl | h
    · simp [tab, slice]
    · rw [slice_tab (a := 1) (b := N) _ _ _ (by simp [bound]; omega) rfl le_rfl]
      apply tab_ext rfl
      intro t _
      rw [add_comm]
  have s2 : slice (tab N fun t => g t 0) none (some (-1)) = tab (N - 1) fun t => g t 0 := by
    rw [slice_tab (a := 0) (b := N - 1) _ _ _ rfl (by simp [bound]; omega) (by omega), Nat.sub_zero]
    apply tab_ext rfl
    intro t _
    rw [zero_add]
  rw [s1, s2, zip_tab]

theorem get_first {v : List ℝ} (h : 2 ≤ v.length) :
    pyGet v 0 = .ok (v.getD 0 0) ∧ pyGet v 1 = .ok (v.getD 1 0) := by
  have e := eq_tab v 0
  generalize v.getD = g at e ⊢
  generalize v.length = N at e h ⊢
  subst e
  exact ⟨pyGet_tab _ (pyIndex_nonneg (by omega) (by omega)),
    pyGet_tab _ (pyIndex_nonneg (by omega) (by omega))⟩

/-- C106. `kk_trans` refuses voltages with a gap that differs from the first by `1e-5` or more, in either
direction. -/
theorem C106_refused (v i : List ℝ) (n : ℤ) {t : ℕ} (ht : t + 1 < v.length)
    (h : 1 / 10 ^ 5 ≤ |(v.getD 1 0 - v.getD 0 0) - (v.getD (t + 1) 0 - v.getD t 0)|) :
    kkTrans v i n = .error .assertion := by
  obtain ⟨g0, g1⟩ := get_first (v := v) (by omega)
  unfold kkTrans
  dsimp only
  rw [g1, py_bind, g0, py_bind, gaps_tab, py_bind, map_tab]
  obtain ⟨m, hm⟩ := amax_ok (l := tab (v.length - 1) fun s =>
    |v.getD 1 0 - v.getD 0 0 - (v.getD (s + 1) 0 - v.getD s 0)|) (by
      intro hh; have := congrArg List.length hh; simp at this; omega)
  rw [hm, py_bind, pyAssert_neg]
  intro hlt
  have := (amax_lt hm _).1 hlt _ (mem_tab.2 ⟨t, by omega, rfl⟩)
  linarith

/-- C106 is false of `kk_trans_trapz`, which compares without the absolute value: a gap half as wide as
the first is accepted. -/
theorem C106_false_trapz : ∃ v i r : List ℝ, v.length = 3 ∧ i.length = 3 ∧
    kkTransTrapz v i = .ok r ∧ kkTrans v i 50 = .error .assertion ∧
    (v.getD 1 0 - v.getD 0 0) - (v.getD 2 0 - v.getD 1 0) = 1 / 2 := by
  have g : ∀ k, k < 3 → trapzAt [0, 1, 3 / 2] [0, 1, 3 / 2] k =
      .ok (trapVal 3 (fun t => ([0, 1, 3 / 2] : List ℝ).getD t 0) (fun t => ([0, 1, 3 / 2] : List ℝ).getD t 0) k) := by
    intro k hk
    have := trapzAt_tab (N := 3) hk (fun t => ([0, 1, 3 / 2] : List ℝ).getD t 0)
      (fun t => ([0, 1, 3 / 2] : List ℝ).getD t 0) (by
        intro t ht hne
        interval_cases t <;> interval_cases k <;> first | exact absurd rfl hne | norm_num)
    have e := eq_tab ([0, 1, 3 / 2] : List ℝ) 0
    change _ = tab 3 _ at e
    rw [← e] at this
    exact this
  have hm : ∃ r, kkTransTrapz [0, 1, 3 / 2] [0, 1, 3 / 2] = .ok r := by
    unfold kkTransTrapz
    obtain ⟨g0, g1⟩ := get_first (v := ([0, 1, 3 / 2] : List ℝ)) (by simp)
    rw [gaps_tab, py_bind, g1, py_bind, g0, py_bind, map_tab]
    obtain ⟨m, hm⟩ := amax_ok (l := tab (([0, 1, 3 / 2] : List ℝ).length - 1) fun s =>
      ([0, 1, 3 / 2] : List ℝ).getD (s + 1) 0 - ([0, 1, 3 / 2] : List ℝ).getD s 0 -
        (([0, 1, 3 / 2] : List ℝ).getD 1 0 - ([0, 1, 3 / 2] : List ℝ).getD 0 0)) (by
      intro hh; have := congrArg List.length hh; simp at this)
    rw [hm, py_bind, pyAssert_pos]
    · rw [RespFn.mapM_of (fun k => trapVal 3 (fun t => ([0, 1, 3 / 2] : List ℝ).getD t 0)
        (fun t => ([0, 1, 3 / 2] : List ℝ).getD t 0) k)]
      · exact ⟨_, rfl⟩
      · intro k hk
        exact g k (by simpa using hk)
    · rw [amax_lt hm]
      intro y hy
      obtain ⟨s, hs, rfl⟩ := mem_tab.1 hy
      have hs' : s < 2 := by simpa using hs
      interval_cases s <;> norm_num
  obtain ⟨r, hr⟩ := hm
  refine ⟨_, _, r, rfl, rfl, hr, C106_refused _ _ _ (t := 1) (by simp) ?_, by norm_num⟩
  norm_num [abs_of_pos]

/-- C106 for `kk_trans_trapz`, restricted to gaps that are wider than the first. -/
theorem C106_trapz_partial (v i : List ℝ) {t : ℕ} (ht : t + 1 < v.length)
    (h : 1 / 10 ^ 5 ≤ (v.getD (t + 1) 0 - v.getD t 0) - (v.getD 1 0 - v.getD 0 0)) :
    kkTransTrapz v i = .error .assertion := by
  obtain ⟨g0, g1⟩ := get_first (v := v) (by omega)
  unfold kkTransTrapz
  rw [gaps_tab, py_bind, g1, py_bind, g0, py_bind, map_tab]
  obtain ⟨m, hm⟩ := amax_ok (l := tab (v.length - 1) fun s =>
    v.getD (s + 1) 0 - v.getD s 0 - (v.getD 1 0 - v.getD 0 0)) (by
      intro hh; have := congrArg List.length hh; simp at this; omega)
  rw [hm, py_bind, pyAssert_neg]
  intro hlt
  have := (amax_lt hm _).1 hlt _ (mem_tab.2 ⟨t, by omega, rfl⟩)
  linarith

example : kkTransTrapz [0, 1, 3] [0, 1, 3] = .error .assertion :=
  C106_trapz_partial _ _ (t := 1) (by simp) (by norm_num)

end QMix.MathFn
