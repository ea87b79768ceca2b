import Verif.Lemmas.KkKernel
import Verif.Lemmas.KkLimit

/-!
# Sums over a grid of voltages, folded at the output voltage
-/

namespace QMix.MathFn

open MeasureTheory Filter Set Topology

/-- A sum over the places of an array, folded at place `k`. -/
theorem sum_fold (F : ℤ → ℝ) (h0 : F 0 = 0) {N k : ℕ} (hk : k < N)
    (hl : ∀ j : ℤ, j < -k → F j = 0) (hr : ∀ j : ℤ, (N : ℤ) - k ≤ j → F j = 0) {L : ℕ} (hL : N ≤ L) :
    ∑ t ∈ Finset.range N, F ((t : ℤ) - k) =
      ∑ j ∈ Finset.range L, (F ((j + 1 : ℕ) : ℤ) + F (-((j + 1 : ℕ) : ℤ))) := by
  obtain ⟨r, rfl⟩ : ∃ r, N = k + (r + 1) := ⟨N - k - 1, by omega⟩
  rw [Finset.sum_range_add, Finset.sum_range_succ', Finset.sum_add_distrib]
  have e0 : F (((k + 0 : ℕ) : ℤ) - k) = 0 := by simpa using h0
  rw [e0, add_zero, add_comm]
  congr 1
  · have : ∀ j : ℕ, F (((k + (j + 1) : ℕ) : ℤ) - k) = F ((j + 1 : ℕ) : ℤ) := by
      intro j; congr 1; push_cast; ring
    simp only [this]
    apply Finset.sum_subset (Finset.range_mono (by omega))
    intro j _ hj
    apply hr
    rw [Finset.mem_range, not_lt] at hj
    push_cast
    omega
  · rw [← Finset.sum_range_reflect]
    have : ∑ j ∈ Finset.range k, F (((k - 1 - j : ℕ) : ℤ) - k) =
        ∑ j ∈ Finset.range k, F (-((j + 1 : ℕ) : ℤ)) := by
      apply Finset.sum_congr rfl
      intro j hj
      rw [Finset.mem_range] at hj
      congr 1
      omega
    rw [this]
    apply Finset.sum_subset (Finset.range_mono (by omega))
    intro j _ hj
    apply hl
    rw [Finset.mem_range, not_lt] at hj
    push_cast
    omega

/-- The excess current, cut off at the ends of the data. -/
noncomputable def cut (g : ℝ → ℝ) (a b : ℝ) : ℝ → ℝ := (Icc a b).indicator g

theorem cut_in {g : ℝ → ℝ} {a b x : ℝ} (h : x ∈ Icc a b) : cut g a b x = g x := indicator_of_mem h g

theorem cut_out {g : ℝ → ℝ} {a b x : ℝ} (h : x ∉ Icc a b) : cut g a b x = 0 := indicator_of_notMem h g

/-- Bounded curves with at most countably many jumps can be transformed at any voltage where they do
not jump. -/
theorem cut_nice {g : ℝ → ℝ} {a b V B δ K : ℝ} (h1 : a < V) (h2 : V < b)
    (hB : ∀ x ∈ Icc a b, |g x| ≤ B) (hc : {x ∈ Ioo a b | ¬ ContinuousAt g x}.Countable)
    (hδ : 0 < δ) (hK : ∀ x ∈ Icc a b, |x - V| ≤ δ → |g x - g V| ≤ K * |x - V|) :
    ∃ K', Nice (cut g a b) V B (b - a) K' := by
  have hB0 : 0 ≤ B := (abs_nonneg _).trans (hB V ⟨h1.le, h2.le⟩)
  have hb : ∀ x, |cut g a b x| ≤ B := by
    intro x
    by_cases hx : x ∈ Icc a b
    · rw [cut_in hx]; exact hB x hx
    · rw [cut_out hx, abs_zero]; exact hB0
  set e := min δ (min (V - a) (b - V)) with he
  have e1 : e ≤ δ := min_le_left _ _
  have e2 : e ≤ V - a := (min_le_right _ _).trans (min_le_left _ _)
  have e3 : e ≤ b - V := (min_le_right _ _).trans (min_le_right _ _)
  have e0 : 0 < e := lt_min hδ (lt_min (by linarith) (by linarith))
  refine ⟨2 * |K| + 2 * B / e, ?_, hb, ?_, ?_⟩
  · refine ((countable_singleton a).union ((countable_singleton b).union hc)).mono ?_
    intro x hx
    by_contra hn
    simp only [mem_union, mem_singleton_iff, not_or] at hn
    obtain ⟨hxa, hxb, hx3⟩ := hn
    apply hx
    rcases lt_or_gt_of_ne hxa with h | h
    · have : cut g a b =ᶠ[𝓝 x] fun _ => 0 := by
        filter_upwards [Iio_mem_nhds h] with y hy
        exact cut_out fun hh => absurd hh.1 (not_le.2 hy)
      exact continuousAt_const.congr this.symm
    · rcases lt_or_gt_of_ne hxb with h' | h'
      · have hcx : ContinuousAt g x := by
          by_contra hcc
          exact hx3 ⟨⟨h, h'⟩, hcc⟩
        have : cut g a b =ᶠ[𝓝 x] g := by
          filter_upwards [Icc_mem_nhds h h'] with y hy
          exact cut_in hy
        exact hcx.congr this.symm
      · have : cut g a b =ᶠ[𝓝 x] fun _ => 0 := by
          filter_upwards [Ioi_mem_nhds h'] with y hy
          exact cut_out fun hh => absurd hh.2 (not_le.2 hy)
        exact continuousAt_const.congr this.symm
  · intro s hs
    exact ⟨cut_out fun hh => by linarith [hh.2], cut_out fun hh => by linarith [hh.1]⟩
  · intro s hs
    have hnn : 0 ≤ 2 * B / e := by positivity
    rcases le_or_gt s e with h | h
    · have m1 : V + s ∈ Icc a b := ⟨by linarith, by linarith⟩
      have m2 : V - s ∈ Icc a b := ⟨by linarith, by linarith⟩
      rw [cut_in m1, cut_in m2]
      have k1 := hK _ m1 (by rw [add_sub_cancel_left, abs_of_pos hs]; linarith)
      have k2 := hK _ m2 (by rw [sub_sub_cancel_left, abs_neg, abs_of_pos hs]; linarith)
      rw [add_sub_cancel_left, abs_of_pos hs] at k1
      rw [sub_sub_cancel_left, abs_neg, abs_of_pos hs] at k2
      have k3 : K * s ≤ |K| * s := mul_le_mul_of_nonneg_right (le_abs_self K) hs.le
      calc |g (V + s) - g (V - s)| = |(g (V + s) - g V) - (g (V - s) - g V)| := by congr 1; ring
        _ ≤ |g (V + s) - g V| + |g (V - s) - g V| := abs_sub _ _
        _ ≤ 2 * |K| * s := by linarith
        _ ≤ (2 * |K| + 2 * B / e) * s := by nlinarith
    · have h3 : 2 * B ≤ 2 * B / e * s := by
        rw [div_mul_eq_mul_div, le_div_iff₀ e0]
        nlinarith
      calc |cut g a b (V + s) - cut g a b (V - s)| ≤ |cut g a b (V + s)| + |cut g a b (V - s)| := abs_sub _ _
        _ ≤ 2 * B := by linarith [hb (V + s), hb (V - s)]
        _ ≤ (2 * |K| + 2 * B / e) * s := by
            have := abs_nonneg K
            nlinarith [mul_nonneg this hs.le]

section

variable {g : ℝ → ℝ} {a b d V : ℝ} {N k : ℕ}

/-- Samples below and above the data do not exist. -/
theorem cut_below (hd : 0 < d) (hV : V = a + d * k) {j : ℤ} (hj : j < -k) :
    cut g a b (V + d * j) = 0 := by
  apply cut_out
  intro h
  have : (j : ℝ) ≤ -k - 1 := by
    have : j ≤ -(k : ℤ) - 1 := by omega
    exact_mod_cast this
  have h1 := h.1
  rw [hV] at h1
  nlinarith

theorem cut_above (hd : 0 < d) (hV : V = a + d * k) (hb : b = a + d * ((N : ℝ) - 1)) {j : ℤ}
    (hj : (N : ℤ) - k ≤ j) : cut g a b (V + d * j) = 0 := by
  apply cut_out
  intro h
  have : (N : ℝ) - k ≤ j := by exact_mod_cast hj
  have h1 := h.2
  rw [hV, hb] at h1
  nlinarith

theorem cut_grid (hd : 0 < d) (hV : V = a + d * k) (hb : b = a + d * ((N : ℝ) - 1)) {t : ℕ}
    (ht : t < N) : cut g a b (V + d * ((t : ℤ) - k : ℤ)) = g (a + d * t) := by
  have e : V + d * (((t : ℤ) - k : ℤ) : ℝ) = a + d * t := by rw [hV]; push_cast; ring
  rw [e, cut_in]
  have : (t : ℝ) ≤ N - 1 := by
    have : (t : ℝ) + 1 ≤ N := by exact_mod_cast ht
    linarith
  have := mul_le_mul_of_nonneg_left this hd.le
  constructor
  · have : 0 ≤ d * t := by positivity
    linarith
  · rw [hb]; linarith

/-- The sum of `kk_trans` with infinite padding. -/
theorem pv_fold (hd : 0 < d) (hk : k < N) (hV : V = a + d * k) (hb : b = a + d * ((N : ℝ) - 1)) :
    ∑ t ∈ Finset.range N, g (a + d * t) * pvKernel ((t : ℤ) - k) =
      1 / Real.pi * ∑ m ∈ Finset.range N, 2 * d * sym (cut g a b) V (2 * d * (m + 1 / 2)) := by
  have hpi := Real.pi_pos
  set F : ℤ → ℝ := fun j => cut g a b (V + d * j) * pvKernel j with hF
  have e1 : ∑ t ∈ Finset.range N, g (a + d * t) * pvKernel ((t : ℤ) - k) =
      ∑ t ∈ Finset.range N, F ((t : ℤ) - k) := by
    apply Finset.sum_congr rfl
    intro t ht
    rw [hF]
    dsimp only
    rw [cut_grid hd hV hb (Finset.mem_range.1 ht)]
  rw [e1, sum_fold F (by simp [hF, pvKernel]) hk
    (fun j hj => by rw [hF]; dsimp only; rw [cut_below hd hV hj, zero_mul])
    (fun j hj => by rw [hF]; dsimp only; rw [cut_above hd hV hb hj, zero_mul])
    (by omega : N ≤ 2 * N), Finset.mul_sum]
  have e2 : ∀ L : ℕ, ∑ j ∈ Finset.range (2 * L), (F ((j + 1 : ℕ) : ℤ) + F (-((j + 1 : ℕ) : ℤ))) =
      ∑ m ∈ Finset.range L, 1 / Real.pi * (2 * d * sym (cut g a b) V (2 * d * (m + 1 / 2))) := by
    intro L
    induction L with
    | zero => simp
    | succ L ih =>
      rw [show 2 * (L + 1) = 2 * L + 1 + 1 by ring, Finset.sum_range_succ, Finset.sum_range_succ, ih,
        Finset.sum_range_succ, add_assoc]
      congr 1
      have ev : F ((2 * L + 1 + 1 : ℕ) : ℤ) + F (-((2 * L + 1 + 1 : ℕ) : ℤ)) = 0 := by
        rw [hF]
        dsimp only
        rw [pvKernel_neg]
        have : pvKernel ((2 * L + 1 + 1 : ℕ) : ℤ) = 0 := by
          unfold pvKernel
          rw [if_neg (by omega)]
        rw [this]
        ring
      have od : F ((2 * L + 1 : ℕ) : ℤ) + F (-((2 * L + 1 : ℕ) : ℤ)) =
          1 / Real.pi * (2 * d * sym (cut g a b) V (2 * d * (L + 1 / 2))) := by
        rw [hF]
        dsimp only
        rw [pvKernel_neg]
        have : pvKernel ((2 * L + 1 : ℕ) : ℤ) = 2 / (Real.pi * ((2 * L + 1 : ℕ) : ℝ)) := by
          unfold pvKernel
          rw [if_pos (by omega)]
          push_cast
          rfl
        have a1 : V + d * (((2 * L + 1 : ℕ) : ℤ) : ℝ) = V + 2 * d * (L + 1 / 2) := by push_cast; ring
        have a2 : V + d * ((-((2 * L + 1 : ℕ) : ℤ) : ℤ) : ℝ) = V - 2 * d * (L + 1 / 2) := by
          push_cast; ring
        rw [this, a1, a2]
        unfold sym
        have : (0 : ℝ) < 2 * L + 1 := by positivity
        push_cast
        field_simp
        ring
      rw [ev, add_zero, od]
  exact e2 N

/-- The plain sum over all other samples. -/
theorem plain_fold (hd : 0 < d) (hk : k < N) (hV : V = a + d * k) (hb : b = a + d * ((N : ℝ) - 1)) :
    ∑ t ∈ Finset.range N, d * (cut g a b (V + d * ((t : ℤ) - k : ℤ)) / (d * ((t : ℤ) - k : ℤ))) =
      ∑ m ∈ Finset.range N, d * sym (cut g a b) V (d * (m + 1)) := by
  set F : ℤ → ℝ := fun j => d * (cut g a b (V + d * j) / (d * j)) with hF
  have := sum_fold F (by simp [hF]) hk
    (fun j hj => by rw [hF]; dsimp only; rw [cut_below hd hV hj, zero_div, mul_zero])
    (fun j hj => by rw [hF]; dsimp only; rw [cut_above hd hV hb hj, zero_div, mul_zero]) (le_refl N)
  refine this.trans ?_
  apply Finset.sum_congr rfl
  intro m _
  rw [hF]
  dsimp only
  unfold sym
  have a1 : V + d * (((m + 1 : ℕ) : ℤ) : ℝ) = V + d * (m + 1) := by push_cast; ring
  have a2 : V + d * ((-((m + 1 : ℕ) : ℤ) : ℤ) : ℝ) = V - d * (m + 1) := by push_cast; ring
  rw [a1, a2]
  have : (0 : ℝ) < m + 1 := by positivity
  push_cast
  field_simp
  ring

end

end QMix.MathFn
