import Verif.Props.Recovery

/-!
# Recovering the drive level and the embedding circuit from noisy data
-/

namespace QMix.Props

open Complex Finset QMix.Zemb QMix.Fl

/-! ## Specification -/

/-- The drive level `a` at bias `vb` can be found from a dc current with an error of at most `ν`: pumping raises the
current with a slope of at least `s`. -/
structure Steep (idc : ℝ → ℝ) (vph alphaMax : ℝ) (nb : ℤ) (s ν vb a : ℝ) : Prop where
  /-- the slope is positive -/
  pos : 0 < s
  /-- the current rises with slope at least `s` from its value at `a`, on either side -/
  slope : ∀ x, 0 ≤ x → x ≤ a + alphaMax / 2 + ν / s →
    s * (x - a) ^ 2 ≤ (tuckerDc idc vb vph nb x - tuckerDc idc vb vph nb a) * (x - a)
  /-- the linear estimate is not too far away -/
  near : |start idc vph alphaMax nb vb (tuckerDc idc vb vph nb a) - a| ≤ alphaMax / 2
  /-- so is the mean slope up to `alpha_max` -/
  mean : s * alphaMax ≤ |tuckerDc idc vb vph nb alphaMax - idc vb|

/-- The drive level is above its error `δ`, and the junction absorbs power. The response is bounded by `B`. -/
structure Pumped (idc ikk : ℝ → ℝ) (vph : ℝ) (nb : ℤ) (B δ vb a : ℝ) : Prop where
  /-- the drive level is above the error -/
  above : δ < a
  /-- the junction absorbs power -/
  absorbs : 4 * B * δ < (tuckerAc idc ikk vb vph nb a).re

/-- A measured point (bias voltage, current) that comes from drive level `a`, in a circuit with embedding
impedance `zs` and source voltage `V` (up to `ε`), with an error of at most `ν` in the current. -/
structure NoisyPoint (idc ikk : ℝ → ℝ) (vph : ℝ) (nb : ℤ) (V ε ν : ℝ) (zs : ℂ) (p : ℝ × ℝ) (a : ℝ) : Prop where
  /-- the measured current -/
  dc : |p.2 - tuckerDc idc p.1 vph nb a| ≤ ν
  /-- the circuit equation, up to the phase of the source -/
  ac : |‖a * vph + zs * tuckerAc idc ikk p.1 vph nb a‖ - V| ≤ ε

/-! ## Lemmas -/

/-- The refinement when the comparison of currents can be trusted only outside a distance `η` of `a`. -/
theorem pass_noise (f : ℝ → ℝ) {i a η M x₀ : ℝ} (hM : 0 < M) (ha : 0 ≤ a) (hη : 0 ≤ η)
    (hlow : ∀ x, 0 ≤ x → x < a - η → f x < i) (hhigh : ∀ x, a + η < x → x ≤ a + M / 2 + η → i < f x)
    (h0 : 0 ≤ x₀) (hstart : |x₀ - a| ≤ M / 2 + η) (k : ℕ) :
    0 ≤ ((pass f i)^[k] (x₀, M / 4)).1 ∧ |((pass f i)^[k] (x₀, M / 4)).1 - a| ≤ 2 * (M / 4 / 2 ^ k) + η := by
  induction k with
  | zero => exact ⟨h0, by simpa using hstart.trans (by linarith)⟩
  | succ k ih =>
    rw [Function.iterate_succ_apply']
    set s := (pass f i)^[k] (x₀, M / 4)
    have hs : s.2 = M / 4 / 2 ^ k := pass_step f i (x₀, M / 4) k
    obtain ⟨h0, h1⟩ := ih
    rw [← hs] at h1
    have e : 2 * (M / 4 / 2 ^ (k + 1)) = s.2 := by rw [hs, pow_succ]; ring
    rw [e]
    have hsp : 0 < s.2 := by rw [hs]; positivity
    have hsm : 2 * s.2 ≤ M / 2 := by
      rw [hs]
      have : (1 : ℝ) ≤ 2 ^ k := one_le_pow₀ (by norm_num)
      have : M / 4 / 2 ^ k ≤ M / 4 := div_le_self (by linarith) this
      linarith
    rw [abs_le] at h1
    refine ⟨le_max_left _ _, ?_⟩
    have key : |(if i < f s.1 then s.1 - s.2 else if f s.1 < i then s.1 + s.2 else s.1) - a| ≤ s.2 + η := by
      rcases lt_or_ge s.1 (a - η) with h | h
      · have := hlow s.1 h0 h
        rw [if_neg (not_lt.2 this.le), if_pos this, abs_le]
        constructor <;> linarith
      rcases lt_or_ge (a + η) s.1 with h' | h'
      · have := hhigh s.1 h' (by linarith)
        rw [if_pos this, abs_le]
        constructor <;> linarith
      · rw [abs_le]
        split_ifs <;> constructor <;> linarith
    refine le_trans ?_ key
    change |max 0 _ - a| ≤ _
    rcases le_total 0 (if i < f s.1 then s.1 - s.2 else if f s.1 < i then s.1 + s.2 else s.1) with h | h
    · rw [max_eq_right h]
    · rw [max_eq_left h, zero_sub, abs_neg, abs_of_nonneg ha, abs_of_nonpos (by linarith)]
      linarith

/-- The linear estimate with an error in the current. -/
theorem start_sub_le (idc : ℝ → ℝ) (vph alphaMax : ℝ) (nb : ℤ) (vb i i' : ℝ) {s ν : ℝ} (hs : 0 < s) (hmax : 0 < alphaMax)
    (hi : |i - i'| ≤ ν) (hm : s * alphaMax ≤ |tuckerDc idc vb vph nb alphaMax - idc vb|) :
    |start idc vph alphaMax nb vb i - start idc vph alphaMax nb vb i'| ≤ ν / s := by
  unfold start
  set d := tuckerDc idc vb vph nb alphaMax - idc vb
  have hd : 0 < |d| := (mul_pos hs hmax).trans_le hm
  rw [max_comm 0, max_comm 0]
  refine (abs_max_sub_max_le_abs _ _ (0 : ℝ)).trans ?_
  have e : (i - idc vb) / d * alphaMax - (i' - idc vb) / d * alphaMax = (i - i') * alphaMax / d := by ring
  rw [e, abs_div, abs_mul, abs_of_pos hmax, div_le_div_iff₀ hd hs]
  have h0 : 0 ≤ ν := (abs_nonneg _).trans hi
  calc |i - i'| * alphaMax * s ≤ ν * alphaMax * s := by gcongr
    _ = ν * (s * alphaMax) := by ring
    _ ≤ ν * |d| := mul_le_mul_of_nonneg_left hm h0

theorem tuckerAc_le {idc ikk : ℝ → ℝ} {B : ℝ} (hB : ∀ v, ‖(idc v : ℂ) + I * ikk v‖ ≤ B) (vb vph : ℝ) (nb : ℤ)
    {a : ℝ} (ha : 0 ≤ a) : ‖tuckerAc idc ikk vb vph nb a‖ ≤ 2 * B := by
  have hB' : ∀ v, ‖(idc v : ℂ) - I * ikk v‖ ≤ B := by
    intro v
    have e : (idc v : ℂ) - I * ikk v = (starRingEnd ℂ) (idc v + I * ikk v) := by
      simp [sub_eq_add_neg]
    rw [e, norm_conj]
    exact hB v
  have hB0 : 0 ≤ B := (norm_nonneg _).trans (hB 0)
  unfold tuckerAc
  refine (norm_sum_le _ _).trans ?_
  have h0 := sum_shift_le (Icc (-nb) nb) 0 ha
  have h1 := sum_shift_le (Icc (-nb) nb) 1 ha
  have h2 := sum_shift_le (Icc (-nb) nb) (-1) ha
  simp only [add_zero, ← sub_eq_add_neg] at h0 h1 h2
  have hp : ∀ x y : ℝ, |x * y| ≤ (x ^ 2 + y ^ 2) / 2 := by
    intro x y
    rw [abs_le]
    constructor <;> nlinarith [sq_nonneg (x - y), sq_nonneg (x + y)]
  calc _ ≤ ∑ k ∈ Icc (-nb) nb, ((besselJ k a ^ 2 + besselJ (k - 1) a ^ 2) / 2 * B + (besselJ k a ^ 2 + besselJ (k + 1) a ^ 2) / 2 * B) := by
        refine sum_le_sum fun k _ => (norm_add_le _ _).trans ?_
        rw [norm_mul, norm_mul, norm_real, norm_real]
        exact add_le_add (mul_le_mul (hp _ _) (hB _) (norm_nonneg _) (by positivity))
          (mul_le_mul (hp _ _) (hB' _) (norm_nonneg _) (by positivity))
    _ = ((∑ k ∈ Icc (-nb) nb, besselJ k a ^ 2) + (∑ k ∈ Icc (-nb) nb, besselJ (k - 1) a ^ 2) / 2
          + (∑ k ∈ Icc (-nb) nb, besselJ (k + 1) a ^ 2) / 2) * B := by
        rw [sum_div, sum_div, ← sum_add_distrib, ← sum_add_distrib, sum_mul]
        exact sum_congr rfl fun k _ => by ring
    _ ≤ 2 * B := mul_le_mul_of_nonneg_right (by linarith) hB0

theorem nearest_point {lo hi x : ℝ} (h1 : lo ≤ x) (h2 : x ≤ hi) {N : ℕ} (hN : 0 < N) :
    ∃ i : ℕ, i ≤ N ∧ |lo + i * ((hi - lo) / N) - x| ≤ (hi - lo) / (2 * N) := by
  have hN' : (0 : ℝ) < N := by exact_mod_cast hN
  rcases h1.eq_or_lt with rfl | h1'
  · exact ⟨0, Nat.zero_le _, by simp; apply div_nonneg <;> linarith⟩
  have hd : 0 < hi - lo := by linarith
  set t := (x - lo) / ((hi - lo) / N) with ht
  have hstep : 0 < (hi - lo) / N := by positivity
  have ht0 : 0 ≤ t := div_nonneg (by linarith) hstep.le
  have htN : t ≤ N := by
    rw [ht, div_le_iff₀ hstep, mul_div_cancel₀ _ hN'.ne']
    linarith
  have hr := abs_sub_round t
  rw [abs_le] at hr
  have hr0 : 0 ≤ round t := by
    have : (-1 : ℝ) < round t := by linarith
    have : (-1 : ℤ) < round t := by exact_mod_cast this
    omega
  have hrN : round t ≤ N := by
    have : (round t : ℝ) < N + 1 := by linarith
    have : round t < N + 1 := by exact_mod_cast this
    omega
  obtain ⟨i, hi'⟩ := Int.eq_ofNat_of_zero_le hr0
  have hi'' : (round t : ℝ) = i := by rw [hi']; simp
  refine ⟨i, by omega, ?_⟩
  have e : lo + i * ((hi - lo) / N) - x = (i - t) * ((hi - lo) / N) := by
    rw [sub_mul, ht, div_mul_cancel₀ _ hstep.ne']
    ring
  rw [e, abs_mul, abs_of_pos hstep, show (hi - lo) / (2 * N) = 1 / 2 * ((hi - lo) / N) by field_simp]
  refine mul_le_mul_of_nonneg_right ?_ hstep.le
  rw [abs_le]
  constructor <;> linarith

theorem nearest_grid {remb xemb : ℝ × ℝ} {z : ℂ} (h1 : remb.1 ≤ z.re) (h2 : z.re ≤ remb.2) (h3 : xemb.1 ≤ z.im)
    (h4 : z.im ≤ xemb.2) : ∃ i j : ℕ, i < 101 ∧ j < 201 ∧
      ‖gridPoint remb xemb i j - z‖ ≤ √(((remb.2 - remb.1) / 200) ^ 2 + ((xemb.2 - xemb.1) / 400) ^ 2) := by
  obtain ⟨i, hi, h5⟩ := nearest_point h1 h2 (N := 100) (by norm_num)
  obtain ⟨j, hj, h6⟩ := nearest_point h3 h4 (N := 200) (by norm_num)
  refine ⟨i, j, by omega, by omega, ?_⟩
  rw [norm_eq_sqrt_sq_add_sq]
  apply Real.sqrt_le_sqrt
  have e1 : (gridPoint remb xemb i j - z).re = remb.1 + i * ((remb.2 - remb.1) / 100) - z.re := by simp [gridPoint]
  have e2 : (gridPoint remb xemb i j - z).im = xemb.1 + j * ((xemb.2 - xemb.1) / 200) - z.im := by simp [gridPoint]
  rw [e1, e2]
  norm_num at h5 h6
  exact add_le_add (sq_le_sq.2 (h5.trans (le_abs_self _))) (sq_le_sq.2 (h6.trans (le_abs_self _)))

/-! ## C177 -/

/-- C177. An error of the measured current of at most `ν` changes the drive level found by at most `ν / s`, where `s` is the
slope of the current with the drive level; to this the resolution `alpha_max / 2^16` is added. -/
theorem C177_drive_level (idc : ℝ → ℝ) (vph alphaMax : ℝ) (nb : ℤ) {s ν vb i a : ℝ} (hmax : 0 < alphaMax) (ha : 0 ≤ a)
    (hi : |i - tuckerDc idc vb vph nb a| ≤ ν) (h : Steep idc vph alphaMax nb s ν vb a) :
    ∃ r, findAlpha idc vph alphaMax nb vb i = num r ∧ 0 ≤ r ∧ |r - a| ≤ alphaMax / 2 ^ 16 + ν / s := by
  have hs := h.pos
  have hν : 0 ≤ ν := (abs_nonneg _).trans hi
  have hη : 0 ≤ ν / s := by positivity
  have hne : tuckerDc idc vb vph nb alphaMax ≠ idc vb := by
    intro h'
    have := (mul_pos hs hmax).trans_le h.mean
    rw [h', sub_self, abs_zero] at this
    exact lt_irrefl _ this
  rw [abs_le] at hi
  have hp := pass_noise (tuckerDc idc vb vph nb) (i := i) (η := ν / s) (x₀ := start idc vph alphaMax nb vb i) hmax ha hη
    (by
      intro x h0 hx
      have h1 := h.slope x h0 (by linarith)
      have h2 : s * (a - x) ≤ tuckerDc idc vb vph nb a - tuckerDc idc vb vph nb x := by
        have hpos : 0 < a - x := by linarith
        by_contra hc
        have := mul_lt_mul_of_pos_right (not_le.1 hc) hpos
        nlinarith
      have h3 : ν < s * (a - x) := by
        rw [mul_comm, ← div_lt_iff₀ hs]
        linarith
      linarith)
    (by
      intro x hx hx'
      have h1 := h.slope x (by linarith) hx'
      have h2 : s * (x - a) ≤ tuckerDc idc vb vph nb x - tuckerDc idc vb vph nb a := by
        have hpos : 0 < x - a := by linarith
        by_contra hc
        have := mul_lt_mul_of_pos_right (not_le.1 hc) hpos
        nlinarith
      have h3 : ν < s * (x - a) := by
        rw [mul_comm, ← div_lt_iff₀ hs]
        linarith
      linarith)
    (le_max_left _ _)
    (by
      have h1 := start_sub_le idc vph alphaMax nb vb i (tuckerDc idc vb vph nb a) hs hmax (abs_le.2 hi) h.mean
      have h2 := h.near
      calc _ ≤ _ := abs_sub_le _ (start idc vph alphaMax nb vb (tuckerDc idc vb vph nb a)) _
        _ ≤ _ := by linarith)
    15
  refine ⟨_, findAlpha_eq idc vph alphaMax nb vb i hne, hp.1, hp.2.trans (le_of_eq ?_)⟩
  norm_num
  ring

/-- C177. The impedance recovery with errors in the measured currents (at most `ν`) and in the circuit equation (at most `ε`), and
an embedding impedance anywhere in the search range, not only on the grid. The impedance and the voltage found explain all
the data within `√N E`, for `N` points, with `E` in terms of the errors and the spacing of the grid. -/
theorem C177_recovery (o : ZembOpts) (idc ikk : ℝ → ℝ) (vph : ℝ) (voltage current : List ℝ) {B A V ε ν s δ ρ D : ℝ} {zs : ℂ}
    (hB : ∀ v, ‖(idc v : ℂ) + I * ikk v‖ ≤ B) (hv : 0 < vph) (hmax : 0 < o.alphaMax) (hε : 0 ≤ ε)
    (hlen : voltage.length = current.length) (hz : o.zemb = none)
    (hne : onStep o.fitLow o.fitHigh vph voltage current ≠ [])
    (hre : 0 ≤ o.remb.1) (hz1 : o.remb.1 ≤ zs.re) (hz2 : zs.re ≤ o.remb.2) (hz3 : o.xemb.1 ≤ zs.im) (hz4 : zs.im ≤ o.xemb.2)
    (hδ : δ = o.alphaMax / 2 ^ 16 + ν / s)
    (hρ : ρ = √(((o.remb.2 - o.remb.1) / 200) ^ 2 + ((o.xemb.2 - o.xemb.1) / 400) ^ 2))
    (hDd : D = (vph + 4 * B * ‖zs‖) * δ + 2 * B * ρ + ε) (hD : D < V)
    (hdata : ∀ p ∈ onStep o.fitLow o.fitHigh vph voltage current, ∃ a ≤ A,
      NoisyPoint idc ikk vph o.numB V ε ν zs p a ∧ Steep idc vph o.alphaMax o.numB s ν p.1 a ∧
      Pumped idc ikk vph o.numB B δ p.1 a) :
    ∃ r w e E, recoverZemb o idc ikk vph voltage current = .ok r ∧ r.vt = some w ∧ 0 ≤ w ∧
      errAt o idc ikk vph (onStep o.fitLow o.fitHigh vph voltage current) r.zt = .ok (some e) ∧
      E = (A + δ) * vph * D / (V - D) ∧ e ≤ E ^ 2 ∧
      (E ^ 2 ≤ 7 / 10 ^ 7 → r.fitGood = true) ∧
      ∀ p ∈ onStep o.fitLow o.fitHigh vph voltage current, ∃ x,
        findAlpha idc vph o.alphaMax o.numB p.1 p.2 = num x ∧
        |x * vph - w * (x * vph / ‖x * vph + r.zt * tuckerAc idc ikk p.1 vph o.numB x‖)|
          ≤ √((onStep o.fitLow o.fitHigh vph voltage current).length) * E := by
  have hB0 : 0 ≤ B := (norm_nonneg _).trans (hB 0)
  obtain ⟨i₀, j₀, hi₀, hj₀, hg⟩ := nearest_grid hz1 hz2 hz3 hz4
  rw [← hρ] at hg
  have hρ0 : 0 ≤ ρ := (norm_nonneg _).trans hg
  obtain ⟨p0, hp0⟩ := List.exists_mem_of_ne_nil _ hne
  have hδ0 : 0 < δ := by
    obtain ⟨a, -, h1, h2, -⟩ := hdata p0 hp0
    have hν : 0 ≤ ν := (abs_nonneg _).trans h1.dc
    have := h2.pos
    rw [hδ]
    positivity
  refine recovery_core o idc ikk vph voltage current hv hlen hz hne hre (hz1.trans hz2) hi₀ hj₀
    (by rw [hDd]; positivity) hD fun p hp => ?_
  obtain ⟨a, haA, h1, h2, h3⟩ := hdata p hp
  have ha : 0 < a := hδ0.trans h3.above
  obtain ⟨x, hx, hx0', hxa⟩ := C177_drive_level idc vph o.alphaMax o.numB (vb := p.1) hmax ha.le h1.dc h2
  rw [← hδ] at hxa
  have hx0 : 0 < x := by linarith [(abs_le.1 hxa).1, h3.above]
  have hl := acCurrent_lip hB p.1 vph o.numB hx0.le ha.le
  rw [acCurrent_tucker, acCurrent_tucker] at hl
  have hl' : ‖tuckerAc idc ikk p.1 vph o.numB x - tuckerAc idc ikk p.1 vph o.numB a‖ ≤ 4 * B * δ :=
    hl.trans (mul_le_mul_of_nonneg_left hxa (by positivity))
  refine ⟨x, hx, by linarith [(abs_le.1 hxa).2], hx0, ?_, ?_⟩
  · have := (abs_le.1 ((abs_re_le_norm _).trans hl')).1
    rw [sub_re] at this
    linarith [h3.absorbs]
  · set g := gridPoint o.remb o.xemb i₀ j₀
    have e1 := abs_norm_sub_norm_le (x * vph + g * tuckerAc idc ikk p.1 vph o.numB x : ℂ)
      (a * vph + zs * tuckerAc idc ikk p.1 vph o.numB a)
    have e2 : ‖(x * vph + g * tuckerAc idc ikk p.1 vph o.numB x : ℂ) - (a * vph + zs * tuckerAc idc ikk p.1 vph o.numB a)‖
        ≤ (vph + 4 * B * ‖zs‖) * δ + 2 * B * ρ := by
      have e : (x * vph + g * tuckerAc idc ikk p.1 vph o.numB x : ℂ) - (a * vph + zs * tuckerAc idc ikk p.1 vph o.numB a)
          = ((x - a : ℝ) : ℂ) * (vph : ℝ) + zs * (tuckerAc idc ikk p.1 vph o.numB x - tuckerAc idc ikk p.1 vph o.numB a)
            + (g - zs) * tuckerAc idc ikk p.1 vph o.numB x := by
        push_cast
        ring
      rw [e]
      refine (norm_add₃_le).trans ?_
      rw [norm_mul, norm_mul, norm_mul, norm_real, norm_real, Real.norm_eq_abs, Real.norm_eq_abs, abs_of_pos hv]
      have t1 : |x - a| * vph ≤ δ * vph := mul_le_mul_of_nonneg_right hxa hv.le
      have t2 : ‖zs‖ * ‖tuckerAc idc ikk p.1 vph o.numB x - tuckerAc idc ikk p.1 vph o.numB a‖ ≤ ‖zs‖ * (4 * B * δ) :=
        mul_le_mul_of_nonneg_left hl' (norm_nonneg _)
      have t3 : ‖g - zs‖ * ‖tuckerAc idc ikk p.1 vph o.numB x‖ ≤ ρ * (2 * B) :=
        mul_le_mul hg (tuckerAc_le hB _ _ _ hx0.le) (norm_nonneg _) hρ0
      calc _ ≤ δ * vph + ‖zs‖ * (4 * B * δ) + ρ * (2 * B) := by linarith
        _ = _ := by ring
    rw [hDd]
    calc _ ≤ |‖(x * vph + g * tuckerAc idc ikk p.1 vph o.numB x : ℂ)‖ - ‖(a * vph + zs * tuckerAc idc ikk p.1 vph o.numB a : ℂ)‖|
          + |‖(a * vph + zs * tuckerAc idc ikk p.1 vph o.numB a : ℂ)‖ - V| := abs_sub_le _ _ _
      _ ≤ _ := add_le_add (e1.trans e2) h1.ac

/-! ### A concrete case -/

theorem j1_rise {x y : ℝ} (hy : 0 ≤ y) (hxy : y ≤ x) (hx : x ≤ 1.0005) : (x - y) / 10 ≤ besselJ 1 x - besselJ 1 y := by
  have hd : ∀ t, HasDerivAt (fun t => besselJ 1 t - t / 10) ((besselJ 0 t - besselJ 2 t) / 2 - 1 / 10) t := by
    intro t
    have := (hasDerivAt_besselJ 1 t).sub ((hasDerivAt_id t).div_const 10)
    norm_num at this
    exact this
  have h : MonotoneOn (fun t => besselJ 1 t - t / 10) (Set.Icc 0 1.0005) := by
    refine monotoneOn_of_deriv_nonneg (convex_Icc _ _) (fun t _ => (hd t).continuousAt.continuousWithinAt)
      (fun t _ => (hd t).differentiableAt.differentiableWithinAt) ?_
    intro t ht
    rw [interior_Icc] at ht
    rw [(hd t).deriv]
    have h0 := (besselJ_zero_bounds t).1
    have h2 := (le_abs_self _).trans (abs_besselJ_two_le t)
    have := ht.2
    have := ht.1
    norm_num at *
    nlinarith
  have := h ⟨hy, by linarith⟩ ⟨by linarith, hx⟩ hxy
  simp only at this
  linarith

theorem j1_half : 1 / 5 ≤ besselJ 1 (1 / 2) := by
  have := (abs_le.1 (abs_besselJ_one_sub (1 / 2))).1
  rw [abs_of_pos (by norm_num : (0 : ℝ) < 1 / 2)] at this
  norm_num at this ⊢
  linarith

theorem gap_steep {vb : ℝ} (h1 : 0.75 ≤ vb) (h2 : vb < 1) : Steep gapIv 0.3 1 1 (1 / 50) (1 / 100000) vb (1 / 2) := by
  have hg : gapIv vb = 0 := if_neg (by linarith)
  refine ⟨by norm_num, ?_, (gap_recoverable h1 h2).near, ?_⟩
  · intro x h0 hx
    rw [gap_dc h1 h2, gap_dc h1 h2]
    have hj := j1_half
    have hx0 : 0 ≤ besselJ 1 x := by
      have := j1_rise le_rfl h0 (by norm_num at hx ⊢; linarith)
      rw [besselJ_zero_right one_ne_zero] at this
      linarith
    have e : (besselJ 1 x ^ 2 - besselJ 1 (1 / 2) ^ 2) * (x - 1 / 2)
        = (besselJ 1 x + besselJ 1 (1 / 2)) * ((besselJ 1 x - besselJ 1 (1 / 2)) * (x - 1 / 2)) := by ring
    have hq : (x - 1 / 2) ^ 2 / 10 ≤ (besselJ 1 x - besselJ 1 (1 / 2)) * (x - 1 / 2) := by
      rcases le_total (1 / 2) x with h | h
      · have := j1_rise (by norm_num) h (by norm_num at hx ⊢; linarith)
        nlinarith
      · have := j1_rise h0 h (by norm_num)
        nlinarith
    rw [e]
    calc 1 / 50 * (x - 1 / 2) ^ 2 = 1 / 5 * ((x - 1 / 2) ^ 2 / 10) := by ring
      _ ≤ _ := mul_le_mul (by linarith) hq (by positivity) (by linarith)
  · rw [gap_dc h1 h2, hg, sub_zero, abs_of_nonneg (sq_nonneg _)]
    have h3 := j1_rise (x := 1) (y := 1 / 2) (by norm_num) (by norm_num) (by norm_num)
    have h4 := j1_half
    norm_num at h3 ⊢
    nlinarith

theorem gap_pumped {vb : ℝ} (h1 : 0.75 ≤ vb) (h2 : vb < 1) :
    Pumped gapIv (fun _ => 0) 0.3 1 1 (1 / 2 ^ 16 + 1 / 100000 / (1 / 50)) vb (1 / 2) := by
  refine ⟨by norm_num, ?_⟩
  rw [gap_ac h1 h2, ofReal_re]
  have a1 := j1_half
  have a0 := (besselJ_zero_bounds (1 / 2)).1
  have a2 := (abs_le.1 (abs_besselJ_two_le (1 / 2))).1
  norm_num at a1 a0 a2 ⊢
  nlinarith

/-- Drive level `1/2`, current wrong by `10^-5`: the drive level is found up to `0.0006`. -/
example : ∃ r, findAlpha gapIv 0.3 1 1 0.8 (besselJ 1 (1 / 2) ^ 2 + 1 / 100000) = num r ∧ |r - 1 / 2| ≤ 0.0006 := by
  obtain ⟨r, h1, -, h2⟩ := C177_drive_level gapIv 0.3 1 1 (vb := 0.8) (i := besselJ 1 (1 / 2) ^ 2 + 1 / 100000) (a := 1 / 2) one_pos
    (by norm_num) (by rw [gap_dc (by norm_num) (by norm_num), add_sub_cancel_left]; norm_num)
    (gap_steep (by norm_num) (by norm_num))
  exact ⟨r, h1, h2.trans (by norm_num)⟩

/-- Two points on the step, with errors of `10^-5` in the currents, from a circuit whose impedance is not on the grid: the circuit
found explains the data within `0.03`. -/
example : ∃ r w, recoverZemb gapOpts gapIv (fun _ => 0) 0.3 [0.8, 0.9]
      [besselJ 1 (1 / 2) ^ 2 + 1 / 100000, besselJ 1 (1 / 2) ^ 2 - 1 / 100000] = .ok r ∧ r.vt = some w ∧
    ∀ p ∈ [((0.8 : ℝ), besselJ 1 (1 / 2) ^ 2 + 1 / 100000), ((0.9 : ℝ), besselJ 1 (1 / 2) ^ 2 - 1 / 100000)], ∃ x,
      findAlpha gapIv 0.3 1 1 p.1 p.2 = num x ∧
      |x * 0.3 - w * (x * 0.3 / ‖x * 0.3 + r.zt * tuckerAc gapIv (fun _ => 0) p.1 0.3 1 x‖)| ≤ 0.03 := by
  set J : ℝ := besselJ 1 (1 / 2) * (besselJ 0 (1 / 2) + besselJ 2 (1 / 2)) with hJ
  obtain ⟨zs, hzs⟩ : ∃ zs : ℂ, zs = ⟨0.503, 0.502⟩ := ⟨_, rfl⟩
  have hzre : zs.re = 0.503 := by rw [hzs]
  have hzim : zs.im = 0.502 := by rw [hzs]
  set V : ℝ := ‖(((1 / 2 : ℝ) : ℂ) * (0.3 : ℝ) + zs * (J : ℂ))‖ with hVdef
  have hJ0 : 0 < J := by
    have := (gap_recoverable (vb := 0.8) (by norm_num) (by norm_num)).absorbs
    rw [gap_ac (by norm_num) (by norm_num), ofReal_re] at this
    exact lt_trans (by norm_num) this
  have hV : 0.15 ≤ V := by
    refine le_trans ?_ (re_le_norm _)
    simp only [add_re, mul_re, ofReal_re, ofReal_im, hzre]
    norm_num
    linarith
  have hn : ‖zs‖ ≤ 1 := by
    rw [norm_eq_sqrt_sq_add_sq, hzre, hzim, Real.sqrt_le_one]
    norm_num
  have hn0 := norm_nonneg zs
  obtain ⟨ρ, hρ⟩ : ∃ ρ, ρ = √(((gapOpts.remb.2 - gapOpts.remb.1) / 200) ^ 2 + ((gapOpts.xemb.2 - gapOpts.xemb.1) / 400) ^ 2) := ⟨_, rfl⟩
  have hρ1 : ρ ≤ 0.0071 := by
    rw [hρ]
    apply Real.sqrt_le_iff.2
    norm_num [gapOpts]
  have hρ0 : 0 ≤ ρ := by rw [hρ]; exact Real.sqrt_nonneg _
  obtain ⟨D, hD⟩ : ∃ D, D = (0.3 + 4 * 1 * ‖zs‖) * (1 / 2 ^ 16 + 1 / 100000 / (1 / 50)) + 2 * 1 * ρ + 0 := ⟨_, rfl⟩
  have hD1 : D ≤ 0.017 := by
    rw [hD]
    norm_num at hρ1 ⊢
    linarith
  have hD0 : 0 ≤ D := by
    rw [hD]
    positivity
  have hstep : onStep gapOpts.fitLow gapOpts.fitHigh 0.3 [0.8, 0.9]
      [besselJ 1 (1 / 2) ^ 2 + 1 / 100000, besselJ 1 (1 / 2) ^ 2 - 1 / 100000]
      = [(0.8, besselJ 1 (1 / 2) ^ 2 + 1 / 100000), (0.9, besselJ 1 (1 / 2) ^ 2 - 1 / 100000)] := by
    unfold onStep gapOpts
    norm_num
  obtain ⟨r, w, e, E, g1, g2, -, -, hE, -, -, g3⟩ := C177_recovery gapOpts gapIv (fun _ => 0) 0.3 [0.8, 0.9]
    [besselJ 1 (1 / 2) ^ 2 + 1 / 100000, besselJ 1 (1 / 2) ^ 2 - 1 / 100000] (B := 1) (A := 1 / 2) (V := V) (ε := 0)
    (ν := 1 / 100000) (s := 1 / 50) (zs := zs) (D := D)
    (by
      intro v
      unfold gapIv
      split_ifs <;> simp)
    (by norm_num) one_pos le_rfl rfl rfl (by rw [hstep]; simp) le_rfl (by rw [hzre]; norm_num [gapOpts])
    (by rw [hzre]; norm_num [gapOpts]) (by rw [hzim]; norm_num [gapOpts]) (by rw [hzim]; norm_num [gapOpts]) rfl hρ hD
    (by norm_num at hV hD1 ⊢; linarith) (by
      intro p hp
      rw [hstep] at hp
      have hb : 0.75 ≤ p.1 ∧ p.1 < 1 ∧ |p.2 - besselJ 1 (1 / 2) ^ 2| ≤ 1 / 100000 := by
        simp only [List.mem_cons, List.not_mem_nil, or_false] at hp
        rcases hp with rfl | rfl
        · norm_num [add_sub_cancel_left]
        · norm_num [sub_sub_cancel_left]
      refine ⟨1 / 2, le_rfl, ⟨?_, ?_⟩, gap_steep hb.1 hb.2.1, gap_pumped hb.1 hb.2.1⟩
      · change |p.2 - tuckerDc gapIv p.1 0.3 1 (1 / 2)| ≤ _
        rw [gap_dc hb.1 hb.2.1]
        exact hb.2.2
      · change |‖_ + _ * tuckerAc gapIv (fun _ => 0) p.1 0.3 1 (1 / 2)‖ - V| ≤ 0
        rw [gap_ac hb.1 hb.2.1, ← hJ, hVdef, sub_self, abs_zero])
  rw [hstep] at g3
  have hα : gapOpts.alphaMax = 1 := rfl
  refine ⟨r, w, g1, g2, fun p hp => ?_⟩
  obtain ⟨x, h1, h2⟩ := g3 p hp
  refine ⟨x, h1, h2.trans ?_⟩
  have hVD : 0 < V - D := by norm_num at hV hD1; linarith
  have hE1 : E ≤ 0.02 := by
    rw [hE, hα, div_le_iff₀ hVD]
    norm_num at hV hD1 ⊢
    nlinarith
  have hE0 : 0 ≤ E := by
    rw [hE, hα]
    positivity
  have h3 : √(([(0.8, besselJ 1 (1 / 2) ^ 2 + 1 / 100000), (0.9, besselJ 1 (1 / 2) ^ 2 - 1 / 100000)] : List (ℝ × ℝ)).length) ≤ 1.5 := by
    apply Real.sqrt_le_iff.2
    norm_num
  calc _ ≤ 1.5 * 0.02 := mul_le_mul h3 hE1 hE0 (by norm_num)
    _ = 0.03 := by norm_num

end QMix.Props
