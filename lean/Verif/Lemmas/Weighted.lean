import Verif.Lemmas.Truncation2
import Mathlib.Analysis.Normed.Group.InfiniteSum
import Mathlib.Topology.Algebra.InfiniteSum.ENNReal
import Mathlib.Analysis.SpecialFunctions.Exponential

/-! Weighted sums of the coefficients of a tone with several harmonics, and what the summation limits take from them. -/

namespace QMix

open Complex Finset Spec ENNReal

/-- The sum of the moduli of a sequence, each with a weight. -/
noncomputable def wsum (W : ℤ → ℝ≥0∞) (f : ℤ → ℂ) : ℝ≥0∞ := ∑' k, W k * ‖f k‖ₑ

theorem wsum_mono {W : ℤ → ℝ≥0∞} {f g : ℤ → ℂ} (h : ∀ k, ‖f k‖ ≤ ‖g k‖) : wsum W f ≤ wsum W g :=
  ENNReal.tsum_le_tsum fun k => by
    gcongr
    exact enorm_le_iff_norm_le.2 (h k)

theorem wsum_weight {W V : ℤ → ℝ≥0∞} (h : ∀ k, W k ≤ V k) (f : ℤ → ℂ) : wsum W f ≤ wsum V f :=
  ENNReal.tsum_le_tsum fun k => by
    gcongr
    exact h k

theorem wsum_le_add {W : ℤ → ℝ≥0∞} {f g h : ℤ → ℂ} (e : ∀ k, h k = f k + g k) : wsum W h ≤ wsum W f + wsum W g := by
  unfold wsum
  rw [← ENNReal.tsum_add]
  refine ENNReal.tsum_le_tsum fun k => ?_
  rw [e, ← mul_add]
  gcongr
  exact enorm_add_le _ _

/-- What lies outside a limit weighs little in the lighter weight. -/
theorem wsum_tail {W V : ℤ → ℝ≥0∞} {θ : ℝ≥0∞} {f g : ℤ → ℂ} (n : ℕ) (h : ∀ k : ℤ, (n : ℤ) < |k| → W k ≤ θ * V k)
    (h0 : ∀ k : ℤ, |k| ≤ (n : ℤ) → g k = 0) (h1 : ∀ k, ‖g k‖ ≤ ‖f k‖) : wsum W g ≤ θ * wsum V f := by
  unfold wsum
  rw [← ENNReal.tsum_mul_left]
  refine ENNReal.tsum_le_tsum fun k => ?_
  rcases le_or_gt |k| (n : ℤ) with hk | hk
  · rw [h0 k hk]
    simp
  · rw [← mul_assoc]
    exact mul_le_mul' (h k hk) (enorm_le_iff_norm_le.2 (h1 k))

/-- Convolution with a dilated sequence. -/
theorem wsum_conv {W V : ℤ → ℝ≥0∞} {q : ℤ} (h : ∀ k l : ℤ, W (k + q * l) ≤ W k * V l) {f A c : ℤ → ℂ}
    (hc : ∀ k, c k = ∑' l, f (k - q * l) * A l) : wsum W c ≤ wsum W f * wsum V A := by
  unfold wsum
  calc ∑' k, W k * ‖c k‖ₑ ≤ ∑' k, ∑' l, W (k - q * l) * ‖f (k - q * l)‖ₑ * (V l * ‖A l‖ₑ) := by
        refine ENNReal.tsum_le_tsum fun k => ?_
        rw [hc]
        refine (mul_le_mul_right (enorm_tsum_le_tsum_enorm) _).trans ?_
        rw [← ENNReal.tsum_mul_left]
        refine ENNReal.tsum_le_tsum fun l => ?_
        have := h (k - q * l) l
        rw [sub_add_cancel] at this
        rw [enorm_mul]
        refine (mul_le_mul_left this _).trans_eq ?_
        ring
    _ = ∑' l, ∑' k, W (k - q * l) * ‖f (k - q * l)‖ₑ * (V l * ‖A l‖ₑ) := ENNReal.tsum_comm
    _ = ∑' l, (∑' k, W k * ‖f k‖ₑ) * (V l * ‖A l‖ₑ) := by
        congr 1
        funext l
        rw [ENNReal.tsum_mul_right]
        congr 1
        exact Equiv.tsum_eq (Equiv.subRight (q * l)) fun k => W k * ‖f k‖ₑ
    _ = _ := ENNReal.tsum_mul_left

/-- Difference of two such convolutions. -/
theorem wsum_conv_sub {W V : ℤ → ℝ≥0∞} {q : ℤ} (h : ∀ k l : ℤ, W (k + q * l) ≤ W k * V l) {f g A B c d : ℤ → ℂ}
    (hc : ∀ k, c k = ∑' l, f (k - q * l) * A l) (hd : ∀ k, d k = ∑' l, g (k - q * l) * B l)
    (s1 : ∀ k, Summable fun l => f (k - q * l) * A l) (s2 : ∀ k, Summable fun l => g (k - q * l) * A l)
    (s3 : ∀ k, Summable fun l => g (k - q * l) * B l) :
    wsum W (fun k => c k - d k) ≤ wsum W (fun k => f k - g k) * wsum V A + wsum W g * wsum V (fun l => A l - B l) := by
  refine (wsum_le_add (f := fun k => ∑' l, (f (k - q * l) - g (k - q * l)) * A l)
    (g := fun k => ∑' l, g (k - q * l) * (A l - B l)) fun k => ?_).trans
    (add_le_add (wsum_conv h fun k => rfl) (wsum_conv h fun k => rfl))
  rw [hc, hd]
  simp only [sub_mul, mul_sub]
  rw [(s1 k).tsum_sub (s2 k), (s2 k).tsum_sub (s3 k)]
  ring

theorem wsum_real {W : ℤ → ℝ} (hW : ∀ k, 0 ≤ W k) {f : ℤ → ℂ} {B : ℝ} (hB : 0 ≤ B)
    (h : wsum (fun k => ENNReal.ofReal (W k)) f ≤ ENNReal.ofReal B) :
    (Summable fun k => W k * ‖f k‖) ∧ ∑' k, W k * ‖f k‖ ≤ B := by
  have e : ∀ k, ENNReal.ofReal (W k) * ‖f k‖ₑ = ENNReal.ofReal (W k * ‖f k‖) := fun k => by
    rw [ENNReal.ofReal_mul (hW k), ofReal_norm]
  unfold wsum at h
  simp only [e] at h
  have h0 : ∀ k, 0 ≤ W k * ‖f k‖ := fun k => mul_nonneg (hW k) (norm_nonneg _)
  have hs : Summable fun k => W k * ‖f k‖ := by
    have := ENNReal.summable_toReal (f := fun k => ENNReal.ofReal (W k * ‖f k‖)) (ne_top_of_le_ne_top ofReal_ne_top h)
    exact this.congr fun k => ENNReal.toReal_ofReal (h0 k)
  refine ⟨hs, ?_⟩
  rw [← ENNReal.ofReal_tsum_of_nonneg h0 hs] at h
  exact (ENNReal.ofReal_le_ofReal_iff hB).1 h

/-! ## The weights -/

theorem linear_le_pow {w ρ : ℝ} (hw : 0 ≤ w) (hρ : w ≤ ρ - 1) (j : ℕ) : 1 + j * w ≤ ρ ^ j := by
  have h := one_add_mul_le_pow (a := ρ - 1) (by linarith) j
  rw [add_sub_cancel] at h
  refine le_trans ?_ h
  have : (0 : ℝ) ≤ j := Nat.cast_nonneg _
  nlinarith

theorem linear_le_tail {w ρ : ℝ} (hw : 0 ≤ w) (hρ : 2 ≤ ρ) {n j : ℕ} (hj : n + 1 ≤ j) :
    1 + j * w ≤ (1 + (n + 1) * w) / ρ ^ (n + 1) * ρ ^ j := by
  have hρ0 : (0 : ℝ) < ρ := by linarith
  induction j, hj using Nat.le_induction with
  | base =>
    rw [div_mul_cancel₀ _ (by positivity)]
    push_cast
    exact le_rfl
  | succ j hj ih =>
    rw [pow_succ ρ j, ← mul_assoc]
    have hj1 : (1 : ℝ) ≤ j := by
      have : 1 ≤ j := by omega
      exact_mod_cast this
    have h0 : 0 ≤ 1 + (j : ℝ) * w := by positivity
    have := mul_le_mul ih hρ (by norm_num) (h0.trans ih)
    push_cast
    nlinarith

/-- The heavy weight. -/
noncomputable def heavy (ρ : ℝ) (q : ℕ) (l : ℤ) : ℝ≥0∞ := ENNReal.ofReal (ρ ^ (q * l.natAbs))

/-- The light weight. -/
noncomputable def light (w : ℝ) (q : ℕ) (l : ℤ) : ℝ≥0∞ := ENNReal.ofReal (1 + (q * l.natAbs : ℕ) * w)

theorem natAbs_shift (k l : ℤ) (q : ℕ) : (k + q * l).natAbs ≤ k.natAbs + q * l.natAbs := by
  have := Int.natAbs_add_le k (q * l)
  rwa [Int.natAbs_mul, Int.natAbs_natCast] at this

theorem heavy_mul {ρ : ℝ} (hρ : 1 ≤ ρ) (q : ℕ) (k l : ℤ) : heavy ρ 1 (k + q * l) ≤ heavy ρ 1 k * heavy ρ q l := by
  unfold heavy
  rw [← ENNReal.ofReal_mul (by positivity), ← pow_add]
  refine ENNReal.ofReal_le_ofReal (pow_le_pow_right₀ hρ ?_)
  have := natAbs_shift k l q
  omega

theorem light_mul {w : ℝ} (hw : 0 ≤ w) (q : ℕ) (k l : ℤ) : light w 1 (k + q * l) ≤ light w 1 k * light w q l := by
  unfold light
  rw [← ENNReal.ofReal_mul (by positivity)]
  refine ENNReal.ofReal_le_ofReal ?_
  have h : (((k + q * l).natAbs : ℕ) : ℝ) ≤ (k.natAbs : ℕ) + (q * l.natAbs : ℕ) := by exact_mod_cast natAbs_shift k l q
  have h1 := mul_le_mul_of_nonneg_right h hw
  have h2 : 0 ≤ ((k.natAbs : ℕ) : ℝ) * w * (((q * l.natAbs : ℕ) : ℝ) * w) := by positivity
  rw [one_mul, one_mul]
  nlinarith

theorem light_le_heavy {w ρ : ℝ} (hw : 0 ≤ w) (hρ : w ≤ ρ - 1) (q : ℕ) (l : ℤ) : light w q l ≤ heavy ρ q l :=
  ENNReal.ofReal_le_ofReal (linear_le_pow hw hρ _)

/-- What the summation limit `n` leaves of the heavy weight. -/
noncomputable def thin (w ρ : ℝ) (n : ℕ) : ℝ := (1 + (n + 1) * w) / ρ ^ (n + 1)

theorem thin_nonneg {w ρ : ℝ} (hw : 0 ≤ w) (hρ : 0 ≤ ρ) (n : ℕ) : 0 ≤ thin w ρ n := by unfold thin; positivity

theorem light_le_thin {w ρ : ℝ} (hw : 0 ≤ w) (hρ : 2 ≤ ρ) {n q : ℕ} (hq : 1 ≤ q) (l : ℤ) (hl : (n : ℤ) < |l|) :
    light w q l ≤ ENNReal.ofReal (thin w ρ n) * heavy ρ q l := by
  unfold light heavy
  rw [← ENNReal.ofReal_mul (thin_nonneg hw (by linarith) n)]
  refine ENNReal.ofReal_le_ofReal (linear_le_tail hw hρ ?_)
  have h1 : n + 1 ≤ l.natAbs := by
    rw [Int.abs_eq_natAbs] at hl
    omega
  exact h1.trans (Nat.le_mul_of_pos_left _ hq)

/-! ## The coefficients of one harmonic -/

theorem hasSum_powFac (y : ℝ) : HasSum (fun n : ℤ => y ^ n.natAbs / n.natAbs.factorial) (Real.exp y + (Real.exp y - 1)) := by
  have h : HasSum (fun n : ℕ => y ^ n / n.factorial) (Real.exp y) := by
    rw [Real.exp_eq_exp_ℝ]
    exact NormedSpace.expSeries_div_hasSum_exp y
  have h1 : HasSum (fun n : ℕ => y ^ (n + 1) / (n + 1).factorial) (Real.exp y - 1) := by
    rw [hasSum_nat_add_iff (f := fun n : ℕ => y ^ n / (n.factorial : ℝ)) 1]
    simpa using h
  refine HasSum.of_nat_of_neg_add_one (f := fun n : ℤ => y ^ n.natAbs / (n.natAbs.factorial : ℝ)) ?_ ?_
  · simpa using h
  · have e : (fun j : ℕ => y ^ (-((j : ℤ) + 1)).natAbs / ((-((j : ℤ) + 1)).natAbs.factorial : ℝ))
        = fun j : ℕ => y ^ (j + 1) / (j + 1).factorial := by
      funext j
      rw [show (-((j : ℤ) + 1)).natAbs = j + 1 by omega]
    rw [e]
    exact h1

/-- The weight of one harmonic. -/
noncomputable def spread (v : ℂ) (w : ℝ) (p : ℕ) (ρ : ℝ) : ℝ := 2 * Real.exp (‖v‖ / (p * w) / 2 * ρ ^ p)

theorem spread_nonneg (v : ℂ) (w : ℝ) (p : ℕ) (ρ : ℝ) : 0 ≤ spread v w p ρ := by unfold spread; positivity

theorem wsum_jaFull (v : ℂ) {w ρ : ℝ} (hw : 0 < w) (hρ : 0 ≤ ρ) (p : ℕ) :
    wsum (heavy ρ p) (jaFull v w p) ≤ ENNReal.ofReal (spread v w p ρ) := by
  have hx : 0 ≤ ‖v‖ / (p * w) := by positivity
  set y := ‖v‖ / (p * w) / 2 * ρ ^ p with hy
  have hy0 : 0 ≤ y := by positivity
  have hs := hasSum_powFac y
  unfold wsum
  calc ∑' l, heavy ρ p l * ‖jaFull v w p l‖ₑ ≤ ∑' l : ℤ, ENNReal.ofReal (y ^ l.natAbs / l.natAbs.factorial) := by
        refine ENNReal.tsum_le_tsum fun l => ?_
        rw [heavy, ← ofReal_norm, norm_jaFull, ← ENNReal.ofReal_mul (by positivity)]
        refine ENNReal.ofReal_le_ofReal ?_
        refine (mul_le_mul_of_nonneg_left (abs_besselJ_le_half l hx) (by positivity)).trans_eq ?_
        rw [hy, mul_pow, ← pow_mul]
        ring
    _ = ENNReal.ofReal (∑' l : ℤ, y ^ l.natAbs / l.natAbs.factorial) :=
        (ENNReal.ofReal_tsum_of_nonneg (fun l => by positivity) hs.summable).symm
    _ ≤ _ := by
        rw [hs.tsum_eq]
        refine ENNReal.ofReal_le_ofReal ?_
        unfold spread
        linarith

theorem wsum_ja_sub (v : ℂ) {w ρ : ℝ} (hw : 0 < w) (hρ : 2 ≤ ρ) {p : ℕ} (hp : 1 ≤ p) (nb : ℕ) :
    wsum (light w p) (fun l => jacobiAnger v w p nb l - jaFull v w p l)
      ≤ ENNReal.ofReal (thin w ρ nb) * ENNReal.ofReal (spread v w p ρ) := by
  refine (wsum_tail (f := jaFull v w p) nb (fun k hk => light_le_thin hw.le hρ hp k hk) (fun k hk => ?_) fun k => ?_).trans
    (mul_le_mul_right (wsum_jaFull v hw (by linarith) p) _)
  · rw [jacobiAnger, if_pos hk]
    exact sub_self _
  · unfold jacobiAnger
    split_ifs
    · change ‖jaFull v w p k - jaFull v w p k‖ ≤ _
      simp
    · simp

/-! ## All harmonics -/

/-- The weight of all harmonics. -/
noncomputable def spreads (v : ℕ → ℂ) (w ρ : ℝ) (P : ℕ) : ℝ := ∏ p ∈ Icc 1 P, spread (v p) w p ρ

theorem spreads_nonneg (v : ℕ → ℂ) (w ρ : ℝ) (P : ℕ) : 0 ≤ spreads v w ρ P := Finset.prod_nonneg fun _ _ => spread_nonneg _ _ _ _

theorem spreads_succ (v : ℕ → ℂ) (w ρ : ℝ) (P : ℕ) : spreads v w ρ (P + 1) = spreads v w ρ P * spread (v (P + 1)) w (P + 1) ρ := by
  unfold spreads
  rw [Finset.prod_Icc_succ_top (by omega)]

/-- The convolution of the code is one over all integers of the clipped coefficients. -/
theorem harmonicConv_conv (v : ℕ → ℂ) (w : ℝ) (p : ℕ) {nb M : ℕ} (h : nb ≤ M) (k : ℤ) :
    toneCoeff v w (p + 1) nb M k = ∑' l, (fun j => if |j| ≤ (M : ℤ) then toneCoeff v w p nb M j else 0) (k - ((p + 1 : ℕ) : ℤ) * l)
      * jacobiAnger (v (p + 1)) w (p + 1) nb l := by
  unfold toneCoeff
  rw [tsum_eq_sum (s := Icc (-(M : ℤ)) M)]
  · rw [harmonicConv]
    refine Finset.sum_congr rfl fun l _ => ?_
    dsimp only
    split_ifs
    · rfl
    · rw [zero_mul]
  · intro l hl
    rw [jacobiAnger, if_neg, mul_zero]
    intro hc
    apply hl
    rw [Finset.mem_Icc]
    have := abs_le.1 hc
    omega

theorem wsum_delta (W : ℤ → ℝ≥0∞) : wsum W (fun k => if k = 0 then 1 else 0) = W 0 := by
  unfold wsum
  rw [tsum_eq_single 0]
  · simp
  · intro k hk
    simp [hk]

theorem clip_le (M : ℕ) (f : ℤ → ℂ) (k : ℤ) : ‖if |k| ≤ (M : ℤ) then f k else 0‖ ≤ ‖f k‖ := by
  split_ifs <;> simp

/-- The clipped and truncated coefficients next to the exact ones. -/
theorem coeff_error (v : ℕ → ℂ) {w ρ : ℝ} (hw : 0 < w) (hρ : 2 ≤ ρ) (hwρ : w ≤ ρ - 1) {nb M : ℕ} (h : nb ≤ M) (P : ℕ) :
    wsum (heavy ρ 1) (toneCoeff v w P nb M) ≤ ENNReal.ofReal (spreads v w ρ P) ∧
    wsum (heavy ρ 1) (phaseCoeff v w P) ≤ ENNReal.ofReal (spreads v w ρ P) ∧
    wsum (light w 1) (fun k => toneCoeff v w P nb M k - phaseCoeff v w P k)
      ≤ ENNReal.ofReal (2 * P * thin w ρ nb * spreads v w ρ P) := by
  have hρ0 : (0 : ℝ) ≤ ρ := by linarith
  have hθ := thin_nonneg hw.le hρ0 nb
  induction P with
  | zero =>
    have e : toneCoeff v w 0 nb M = fun k => if k = 0 then 1 else 0 := rfl
    have e' : phaseCoeff v w 0 = fun k => if k = 0 then 1 else 0 := funext fun k => phaseCoeff_zero v w k
    rw [e, e', wsum_delta]
    refine ⟨?_, ?_, ?_⟩
    · simp [heavy, spreads]
    · simp [heavy, spreads]
    · simp [wsum]
  | succ P ih =>
    obtain ⟨i1, i2, i3⟩ := ih
    have hp : 1 ≤ P + 1 := by omega
    set q : ℕ := P + 1 with hq
    set A := jacobiAnger (v q) w q nb with hA
    set B := jaFull (v q) w q with hB
    set X := fun j : ℤ => if |j| ≤ (M : ℤ) then toneCoeff v w P nb M j else 0 with hX
    have sp := spread_nonneg (v q) w q ρ
    have sps := spreads_nonneg v w ρ P
    have hXh : wsum (heavy ρ 1) X ≤ ENNReal.ofReal (spreads v w ρ P) := (wsum_mono fun k => clip_le M _ k).trans i1
    have hBh : wsum (heavy ρ q) B ≤ ENNReal.ofReal (spread (v q) w q ρ) := wsum_jaFull (v q) hw hρ0 q
    have hAh : wsum (heavy ρ q) A ≤ ENNReal.ofReal (spread (v q) w q ρ) := (wsum_mono fun k => (norm_jacobiAnger_le _ _ _ _ k).trans_eq (norm_jaFull _ _ _ _).symm).trans hBh
    have hAl : wsum (light w q) A ≤ ENNReal.ofReal (spread (v q) w q ρ) := (wsum_weight (light_le_heavy hw.le hwρ q) _).trans hAh
    have c1 : ∀ k, toneCoeff v w q nb M k = ∑' l, X (k - (q : ℤ) * l) * A l := fun k => harmonicConv_conv v w P h k
    have c2 : ∀ k, phaseCoeff v w q k = ∑' l, phaseCoeff v w P (k - (q : ℤ) * l) * B l := fun k => phaseCoeff_succ v w P k
    have hGl : wsum (light w 1) (phaseCoeff v w P) ≤ ENNReal.ofReal (spreads v w ρ P) :=
      (wsum_weight (light_le_heavy hw.le hwρ 1) _).trans i2
    have hAB : wsum (light w q) (fun l => A l - B l) ≤ ENNReal.ofReal (thin w ρ nb) * ENNReal.ofReal (spread (v q) w q ρ) :=
      wsum_ja_sub (v q) hw hρ hp nb
    have hXG : wsum (light w 1) (fun k => X k - phaseCoeff v w P k)
        ≤ ENNReal.ofReal (thin w ρ nb) * ENNReal.ofReal (spreads v w ρ P) + ENNReal.ofReal (2 * P * thin w ρ nb * spreads v w ρ P) := by
      refine (wsum_le_add (f := fun k => X k - toneCoeff v w P nb M k)
        (g := fun k => toneCoeff v w P nb M k - phaseCoeff v w P k) fun k => by ring).trans (add_le_add ?_ i3)
      refine (wsum_tail (f := toneCoeff v w P nb M) nb (fun k hk => light_le_thin hw.le hρ le_rfl k hk) (fun k hk => ?_) fun k => ?_).trans
        (mul_le_mul_right i1 _)
      · simp only [hX]
        rw [if_pos (hk.trans (by exact_mod_cast h)), sub_self]
      · simp only [hX]
        split_ifs <;> simp
    refine ⟨?_, ?_, ?_⟩
    · rw [spreads_succ, ENNReal.ofReal_mul sps]
      exact (wsum_conv (heavy_mul (by linarith) q) c1).trans (mul_le_mul' hXh hAh)
    · rw [spreads_succ, ENNReal.ofReal_mul sps]
      exact (wsum_conv (heavy_mul (by linarith) q) c2).trans (mul_le_mul' i2 hBh)
    · have fin : ∀ g : ℤ → ℂ, ∀ k : ℤ, Summable fun l => g (k - (q : ℤ) * l) * A l := fun g k => by
        refine summable_of_ne_finset_zero (s := Icc (-(nb : ℤ)) nb) fun l hl => ?_
        simp only [hA]
        rw [jacobiAnger, if_neg, mul_zero]
        exact fun hc => hl (Finset.mem_Icc.2 (abs_le.1 hc))
      refine (wsum_conv_sub (light_mul hw.le q) c1 c2 (fin X) (fin _) fun k => ?_).trans ?_
      · exact Summable.of_norm (((small_phaseCoeff v w P).fibre (small_jaFull (v q) w q) q k).congr fun l => (norm_mul _ _).symm)
      · refine (add_le_add (mul_le_mul' hXG hAl) (mul_le_mul' hGl hAB)).trans_eq ?_
        rw [spreads_succ, ← ENNReal.ofReal_mul hθ, ← ENNReal.ofReal_mul hθ, ← ENNReal.ofReal_add (by positivity) (by positivity),
          ← ENNReal.ofReal_mul (by positivity), ← ENNReal.ofReal_mul sps, ← ENNReal.ofReal_add (by positivity) (by positivity)]
        congr 1
        rw [← hq]
        push_cast
        simp only [hq]
        push_cast
        ring

/-- The coefficients inside the summation limit next to the exact ones, in numbers. -/
theorem coeff_error_real (v : ℕ → ℂ) {w ρ : ℝ} (hw : 0 < w) (hρ : 2 ≤ ρ) (hwρ : w ≤ ρ - 1) {nb M : ℕ} (h : nb ≤ M) (P : ℕ) :
    (Summable fun k : ℤ => (1 + |(k : ℝ)| * w) * ‖(if |k| ≤ (nb : ℤ) then toneCoeff v w P nb M k else 0) - phaseCoeff v w P k‖) ∧
    ∑' k : ℤ, (1 + |(k : ℝ)| * w) * ‖(if |k| ≤ (nb : ℤ) then toneCoeff v w P nb M k else 0) - phaseCoeff v w P k‖
      ≤ (2 * P + 1) * thin w ρ nb * spreads v w ρ P := by
  have hρ0 : (0 : ℝ) ≤ ρ := by linarith
  have hθ := thin_nonneg hw.le hρ0 nb
  have sps := spreads_nonneg v w ρ P
  obtain ⟨i1, _, i3⟩ := coeff_error v hw hρ hwρ h P
  refine wsum_real (fun k => by positivity) (by positivity) ?_
  have e : (fun k : ℤ => ENNReal.ofReal (1 + |(k : ℝ)| * w)) = light w 1 := by
    funext k
    unfold light
    rw [one_mul, Nat.cast_natAbs, Int.cast_abs]
  rw [e]
  refine (wsum_le_add (f := fun k => (if |k| ≤ (nb : ℤ) then toneCoeff v w P nb M k else 0) - toneCoeff v w P nb M k)
    (g := fun k => toneCoeff v w P nb M k - phaseCoeff v w P k) fun k => by ring).trans ?_
  refine (add_le_add ((wsum_tail (f := toneCoeff v w P nb M) nb (fun k hk => light_le_thin hw.le hρ le_rfl k hk) (fun k hk => ?_)
    fun k => ?_).trans (mul_le_mul_right i1 _)) i3).trans_eq ?_
  · rw [if_pos hk, sub_self]
  · split_ifs <;> simp
  · rw [← ENNReal.ofReal_mul hθ, ← ENNReal.ofReal_add (by positivity) (by positivity)]
    congr 1
    ring

end QMix
