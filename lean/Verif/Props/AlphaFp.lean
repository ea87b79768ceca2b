import Verif.Model.AlphaFp
import Verif.Props.NoisyRecovery

/-!
# The drive level in floating-point arithmetic
-/

namespace QMix.AlphaFp

open Finset QMix.CctFp QMix.Zemb

variable {u : ℝ}

/-! ## Lemmas -/

theorem rnd_zero (A : Fp u) : A.rnd 0 = 0 := by
  have := A.rnd_le 0
  simp only [abs_zero, mul_zero, sub_zero] at this
  exact abs_eq_zero.1 (le_antisymm this (abs_nonneg _))

theorem rnd_pos (A : Fp u) (h1 : u < 1) {x : ℝ} (hx : 0 < x) : 0 < A.rnd x := by
  have := (abs_le.1 (A.rnd_le x)).1
  rw [abs_of_pos hx] at this
  nlinarith

theorem rnd_neg (A : Fp u) (h1 : u < 1) {x : ℝ} (hx : x < 0) : A.rnd x < 0 := by
  have := (abs_le.1 (A.rnd_le x)).2
  rw [abs_of_neg hx] at this
  nlinarith

theorem rnd_abs_le (A : Fp u) (x : ℝ) : |A.rnd x| ≤ (1 + u) * |x| := by
  have := A.rnd_le x
  have := abs_sub_abs_le_abs_sub (A.rnd x) x
  linarith

/-- Rounded addition of a list of numbers. -/
theorem sum_err (A : Fp u) (h0 : 0 ≤ u) (l : List ℤ) (f : ℤ → ℝ) :
    |l.foldl (fun s n => A.rnd (s + f n)) 0 - (l.map f).sum| ≤ ((1 + u) ^ l.length - 1) * (l.map fun n => |f n|).sum := by
  suffices h : ∀ (l : List ℤ) (s t m : ℝ) (k : ℕ), |s - t| ≤ ((1 + u) ^ k - 1) * m → |t| ≤ m →
      |l.foldl (fun s n => A.rnd (s + f n)) s - (t + (l.map f).sum)|
        ≤ ((1 + u) ^ (k + l.length) - 1) * (m + (l.map fun n => |f n|).sum) by
    simpa using h l 0 0 0 0 (by simp) (by simp)
  intro l
  induction l with
  | nil =>
    intro s t m k h _
    simpa using h
  | cons n l ih =>
    intro s t m k h hm
    have hm0 : 0 ≤ m := (abs_nonneg _).trans hm
    have hp : 1 ≤ (1 + u) ^ k := one_le_pow₀ (by linarith)
    have h1 : |A.rnd (s + f n) - (t + f n)| ≤ ((1 + u) ^ (k + 1) - 1) * (m + |f n|) := by
      have e1 := A.rnd_le (s + f n)
      have e2 : |s + f n| ≤ (1 + u) ^ k * (m + |f n|) := by
        calc |s + f n| = |(s - t) + t + f n| := by ring_nf
          _ ≤ |s - t| + |t| + |f n| := abs_add_three _ _ _
          _ ≤ ((1 + u) ^ k - 1) * m + m + |f n| := by linarith
          _ ≤ (1 + u) ^ k * (m + |f n|) := by nlinarith [abs_nonneg (f n)]
      calc |A.rnd (s + f n) - (t + f n)| ≤ |A.rnd (s + f n) - (s + f n)| + |(s + f n) - (t + f n)| := abs_sub_le _ _ _
        _ ≤ u * ((1 + u) ^ k * (m + |f n|)) + ((1 + u) ^ k - 1) * m := by
            refine add_le_add (e1.trans (mul_le_mul_of_nonneg_left e2 h0)) ?_
            rw [add_sub_add_right_eq_sub]
            exact h
        _ ≤ u * ((1 + u) ^ k * (m + |f n|)) + ((1 + u) ^ k - 1) * (m + |f n|) := by nlinarith [abs_nonneg (f n)]
        _ = ((1 + u) ^ (k + 1) - 1) * (m + |f n|) := by rw [pow_succ]; ring
    have h2 : |t + f n| ≤ m + |f n| := (abs_add_le _ _).trans (by linarith)
    have := ih (A.rnd (s + f n)) (t + f n) (m + |f n|) (k + 1) h1 h2
    simp only [List.foldl_cons, List.map_cons, List.sum_cons, List.length_cons]
    rw [show k + (l.length + 1) = k + 1 + l.length by omega, ← add_assoc, ← add_assoc]
    exact this

/-- The error of one term of the sum. -/
theorem term_err (A : Fp u) (h0 : 0 ≤ u) {jv : ℤ → ℝ → ℝ} {idc idcF : ℝ → ℝ} {vb vph alpha e B L W ρ D : ℝ} {n : ℤ}
    (hj : |jv n alpha - besselJ n alpha| ≤ e) (hB : |idc (vb + n * vph)| ≤ B) (hL : ∀ x y, |idc x - idc y| ≤ L * |x - y|) (hL0 : 0 ≤ L)
    (hρ : ∀ x, |idcF x - idc x| ≤ ρ) (hW : |vb| + |(n : ℝ) * vph| ≤ W) (hD : D = L * ((2 * u + u ^ 2) * W) + ρ) :
    |term A jv idcF vb vph alpha n - besselJ n alpha ^ 2 * idc (vb + n * vph)|
      ≤ e * (2 + e) * (B + D) + D + (2 * u + u ^ 2) * (1 + e) ^ 2 * (B + D) := by
  have he : 0 ≤ e := (abs_nonneg _).trans hj
  have hB0 : 0 ≤ B := (abs_nonneg _).trans hB
  set ξ := (2 * u + u ^ 2) * W with hξ
  have hW0 : 0 ≤ W := le_trans (by positivity) hW
  have hξ0 : 0 ≤ ξ := by positivity
  have harg : |A.rnd (vb + A.rnd (n * vph)) - (vb + n * vph)| ≤ ξ := by
    have a1 := A.rnd_le (n * vph)
    have a2 := A.rnd_le (vb + A.rnd (n * vph))
    have a3 := rnd_abs_le A (n * vph)
    have a4 : |vb + A.rnd (n * vph)| ≤ |vb| + (1 + u) * |(n : ℝ) * vph| := (abs_add_le _ _).trans (by linarith)
    calc _ ≤ |A.rnd (vb + A.rnd (n * vph)) - (vb + A.rnd (n * vph))| + |(vb + A.rnd (n * vph)) - (vb + n * vph)| := abs_sub_le _ _ _
      _ ≤ u * (|vb| + (1 + u) * |(n : ℝ) * vph|) + u * |(n : ℝ) * vph| := by
          refine add_le_add (a2.trans (mul_le_mul_of_nonneg_left a4 h0)) ?_
          rw [add_sub_add_left_eq_sub]
          exact a1
      _ ≤ (2 * u + u ^ 2) * (|vb| + |(n : ℝ) * vph|) := by nlinarith [abs_nonneg vb, abs_nonneg ((n : ℝ) * vph), mul_nonneg h0 (abs_nonneg vb), mul_nonneg (mul_nonneg h0 h0) (abs_nonneg vb)]
      _ ≤ ξ := mul_le_mul_of_nonneg_left hW (by positivity)
  set I' := idcF (A.rnd (vb + A.rnd (n * vph))) with hI'
  set I0 := idc (vb + n * vph) with hI0
  have hI : |I' - I0| ≤ D := by
    have h1 := (hL (A.rnd (vb + A.rnd (n * vph))) (vb + n * vph)).trans (mul_le_mul_of_nonneg_left harg hL0)
    have h2 := hρ (A.rnd (vb + A.rnd (n * vph)))
    have := abs_sub_le I' (idc (A.rnd (vb + A.rnd (n * vph)))) I0
    rw [hD]
    linarith
  have hD0' : 0 ≤ D := (abs_nonneg _).trans hI
  have hIb : |I'| ≤ B + D := by
    have := abs_sub_abs_le_abs_sub I' I0
    linarith
  set J := besselJ n alpha with hJ
  set j := jv n alpha with hj'
  have hJ1 : |J| ≤ 1 := abs_besselJ_le_one n alpha
  have hj1 : |j| ≤ 1 + e := by
    have := abs_sub_abs_le_abs_sub j J
    linarith
  have hjj : |j ^ 2 - J ^ 2| ≤ e * (2 + e) := by
    rw [sq_sub_sq, abs_mul, mul_comm]
    refine mul_le_mul hj ((abs_add_le _ _).trans (by linarith)) (abs_nonneg _) he
  have hj2 : j ^ 2 ≤ (1 + e) ^ 2 := by
    rw [← sq_abs]
    exact pow_le_pow_left₀ (abs_nonneg _) hj1 2
  have hJ2 : J ^ 2 ≤ 1 := by
    rw [← sq_abs]
    exact pow_le_one₀ (abs_nonneg _) hJ1
  have hD0 : 0 ≤ B + D := by positivity
  have e1 : |j ^ 2 * I' - J ^ 2 * I0| ≤ e * (2 + e) * (B + D) + D := by
    have : j ^ 2 * I' - J ^ 2 * I0 = (j ^ 2 - J ^ 2) * I' + J ^ 2 * (I' - I0) := by ring
    rw [this]
    refine (abs_add_le _ _).trans (add_le_add ?_ ?_)
    · rw [abs_mul]
      exact mul_le_mul hjj hIb (abs_nonneg _) (by positivity)
    · rw [abs_mul, abs_of_nonneg (sq_nonneg J)]
      calc J ^ 2 * |I' - I0| ≤ 1 * D := mul_le_mul hJ2 hI (abs_nonneg _) zero_le_one
        _ = _ := one_mul _
  have e2 : |A.rnd (A.rnd (j ^ 2) * I') - j ^ 2 * I'| ≤ (2 * u + u ^ 2) * ((1 + e) ^ 2 * (B + D)) := by
    have b1 := A.rnd_le (j ^ 2)
    have b2 := A.rnd_le (A.rnd (j ^ 2) * I')
    have b3 := rnd_abs_le A (j ^ 2)
    rw [abs_of_nonneg (sq_nonneg j)] at b1 b3
    have b4 : j ^ 2 * |I'| ≤ (1 + e) ^ 2 * (B + D) := mul_le_mul hj2 hIb (abs_nonneg _) (by positivity)
    calc _ ≤ |A.rnd (A.rnd (j ^ 2) * I') - A.rnd (j ^ 2) * I'| + |A.rnd (j ^ 2) * I' - j ^ 2 * I'| := abs_sub_le _ _ _
      _ ≤ u * ((1 + u) * j ^ 2 * |I'|) + u * j ^ 2 * |I'| := by
          refine add_le_add (b2.trans (mul_le_mul_of_nonneg_left ?_ h0)) ?_
          · rw [abs_mul]
            exact mul_le_mul_of_nonneg_right b3 (abs_nonneg _)
          · rw [← sub_mul, abs_mul]
            exact mul_le_mul_of_nonneg_right b1 (abs_nonneg _)
      _ = (2 * u + u ^ 2) * (j ^ 2 * |I'|) := by ring
      _ ≤ _ := mul_le_mul_of_nonneg_left b4 (by positivity)
  calc _ ≤ |A.rnd (A.rnd (j ^ 2) * I') - j ^ 2 * I'| + |j ^ 2 * I' - J ^ 2 * I0| := abs_sub_le _ _ _
    _ ≤ _ := by linarith

theorem pow_small (h0 : 0 ≤ u) (hu : u ≤ 1 / 1000) {k : ℕ} (hk : k ≤ 16) : (1 + u) ^ k ≤ 1 + 1.1 * k * u := by
  induction k with
  | zero => simp
  | succ k ih =>
    have := ih (by omega)
    have hk' : (k : ℝ) ≤ 16 := by exact_mod_cast (by omega : k ≤ 16)
    rw [pow_succ]
    push_cast
    nlinarith [mul_nonneg h0 (Nat.cast_nonneg (α := ℝ) k), mul_nonneg h0 h0, mul_le_mul_of_nonneg_right this (by linarith : 0 ≤ 1 + u),
      mul_nonneg (mul_nonneg h0 h0) (sub_nonneg.2 hk')]

theorem step_err (A : Fp u) (h0 : 0 ≤ u) (f : ℝ → ℝ) (i x₀ : ℝ) {M : ℝ} (hM : 0 < M) (k : ℕ) :
    |((alphaStep A f i)^[k] (x₀, A.rnd (M / 4))).2 - M / 4 / 2 ^ k| ≤ ((1 + u) ^ (k + 1) - 1) * (M / 4 / 2 ^ k) := by
  induction k with
  | zero =>
    have := A.rnd_le (M / 4)
    rw [abs_of_pos (by positivity : 0 < M / 4)] at this
    simp only [Function.iterate_zero, id, pow_zero, div_one, zero_add, pow_one, add_sub_cancel_left]
    exact this
  | succ k ih =>
    rw [Function.iterate_succ_apply']
    set s := (alphaStep A f i)^[k] (x₀, A.rnd (M / 4))
    set t := M / 4 / 2 ^ k with ht
    have ht0 : 0 < t := by positivity
    have e : M / 4 / 2 ^ (k + 1) = t / 2 := by rw [ht, pow_succ]; ring
    rw [e]
    change |A.rnd (s.2 / 2) - t / 2| ≤ _
    have h1 := A.rnd_le (s.2 / 2)
    have h2 : |s.2| ≤ (1 + u) ^ (k + 1) * t := by
      have := abs_sub_abs_le_abs_sub s.2 t
      rw [abs_of_pos ht0] at this
      linarith
    calc _ ≤ |A.rnd (s.2 / 2) - s.2 / 2| + |s.2 / 2 - t / 2| := abs_sub_le _ _ _
      _ ≤ u * ((1 + u) ^ (k + 1) * t / 2) + ((1 + u) ^ (k + 1) - 1) * t / 2 := by
          refine add_le_add (h1.trans (mul_le_mul_of_nonneg_left ?_ h0)) ?_
          · rw [abs_div, abs_of_pos (two_pos : (0 : ℝ) < 2)]
            linarith
          · rw [← sub_div, abs_div, abs_of_pos (two_pos : (0 : ℝ) < 2)]
            linarith
      _ = _ := by rw [pow_succ _ (k + 1)]; ring

/-- The refinement in rounded arithmetic, when the comparison of currents can be trusted only outside a distance `η` of `a`. -/
theorem loop_noise (A : Fp u) (h0 : 0 ≤ u) (hu : u ≤ 1 / 1000) (f : ℝ → ℝ) {i a η M x₀ : ℝ} (hM : 0 < M) (ha : 0 ≤ a) (hη : 0 ≤ η)
    (hlow : ∀ x, 0 ≤ x → x < a - η → f x < i)
    (hhigh : ∀ x, a + η < x → x ≤ a + M / 2 + η + 15 * (u * (2 * a + 2 * η + 7 * M)) → i < f x)
    (hx₀ : 0 ≤ x₀) (hstart : |x₀ - a| ≤ M / 2 + η) {k : ℕ} (hk : k ≤ 15) :
    0 ≤ ((alphaStep A f i)^[k] (x₀, A.rnd (M / 4))).1 ∧
      |((alphaStep A f i)^[k] (x₀, A.rnd (M / 4))).1 - a| ≤ 2 * (M / 4 / 2 ^ k) + η + k * (u * (2 * a + 2 * η + 7 * M)) := by
  induction k with
  | zero => exact ⟨hx₀, by simpa using hstart.trans (by linarith)⟩
  | succ k ih =>
    obtain ⟨hs0, h1⟩ := ih (by omega)
    have h2 := step_err A h0 f i x₀ hM k
    rw [Function.iterate_succ_apply']
    set s := (alphaStep A f i)^[k] (x₀, A.rnd (M / 4))
    set β := u * (2 * a + 2 * η + 7 * M) with hβ
    set t := M / 4 / 2 ^ k with ht
    have ht0 : 0 < t := by positivity
    have htM : t ≤ M / 4 := div_le_self (by linarith) (one_le_pow₀ (by norm_num))
    have e : 2 * (M / 4 / 2 ^ (k + 1)) = t := by rw [ht, pow_succ]; ring
    rw [e]
    have hβ0 : 0 ≤ β := by positivity
    have hk15 : (k : ℝ) ≤ 15 := by exact_mod_cast (by omega : k ≤ 15)
    have hkβ : k * β ≤ 15 * β := mul_le_mul_of_nonneg_right hk15 hβ0
    have hkβ0 : 0 ≤ k * β := by positivity
    have hβs : 15 * β ≤ 0.03 * a + 0.03 * η + 0.105 * M := by
      rw [hβ]
      have : u * (2 * a + 2 * η + 7 * M) ≤ 1 / 1000 * (2 * a + 2 * η + 7 * M) := mul_le_mul_of_nonneg_right hu (by positivity)
      norm_num at this ⊢
      linarith
    have hg : |s.2 - t| ≤ 5 * (u * M) := by
      refine h2.trans ?_
      have hp := pow_small h0 hu (k := k + 1) (by omega)
      have hk1 : ((k + 1 : ℕ) : ℝ) ≤ 16 := by exact_mod_cast (by omega : k + 1 ≤ 16)
      have : (1 + u) ^ (k + 1) - 1 ≤ 20 * u := by nlinarith
      have hp1 : 0 ≤ (1 + u) ^ (k + 1) - 1 := by
        have : 1 ≤ (1 + u) ^ (k + 1) := one_le_pow₀ (by linarith)
        linarith
      calc _ ≤ 20 * u * (M / 4) := mul_le_mul this htM ht0.le (by positivity)
        _ = _ := by ring
    have huM : u * M ≤ 1 / 1000 * M := mul_le_mul_of_nonneg_right hu hM.le
    rw [abs_le] at h1 hg
    have hu1 : u < 1 := by linarith
    -- the drive level before rounding
    have move : ∀ y, |y - a| ≤ t + η + k * β + 5 * (u * M) → |max 0 (A.rnd y) - a| ≤ t + η + (k + 1 : ℕ) * β := by
      intro y hy
      have hya : |y| ≤ 1.03 * a + 1.03 * η + 0.36 * M := by
        have := abs_sub_abs_le_abs_sub y a
        rw [abs_of_nonneg ha] at this
        norm_num at huM hβs ⊢
        linarith
      have hr := A.rnd_le y
      have hr' : u * |y| ≤ u * (1.03 * a + 1.03 * η + 0.36 * M) := mul_le_mul_of_nonneg_left hya h0
      have h5 : |A.rnd y - a| ≤ t + η + (k + 1 : ℕ) * β := by
        have h6 := abs_sub_le (A.rnd y) y a
        have : u * (1.03 * a + 1.03 * η + 0.36 * M) + 5 * (u * M) ≤ β := by
          rw [hβ]
          have := mul_nonneg h0 ha
          have := mul_nonneg h0 hη
          have := mul_nonneg h0 hM.le
          norm_num
          nlinarith
        push_cast
        linarith
      refine le_trans ?_ h5
      rcases le_total 0 (A.rnd y) with h | h
      · rw [max_eq_right h]
      · rw [max_eq_left h, zero_sub, abs_neg, abs_of_nonneg ha, abs_of_nonpos (by linarith)]
        linarith
    have clampmax : ∀ y : ℝ, (if y < 0 then (0 : ℝ) else y) = max 0 y := by
      intro y
      split_ifs with h
      · rw [max_eq_left h.le]
      · rw [max_eq_right (not_lt.1 h)]
    have hval : (alphaStep A f i s).1 = if i < f s.1 then max 0 (A.rnd (s.1 - s.2)) else if f s.1 < i then max 0 (A.rnd (s.1 + s.2))
        else max 0 s.1 := by
      unfold alphaStep
      rcases lt_trichotomy i (f s.1) with h | h | h
      · have := rnd_pos A hu1 (sub_pos.2 h)
        simp only [if_pos this, if_neg (not_lt.2 this.le), if_pos h]
        rw [← clampmax]
      · rw [h, sub_self, rnd_zero]
        simp only [lt_irrefl, if_false]
        rw [← clampmax]
      · have := rnd_neg A hu1 (sub_neg.2 h)
        simp only [if_pos this, if_neg (not_lt.2 this.le), if_pos h, if_neg (not_lt.2 h.le)]
        rw [← clampmax]
    constructor
    · rw [hval]
      split_ifs <;> exact le_max_left _ _
    rw [hval]
    have huM0 : 0 ≤ u * M := mul_nonneg h0 hM.le
    rcases lt_or_ge s.1 (a - η) with h | h
    · have := hlow s.1 hs0 h
      rw [if_neg (not_lt.2 this.le), if_pos this]
      refine move _ (abs_le.2 ⟨by linarith, by linarith⟩)
    rcases lt_or_ge (a + η) s.1 with h' | h'
    · have := hhigh s.1 h' (by linarith)
      rw [if_pos this]
      refine move _ (abs_le.2 ⟨by linarith, by linarith⟩)
    · split_ifs
      · exact move _ (abs_le.2 ⟨by linarith, by linarith⟩)
      · exact move _ (abs_le.2 ⟨by linarith, by linarith⟩)
      · rw [max_eq_right hs0, abs_le]
        have : 0 ≤ ((k + 1 : ℕ) : ℝ) * β := by positivity
        constructor <;> linarith

/-! ## C178 -/

/-- C178. The pumped current is computed up to an explicit error: `e` is the error of the Bessel functions, `B` bounds the currents used
`L` the slope of the I-V curve, `ρ` the error of its interpolation, `W` the voltages. -/
theorem C178_current (A : Fp u) (h0 : 0 ≤ u) (jv : ℤ → ℝ → ℝ) (idc idcF : ℝ → ℝ) (vb vph alpha : ℝ) (nb : ℕ) {e B L W ρ D T N : ℝ} (ha : 0 ≤ alpha)
    (hj : ∀ n : ℤ, |n| ≤ nb → |jv n alpha - besselJ n alpha| ≤ e) (hB : ∀ n : ℤ, |n| ≤ nb → |idc (vb + n * vph)| ≤ B)
    (hL : ∀ x y, |idc x - idc y| ≤ L * |x - y|) (hL0 : 0 ≤ L) (hρ : ∀ x, |idcF x - idc x| ≤ ρ) (hW : |vb| + nb * |vph| ≤ W)
    (hD : D = L * ((2 * u + u ^ 2) * W) + ρ) (hT : T = e * (2 + e) * (B + D) + D + (2 * u + u ^ 2) * (1 + e) ^ 2 * (B + D))
    (hN : N = 2 * nb + 1) :
    |pumpedIv A jv idcF vb vph nb alpha - tuckerDc idc vb vph nb alpha| ≤ N * T + ((1 + u) ^ (2 * nb + 1) - 1) * (B + N * T) := by
  set l := pyRange (-(nb : ℤ)) ((nb : ℤ) + 1) with hl
  have hlen : l.length = 2 * nb + 1 := by rw [hl, pyRange_length]; omega
  have hmem : ∀ n ∈ l, |n| ≤ (nb : ℤ) := by
    intro n hn
    rw [hl, mem_pyRange] at hn
    rw [abs_le]
    omega
  have ht : ∀ n ∈ l, |term A jv idcF vb vph alpha n - besselJ n alpha ^ 2 * idc (vb + n * vph)| ≤ T := by
    intro n hn
    rw [hT]
    refine term_err A h0 (hj n (hmem n hn)) (hB n (hmem n hn)) hL hL0 hρ (le_trans ?_ hW) hD
    rw [abs_mul]
    have : |(n : ℝ)| ≤ nb := by
      have := hmem n hn
      rw [← Int.cast_abs]
      exact_mod_cast this
    exact add_le_add le_rfl (mul_le_mul_of_nonneg_right this (abs_nonneg _))
  have hexact : tuckerDc idc vb vph nb alpha = (l.map fun n => besselJ n alpha ^ 2 * idc (vb + n * vph)).sum := by
    rw [← pumpedIv_eq]
    unfold Zemb.pumpedIv
    have h : ∀ (l : List ℤ) (g : ℤ → ℝ) (s : ℝ), l.foldl (fun s n => s + g n) s = s + (l.map g).sum := by
      intro l g
      induction l with
      | nil => simp
      | cons a l ih => intro s; simp [ih, add_assoc]
    rw [h, zero_add]
  have hB0 : 0 ≤ B := (abs_nonneg _).trans (hB 0 (by simp))
  have hT0 : 0 ≤ T := (abs_nonneg _).trans (ht 0 (by rw [hl, mem_pyRange]; omega))
  have hN' : (l.length : ℝ) = N := by rw [hlen, hN]; push_cast; ring
  have hN0 : 0 ≤ N := by rw [← hN']; positivity
  have e1 : |(l.map (term A jv idcF vb vph alpha)).sum - tuckerDc idc vb vph nb alpha| ≤ N * T := by
    have hsub : ∀ (l : List ℤ) (f g : ℤ → ℝ), (l.map f).sum - (l.map g).sum = (l.map fun n => f n - g n).sum := by
      intro l f g
      induction l with
      | nil => simp
      | cons a l ih =>
        simp only [List.map_cons, List.sum_cons]
        rw [← ih]
        ring
    rw [hexact, ← hN', hsub]
    have habs : ∀ (l : List ℤ) (f : ℤ → ℝ), (∀ n ∈ l, |f n| ≤ T) → |(l.map f).sum| ≤ l.length * T := by
      intro l f
      induction l with
      | nil => simp
      | cons a l ih =>
        intro h
        simp only [List.map_cons, List.sum_cons, List.length_cons]
        push_cast
        refine (abs_add_le _ _).trans ?_
        linarith [h a (by simp), ih fun n hn => h n (by simp [hn])]
    exact habs l _ ht
  have e2 : (l.map fun n => |term A jv idcF vb vph alpha n|).sum ≤ B + N * T := by
    have h1 : ∀ n ∈ l, |term A jv idcF vb vph alpha n| ≤ besselJ n alpha ^ 2 * B + T := by
      intro n hn
      have h2 := abs_sub_abs_le_abs_sub (term A jv idcF vb vph alpha n) (besselJ n alpha ^ 2 * idc (vb + n * vph))
      have h3 : |besselJ n alpha ^ 2 * idc (vb + n * vph)| ≤ besselJ n alpha ^ 2 * B := by
        rw [abs_mul, abs_of_nonneg (sq_nonneg _)]
        exact mul_le_mul_of_nonneg_left (hB n (hmem n hn)) (sq_nonneg _)
      linarith [ht n hn]
    have h4 : (l.map fun n => besselJ n alpha ^ 2 * B + T).sum = (∑ n ∈ Icc (-(nb : ℤ)) nb, besselJ n alpha ^ 2) * B + N * T := by
      rw [List.sum_map_add, List.sum_map_mul_right, ← hN']
      refine congrArg₂ (· + ·) (congrArg (· * B) ?_) ?_
      · have h5 := foldl_pyRange (fun n => besselJ n alpha ^ 2) nb
        have h : ∀ (l : List ℤ) (g : ℤ → ℝ) (s : ℝ), l.foldl (fun s n => s + g n) s = s + (l.map g).sum := by
          intro l g
          induction l with
          | nil => simp
          | cons a l ih => intro s; simp [ih, add_assoc]
        rw [h, zero_add] at h5
        exact h5
      · simp
    refine (List.sum_le_sum h1).trans ?_
    rw [h4]
    have := sum_besselJ_sq_le (Icc (-(nb : ℤ)) nb) ha
    nlinarith
  have e3 := sum_err A h0 l (term A jv idcF vb vph alpha)
  rw [hlen] at e3
  have hp : 0 ≤ (1 + u) ^ (2 * nb + 1) - 1 := by
    have : 1 ≤ (1 + u) ^ (2 * nb + 1) := one_le_pow₀ (by linarith)
    linarith
  calc _ ≤ |pumpedIv A jv idcF vb vph nb alpha - (l.map (term A jv idcF vb vph alpha)).sum|
        + |(l.map (term A jv idcF vb vph alpha)).sum - tuckerDc idc vb vph nb alpha| := abs_sub_le _ _ _
    _ ≤ ((1 + u) ^ (2 * nb + 1) - 1) * (B + N * T) + N * T := add_le_add (e3.trans (mul_le_mul_of_nonneg_left e2 hp)) e1
    _ = _ := by ring

/-- The conditions on a bias point: `c` is the error of the computed currents and `ν` the total error. -/
structure Steep (u : ℝ) (idc : ℝ → ℝ) (vph alphaMax : ℝ) (nb : ℤ) (s c ν vb a : ℝ) : Prop where
  /-- the slope is positive -/
  pos : 0 < s
  /-- the current rises with slope at least `s` from its value at `a`, on either side -/
  slope : ∀ x, 0 ≤ x → x ≤ a + alphaMax / 2 + ν / s + 15 * (u * (2 * a + 2 * (ν / s) + 7 * alphaMax)) →
    s * (x - a) ^ 2 ≤ (tuckerDc idc vb vph nb x - tuckerDc idc vb vph nb a) * (x - a)
  /-- the linear estimate is not too far away -/
  near : |(tuckerDc idc vb vph nb a - idc vb) / (tuckerDc idc vb vph nb alphaMax - idc vb) * alphaMax - a|
    ≤ alphaMax / 2 - 5 * (u * (alphaMax + ν / s))
  /-- the mean slope up to `alpha_max` is large enough -/
  mean : s * alphaMax + c ≤ |tuckerDc idc vb vph nb alphaMax - idc vb|
  /-- the current is below the one at `alpha_max` -/
  below : |tuckerDc idc vb vph nb a - idc vb| ≤ |tuckerDc idc vb vph nb alphaMax - idc vb|

/-- The first estimate in rounded arithmetic. -/
theorem estimate_err (A : Fp u) (h0 : 0 ≤ u) (hu : u ≤ 1 / 1000) {d₁ d₂ D₁ D₂ c₁ c₂ s M : ℝ} (hs : 0 < s) (hM : 0 < M)
    (h1 : |d₁ - D₁| ≤ c₁) (h2 : |d₂ - D₂| ≤ c₂) (hD : s * M + c₂ ≤ |D₂|) (hq : |D₁| ≤ |D₂|) :
    A.rnd d₂ ≠ 0 ∧
      |A.rnd (A.rnd (A.rnd d₁ / A.rnd d₂) * M) - D₁ / D₂ * M| ≤ (c₁ + c₂) / s + 5 * (u * (M + (c₁ + c₂) / s)) := by
  have hsM : 0 < s * M := by positivity
  have hc1 : 0 ≤ c₁ := (abs_nonneg _).trans h1
  have hc2 : 0 ≤ c₂ := (abs_nonneg _).trans h2
  have hd2 : s * M ≤ |d₂| := by
    have := abs_sub_abs_le_abs_sub D₂ d₂
    rw [abs_sub_comm] at this
    linarith
  have hd2' : 0 < |d₂| := hsM.trans_le hd2
  have hD2 : 0 < |D₂| := by linarith
  have hd20 : d₂ ≠ 0 := abs_pos.1 hd2'
  have hD20 : D₂ ≠ 0 := abs_pos.1 hD2
  -- the quotient
  have hquot : |d₁ / d₂ * M - D₁ / D₂ * M| ≤ (c₁ + c₂) / s := by
    have e : d₁ / d₂ * M - D₁ / D₂ * M = ((d₁ - D₁) - D₁ / D₂ * (d₂ - D₂)) / d₂ * M := by
      field_simp
      ring
    rw [e, abs_mul, abs_of_pos hM, abs_div]
    have hr : |D₁ / D₂| ≤ 1 := by
      rw [abs_div]
      exact (div_le_one hD2).2 hq
    have h3 : |(d₁ - D₁) - D₁ / D₂ * (d₂ - D₂)| ≤ c₁ + c₂ := by
      refine (abs_sub _ _).trans ?_
      rw [abs_mul]
      have : |D₁ / D₂| * |d₂ - D₂| ≤ 1 * c₂ := mul_le_mul hr h2 (abs_nonneg _) zero_le_one
      linarith
    rw [div_mul_eq_mul_div, div_le_div_iff₀ hd2' hs]
    calc |(d₁ - D₁) - D₁ / D₂ * (d₂ - D₂)| * M * s ≤ (c₁ + c₂) * M * s := by gcongr
      _ = (c₁ + c₂) * (s * M) := by ring
      _ ≤ _ := mul_le_mul_of_nonneg_left hd2 (by positivity)
  have hu1 : u < 1 := by linarith
  -- rounding
  have fac : ∀ x, ∃ δ, |δ| ≤ u ∧ A.rnd x = x * (1 + δ) := by
    intro x
    rcases eq_or_ne x 0 with rfl | hx
    · exact ⟨0, by simpa using h0, by rw [rnd_zero, zero_mul]⟩
    · refine ⟨(A.rnd x - x) / x, ?_, by field_simp; ring⟩
      rw [abs_div, div_le_iff₀ (abs_pos.2 hx)]
      exact A.rnd_le x
  obtain ⟨δ₁, hδ₁, e₁⟩ := fac d₁
  obtain ⟨δ₂, hδ₂, e₂⟩ := fac d₂
  obtain ⟨δ₃, hδ₃, e₃⟩ := fac (A.rnd d₁ / A.rnd d₂)
  obtain ⟨δ₄, hδ₄, e₄⟩ := fac (A.rnd (A.rnd d₁ / A.rnd d₂) * M)
  rw [abs_le] at hδ₁ hδ₂ hδ₃ hδ₄
  have h2p : 0 < 1 + δ₂ := by linarith
  refine ⟨by rw [e₂]; exact mul_ne_zero hd20 h2p.ne', ?_⟩
  have hval : A.rnd (A.rnd (A.rnd d₁ / A.rnd d₂) * M) = d₁ / d₂ * M * ((1 + δ₁) * (1 + δ₃) * (1 + δ₄) / (1 + δ₂)) := by
    rw [e₄, e₃, e₁, e₂]
    field_simp
  have hfac : |(1 + δ₁) * (1 + δ₃) * (1 + δ₄) / (1 + δ₂) - 1| ≤ 5 * u := by
    have p1 : 0 ≤ 1 + δ₁ := by linarith
    have p3 : 0 ≤ 1 + δ₃ := by linarith
    have p4 : 0 ≤ 1 + δ₄ := by linarith
    have up : (1 + δ₁) * (1 + δ₃) * (1 + δ₄) ≤ (1 + u) * (1 + u) * (1 + u) := by
      gcongr <;> linarith
    have q : 0 ≤ 1 - u := by linarith
    have lo : (1 - u) * (1 - u) * (1 - u) ≤ (1 + δ₁) * (1 + δ₃) * (1 + δ₄) := by
      gcongr <;> linarith
    have uu : u * u ≤ 1 / 1000 * u := mul_le_mul_of_nonneg_right hu h0
    have uuu : u * u * u ≤ 1 / 1000 * u := by nlinarith
    rw [abs_le]
    constructor
    · rw [le_sub_iff_add_le, le_div_iff₀ h2p]
      nlinarith
    · rw [sub_le_iff_le_add, div_le_iff₀ h2p]
      nlinarith
  have hDM : |D₁ / D₂ * M| ≤ M := by
    rw [abs_mul, abs_of_pos hM, abs_div]
    exact mul_le_of_le_one_left hM.le ((div_le_one hD2).2 hq)
  have hdM : |d₁ / d₂ * M| ≤ M + (c₁ + c₂) / s := by
    have := abs_sub_abs_le_abs_sub (d₁ / d₂ * M) (D₁ / D₂ * M)
    linarith
  have hr : |A.rnd (A.rnd (A.rnd d₁ / A.rnd d₂) * M) - d₁ / d₂ * M| ≤ 5 * (u * (M + (c₁ + c₂) / s)) := by
    rw [hval, ← mul_sub_one, abs_mul]
    calc _ ≤ (M + (c₁ + c₂) / s) * (5 * u) := mul_le_mul hdM hfac (abs_nonneg _) ((abs_nonneg _).trans hdM)
      _ = _ := by ring
  have := abs_sub_le (A.rnd (A.rnd (A.rnd d₁ / A.rnd d₂) * M)) (d₁ / d₂ * M) (D₁ / D₂ * M)
  linarith

/-- C178. The drive level found in rounded arithmetic. The measured current has the error `m`, the computed one the error `c`
(see `C178_current`), so that with `ν = m + c + 2 ρ` the drive level is found up to `alpha_max / 2^16`, the error `ν / s` that
follows from the currents, and the rounding of the refinement itself. -/
theorem C178_drive_level (A : Fp u) (h0 : 0 ≤ u) (hu : u ≤ 1 / 1000) (jv : ℤ → ℝ → ℝ) (idc idcF : ℝ → ℝ) (vph alphaMax : ℝ) (nb : ℕ)
    {vb i a s e B L W ρ D T N m c ν X : ℝ} (hmax : 0 < alphaMax) (ha : 0 ≤ a)
    (hX : a + alphaMax / 2 + ν / s + 15 * (u * (2 * a + 2 * (ν / s) + 7 * alphaMax)) ≤ X) (hX' : alphaMax ≤ X)
    (hj : ∀ (n : ℤ) (x : ℝ), |n| ≤ nb → 0 ≤ x → x ≤ X → |jv n x - besselJ n x| ≤ e)
    (hB : ∀ n : ℤ, |n| ≤ nb → |idc (vb + n * vph)| ≤ B) (hL : ∀ x y, |idc x - idc y| ≤ L * |x - y|) (hL0 : 0 ≤ L)
    (hρ : ∀ x, |idcF x - idc x| ≤ ρ) (hW : |vb| + nb * |vph| ≤ W) (hD : D = L * ((2 * u + u ^ 2) * W) + ρ)
    (hT : T = e * (2 + e) * (B + D) + D + (2 * u + u ^ 2) * (1 + e) ^ 2 * (B + D)) (hN : N = 2 * nb + 1)
    (hc : c = N * T + ((1 + u) ^ (2 * nb + 1) - 1) * (B + N * T)) (hν : ν = m + c + 2 * ρ)
    (hi : |i - tuckerDc idc vb vph nb a| ≤ m) (h : Steep u idc vph alphaMax nb s (c + ρ) ν vb a) :
    ∃ r, findAlpha A jv idcF vph alphaMax nb vb i = .ok r ∧ 0 ≤ r ∧
      |r - a| ≤ alphaMax / 2 ^ 16 + ν / s + 15 * (u * (2 * a + 2 * (ν / s) + 7 * alphaMax)) := by
  have hs := h.pos
  have hcur : ∀ x, 0 ≤ x → x ≤ X → |pumpedIv A jv idcF vb vph nb x - tuckerDc idc vb vph nb x| ≤ c := by
    intro x hx hxX
    rw [hc]
    exact C178_current A h0 jv idc idcF vb vph x nb hx (fun n hn => hj n x hn hx hxX) hB hL hL0 hρ hW hD hT hN
  have hρ0 : 0 ≤ ρ := (abs_nonneg _).trans (hρ 0)
  have hm0 : 0 ≤ m := (abs_nonneg _).trans hi
  have hc0 : 0 ≤ c := (abs_nonneg _).trans (hcur alphaMax hmax.le hX')
  have hν0 : 0 ≤ ν := by rw [hν]; positivity
  have hη : 0 ≤ ν / s := by positivity
  have hβ : 0 ≤ 15 * (u * (2 * a + 2 * (ν / s) + 7 * alphaMax)) := by positivity
  obtain ⟨hne, hest⟩ := estimate_err A h0 hu (d₁ := i - idcF vb) (d₂ := pumpedIv A jv idcF vb vph nb alphaMax - idcF vb)
    (D₁ := tuckerDc idc vb vph nb a - idc vb) (D₂ := tuckerDc idc vb vph nb alphaMax - idc vb) (c₁ := m + ρ) (c₂ := c + ρ) hs hmax
    (by
      have h1 := hρ vb
      rw [abs_le] at hi h1 ⊢
      constructor <;> linarith)
    (by
      have h1 := hρ vb
      have h2 := hcur alphaMax hmax.le hX'
      rw [abs_le] at h1 h2 ⊢
      constructor <;> linarith)
    h.mean h.below
  rw [show m + ρ + (c + ρ) = ν by rw [hν]; ring] at hest
  obtain ⟨x₀, hx₀⟩ : ∃ x₀, x₀ = A.rnd (A.rnd (A.rnd (i - idcF vb) / A.rnd (pumpedIv A jv idcF vb vph nb alphaMax - idcF vb)) * alphaMax) :=
    ⟨_, rfl⟩
  rw [← hx₀] at hest
  have hE : estimate A jv idcF vph alphaMax nb vb i = .ok (max 0 x₀) := by
    unfold estimate
    simp only [Np.fdiv, if_neg hne]
    change Except.ok (if A.rnd (A.rnd _ * alphaMax) < 0 then 0 else A.rnd (A.rnd _ * alphaMax)) = _
    rw [← hx₀]
    congr 1
    split_ifs with h'
    · rw [max_eq_left h'.le]
    · rw [max_eq_right (not_lt.1 h')]
  have hstart : |max 0 x₀ - a| ≤ alphaMax / 2 + ν / s := by
    have h1 := h.near
    have h2 := abs_sub_le x₀ ((tuckerDc idc vb vph nb a - idc vb) / (tuckerDc idc vb vph nb alphaMax - idc vb) * alphaMax) a
    have h3 : |x₀ - a| ≤ alphaMax / 2 + ν / s := by linarith
    refine le_trans ?_ h3
    rcases le_total 0 x₀ with h' | h'
    · rw [max_eq_right h']
    · rw [max_eq_left h', zero_sub, abs_neg, abs_of_nonneg ha, abs_of_nonpos (by linarith)]
      linarith
  have hp := loop_noise A h0 hu (pumpedIv A jv idcF vb vph nb) (i := i) (η := ν / s) (x₀ := max 0 x₀) hmax ha hη
    (by
      intro x hx hxa
      have h1 := h.slope x hx (by linarith)
      have h2 := (abs_le.1 (hcur x hx (by linarith))).2
      have h3 := (abs_le.1 hi).1
      have h4 : s * (a - x) ≤ tuckerDc idc vb vph nb a - tuckerDc idc vb vph nb x := by
        have : 0 < a - x := by linarith
        by_contra hcon
        nlinarith
      have h5 : ν < s * (a - x) := by
        rw [mul_comm, ← div_lt_iff₀ hs]
        linarith
      linarith)
    (by
      intro x hxa hx
      have hx0 : 0 ≤ x := by linarith
      have h1 := h.slope x hx0 hx
      have h2 := (abs_le.1 (hcur x hx0 (hx.trans hX))).1
      have h3 := (abs_le.1 hi).2
      have h4 : s * (x - a) ≤ tuckerDc idc vb vph nb x - tuckerDc idc vb vph nb a := by
        have : 0 < x - a := by linarith
        by_contra hcon
        nlinarith
      have h5 : ν < s * (x - a) := by
        rw [mul_comm, ← div_lt_iff₀ hs]
        linarith
      linarith)
    (le_max_left _ _) hstart (le_refl 15)
  refine ⟨_, ?_, hp.1, hp.2.trans (le_of_eq ?_)⟩
  · unfold findAlpha
    rw [hE]
    rfl
  · norm_num
    ring

/-! ## A case that meets the hypotheses -/

/-- A current that rises from `0` to `1` just above the gap. -/
noncomputable def ramp (v : ℝ) : ℝ := min 1 (max 0 (20 * (v - 1)))

theorem ramp_lip (x y : ℝ) : |ramp x - ramp y| ≤ 20 * |x - y| := by
  unfold ramp
  refine (abs_min_sub_min_le_max _ _ _ _).trans ?_
  rw [sub_self, abs_zero]
  refine max_le (by positivity) ((abs_max_sub_max_le_max _ _ _ _).trans ?_)
  rw [sub_self, abs_zero, show 20 * (x - 1) - 20 * (y - 1) = 20 * (x - y) by ring, abs_mul, abs_of_pos (by norm_num : (0 : ℝ) < 20)]
  exact max_le (by positivity) le_rfl

theorem ramp_low {v : ℝ} (h : v ≤ 1) : ramp v = 0 := by
  unfold ramp
  rw [max_eq_left (by linarith), min_eq_right zero_le_one]

theorem ramp_high {v : ℝ} (h : 1.1 ≤ v) : ramp v = 1 := by
  unfold ramp
  norm_num at h
  exact min_eq_left (le_max_of_le_right (by linarith))

theorem ramp_abs (v : ℝ) : |ramp v| ≤ 1 := by
  unfold ramp
  rw [abs_of_nonneg (le_min zero_le_one (le_max_left _ _))]
  exact min_le_left _ _

theorem ramp_dc (a : ℝ) : tuckerDc ramp 0.9 0.3 1 a = besselJ 1 a ^ 2 := by
  unfold tuckerDc
  rw [show Icc (-1 : ℤ) 1 = {-1, 0, 1} by decide]
  rw [sum_insert (by decide), sum_insert (by decide), sum_singleton]
  rw [ramp_low (by norm_num), ramp_low (by norm_num), ramp_high (by norm_num)]
  ring

theorem ramp_steep {u c ν : ℝ} (h0 : 0 ≤ u) (hu : u ≤ 1 / 10 ^ 15) (hc : c ≤ 1 / 1000) (hν0 : 0 ≤ ν) (hν : ν ≤ 2 / 10 ^ 6) :
    Steep u ramp 0.3 1 1 (1 / 50) c ν 0.9 (1 / 2) := by
  have hg : ramp 0.9 = 0 := ramp_low (by norm_num)
  have hj := QMix.Props.j1_half
  have hj1 : besselJ 1 1 ≤ 1 := (le_abs_self _).trans (abs_besselJ_le_one 1 1)
  have h3 := QMix.Props.j1_rise (x := 1) (y := 1 / 2) (by norm_num) (by norm_num) (by norm_num)
  have hη : ν / (1 / 50) ≤ 1 / 10 ^ 4 := by
    rw [div_le_iff₀ (by norm_num)]
    norm_num at hν ⊢
    linarith
  have hη0 : 0 ≤ ν / (1 / 50) := by positivity
  refine ⟨by norm_num, ?_, ?_, ?_, ?_⟩
  · intro x hx0 hx
    rw [ramp_dc, ramp_dc]
    have hx' : x ≤ 1.0005 := by
      have : u * (2 * (1 / 2) + 2 * (ν / (1 / 50)) + 7 * 1) ≤ 1 / 10 ^ 15 * 10 := by
        refine mul_le_mul hu ?_ (by positivity) (by positivity)
        norm_num at hη ⊢
        linarith
      norm_num at this hη hx ⊢
      linarith
    have hxj : 0 ≤ besselJ 1 x := by
      have := QMix.Props.j1_rise le_rfl hx0 hx'
      rw [besselJ_zero_right one_ne_zero] at this
      linarith
    have e : (besselJ 1 x ^ 2 - besselJ 1 (1 / 2) ^ 2) * (x - 1 / 2)
        = (besselJ 1 x + besselJ 1 (1 / 2)) * ((besselJ 1 x - besselJ 1 (1 / 2)) * (x - 1 / 2)) := by ring
    have hq : (x - 1 / 2) ^ 2 / 10 ≤ (besselJ 1 x - besselJ 1 (1 / 2)) * (x - 1 / 2) := by
      rcases le_total (1 / 2) x with h | h
      · have := QMix.Props.j1_rise (by norm_num) h hx'
        nlinarith
      · have := QMix.Props.j1_rise hx0 h (by norm_num)
        nlinarith
    rw [e]
    calc 1 / 50 * (x - 1 / 2) ^ 2 = 1 / 5 * ((x - 1 / 2) ^ 2 / 10) := by ring
      _ ≤ _ := mul_le_mul (by linarith) hq (by positivity) (by linarith)
  · rw [ramp_dc, ramp_dc, hg, sub_zero, sub_zero, mul_one]
    have hp : 0 < besselJ 1 1 ^ 2 := by
      have : 0 < besselJ 1 1 := by linarith
      positivity
    have r1 : 1 / 25 ≤ besselJ 1 (1 / 2) ^ 2 / besselJ 1 1 ^ 2 := by
      rw [le_div_iff₀ hp]
      nlinarith
    have r2 : besselJ 1 (1 / 2) ^ 2 / besselJ 1 1 ^ 2 ≤ 95 / 100 := by
      rw [div_le_iff₀ hp]
      nlinarith
    have r3 : u * (1 + ν / (1 / 50)) ≤ 1 / 10 ^ 15 * 2 := by
      refine mul_le_mul hu ?_ (by positivity) (by positivity)
      norm_num at hη ⊢
      linarith
    norm_num at r3 ⊢
    rw [abs_le]
    constructor <;> linarith
  · rw [ramp_dc, hg, sub_zero, abs_of_nonneg (sq_nonneg _)]
    norm_num at h3 hc ⊢
    nlinarith
  · rw [ramp_dc, ramp_dc, hg, sub_zero, sub_zero, abs_of_nonneg (sq_nonneg _), abs_of_nonneg (sq_nonneg _)]
    nlinarith

/-- In double precision, with Bessel functions and an interpolation accurate to `10^-14`: if the current was measured up to `10^-6`,
the drive level `1/2` is found up to `0.0001`. -/
example (A : Fp (1 / 2 ^ 53)) (jv : ℤ → ℝ → ℝ) (idcF : ℝ → ℝ) (hj : ∀ n x, |jv n x - besselJ n x| ≤ 1 / 10 ^ 14)
    (hF : ∀ x, |idcF x - ramp x| ≤ 1 / 10 ^ 14) :
    ∃ r, findAlpha A jv idcF 0.3 1 1 0.9 (besselJ 1 (1 / 2) ^ 2 + 1 / 10 ^ 6) = .ok r ∧ |r - 1 / 2| ≤ 0.0001 := by
  obtain ⟨D, hD⟩ : ∃ D : ℝ, D = 20 * ((2 * (1 / 2 ^ 53) + (1 / 2 ^ 53) ^ 2) * 1.2) + 1 / 10 ^ 14 := ⟨_, rfl⟩
  obtain ⟨T, hT⟩ : ∃ T : ℝ, T = 1 / 10 ^ 14 * (2 + 1 / 10 ^ 14) * (1 + D) + D
      + (2 * (1 / 2 ^ 53) + (1 / 2 ^ 53) ^ 2) * (1 + 1 / 10 ^ 14) ^ 2 * (1 + D) := ⟨_, rfl⟩
  obtain ⟨c, hc⟩ : ∃ c : ℝ, c = 3 * T + ((1 + 1 / 2 ^ 53) ^ (2 * 1 + 1) - 1) * (1 + 3 * T) := ⟨_, rfl⟩
  have hc1 : 0 ≤ c ∧ c ≤ 1 / 10 ^ 12 := by
    rw [hc, hT, hD]
    norm_num
  obtain ⟨ν, hν⟩ : ∃ ν : ℝ, ν = 1 / 10 ^ 6 + c + 2 * (1 / 10 ^ 14) := ⟨_, rfl⟩
  have hν1 : 0 ≤ ν ∧ ν ≤ 1.1 / 10 ^ 6 := by
    rw [hν]
    norm_num at hc1 ⊢
    constructor <;> linarith
  have hη : ν / (1 / 50) ≤ 1 / 10 ^ 4 * (55 / 100) := by
    rw [div_le_iff₀ (by norm_num)]
    have := hν1.2
    norm_num at this ⊢
    linarith
  have hη0 : 0 ≤ ν / (1 / 50) := div_nonneg hν1.1 (by norm_num)
  obtain ⟨r, h1, -, h2⟩ := C178_drive_level A (by norm_num) (by norm_num) jv ramp idcF 0.3 1 1 (vb := 0.9)
    (i := besselJ 1 (1 / 2) ^ 2 + 1 / 10 ^ 6) (a := 1 / 2) (s := 1 / 50) (e := 1 / 10 ^ 14) (B := 1) (L := 20) (W := 1.2) (N := 3)
    (m := 1 / 10 ^ 6) (X := 2) one_pos (by norm_num) (by norm_num at hη hη0 ⊢; linarith) (by norm_num) (fun n x _ _ _ => hj n x)
    (fun n _ => ramp_abs _) ramp_lip (by norm_num) hF
    (by rw [abs_of_pos (by norm_num), abs_of_pos (by norm_num)]; norm_num) hD hT (by norm_num) hc hν
    (by rw [Nat.cast_one, ramp_dc, add_sub_cancel_left]; norm_num)
    (ramp_steep (by norm_num) (by norm_num) (by have := hc1.2; norm_num at this ⊢; linarith) hν1.1
      (hν1.2.trans (by norm_num)))
  refine ⟨r, h1, h2.trans ?_⟩
  norm_num at hη hη0 ⊢
  linarith

end QMix.AlphaFp
