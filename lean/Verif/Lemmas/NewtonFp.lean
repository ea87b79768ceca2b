import Verif.Model.HbFp2
import Verif.Lemmas.Newton
import Verif.Lemmas.RelErr

/-! One update of the harmonic balance procedure near a solution, with rounding errors. -/

namespace QMix.HB

open Complex

variable {n : ℕ}

/-- The complex vector with given real and imaginary parts. -/
def cx (y : JIx n → ℝ) : Fin n → ℂ := fun k => ⟨y (k, 0), y (k, 1)⟩

theorem realify_cx (y : JIx n → ℝ) : realify (cx y) = y := by
  funext ⟨k, a⟩
  fin_cases a <;> simp [realify, cx]

theorem cx_realify (x : Fin n → ℂ) : cx (realify x) = x := realify_inj (realify_cx _)

theorem realify_add (x y : Fin n → ℂ) : realify (x + y) = realify x + realify y := by
  funext ⟨k, a⟩
  fin_cases a <;> simp [realify]

theorem realify_sub (x y : Fin n → ℂ) : realify (x - y) = realify x - realify y := by
  funext ⟨k, a⟩
  fin_cases a <;> simp [realify]

theorem realify_neg (x : Fin n → ℂ) : realify (-x) = -realify x := by
  funext ⟨k, a⟩
  fin_cases a <;> simp [realify]

theorem realify_smul (r : ℝ) (x : Fin n → ℂ) : realify (r • x) = r • realify x := by
  funext ⟨k, a⟩
  fin_cases a <;> simp [realify]

theorem abs_realify_le (x : Fin n → ℂ) (a : JIx n) : |realify x a| ≤ ‖x‖ := by
  obtain ⟨k, a⟩ := a
  fin_cases a
  · simpa [realify] using (abs_re_le_norm (x k)).trans (norm_le_pi_norm x k)
  · simpa [realify] using (abs_im_le_norm (x k)).trans (norm_le_pi_norm x k)

theorem norm_le_realify {x : Fin n → ℂ} {B : ℝ} (hB : 0 ≤ B) (h : ∀ a, |realify x a| ≤ B) : ‖x‖ ≤ 2 * B := by
  refine (pi_norm_le_iff_of_nonneg (by positivity)).2 fun k => ?_
  have h0 := h (k, 0)
  have h1 := h (k, 1)
  simp only [realify, if_true, one_ne_zero, if_false] at h0 h1
  exact (Complex.norm_le_abs_re_add_abs_im _).trans (by linarith)

theorem card_jix : Fintype.card (JIx n) = 2 * n := by
  simp [JIx, mul_comm]

/-- A matrix with small entries, applied to a vector. -/
theorem norm_cx_mulVec_le (Y : Matrix (JIx n) (JIx n) ℝ) {y : ℝ} (hy : 0 ≤ y) (h : ∀ a b, |Y a b| ≤ y) (x : Fin n → ℂ) :
    ‖cx (Y.mulVec (realify x))‖ ≤ 4 * n * y * ‖x‖ := by
  have := norm_le_realify (x := cx (Y.mulVec (realify x))) (B := 2 * n * (y * ‖x‖)) (by positivity) fun a => by
    rw [realify_cx]
    simp only [Matrix.mulVec, dotProduct]
    refine (Finset.abs_sum_le_sum_abs _ _).trans ((Finset.sum_le_card_nsmul _ _ (y * ‖x‖) fun b _ => ?_).trans ?_)
    · rw [abs_mul]
      exact mul_le_mul (h a b) (abs_realify_le x b) (abs_nonneg _) hy
    · rw [Finset.card_univ, card_jix, nsmul_eq_mul]; push_cast; exact le_rfl
  linarith

/-- The linear map of a matrix. -/
noncomputable def mapOf (J : Matrix (JIx n) (JIx n) ℝ) : (Fin n → ℂ) →ₗ[ℝ] (Fin n → ℂ) where
  toFun x := cx (J.mulVec (realify x))
  map_add' x y := by
    apply realify_inj
    simp only [realify_add, realify_cx, Matrix.mulVec_add]
  map_smul' r x := by
    apply realify_inj
    simp only [RingHom.id_apply, realify_smul, realify_cx, Matrix.mulVec_smul]

theorem realify_mapOf (J : Matrix (JIx n) (JIx n) ℝ) (x : Fin n → ℂ) : realify (mapOf J x) = J.mulVec (realify x) := realify_cx _

/-- Two linear maps that are close on the unit vectors. -/
theorem near_of_columns {M A : (Fin n → ℂ) →ₗ[ℝ] (Fin n → ℂ)} {κ : ℝ}
    (h : ∀ q z, z = 1 ∨ z = I → ‖M (Pi.single q z) - A (Pi.single q z)‖ ≤ κ) (u : Fin n → ℂ) : ‖M u - A u‖ ≤ 2 * n * κ * ‖u‖ := by
  have hx : M u - A u = ∑ q, ((u q).re • (M (Pi.single q 1) - A (Pi.single q 1))
      + (u q).im • (M (Pi.single q I) - A (Pi.single q I))) := by
    conv_lhs => rw [eq_sum_basis u]
    rw [← LinearMap.sub_apply, map_sum]
    refine Finset.sum_congr rfl fun q _ => ?_
    rw [map_add, map_smul, map_smul, LinearMap.sub_apply, LinearMap.sub_apply]
  rw [hx]
  refine (norm_sum_le _ _).trans ?_
  have hb : ∀ q ∈ (Finset.univ : Finset (Fin n)), ‖(u q).re • (M (Pi.single q 1) - A (Pi.single q 1))
      + (u q).im • (M (Pi.single q I) - A (Pi.single q I))‖ ≤ 2 * κ * ‖u‖ := by
    intro q _
    refine (norm_add_le _ _).trans ?_
    rw [norm_smul, norm_smul]
    have h1 : ‖(u q).re‖ ≤ ‖u‖ := (abs_re_le_norm _).trans (norm_le_pi_norm u q)
    have h2 : ‖(u q).im‖ ≤ ‖u‖ := (abs_im_le_norm _).trans (norm_le_pi_norm u q)
    have h3 := mul_le_mul h1 (h q 1 (.inl rfl)) (norm_nonneg _) (norm_nonneg _)
    have h4 := mul_le_mul h2 (h q I (.inr rfl)) (norm_nonneg _) (norm_nonneg _)
    linarith
  refine (Finset.sum_le_card_nsmul _ _ _ hb).trans (le_of_eq ?_)
  rw [Finset.card_univ, Fintype.card_fin, nsmul_eq_mul]
  ring

section Inj

variable {M A : (Fin n → ℂ) →ₗ[ℝ] (Fin n → ℂ)} {β κ : ℝ}

/-- The inverse of a map close to `A`. -/
theorem near_inverse (hβ : 0 ≤ β) (hκ : 0 ≤ κ) (hA : ∀ u, ‖u‖ ≤ β * ‖A u‖) (hs : β * κ * (6 * n + 2) ≤ 1)
    (hM : ∀ u, ‖M u - A u‖ ≤ 2 * n * κ * ‖u‖) (u : Fin n → ℂ) : ‖u‖ ≤ 3 / 2 * β * ‖M u‖ := by
  have h3 : ‖A u‖ ≤ ‖M u‖ + ‖M u - A u‖ := by
    have := norm_sub_le (M u) (M u - A u)
    rwa [sub_sub_cancel] at this
  have h4 : ‖u‖ ≤ β * ‖M u‖ + 2 * n * (β * κ) * ‖u‖ := by
    calc ‖u‖ ≤ β * ‖A u‖ := hA u
      _ ≤ β * (‖M u‖ + 2 * n * κ * ‖u‖) := mul_le_mul_of_nonneg_left (by have := hM u; linarith) hβ
      _ = _ := by ring
  have ht : 0 ≤ β * κ := mul_nonneg hβ hκ
  have h5 : 2 * n * (β * κ) ≤ 1 / 3 := by linarith
  have := mul_le_mul_of_nonneg_right h5 (norm_nonneg u)
  linarith

theorem near_half (hβ : 0 ≤ β) (hκ : 0 ≤ κ) (hA : ∀ u, ‖u‖ ≤ β * ‖A u‖) (hs : β * κ * (6 * n + 2) ≤ 1)
    (hM : ∀ u, ‖M u - A u‖ ≤ 2 * n * κ * ‖u‖) {u : Fin n → ℂ} {c : ℝ} (hc : ‖M u‖ ≤ (2 * n + 1) * κ * c) (hc0 : 0 ≤ c) :
    ‖u‖ ≤ 1 / 2 * c := by
  have h1 := hM u
  have h2 := hA u
  have h3 : ‖A u‖ ≤ ‖M u‖ + ‖M u - A u‖ := by
    have := norm_sub_le (M u) (M u - A u)
    rwa [sub_sub_cancel] at this
  have hn : (0 : ℝ) ≤ n := Nat.cast_nonneg n
  have hu := norm_nonneg u
  set t := β * κ with ht
  have ht0 : 0 ≤ t := mul_nonneg hβ hκ
  have h4 : ‖u‖ ≤ (2 * n + 1) * t * c + 2 * n * t * ‖u‖ := by
    calc ‖u‖ ≤ β * ‖A u‖ := h2
      _ ≤ β * ((2 * n + 1) * κ * c + 2 * n * κ * ‖u‖) := mul_le_mul_of_nonneg_left (by linarith) hβ
      _ = _ := by rw [ht]; ring
  have h5 : 0 < 1 - 2 * n * t := by nlinarith
  have h6 : (2 * n + 1) * t ≤ 1 / 2 * (1 - 2 * n * t) := by nlinarith
  have h7 : (1 - 2 * n * t) * ‖u‖ ≤ (1 - 2 * n * t) * (1 / 2 * c) := by
    have := mul_le_mul_of_nonneg_right h6 hc0
    nlinarith
  exact le_of_mul_le_mul_left h7 h5

end Inj

/-- One inexact Newton step: `fx` is the residual at distance `E` from the solution, `e` the computed residual, `J` a matrix close to the
linear map `A`, `Y` its computed inverse and `c` the computed correction. -/
theorem inexact_step {A : (Fin n → ℂ) →ₗ[ℝ] (Fin n → ℂ)} {β κ C η ε γ : ℝ} (hβ : 0 ≤ β) (hκ : 0 ≤ κ)
    (hA : ∀ u, ‖u‖ ≤ β * ‖A u‖) (hs : β * κ * (6 * n + 2) ≤ 1) (hC : ∀ u, ‖A u‖ ≤ C * ‖u‖) (hη : 0 ≤ η) (hγ : 0 ≤ γ)
    {J Y : Matrix (JIx n) (JIx n) ℝ} (hJ : ∀ q z, z = 1 ∨ z = I → ‖mapOf J (Pi.single q z) - A (Pi.single q z)‖ ≤ κ)
    (hY : ∀ X, J * X = 1 → ∀ a b, |Y a b - X a b| ≤ η) {E fx e c : Fin n → ℂ} (hfx : ‖fx - A E‖ ≤ κ * ‖E‖) (he : ‖e - fx‖ ≤ ε)
    (hc : ∀ a, |realify c a + Y.mulVec (realify e) a| ≤ γ * ∑ b, |Y a b| * |realify e b|) :
    ‖E + c‖ ≤ 1 / 2 * ‖E‖ + 4 * n * (γ * (3 / 2 * β + η) + η) * ((C + κ) * ‖E‖ + ε) + 3 / 2 * β * ε := by
  have hM := near_of_columns hJ
  have hinv := near_inverse hβ hκ hA hs hM
  have hdet : J.det ≠ 0 := by
    intro h0
    obtain ⟨y, hy0, hy⟩ := Matrix.exists_mulVec_eq_zero_iff.2 h0
    have h1 : mapOf J (cx y) = 0 := by
      apply realify_inj
      rw [realify_mapOf, realify_cx, hy]
      funext pa
      simp [realify]
    have h2 := hinv (cx y)
    rw [h1, norm_zero, mul_zero] at h2
    apply hy0
    rw [← realify_cx y, norm_le_zero_iff.1 h2]
    funext pa
    simp [realify]
  have hu : IsUnit J.det := isUnit_iff_ne_zero.2 hdet
  set X := J⁻¹ with hX
  have hJX : J * X = 1 := Matrix.mul_nonsing_inv _ hu
  have hMX : ∀ x, mapOf J (cx (X.mulVec (realify x))) = x := by
    intro x
    apply realify_inj
    rw [realify_mapOf, realify_cx, Matrix.mulVec_mulVec, hJX, Matrix.one_mulVec]
  have hXn : ∀ x, ‖cx (X.mulVec (realify x))‖ ≤ 3 / 2 * β * ‖x‖ := fun x => by
    have := hinv (cx (X.mulVec (realify x)))
    rwa [hMX] at this
  have hXe : ∀ a b, |X a b| ≤ 3 / 2 * β := by
    intro a b
    have h1 := hXn (cx (Pi.single b 1))
    rw [realify_cx] at h1
    have h2 : ‖cx (Pi.single b 1 : JIx n → ℝ)‖ ≤ 1 := by
      obtain ⟨q, b⟩ := b
      refine (pi_norm_le_iff_of_nonneg zero_le_one).2 fun k => ?_
      by_cases hk : k = q
      · subst hk
        fin_cases b <;> simp [cx]
        · rw [show (⟨1, 0⟩ : ℂ) = 1 from rfl, norm_one]
        · rw [show (⟨0, 1⟩ : ℂ) = I from rfl, norm_I]
      · have : cx (Pi.single (q, b) 1 : JIx n → ℝ) k = 0 := by
          apply Complex.ext <;> simp [cx, hk]
        rw [this, norm_zero]
        exact zero_le_one
    have h3 := abs_realify_le (cx (X.mulVec (Pi.single b 1))) a
    rw [realify_cx] at h3
    have h4 : X.mulVec (Pi.single b 1) a = X a b := by rw [Matrix.mulVec_single_one]; rfl
    rw [h4] at h3
    refine h3.trans (h1.trans ?_)
    exact mul_le_of_le_one_right (by positivity) h2
  have hYe : ∀ a b, |Y a b| ≤ 3 / 2 * β + η := by
    intro a b
    have h1 := hY X hJX a b
    have h2 := hXe a b
    have h3 := abs_add_le (Y a b - X a b) (X a b)
    rw [sub_add_cancel] at h3
    linarith
  -- the exact correction
  set c0 : Fin n → ℂ := -cx (X.mulVec (realify fx)) with hc0
  have hMc0 : mapOf J c0 = -fx := by rw [hc0, map_neg, hMX]
  have hhalf : ‖E + c0‖ ≤ 1 / 2 * ‖E‖ := by
    refine near_half hβ hκ hA hs hM ?_ (norm_nonneg _)
    have e1 : mapOf J (E + c0) = (mapOf J E - A E) - (fx - A E) := by rw [map_add, hMc0]; abel
    rw [e1]
    refine (norm_sub_le _ _).trans ?_
    have := hM E
    calc _ ≤ 2 * n * κ * ‖E‖ + κ * ‖E‖ := add_le_add this hfx
      _ = _ := by ring
  -- the error of the correction
  have hen : ‖e‖ ≤ (C + κ) * ‖E‖ + ε := by
    have h1 := norm_add_le (e - fx) (fx - A E + A E)
    rw [sub_add_cancel, sub_add_cancel] at h1
    have h2 := norm_add_le (fx - A E) (A E)
    rw [sub_add_cancel] at h2
    have := hC E
    linarith
  have d1 : ‖c + cx (Y.mulVec (realify e))‖ ≤ 4 * n * (γ * (3 / 2 * β + η)) * ‖e‖ := by
    have := norm_le_realify (x := c + cx (Y.mulVec (realify e))) (B := γ * (2 * n * ((3 / 2 * β + η) * ‖e‖))) (by positivity) fun a => by
      rw [realify_add, realify_cx, Pi.add_apply]
      refine (hc a).trans (mul_le_mul_of_nonneg_left ?_ hγ)
      refine (Finset.sum_le_card_nsmul _ _ ((3 / 2 * β + η) * ‖e‖) fun b _ => ?_).trans ?_
      · exact mul_le_mul (hYe a b) (abs_realify_le e b) (abs_nonneg _) (by positivity)
      · rw [Finset.card_univ, card_jix, nsmul_eq_mul]; push_cast; exact le_rfl
    linarith
  have d2 : ‖cx ((Y - X).mulVec (realify e))‖ ≤ 4 * n * η * ‖e‖ := norm_cx_mulVec_le _ hη (fun a b => hY X hJX a b) e
  have d3 := hXn (e - fx)
  have hE : E + c = (E + c0) + ((c + cx (Y.mulVec (realify e))) - cx ((Y - X).mulVec (realify e)) - cx (X.mulVec (realify (e - fx)))) := by
    apply realify_inj
    simp only [realify_add, realify_sub, realify_cx, hc0, realify_neg, Matrix.sub_mulVec, Matrix.mulVec_sub]
    abel
  rw [hE]
  have t1 := norm_add_le (E + c0) ((c + cx (Y.mulVec (realify e))) - cx ((Y - X).mulVec (realify e)) - cx (X.mulVec (realify (e - fx))))
  have t2 := norm_sub_le ((c + cx (Y.mulVec (realify e))) - cx ((Y - X).mulVec (realify e))) (cx (X.mulVec (realify (e - fx))))
  have t3 := norm_sub_le (c + cx (Y.mulVec (realify e))) (cx ((Y - X).mulVec (realify e)))
  have t4 : 3 / 2 * β * ‖e - fx‖ ≤ 3 / 2 * β * ε := mul_le_mul_of_nonneg_left he (by positivity)
  have t5 := mul_le_mul_of_nonneg_left hen (by positivity : 0 ≤ 4 * n * (γ * (3 / 2 * β + η) + η))
  have t6 : 4 * n * (γ * (3 / 2 * β + η)) * ‖e‖ + 4 * n * η * ‖e‖ = 4 * n * (γ * (3 / 2 * β + η) + η) * ‖e‖ := by ring
  linarith

end QMix.HB

namespace QMix.HBFp

open QMix.HB QMix.Rnd QMix.CctFp Complex

variable {u : ℝ} {n N : ℕ}

/-- The rounding errors of one part of the correction. -/
theorem accum_le (A : Fp u) (h0 : 0 ≤ u) (row : JIx n → ℝ) (err : Fin n → ℂ) (l : List (Fin n)) (m : ℕ) (hm : 2 ≤ m) {acc S T : ℝ}
    (h : |acc - S| ≤ ((1 + u) ^ m - 1) * T) (hS : |S| ≤ T) :
    |accum A row err l acc - (S - (l.map fun q => row (q, 0) * (err q).re + row (q, 1) * (err q).im).sum)|
      ≤ ((1 + u) ^ (m + l.length) - 1) * (T + (l.map fun q => |row (q, 0)| * |(err q).re| + |row (q, 1)| * |(err q).im|).sum) := by
  induction l generalizing m acc S T with
  | nil => simpa [accum] using h
  | cons q l ih =>
    set x := row (q, 0) * (err q).re with hx
    set y := row (q, 1) * (err q).im with hy
    set τ := |row (q, 0)| * |(err q).re| + |row (q, 1)| * |(err q).im| with hτ
    have hxy : |x| + |y| = τ := by rw [hx, hy, abs_mul, abs_mul]
    set t := A.rnd (A.rnd x + A.rnd y) with ht
    have hτ0 : 0 ≤ τ := by positivity
    have hT : 0 ≤ T := (abs_nonneg _).trans hS
    have a1 := A.rnd_le x
    have a2 := A.rnd_le y
    have a3 := A.rnd_le (A.rnd x + A.rnd y)
    have b1 : |A.rnd x + A.rnd y - (x + y)| ≤ u * τ := by
      rw [show A.rnd x + A.rnd y - (x + y) = (A.rnd x - x) + (A.rnd y - y) by ring]
      refine (abs_add_le _ _).trans ?_
      rw [← hxy, mul_add]
      exact add_le_add a1 a2
    have b2 : |A.rnd x + A.rnd y| ≤ (1 + u) * τ := by
      have h1 := abs_add_le (A.rnd x + A.rnd y - (x + y)) (x + y)
      rw [sub_add_cancel] at h1
      have h2 := abs_add_le x y
      linarith
    have b3 : |t - (x + y)| ≤ ((1 + u) ^ 2 - 1) * τ := by
      have h1 := abs_add_le (t - (A.rnd x + A.rnd y)) (A.rnd x + A.rnd y - (x + y))
      rw [sub_add_sub_cancel] at h1
      have h2 := mul_le_mul_of_nonneg_left b2 h0
      nlinarith
    have b4 := A.rnd_le (acc - t)
    have b5 : |acc - t - (S - (x + y))| ≤ ((1 + u) ^ m - 1) * T + ((1 + u) ^ 2 - 1) * τ := by
      rw [show acc - t - (S - (x + y)) = (acc - S) - (t - (x + y)) by ring]
      exact (abs_sub _ _).trans (add_le_add h b3)
    have b6 : |S - (x + y)| ≤ T + τ := by
      have h1 := abs_sub S (x + y)
      have h2 := abs_add_le x y
      linarith
    have b7 : |acc - t| ≤ ((1 + u) ^ m - 1) * T + ((1 + u) ^ 2 - 1) * τ + (T + τ) := by
      have h1 := abs_add_le (acc - t - (S - (x + y))) (S - (x + y))
      rw [sub_add_cancel] at h1
      linarith
    have b8 : |A.rnd (acc - t) - (S - (x + y))| ≤ ((1 + u) ^ (m + 1) - 1) * (T + τ) := by
      have h1 := abs_add_le (A.rnd (acc - t) - (acc - t)) (acc - t - (S - (x + y)))
      rw [sub_add_sub_cancel] at h1
      have h2 := mul_le_mul_of_nonneg_left b7 h0
      have h3 : (1 + u) ^ 3 ≤ (1 + u) ^ (m + 1) := pow_le_pow_right₀ (by linarith) (by omega)
      have h4 := mul_le_mul_of_nonneg_right h3 hτ0
      have h5 : (1 + u) ^ (m + 1) = (1 + u) ^ m * (1 + u) := pow_succ _ _
      have h6 : (1 + u) ^ 3 = (1 + u) ^ 2 * (1 + u) := pow_succ _ _
      calc _ ≤ u * (((1 + u) ^ m - 1) * T + ((1 + u) ^ 2 - 1) * τ + (T + τ)) + (((1 + u) ^ m - 1) * T + ((1 + u) ^ 2 - 1) * τ) := by linarith
        _ = ((1 + u) ^ (m + 1) - 1) * T + ((1 + u) ^ 3 - 1) * τ := by rw [h5, h6]; ring
        _ ≤ _ := by nlinarith
    have := ih (m + 1) (by omega) b8 b6
    simp only [accum, List.map_cons, List.sum_cons, List.length_cons]
    rw [show m + (l.length + 1) = m + 1 + l.length by omega, ← hτ, ← hx, ← hy, ← ht, ← sub_sub, ← add_assoc]
    exact this

/-- The rounding errors of the correction. -/
theorem correction_le (A : Fp u) (h0 : 0 ≤ u) (inv : Fin N → Matrix (JIx n) (JIx n) ℝ) (err : Sig n N) (i : Fin N) (a : JIx n) :
    |realify (fun k => correction A inv err k i) a + (inv i).mulVec (realify fun k => err k i) a|
      ≤ ((1 + u) ^ (n + 2) - 1) * ∑ b, |inv i a b| * |realify (fun k => err k i) b| := by
  have key := accum_le A h0 (inv i a) (fun q => err q i) (List.finRange n) 2 le_rfl (acc := 0) (S := 0) (T := 0) (by simp) (by simp)
  rw [List.length_finRange, add_comm 2 n, zero_add, zero_sub, sub_neg_eq_add] at key
  have e1 : (inv i).mulVec (realify fun k => err k i) a
      = ((List.finRange n).map fun q => inv i a (q, 0) * (err q i).re + inv i a (q, 1) * (err q i).im).sum := by
    simp only [Matrix.mulVec, dotProduct, Fintype.sum_prod_type, Fin.sum_univ_two, realify, if_true, one_ne_zero, if_false]
    rw [← List.ofFn_eq_map, List.sum_ofFn]
  have e2 : ∑ b, |inv i a b| * |realify (fun k => err k i) b|
      = ((List.finRange n).map fun q => |inv i a (q, 0)| * |(err q i).re| + |inv i a (q, 1)| * |(err q i).im|).sum := by
    simp only [Fintype.sum_prod_type, Fin.sum_univ_two, realify, if_true, one_ne_zero, if_false]
    rw [← List.ofFn_eq_map, List.sum_ofFn]
  have e3 : realify (fun k => correction A inv err k i) a = accum A (inv i a) (fun q => err q i) (List.finRange n) 0 := by
    obtain ⟨p, a⟩ := a
    fin_cases a <;> simp [realify, correction]
  rw [e1, e2, e3]
  exact key

/-- The computed residual of one signal. -/
theorem resid_near (ar : Arith u) (h0 : 0 ≤ u) (vt zt ι ι' v : ℂ) :
    ‖ar.add (ar.add vt (-ar.mul zt ι')) (-v) - (vt - zt * ι - v)‖
      ≤ ‖zt‖ * ‖ι' - ι‖ + ((1 + u) ^ 3 - 1) * (‖vt‖ + ‖zt‖ * ‖ι'‖ + ‖v‖) := by
  set m := ar.mul zt ι'
  set a := ar.add vt (-m)
  set e := ar.add a (-v)
  have hm : ‖m - zt * ι'‖ ≤ u * ‖zt * ι'‖ := ar.mul_le zt ι'
  have ha : ‖a - (vt - m)‖ ≤ u * ‖vt - m‖ := by simpa only [sub_eq_add_neg] using ar.add_le vt (-m)
  have he : ‖e - (a - v)‖ ≤ u * ‖a - v‖ := by simpa only [sub_eq_add_neg] using ar.add_le a (-v)
  rw [norm_mul] at hm
  set M := ‖zt‖ * ‖ι'‖ with hM
  have hM0 : 0 ≤ M := by positivity
  have n1 : ‖m‖ ≤ (1 + u) * M := by
    have := norm_add_le (m - zt * ι') (zt * ι')
    rw [sub_add_cancel, norm_mul] at this
    linarith
  have n2 : ‖vt - m‖ ≤ ‖vt‖ + (1 + u) * M := (norm_sub_le _ _).trans (by linarith)
  have n3 : ‖a‖ ≤ (1 + u) * (‖vt‖ + (1 + u) * M) := by
    have := norm_add_le (a - (vt - m)) (vt - m)
    rw [sub_add_cancel] at this
    nlinarith
  have n4 : ‖a - v‖ ≤ (1 + u) * (‖vt‖ + (1 + u) * M) + ‖v‖ := (norm_sub_le _ _).trans (by linarith)
  have hs : e - (vt - zt * ι - v) = (e - (a - v)) + (a - (vt - m)) - (m - zt * ι') - zt * (ι' - ι) := by ring
  rw [hs]
  have t1 := norm_sub_le ((e - (a - v)) + (a - (vt - m)) - (m - zt * ι')) (zt * (ι' - ι))
  have t2 := norm_sub_le ((e - (a - v)) + (a - (vt - m))) (m - zt * ι')
  have t3 := norm_add_le (e - (a - v)) (a - (vt - m))
  rw [norm_mul] at t1
  have s1 := mul_le_mul_of_nonneg_left n4 h0
  have s2 := mul_le_mul_of_nonneg_left n2 h0
  have nv := norm_nonneg v
  have nt := norm_nonneg vt
  have k : u * ((1 + u) * (‖vt‖ + (1 + u) * M) + ‖v‖) + u * (‖vt‖ + (1 + u) * M) + u * M ≤ ((1 + u) ^ 3 - 1) * (‖vt‖ + M + ‖v‖) := by
    have c1 : 0 ≤ u * u * (3 + u) * ‖v‖ := by positivity
    have c2 : 0 ≤ u * ‖v‖ := by positivity
    have c3 : 0 ≤ (u * u * 2 + u * u * u + u) * ‖vt‖ := by positivity
    nlinarith
  linarith

/-- The float `DV`. -/
theorem step_near (A : Fp u) : |step A - dv| ≤ u * dv := by
  have := A.rnd_le dv
  rwa [abs_of_pos dv_pos] at this

/-- The quotient by the float `DV`. -/
theorem divR_near (A : Fp u) (h0 : 0 ≤ u) (h1 : u < 1) (x : ℂ) :
    ‖divR A x (step A) - x / dv‖ ≤ 2 * (((1 - u) ^ 3)⁻¹ - 1) * (‖x‖ / dv) := by
  have hd := dv_pos
  have r0 : Rel.Rel u 1 (step A) dv := .of_le h0 h1 (A.rnd_le dv)
  have hr : ∀ y : ℝ, |A.rnd (y * A.rnd (1 / step A)) - y / dv| ≤ (((1 - u) ^ 3)⁻¹ - 1) * (|y| / dv) := by
    intro y
    have r1 : Rel.Rel u 2 (A.rnd (1 / step A)) (1 / dv) := by
      have h2 : Rel.Rel u 1 (A.rnd (1 / step A)) (1 / step A) := .of_le h0 h1 (A.rnd_le _)
      have h3 : Rel.Rel u 1 (1 / step A) (1 / dv) := by simpa only [one_div] using r0.inv h1
      exact h2.trans h1 h3
    have r2 : Rel.Rel u (1 + 2) (A.rnd (y * A.rnd (1 / step A))) (y * (1 / dv)) :=
      (Rel.Rel.of_le h0 h1 (A.rnd_le _)).trans h1 (r1.mulLeft y)
    have := r2.abs_sub_le h1 h0
    rwa [mul_one_div, abs_div, abs_of_pos hd] at this
  have hq : 0 ≤ ((1 - u) ^ 3)⁻¹ - 1 :=
    sub_nonneg.2 ((one_le_inv₀ (pow_pos (by linarith) 3)).2 (pow_le_one₀ (by linarith) (by linarith)))
  refine (Complex.norm_le_abs_re_add_abs_im _).trans ?_
  have e1 : (divR A x (step A) - x / dv).re = A.rnd (x.re * A.rnd (1 / step A)) - x.re / dv := by simp [divR]
  have e2 : (divR A x (step A) - x / dv).im = A.rnd (x.im * A.rnd (1 / step A)) - x.im / dv := by simp [divR]
  rw [e1, e2]
  have a1 := (hr x.re).trans (mul_le_mul_of_nonneg_left (div_le_div_of_nonneg_right (abs_re_le_norm x) hd.le) hq)
  have a2 := (hr x.im).trans (mul_le_mul_of_nonneg_left (div_le_div_of_nonneg_right (abs_im_le_norm x) hd.le) hq)
  linarith

/-- The voltages with one signal increased. -/
theorem bump_near (ar : Arith u) (A : Fp u) (h0 : 0 ≤ u) (vj : Sig n N) (q : Fin n) {z : ℂ} (hz : ‖z‖ = 1) (i : Fin N) :
    ‖(fun k => bump ar A vj q z k i) - ((fun k => vj k i) + (dv : ℝ) • (Pi.single q z : Fin n → ℂ))‖
      ≤ u * (‖fun k => vj k i‖ + (2 + u) * dv) := by
  have hd := dv_pos
  refine (pi_norm_le_iff_of_nonneg (by positivity)).2 fun k => ?_
  have hv : ‖vj k i‖ ≤ ‖fun k => vj k i‖ := norm_le_pi_norm (fun k => vj k i) k
  have hst := step_near A
  simp only [bump, Pi.sub_apply, Pi.add_apply, Pi.smul_apply, Complex.real_smul]
  by_cases hk : k = q
  · subst hk
    rw [if_pos rfl, Pi.single_eq_same]
    have h1 := ar.add_le (vj k i) (z * step A)
    have hzs : ‖z * (step A : ℂ)‖ ≤ (1 + u) * dv := by
      rw [norm_mul, hz, one_mul, norm_real, Real.norm_eq_abs]
      have := abs_add_le (step A - dv) dv
      rw [sub_add_cancel, abs_of_pos hd] at this
      linarith
    have h2 : ‖z * (step A : ℂ) - dv * z‖ ≤ u * dv := by
      rw [show z * (step A : ℂ) - dv * z = z * ((step A - dv : ℝ) : ℂ) by push_cast; ring, norm_mul, hz, one_mul, norm_real, Real.norm_eq_abs]
      exact hst
    have h3 := norm_add_le (ar.add (vj k i) (z * step A) - (vj k i + z * step A)) (z * (step A : ℂ) - dv * z)
    have h4 := norm_add_le (vj k i) (z * step A)
    have h5 := mul_le_mul_of_nonneg_left (h4.trans (add_le_add hv hzs)) h0
    rw [show ar.add (vj k i) (z * step A) - (vj k i + z * step A) + (z * (step A : ℂ) - dv * z)
      = ar.add (vj k i) (z * step A) - (vj k i + dv * z) by ring] at h3
    calc _ ≤ _ := h3
      _ ≤ u * (‖fun k => vj k i‖ + (1 + u) * dv) + u * dv := add_le_add (h1.trans h5) h2
      _ = _ := by ring
  · rw [if_neg hk, Pi.single_eq_of_ne hk, mul_zero]
    have h1 := ar.add_le (vj k i) 0
    rw [add_zero] at h1 ⊢
    refine h1.trans (mul_le_mul_of_nonneg_left ?_ h0)
    have : 0 ≤ (2 + u) * dv := by positivity
    linarith

end QMix.HBFp
