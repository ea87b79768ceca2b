import Verif.Lemmas.HarmonicBalance3
import Verif.Spec.Convergence
import Mathlib.Analysis.Normed.Group.Constructions

/-! One update of the harmonic balance procedure near a solution. -/

namespace QMix.HB

open Complex QMix.Qt

variable {n N : ℕ}

/-- The error of the circuit equations at one bias point, for a current `g`. -/
def errPt (vt zt : Fin n → ℂ) (g : (Fin n → ℂ) → Fin n → ℂ) (x : Fin n → ℂ) : Fin n → ℂ :=
  fun k => vt k - zt k * g x k - x k

/-- The difference quotient in the direction `z` of signal `q`. -/
noncomputable def quot (F : (Fin n → ℂ) → Fin n → ℂ) (x : Fin n → ℂ) (q : Fin n) (z : ℂ) : Fin n → ℂ :=
  fun p => (F (x + (dv : ℝ) • (Pi.single q z : Fin n → ℂ)) p - F x p) / dv

/-- The linear map whose matrix is the numerical Jacobian. -/
noncomputable def jacMap (F : (Fin n → ℂ) → Fin n → ℂ) (x : Fin n → ℂ) : (Fin n → ℂ) →ₗ[ℝ] (Fin n → ℂ) where
  toFun u := ∑ q, ((u q).re • quot F x q 1 + (u q).im • quot F x q I)
  map_add' u u' := by
    rw [← Finset.sum_add_distrib]
    refine Finset.sum_congr rfl fun q _ => ?_
    simp only [Pi.add_apply, add_re, add_im, add_smul]
    abel
  map_smul' r u := by
    rw [Finset.smul_sum]
    refine Finset.sum_congr rfl fun q _ => ?_
    simp only [Pi.smul_apply, smul_re, smul_im, smul_eq_mul, RingHom.id_apply, smul_add, smul_smul]

theorem jacMap_single_one (F : (Fin n → ℂ) → Fin n → ℂ) (x : Fin n → ℂ) (q : Fin n) :
    jacMap F x (Pi.single q 1) = quot F x q 1 := by
  show ∑ q', (((Pi.single q (1 : ℂ) : Fin n → ℂ) q').re • quot F x q' 1
    + ((Pi.single q (1 : ℂ) : Fin n → ℂ) q').im • quot F x q' I) = _
  rw [Finset.sum_eq_single q]
  · simp
  · intro b _ hb
    simp [Pi.single_eq_of_ne hb]
  · simp

theorem jacMap_single_I (F : (Fin n → ℂ) → Fin n → ℂ) (x : Fin n → ℂ) (q : Fin n) :
    jacMap F x (Pi.single q I) = quot F x q I := by
  show ∑ q', (((Pi.single q I : Fin n → ℂ) q').re • quot F x q' 1
    + ((Pi.single q I : Fin n → ℂ) q').im • quot F x q' I) = _
  rw [Finset.sum_eq_single q]
  · simp
  · intro b _ hb
    simp [Pi.single_eq_of_ne hb]
  · simp

theorem dv_pos : 0 < dv := by unfold dv; norm_num

/-- The numerical Jacobian is as close to a linear map as the errors are. -/
theorem norm_jacMap_sub_le {F : (Fin n → ℂ) → Fin n → ℂ} {A : (Fin n → ℂ) →ₗ[ℝ] (Fin n → ℂ)} {x : Fin n → ℂ}
    {κ : ℝ} (h : ∀ (q : Fin n) (z : ℂ), ‖z‖ = 1 → ‖F (x + (dv : ℝ) • (Pi.single q z : Fin n → ℂ)) - F x
      - A ((dv : ℝ) • (Pi.single q z : Fin n → ℂ))‖ ≤ κ * dv) (hκ : 0 ≤ κ) (u : Fin n → ℂ) :
    ‖jacMap F x u - A u‖ ≤ 2 * n * κ * ‖u‖ := by
  have hq : ∀ (q : Fin n) (z : ℂ), ‖z‖ = 1 → ‖quot F x q z - A (Pi.single q z)‖ ≤ κ := by
    intro q z hz
    have e : quot F x q z - A (Pi.single q z) = (1 / dv : ℝ) • (F (x + (dv : ℝ) • (Pi.single q z : Fin n → ℂ)) - F x
        - A ((dv : ℝ) • (Pi.single q z : Fin n → ℂ))) := by
      rw [map_smul]
      funext p
      simp only [quot, Pi.sub_apply, Pi.smul_apply, Complex.real_smul]
      have := dv_ne
      push_cast
      field_simp
    have hd := dv_pos
    rw [e, norm_smul, Real.norm_of_nonneg (by positivity)]
    calc _ ≤ 1 / dv * (κ * dv) := mul_le_mul_of_nonneg_left (h q z hz) (by positivity)
      _ = κ := by field_simp
  have hx : jacMap F x u - A u = ∑ q, ((u q).re • (quot F x q 1 - A (Pi.single q 1))
      + (u q).im • (quot F x q I - A (Pi.single q I))) := by
    conv_lhs => rw [eq_sum_basis u]
    rw [← LinearMap.sub_apply, map_sum]
    refine Finset.sum_congr rfl fun q _ => ?_
    rw [map_add, map_smul, map_smul, LinearMap.sub_apply, LinearMap.sub_apply, jacMap_single_one, jacMap_single_I]
  rw [hx]
  refine (norm_sum_le _ _).trans ?_
  have hb : ∀ q ∈ (Finset.univ : Finset (Fin n)), ‖(u q).re • (quot F x q 1 - A (Pi.single q 1))
      + (u q).im • (quot F x q I - A (Pi.single q I))‖ ≤ 2 * κ * ‖u‖ := by
    intro q _
    refine (norm_add_le _ _).trans ?_
    rw [norm_smul, norm_smul]
    have h1 : ‖(u q).re‖ ≤ ‖u‖ := (abs_re_le_norm _).trans (norm_le_pi_norm u q)
    have h2 : ‖(u q).im‖ ≤ ‖u‖ := (abs_im_le_norm _).trans (norm_le_pi_norm u q)
    have h3 := mul_le_mul h1 (hq q 1 norm_one) (norm_nonneg _) (norm_nonneg _)
    have h4 := mul_le_mul h2 (hq q I norm_I) (norm_nonneg _) (norm_nonneg _)
    linarith
  refine (Finset.sum_le_card_nsmul _ _ _ hb).trans (le_of_eq ?_)
  rw [Finset.card_univ, Fintype.card_fin, nsmul_eq_mul]
  ring

theorem nearLinear_jac {F : (Fin n → ℂ) → Fin n → ℂ} {xs : Fin n → ℂ} {ρ : ℝ} {A : (Fin n → ℂ) →ₗ[ℝ] (Fin n → ℂ)}
    {β κ : ℝ} (h : Spec.NearLinear F xs ρ A β κ) {x : Fin n → ℂ} (hx : ‖x - xs‖ ≤ ρ) (u : Fin n → ℂ) :
    ‖jacMap F x u - A u‖ ≤ 2 * n * κ * ‖u‖ := by
  refine norm_jacMap_sub_le (fun q z hz => ?_) h.nonneg u
  have hd := dv_pos
  have hdv : dv = 1 / 1000 := rfl
  have hs : ‖(dv : ℝ) • (Pi.single q z : Fin n → ℂ)‖ = dv := by
    rw [norm_smul, Real.norm_of_nonneg hd.le, Pi.norm_single, hz, mul_one]
  have := h.near (x + (dv : ℝ) • (Pi.single q z : Fin n → ℂ)) x (by
    rw [add_sub_right_comm]
    refine (norm_add_le _ _).trans ?_
    rw [hs]
    linarith) (by linarith)
  rw [add_sub_cancel_left, hs] at this
  exact this

theorem nearLinear_inj {F : (Fin n → ℂ) → Fin n → ℂ} {xs : Fin n → ℂ} {ρ : ℝ} {A : (Fin n → ℂ) →ₗ[ℝ] (Fin n → ℂ)}
    {β κ : ℝ} (h : Spec.NearLinear F xs ρ A β κ) {x : Fin n → ℂ} (hx : ‖x - xs‖ ≤ ρ) {u : Fin n → ℂ} {c : ℝ}
    (hc : ‖jacMap F x u‖ ≤ (2 * n + 1) * κ * c) (hc0 : 0 ≤ c) : ‖u‖ ≤ 1 / 2 * c := by
  have h1 := nearLinear_jac h hx u
  have h2 := h.invertible u
  have hκ := h.nonneg
  have hβ := h.nonneg'
  have h3 : ‖A u‖ ≤ ‖jacMap F x u‖ + ‖jacMap F x u - A u‖ := by
    have := norm_sub_le (jacMap F x u) (jacMap F x u - A u)
    rwa [sub_sub_cancel] at this
  have hs := h.small
  have hn : (0 : ℝ) ≤ n := Nat.cast_nonneg n
  have hu := norm_nonneg u
  set t := β * κ with ht
  have ht0 : 0 ≤ t := mul_nonneg hβ hκ
  have h4 : ‖u‖ ≤ (2 * n + 1) * t * c + 2 * n * t * ‖u‖ := by
    calc ‖u‖ ≤ β * ‖A u‖ := h2
      _ ≤ β * ((2 * n + 1) * κ * c + 2 * n * κ * ‖u‖) := mul_le_mul_of_nonneg_left (by linarith) hβ
      _ = _ := by rw [ht]; ring
  have h5 : 0 < 1 - 2 * n * t := by nlinarith
  have h6 : (2 * n + 1) * t ≤ 1 / 2 * (1 - 2 * n * t) := by nlinarith
  have h7 : (1 - 2 * n * t) * ‖u‖ ≤ (1 - 2 * n * t) * (1 / 2 * c) := by
    have := mul_le_mul_of_nonneg_right h6 hc0
    nlinarith
  exact le_of_mul_le_mul_left h7 h5

/-- One update near a solution: it succeeds, and it reduces the distance to the solution. -/
theorem update_newton (cur : Sig n N → Py (Sig n N)) (vt zt : Fin n → ℂ) (d : ℝ) (hd0 : 0 ≤ d) (hd1 : d ≤ 1)
    (g : Fin N → (Fin n → ℂ) → Fin n → ℂ) (hcur : ∀ v, cur v = .ok fun k i => g i (fun k => v k i) k)
    (xs : Fin N → Fin n → ℂ) (ρ : ℝ) (A : Fin N → (Fin n → ℂ) →ₗ[ℝ] (Fin n → ℂ)) (β κ : Fin N → ℝ)
    (hA : ∀ i, Spec.NearLinear (errPt vt zt (g i)) (xs i) ρ (A i) (β i) (κ i)) (vj ij : Sig n N)
    (hij : cur vj = .ok ij) (hρ : ∀ i, ‖(fun k => vj k i) - xs i‖ ≤ ρ) :
    ∃ w, update cur vt zt d vj ij = .ok w ∧
      ∀ i, ‖(fun k => w k i) - xs i‖ ≤ (1 - d / 2) * ‖(fun k => vj k i) - xs i‖ := by
  rw [hcur] at hij
  cases hij
  have herr' : ∀ (v : Sig n N) (k : Fin n) (i : Fin N), errVec vt zt (fun k i => g i (fun k => v k i) k) v k i
      = errPt vt zt (g i) (fun k => v k i) k := fun _ _ _ => rfl
  set err := errVec vt zt (fun k i => g i (fun k => vj k i) k) vj with herr
  let e := fun (q : Fin n) (z : ℂ) => errVec vt zt (fun k i => g i (fun k => bump vj q z k i) k) (bump vj q z)
  have hent : ∀ (i : Fin N) (p q : Fin n) (z : ℂ),
      (e q z p i - err p i) / dv = quot (errPt vt zt (g i)) (fun k => vj k i) q z p := by
    intro i p q z
    show (errPt vt zt (g i) (fun k => bump vj q z k i) p - errPt vt zt (g i) (fun k => vj k i) p) / dv = _
    rw [bump_point]
    rfl
  let M := fun i => jacMap (errPt vt zt (g i)) (fun k => vj k i)
  have hJ : ∀ i x, realify (M i x)
      = (jacobian err (fun q => e q 1) (fun q => e q I) i).mulVec (realify x) := by
    intro i x
    apply realify_linear
    intro p q
    simp only [jacobian, if_true, one_ne_zero, if_false, hent, M, jacMap_single_one, jacMap_single_I, and_self]
  have hdet : ∀ i, (jacobian err (fun q => e q 1) (fun q => e q I) i).det ≠ 0 := by
    intro i h0
    obtain ⟨y, hy0, hy⟩ := Matrix.exists_mulVec_eq_zero_iff.2 h0
    let x : Fin n → ℂ := fun k => ⟨y (k, 0), y (k, 1)⟩
    have hx : realify x = y := by
      funext ⟨k, a⟩
      fin_cases a <;> simp [realify, x]
    have hMx : M i x = 0 := by
      apply realify_inj
      rw [hJ, hx, hy]
      funext pa
      simp [realify]
    have hz : ‖x‖ ≤ 1 / 2 * 0 := nearLinear_inj (hA i) (hρ i) (by
      show ‖M i x‖ ≤ _
      rw [hMx]; simp) le_rfl
    have : x = 0 := by
      rw [mul_zero] at hz
      exact norm_le_zero_iff.1 hz
    apply hy0
    rw [← hx, this]
    funext pa
    simp [realify]
  unfold update invJacobian
  dsimp only
  rw [pyTab_ok_iff (g := fun q => (e q 1, e q I)) |>.2 (by
    intro q; rw [hcur, py_bind, hcur, py_bind]; rfl), py_bind]
  dsimp only
  rw [raiseIf_neg (by rintro ⟨i, hi⟩; exact hdet i hi)]
  refine ⟨_, rfl, fun i => ?_⟩
  set J := fun i => jacobian err (fun q => e q 1) (fun q => e q I) i with hJdef
  set c : Fin n → ℂ := fun k => correction (fun i => (J i)⁻¹) err k i with hc
  have hcorr : M i c = -errPt vt zt (g i) (fun k => vj k i) := by
    apply realify_inj
    have hu : IsUnit (J i).det := isUnit_iff_ne_zero.2 (hdet i)
    rw [hJ, hc, realify_correction, Matrix.mulVec_neg, Matrix.mulVec_mulVec,
      Matrix.mul_nonsing_inv _ hu, Matrix.one_mulVec]
    funext pa
    simp only [realify, Pi.neg_apply, herr, herr']
    split_ifs <;> simp
  set x : Fin n → ℂ := fun k => vj k i with hx
  set E := x - xs i with hE
  have hMu : M i (E + c) = (M i E - A i E) - (errPt vt zt (g i) x - errPt vt zt (g i) (xs i) - A i (x - xs i)) := by
    rw [map_add, hcorr, (hA i).solution, sub_zero]
    abel
  have hdp := dv_pos
  have hdv : dv = 1 / 1000 := rfl
  have hρ0 : 0 ≤ ρ := (norm_nonneg _).trans (hρ i)
  have hb : ‖M i (E + c)‖ ≤ (2 * n + 1) * κ i * ‖E‖ := by
    rw [hMu]
    refine (norm_sub_le _ _).trans ?_
    have h1 := nearLinear_jac (hA i) (hρ i) E
    have h2 := (hA i).near x (xs i) (by have := hρ i; linarith) (by rw [sub_self, norm_zero]; linarith)
    calc _ ≤ 2 * n * κ i * ‖E‖ + κ i * ‖E‖ := add_le_add h1 h2
      _ = _ := by ring
  have hu := nearLinear_inj (hA i) (hρ i) hb (norm_nonneg _)
  have hw : (fun k => vj k i + correction (fun i => (J i)⁻¹) err k i * d) - xs i
      = (1 - d : ℝ) • E + d • (E + c) := by
    funext k
    simp only [hE, hc, hx, Pi.sub_apply, Pi.add_apply, Pi.smul_apply, Complex.real_smul]
    push_cast
    ring
  show ‖(fun k => vj k i + correction (fun i => (J i)⁻¹) err k i * d) - xs i‖ ≤ _
  rw [hw]
  refine (norm_add_le _ _).trans ?_
  rw [norm_smul, norm_smul, Real.norm_of_nonneg hd0, Real.norm_of_nonneg (by linarith)]
  have := mul_le_mul_of_nonneg_left hu hd0
  linarith

end QMix.HB
