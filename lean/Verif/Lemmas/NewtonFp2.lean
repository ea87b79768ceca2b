import Verif.Lemmas.NewtonFp
import Verif.Lemmas.Newton2

/-! The update of harmonic balance in floating-point arithmetic, near a solution. -/

namespace QMix.HBFp

open QMix.HB QMix.Rnd QMix.CctFp Complex

variable {u : ℝ} {n N : ℕ}

/-- What is known about the arithmetic and the circuit near the solutions `xs`: `g` is the exact current and `δ` the error of the computed
one, `η` the error of the computed inverse matrices near the Jacobians `A i`. -/
structure Setting (n N : ℕ) (inv : Matrix (JIx n) (JIx n) ℝ → Py (Matrix (JIx n) (JIx n) ℝ)) (cur : Sig n N → Py (Sig n N))
    (vt zt : Fin n → ℂ) (g : Fin N → (Fin n → ℂ) → Fin n → ℂ) (xs : Fin N → Fin n → ℂ) (ρ : ℝ)
    (A : Fin N → (Fin n → ℂ) →ₗ[ℝ] (Fin n → ℂ)) (β κ κ' : Fin N → ℝ) (δ η B V Z X C : ℝ) : Prop where
  hδ : 0 ≤ δ
  hη : 0 ≤ η
  hB0 : 0 ≤ B
  hV0 : 0 ≤ V
  hZ0 : 0 ≤ Z
  hX0 : 0 ≤ X
  hC0 : 0 ≤ C
  hρ0 : 0 ≤ ρ
  cur_near : ∀ v, ∃ e, cur v = .ok e ∧ ∀ k i, ‖e k i - g i (fun k => v k i) k‖ ≤ δ
  cur_le : ∀ i x k, ‖g i x k‖ ≤ B
  vt_le : ∀ k, ‖vt k‖ ≤ V
  zt_le : ∀ k, ‖zt k‖ ≤ Z
  xs_le : ∀ i, ‖xs i‖ ≤ X
  near : ∀ i, Spec.NearLinear (errPt vt zt (g i)) (xs i) ρ (A i) (β i) (κ i)
  le : ∀ i, κ i ≤ κ' i
  small : ∀ i, β i * κ' i * (6 * n + 2) ≤ 1
  map_le : ∀ i u, ‖A i u‖ ≤ C * ‖u‖
  inv_near : ∀ i J, (∀ q z, z = 1 ∨ z = I → ‖mapOf J (Pi.single q z) - A i (Pi.single q z)‖ ≤ κ' i) →
    ∃ Y, inv J = .ok Y ∧ ∀ X, J * X = 1 → ∀ a b, |Y a b - X a b| ≤ η

variable {inv : Matrix (JIx n) (JIx n) ℝ → Py (Matrix (JIx n) (JIx n) ℝ)} {cur : Sig n N → Py (Sig n N)}
  {vt zt : Fin n → ℂ} {g : Fin N → (Fin n → ℂ) → Fin n → ℂ} {xs : Fin N → Fin n → ℂ} {ρ : ℝ}
  {A : Fin N → (Fin n → ℂ) →ₗ[ℝ] (Fin n → ℂ)} {β κ κ' : Fin N → ℝ} {δ η B V Z X C : ℝ}

/-- The error of the computed residuals. -/
noncomputable def epsR (u δ B V Z X ρ : ℝ) : ℝ := Z * δ + ((1 + u) ^ 3 - 1) * (V + Z * (B + δ) + (X + ρ + dv))

/-- The error of the voltages with one signal increased. -/
noncomputable def etaV (u X r : ℝ) : ℝ := u * (X + r + (2 + u) * dv)

/-- The relative error of the difference quotients. -/
noncomputable def sigQ (u : ℝ) : ℝ := 2 * (((1 - u) ^ 3)⁻¹ - 1) * (1 + u) + u

/-- The distance of the computed Jacobian from `A`. -/
noncomputable def theta (u δ B V Z X ρ r κ C : ℝ) : ℝ :=
  (2 * epsR u δ B V Z X ρ + κ * (dv + etaV u X r) + C * etaV u X r) * (1 + sigQ u) / dv + sigQ u * C

theorem Setting.resid (S : Setting n N inv cur vt zt g xs ρ A β κ κ' δ η B V Z X C) (ar : Arith u) (h0 : 0 ≤ u)
    {v e : Sig n N} (he : ∀ k i, ‖e k i - g i (fun k => v k i) k‖ ≤ δ) (i : Fin N) (hv : ‖(fun k => v k i) - xs i‖ ≤ ρ + 1 / 1000) :
    ‖(fun k => errVec ar vt zt e v k i) - errPt vt zt (g i) (fun k => v k i)‖ ≤ epsR u δ B V Z X ρ := by
  have hZ := S.hZ0
  have hV := S.hV0
  have hB := S.hB0
  have hX := S.hX0
  have hρ := S.hρ0
  have hδ := S.hδ
  have hd := dv_pos
  have hp : 0 ≤ (1 + u) ^ 3 - 1 := sub_nonneg.2 (one_le_pow₀ (by linarith))
  have hvn : ‖fun k => v k i‖ ≤ X + ρ + dv := by
    have := norm_add_le ((fun k => v k i) - xs i) (xs i)
    rw [sub_add_cancel] at this
    have := S.xs_le i
    have : dv = 1 / 1000 := rfl
    linarith
  refine (pi_norm_le_iff_of_nonneg (by unfold epsR; positivity)).2 fun k => ?_
  have key := resid_near ar h0 (vt k) (zt k) (g i (fun k => v k i) k) (e k i) (v k i)
  have e1 := he k i
  have e2 : ‖e k i‖ ≤ B + δ := by
    have := norm_add_le (e k i - g i (fun k => v k i) k) (g i (fun k => v k i) k)
    rw [sub_add_cancel] at this
    have := S.cur_le i (fun k => v k i) k
    linarith
  have e3 : ‖v k i‖ ≤ ‖fun k => v k i‖ := norm_le_pi_norm (fun k => v k i) k
  refine key.trans ?_
  unfold epsR
  refine add_le_add (mul_le_mul (S.zt_le k) e1 (norm_nonneg _) hZ) (mul_le_mul_of_nonneg_left ?_ hp)
  have := mul_le_mul (S.zt_le k) e2 (norm_nonneg _) hZ
  have := S.vt_le k
  linarith

theorem sigQ_nonneg (h0 : 0 ≤ u) (h1 : u < 1) : 0 ≤ sigQ u := by
  have hq : 0 ≤ ((1 - u) ^ 3)⁻¹ - 1 :=
    sub_nonneg.2 ((one_le_inv₀ (pow_pos (by linarith) 3)).2 (pow_le_one₀ (by linarith) (by linarith)))
  unfold sigQ
  positivity

/-- A computed difference quotient. -/
theorem quot_near (ar : Arith u) (P : Fp u) (h0 : 0 ≤ u) (h1 : u < 1) (x y : ℂ) :
    ‖divR P (ar.add x (-y)) (step P) - (x - y) / dv‖ ≤ sigQ u * (‖x - y‖ / dv) := by
  have hd := dv_pos
  have ha : ‖ar.add x (-y) - (x - y)‖ ≤ u * ‖x - y‖ := by simpa only [sub_eq_add_neg] using ar.add_le x (-y)
  have hn : ‖ar.add x (-y)‖ ≤ (1 + u) * ‖x - y‖ := by
    have := norm_add_le (ar.add x (-y) - (x - y)) (x - y)
    rw [sub_add_cancel] at this
    linarith
  have hq : 0 ≤ ((1 - u) ^ 3)⁻¹ - 1 :=
    sub_nonneg.2 ((one_le_inv₀ (pow_pos (by linarith) 3)).2 (pow_le_one₀ (by linarith) (by linarith)))
  have h2 := divR_near P h0 h1 (ar.add x (-y))
  have h3 : ‖ar.add x (-y) / (dv : ℂ) - (x - y) / dv‖ ≤ u * ‖x - y‖ / dv := by
    rw [← sub_div, norm_div, norm_real, Real.norm_of_nonneg hd.le]
    exact div_le_div_of_nonneg_right ha hd.le
  have h4 := norm_add_le (divR P (ar.add x (-y)) (step P) - ar.add x (-y) / dv) (ar.add x (-y) / (dv : ℂ) - (x - y) / dv)
  rw [sub_add_sub_cancel] at h4
  have h5 : 2 * (((1 - u) ^ 3)⁻¹ - 1) * (‖ar.add x (-y)‖ / dv) ≤ 2 * (((1 - u) ^ 3)⁻¹ - 1) * ((1 + u) * ‖x - y‖ / dv) :=
    mul_le_mul_of_nonneg_left (div_le_div_of_nonneg_right hn hd.le) (by positivity)
  calc _ ≤ 2 * (((1 - u) ^ 3)⁻¹ - 1) * ((1 + u) * ‖x - y‖ / dv) + u * ‖x - y‖ / dv := by linarith
    _ = _ := by unfold sigQ; ring

/-- The columns of the computed Jacobian are near those of `A`. -/
theorem Setting.column (S : Setting n N inv cur vt zt g xs ρ A β κ κ' δ η B V Z X C) (ar : Arith u) (P : Fp u) (h0 : 0 ≤ u) (h1 : u < 1)
    {r : ℝ} {v e e' : Sig n N} {q : Fin n} {z : ℂ} (hz : ‖z‖ = 1) (he : ∀ k i, ‖e k i - g i (fun k => v k i) k‖ ≤ δ)
    (he' : ∀ k i, ‖e' k i - g i (fun k => bump ar P v q z k i) k‖ ≤ δ) (i : Fin N) (hv : ‖(fun k => v k i) - xs i‖ ≤ r)
    (hr : r + etaV u X r ≤ ρ) :
    ‖(fun p => divR P (ar.add (errVec ar vt zt e' (bump ar P v q z) p i) (-errVec ar vt zt e v p i)) (step P)) - A i (Pi.single q z)‖
      ≤ theta u δ B V Z X ρ r (κ i) C := by
  have hd := dv_pos
  have hX := S.hX0
  have hC := S.hC0
  have hκ := (S.near i).nonneg
  have hdv : dv = 1 / 1000 := rfl
  have hr0 : 0 ≤ r := (norm_nonneg _).trans hv
  have hη : 0 ≤ etaV u X r := by unfold etaV; positivity
  have hσ := sigQ_nonneg h0 h1
  set x : Fin n → ℂ := fun k => v k i with hx
  set x' : Fin n → ℂ := fun k => bump ar P v q z k i with hx'
  set s : Fin n → ℂ := Pi.single q z with hs
  have hxn : ‖x‖ ≤ X + r := by
    have := norm_add_le (x - xs i) (xs i)
    rw [sub_add_cancel] at this
    have := S.xs_le i
    linarith
  have hb : ‖x' - (x + (dv : ℝ) • s)‖ ≤ etaV u X r := by
    refine (bump_near ar P h0 v q hz i).trans ?_
    unfold etaV
    refine mul_le_mul_of_nonneg_left ?_ h0
    linarith
  have hsn : ‖(dv : ℝ) • s‖ = dv := by rw [norm_smul, Real.norm_of_nonneg hd.le, hs, Pi.norm_single, hz, mul_one]
  have hxx : ‖x' - x‖ ≤ dv + etaV u X r := by
    have := norm_add_le (x' - (x + (dv : ℝ) • s)) ((dv : ℝ) • s)
    rw [show x' - (x + (dv : ℝ) • s) + (dv : ℝ) • s = x' - x by abel] at this
    linarith
  have hin : ‖x - xs i‖ ≤ ρ + 1 / 1000 := by linarith
  have hin' : ‖x' - xs i‖ ≤ ρ + 1 / 1000 := by
    have := norm_add_le (x' - x) (x - xs i)
    rw [sub_add_sub_cancel] at this
    linarith
  have f1 := S.resid ar h0 he i hin
  have f2 := S.resid ar h0 he' i hin'
  have f3 := (S.near i).near x' x hin' hin
  set F := errPt vt zt (g i) with hF
  set a : Fin n → ℂ := fun k => errVec ar vt zt e v k i with ha
  set a' : Fin n → ℂ := fun k => errVec ar vt zt e' (bump ar P v q z) k i with ha'
  set ε := epsR u δ B V Z X ρ with hε
  set τ := etaV u X r with hτ
  have k1 : ‖(a' - a) - A i ((dv : ℝ) • s)‖ ≤ 2 * ε + κ i * (dv + τ) + C * τ := by
    have e1 : (a' - a) - A i ((dv : ℝ) • s) = (a' - F x') - (a - F x) + (F x' - F x - A i (x' - x)) + A i (x' - (x + (dv : ℝ) • s)) := by
      rw [map_sub, map_sub, map_add]; abel
    rw [e1]
    have t1 := norm_add_le ((a' - F x') - (a - F x) + (F x' - F x - A i (x' - x))) (A i (x' - (x + (dv : ℝ) • s)))
    have t2 := norm_add_le ((a' - F x') - (a - F x)) (F x' - F x - A i (x' - x))
    have t3 := norm_sub_le (a' - F x') (a - F x)
    have t4 := S.map_le i (x' - (x + (dv : ℝ) • s))
    have t5 := mul_le_mul_of_nonneg_left hb hC
    have t6 := mul_le_mul_of_nonneg_left hxx hκ
    linarith
  set K := 2 * ε + κ i * (dv + τ) + C * τ with hK
  have hK0 : 0 ≤ K := (norm_nonneg _).trans k1
  have k2 : ‖a' - a‖ ≤ K + C * dv := by
    have t1 := norm_add_le ((a' - a) - A i ((dv : ℝ) • s)) (A i ((dv : ℝ) • s))
    rw [sub_add_cancel] at t1
    have t2 := S.map_le i ((dv : ℝ) • s)
    rw [hsn] at t2
    linarith
  have hth : theta u δ B V Z X ρ r (κ i) C = K / dv + sigQ u * ((K + C * dv) / dv) := by
    unfold theta
    field_simp
    ring
  rw [hth]
  refine (pi_norm_le_iff_of_nonneg (by positivity)).2 fun p => ?_
  have q1 := quot_near ar P h0 h1 (a' p) (a p)
  have q2 : ‖(a' p - a p) / (dv : ℂ) - A i s p‖ ≤ K / dv := by
    have e1 : (a' p - a p) / (dv : ℂ) - A i s p = (((a' - a) - A i ((dv : ℝ) • s)) p) / dv := by
      rw [map_smul]
      simp only [Pi.sub_apply, Pi.smul_apply, Complex.real_smul]
      have := dv_ne
      field_simp
    rw [e1, norm_div, norm_real, Real.norm_of_nonneg hd.le]
    exact div_le_div_of_nonneg_right ((norm_le_pi_norm _ p).trans k1) hd.le
  have q3 : ‖a' p - a p‖ ≤ K + C * dv := (norm_le_pi_norm (a' - a) p).trans k2
  have q4 := norm_add_le (divR P (ar.add (a' p) (-a p)) (step P) - (a' p - a p) / dv) ((a' p - a p) / (dv : ℂ) - A i s p)
  rw [sub_add_sub_cancel] at q4
  have q5 := mul_le_mul_of_nonneg_left (div_le_div_of_nonneg_right q3 hd.le) hσ
  show ‖divR P (ar.add (a' p) (-a p)) (step P) - A i s p‖ ≤ _
  linarith

/-- The error of the computed correction. -/
noncomputable def corrE (n : ℕ) (u δ η B V Z X ρ β κ' C t : ℝ) : ℝ :=
  4 * n * (((1 + u) ^ (n + 2) - 1) * (3 / 2 * β + η) + η) * ((C + κ') * t + epsR u δ B V Z X ρ) + 3 / 2 * β * epsR u δ B V Z X ρ

/-- One update in floating-point arithmetic near a solution. -/
theorem Setting.update (S : Setting n N inv cur vt zt g xs ρ A β κ κ' δ η B V Z X C) (ar : Arith u) (P : Fp u) (h0 : 0 ≤ u) (h1 : u < 1)
    {d : ℝ} (hd0 : 0 ≤ d) (hd1 : d ≤ 1) {r : ℝ} (hr : r + etaV u X r ≤ ρ) (hθ : ∀ i, theta u δ B V Z X ρ r (κ i) C ≤ κ' i)
    {v e : Sig n N} (hcv : cur v = .ok e) (hv : ∀ i, ‖(fun k => v k i) - xs i‖ ≤ r) :
    ∃ w, HBFp.update ar P inv cur vt zt d v e = .ok w ∧ ∀ i, ‖(fun k => w k i) - xs i‖
      ≤ (1 - d / 2) * ‖(fun k => v k i) - xs i‖ + corrE n u δ η B V Z X ρ (β i) (κ' i) C ‖(fun k => v k i) - xs i‖
        + u * (X + ‖(fun k => v k i) - xs i‖)
        + 3 * u * (3 / 2 * ‖(fun k => v k i) - xs i‖ + corrE n u δ η B V Z X ρ (β i) (κ' i) C ‖(fun k => v k i) - xs i‖) := by
  have hX := S.hX0
  have he : ∀ k i, ‖e k i - g i (fun k => v k i) k‖ ≤ δ := by
    obtain ⟨e', h2, h3⟩ := S.cur_near v
    rw [hcv] at h2
    cases h2
    exact h3
  choose E hE hEn using fun q (z : ℂ) => S.cur_near (bump ar P v q z)
  set err := errVec ar vt zt e v with herr
  let D := fun (q : Fin n) (z : ℂ) => errVec ar vt zt (E q z) (bump ar P v q z)
  let J := fun i => jacobian ar P err (fun q => D q 1) (fun q => D q I) i
  have hcol : ∀ i q z, z = 1 ∨ z = I → ‖mapOf (J i) (Pi.single q z) - A i (Pi.single q z)‖ ≤ κ' i := by
    intro i q z hz
    have hz1 : ‖z‖ = 1 := by rcases hz with rfl | rfl; exacts [norm_one, norm_I]
    have key := S.column ar P h0 h1 hz1 he (hEn q z) i (hv i) hr
    have e1 : mapOf (J i) (Pi.single q z)
        = fun p => divR P (ar.add (errVec ar vt zt (E q z) (bump ar P v q z) p i) (-errVec ar vt zt e v p i)) (step P) := by
      have e2 : realify (Pi.single q z : Fin n → ℂ) = Pi.single (q, if z = 1 then 0 else 1) 1 := by
        funext ⟨k, a⟩
        rcases hz with rfl | rfl
        · by_cases hk : k = q
          · subst hk; fin_cases a <;> simp [realify]
          · have : ((k, a) : JIx n) ≠ (q, 0) := fun h => hk (congrArg Prod.fst h)
            simp [realify, Pi.single_apply, hk]
        · have hI : I ≠ 1 := fun h => by have := congrArg Complex.im h; simp at this
          by_cases hk : k = q
          · subst hk; fin_cases a <;> simp [realify, hI]
          · have : ((k, a) : JIx n) ≠ (q, 1) := fun h => hk (congrArg Prod.fst h)
            simp [realify, Pi.single_apply, hk]
      apply realify_inj
      rw [realify_mapOf, e2, Matrix.mulVec_single_one]
      funext ⟨p, a⟩
      rcases hz with rfl | rfl
      · simp only [if_true]
        fin_cases a <;> simp [J, jacobian, realify, D, herr]
      · have hI : I ≠ 1 := fun h => by have := congrArg Complex.im h; simp at this
        simp only [if_neg hI]
        fin_cases a <;> simp [J, jacobian, realify, D, herr]
    rw [e1]
    exact key.trans (hθ i)
  choose Y hY hYn using fun i => S.inv_near i (J i) (hcol i)
  have hup : HBFp.update ar P inv cur vt zt d v e = .ok fun k i => ar.add (v k i) (ar.mul (correction P Y err k i) d) := by
    unfold HBFp.update invJacobian
    dsimp only
    rw [pyTab_ok_iff (g := fun q => (D q 1, D q I)) |>.2 (by intro q; rw [hE, py_bind, hE, py_bind]; rfl), py_bind]
    rw [pyTab_ok_iff (g := Y) |>.2 hY, py_bind]
    rfl
  refine ⟨_, hup, fun i => ?_⟩
  set x : Fin n → ℂ := fun k => v k i with hx
  set F := errPt vt zt (g i) with hF
  set t := ‖x - xs i‖ with ht
  have hr0 : 0 ≤ r := (norm_nonneg _).trans (hv i)
  have hη0 : 0 ≤ etaV u X r := by have := dv_pos; unfold etaV; positivity
  have hρ := S.hρ0
  have hin : ‖x - xs i‖ ≤ ρ + 1 / 1000 := by have := hv i; linarith
  have hfx : ‖F x - A i (x - xs i)‖ ≤ κ' i * ‖x - xs i‖ := by
    have := (S.near i).near x (xs i) hin (by rw [sub_self, norm_zero]; linarith)
    rw [(S.near i).solution, sub_zero] at this
    exact this.trans (mul_le_mul_of_nonneg_right (S.le i) (norm_nonneg _))
  set c : Fin n → ℂ := fun k => correction P Y err k i with hc
  have hγ : 0 ≤ (1 + u) ^ (n + 2) - 1 := sub_nonneg.2 (one_le_pow₀ (by linarith))
  have hstep := inexact_step (c := c) (S.near i).nonneg' ((S.near i).nonneg.trans (S.le i)) (S.near i).invertible (S.small i) (S.map_le i) S.hη hγ
    (hcol i) (hYn i) hfx (S.resid ar h0 he i hin) (fun a => correction_le P h0 Y err i a)
  rw [← ht] at hstep
  set G := corrE n u δ η B V Z X ρ (β i) (κ' i) C t with hG
  replace hstep : ‖x - xs i + c‖ ≤ 1 / 2 * t + G := by
    rw [hG]
    unfold corrE
    linarith
  have hcn : ‖c‖ ≤ 3 / 2 * t + G := by
    have := norm_sub_le (x - xs i + c) (x - xs i)
    rw [add_sub_cancel_left] at this
    linarith
  have ht0 : 0 ≤ t := norm_nonneg _
  have hb0 : 0 ≤ 3 / 2 * t + G := (norm_nonneg _).trans hcn
  have hxn : ‖x‖ ≤ X + t := by
    have := norm_add_le (x - xs i) (xs i)
    rw [sub_add_cancel] at this
    have := S.xs_le i
    linarith
  have hnoise : ‖(fun k => ar.add (v k i) (ar.mul (correction P Y err k i) d)) - (x + d • c)‖ ≤ u * (X + t) + 3 * u * (3 / 2 * t + G) := by
    refine (pi_norm_le_iff_of_nonneg (by positivity)).2 fun k => ?_
    set m := ar.mul (c k) d with hm
    have m1 : ‖m - c k * d‖ ≤ u * (3 / 2 * t + G) := by
      refine (ar.mul_le (c k) d).trans (mul_le_mul_of_nonneg_left ?_ h0)
      rw [norm_mul, norm_real, Real.norm_of_nonneg hd0]
      have := norm_le_pi_norm c k
      have := mul_le_of_le_one_right (norm_nonneg (c k)) hd1
      linarith
    have m2 : ‖c k * (d : ℂ)‖ ≤ 3 / 2 * t + G := by
      rw [norm_mul, norm_real, Real.norm_of_nonneg hd0]
      have := norm_le_pi_norm c k
      have := mul_le_of_le_one_right (norm_nonneg (c k)) hd1
      linarith
    have m3 : ‖m‖ ≤ 2 * (3 / 2 * t + G) := by
      have h2 := norm_add_le (m - c k * d) (c k * d)
      rw [sub_add_cancel] at h2
      have := mul_le_of_le_one_left hb0 h1.le
      linarith
    have m4 := ar.add_le (v k i) m
    have m5 : ‖v k i + m‖ ≤ (X + t) + 2 * (3 / 2 * t + G) := by
      have h2 := norm_add_le (v k i) m
      have h3 : ‖v k i‖ ≤ ‖x‖ := norm_le_pi_norm x k
      linarith
    have m6 := mul_le_mul_of_nonneg_left m5 h0
    have m7 := norm_add_le (ar.add (v k i) m - (v k i + m)) (m - c k * d)
    have e1 : ar.add (v k i) m - (v k i + m) + (m - c k * d) = ar.add (v k i) m - (x k + d * c k) := by
      simp only [hx]; ring
    rw [e1] at m7
    show ‖ar.add (v k i) m - (x + d • c) k‖ ≤ _
    rw [Pi.add_apply, Pi.smul_apply, Complex.real_smul]
    nlinarith
  have hw : ‖x + d • c - xs i‖ ≤ (1 - d / 2) * t + G := by
    have e1 : x + d • c - xs i = (1 - d : ℝ) • (x - xs i) + d • (x - xs i + c) := by
      rw [sub_smul, one_smul, smul_add]; abel
    rw [e1]
    refine (norm_add_le _ _).trans ?_
    rw [norm_smul, norm_smul, Real.norm_of_nonneg hd0, Real.norm_of_nonneg (by linarith : 0 ≤ 1 - d), ← ht]
    have h2 := mul_le_mul_of_nonneg_left hstep hd0
    have hG0 : 0 ≤ G := by
      have hβ := (S.near i).nonneg'
      have hκ := (S.near i).nonneg.trans (S.le i)
      have hη := S.hη
      have hC := S.hC0
      have hε : 0 ≤ epsR u δ B V Z X ρ := (norm_nonneg _).trans (S.resid ar h0 he i hin)
      rw [hG]
      unfold corrE
      positivity
    have h3 := mul_le_of_le_one_left hG0 hd1
    nlinarith
  have := norm_add_le ((fun k => ar.add (v k i) (ar.mul (correction P Y err k i) d)) - (x + d • c)) (x + d • c - xs i)
  rw [sub_add_sub_cancel] at this
  linarith

end QMix.HBFp
