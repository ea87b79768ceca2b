import Verif.Lemmas.NewtonFp2
import Verif.Props.HbFp

/-! The iteration of harmonic balance in floating-point arithmetic, near a solution. -/

namespace QMix.HBFp

open QMix.HB QMix.Rnd QMix.CctFp Complex Filter Topology

variable {n N : ℕ}

/-- The relative part of the error of an update. -/
noncomputable def relPart (n : ℕ) (ω β κ' C : ℝ) : ℝ :=
  4 * n * (((1 + ω) ^ (n + 2) - 1) * (3 / 2 * β + ω) + ω) * (C + κ') * (1 + 3 * ω) + 11 / 2 * ω

/-- The absolute part of the error of an update. -/
noncomputable def absPart (n : ℕ) (ω B V Z X ρ β : ℝ) : ℝ :=
  (4 * n * (((1 + ω) ^ (n + 2) - 1) * (3 / 2 * β + ω) + ω) + 3 / 2 * β) * epsR ω ω B V Z X ρ * (1 + 3 * ω) + ω * X

theorem epsR_cont (B V Z X ρ : ℝ) : ContinuousAt (fun ω => epsR ω ω B V Z X ρ) 0 := by
  unfold epsR
  fun_prop

theorem epsR_zero (B V Z X ρ : ℝ) : epsR 0 0 B V Z X ρ = 0 := by unfold epsR; ring

theorem etaV_cont (X r : ℝ) : ContinuousAt (fun ω => etaV ω X r) 0 := by
  unfold etaV
  fun_prop

theorem etaV_zero (X r : ℝ) : etaV 0 X r = 0 := by unfold etaV; ring

theorem sigQ_cont : ContinuousAt sigQ 0 := by
  unfold sigQ
  have : ContinuousAt (fun ω : ℝ => ((1 - ω) ^ 3)⁻¹) 0 := ContinuousAt.inv₀ (by fun_prop) (by norm_num)
  fun_prop

theorem sigQ_zero : sigQ 0 = 0 := by unfold sigQ; norm_num

theorem theta_cont (B V Z X ρ r κ C : ℝ) : ContinuousAt (fun ω => theta ω ω B V Z X ρ r κ C) 0 := by
  unfold theta
  have h1 := epsR_cont B V Z X ρ
  have h2 := etaV_cont X r
  have h3 := sigQ_cont
  fun_prop

theorem theta_zero (B V Z X ρ r κ C : ℝ) : theta 0 0 B V Z X ρ r κ C = κ := by
  unfold theta
  rw [epsR_zero, etaV_zero, sigQ_zero]
  have := dv_pos
  field_simp
  ring

theorem relPart_cont (n : ℕ) (β κ' C : ℝ) : ContinuousAt (fun ω => relPart n ω β κ' C) 0 := by
  unfold relPart
  fun_prop

theorem relPart_zero (n : ℕ) (β κ' C : ℝ) : relPart n 0 β κ' C = 0 := by unfold relPart; simp

theorem absPart_cont (n : ℕ) (B V Z X ρ β : ℝ) : ContinuousAt (fun ω => absPart n ω B V Z X ρ β) 0 := by
  unfold absPart
  have h1 := epsR_cont B V Z X ρ
  fun_prop

theorem absPart_zero (n : ℕ) (B V Z X ρ β : ℝ) : absPart n 0 B V Z X ρ β = 0 := by
  unfold absPart
  rw [epsR_zero]
  ring

theorem eventually_lt {f : ℝ → ℝ} (hf : ContinuousAt f 0) {c : ℝ} (h : f 0 < c) : ∀ᶠ ω in 𝓝 (0 : ℝ), f ω < c :=
  hf.eventually (gt_mem_nhds h)

/-- With sufficiently accurate arithmetic, current and matrix inversion, the iteration comes close to the solution and meets its target. -/
theorem solve_converges (hN : 0 < N) (vt zt : Fin n → ℂ) (g : Fin N → (Fin n → ℂ) → Fin n → ℂ) (xs : Fin N → Fin n → ℂ) (ρ : ℝ)
    (A : Fin N → (Fin n → ℂ) →ₗ[ℝ] (Fin n → ℂ)) (β κ κ' : Fin N → ℝ)
    (hA : ∀ i, Spec.NearLinear (errPt vt zt (g i)) (xs i) ρ (A i) (β i) (κ i)) (hκ : ∀ i, κ i < κ' i)
    (hsm : ∀ i, β i * κ' i * (6 * n + 2) ≤ 1) (hx : ∀ i k, xs i k ≠ 0) (B : ℝ) (hB0 : 0 ≤ B) (hB : ∀ i x k, ‖g i x k‖ ≤ B)
    (stop damp : ℝ) (hstop : 0 < stop) (hd0 : 0 < damp) (hd1 : damp ≤ 1) (r : ℝ) (hr0 : 0 ≤ r) (hr : r < ρ) (τ : ℝ) (hτ : 0 < τ) :
    ∃ ω₀ : ℝ, 0 < ω₀ ∧ ∃ m : ℕ, ∀ ω : ℝ, 0 ≤ ω → ω ≤ ω₀ → ∀ (ar : Arith ω) (P : Fp ω)
      (inv : Matrix (JIx n) (JIx n) ℝ → Py (Matrix (JIx n) (JIx n) ℝ)) (cur : Sig n N → Py (Sig n N)),
      (∀ v, ∃ e, cur v = .ok e ∧ ∀ k i, ‖e k i - g i (fun k => v k i) k‖ ≤ ω) →
      (∀ i J, (∀ q z, z = 1 ∨ z = I → ‖mapOf J (Pi.single q z) - A i (Pi.single q z)‖ ≤ κ' i) →
        ∃ Y, inv J = .ok Y ∧ ∀ X, J * X = 1 → ∀ a b, |Y a b - X a b| ≤ ω) →
      ∀ (maxIt : ℤ) (v0 : Sig n N), (m : ℤ) ≤ maxIt → (∀ i, ‖(fun k => v0 k i) - xs i‖ ≤ r) →
      ∃ s, solve ar P inv cur vt zt stop damp maxIt v0 = .ok s ∧ s.exit = .target ∧ s.updates ≤ m ∧
        ∀ i, ‖(fun k => s.vj k i) - xs i‖ ≤ (1 - damp / 4) ^ s.updates * r + τ := by
  obtain ⟨V, hV0, hV⟩ := exists_common fun k => ‖vt k‖
  obtain ⟨Z, hZ0, hZ⟩ := exists_common fun k => ‖zt k‖
  obtain ⟨X, hX0, hX⟩ := exists_common fun i => ‖xs i‖
  choose C' hC' hCA using fun i => exists_bound (A i)
  obtain ⟨C, hC0, hC⟩ := exists_common C'
  have hmap : ∀ i u, ‖A i u‖ ≤ C * ‖u‖ := fun i u => (hCA i u).trans (mul_le_mul_of_nonneg_right (hC i) (norm_nonneg _))
  obtain ⟨K, hK0, hK⟩ := exists_common κ
  obtain ⟨μ, hμ, hμx⟩ := exists_common_pos (fun y : Fin N × Fin n => ‖xs y.1 y.2‖) (fun y => norm_pos_iff.2 (hx _ _))
  set Λ := C + K with hΛ
  have hΛ0 : 0 ≤ Λ := by positivity
  -- the distance to be reached
  set τ₀ := min (min τ (μ / 2)) (min (ρ - r) (stop * μ / (8 * (Λ + 1)))) with hτ₀
  have hτ₀0 : 0 < τ₀ := by
    have : 0 < ρ - r := by linarith
    positivity
  have ht1 : τ₀ ≤ τ := (min_le_left _ _).trans (min_le_left _ _)
  have ht2 : τ₀ ≤ μ / 2 := (min_le_left _ _).trans (min_le_right _ _)
  have ht3 : τ₀ ≤ ρ - r := (min_le_right _ _).trans (min_le_left _ _)
  have ht4 : Λ * τ₀ ≤ stop * μ / 8 := by
    have h1 : τ₀ ≤ stop * μ / (8 * (Λ + 1)) := (min_le_right _ _).trans (min_le_right _ _)
    rw [le_div_iff₀ (by positivity)] at h1
    nlinarith
  set R := r + τ₀ / 2 with hR
  have hRρ : R < ρ := by linarith
  set q := 1 - damp / 4 with hq
  have hq0 : 0 ≤ q := by linarith
  have hq1 : q < 1 := by linarith
  obtain ⟨m, hm⟩ : ∃ m : ℕ, q ^ m * r < τ₀ / 2 := by
    obtain ⟨m, hm⟩ := exists_pow_lt_of_lt_one (show 0 < τ₀ / 2 / (r + 1) by positivity) hq1
    refine ⟨m, ?_⟩
    rw [lt_div_iff₀ (by positivity)] at hm
    have := pow_nonneg hq0 m
    nlinarith
  -- the accuracy
  have ev : ∀ᶠ ω in 𝓝 (0 : ℝ), (ω < 1 ∧ -(1 - ω) ^ 6 < -1 / 2 ∧ etaV ω X R < ρ - R) ∧ (∀ i, theta ω ω B V Z X ρ R (κ i) C < κ' i) ∧
      (∀ i, relPart n ω (β i) (κ' i) C < damp / 4) ∧ (∀ i, absPart n ω B V Z X ρ (β i) < damp / 8 * τ₀) ∧
      Z * ω + ω * (V + 2 * (X + ρ)) < stop * μ / 8 := by
    refine Filter.Eventually.and ?_ (Filter.Eventually.and ?_ (Filter.Eventually.and ?_ (Filter.Eventually.and ?_ ?_)))
    · refine (eventually_lt continuousAt_id (by simp)).and ((eventually_lt (f := fun ω => -(1 - ω) ^ 6) (by fun_prop) (by norm_num)).and
        (eventually_lt (etaV_cont X R) (by rw [etaV_zero]; linarith)))
    · exact eventually_all.2 fun i => eventually_lt (theta_cont B V Z X ρ R (κ i) C) (by rw [theta_zero]; exact hκ i)
    · exact eventually_all.2 fun i => eventually_lt (relPart_cont n (β i) (κ' i) C) (by rw [relPart_zero]; positivity)
    · exact eventually_all.2 fun i => eventually_lt (absPart_cont n B V Z X ρ (β i)) (by rw [absPart_zero]; positivity)
    · exact eventually_lt (f := fun ω => Z * ω + ω * (V + 2 * (X + ρ))) (by fun_prop) (by simpa using by positivity)
  obtain ⟨ω₁, hω₁, hball⟩ := Metric.eventually_nhds_iff.1 ev
  refine ⟨ω₁ / 2, by positivity, m, fun ω hω0 hωle ar P inv cur hcur hinv maxIt v0 hmax hst => ?_⟩
  obtain ⟨⟨c1, c2, c3⟩, c4, c5, c6, c7⟩ := hball (y := ω) (by rw [Real.dist_eq, sub_zero, abs_of_nonneg hω0]; linarith)
  have hρ0 : 0 ≤ ρ := by linarith
  have S : Setting n N inv cur vt zt g xs ρ A β κ κ' ω ω B V Z X C :=
    ⟨hω0, hω0, hB0, hV0, hZ0, hX0, hC0, hρ0, hcur, hB, hV, hZ, hX, hA, fun i => (hκ i).le, hsm, hmap, hinv⟩
  set ν := damp / 8 * τ₀ with hν
  have hν4 : ν = (1 - q) * (τ₀ / 2) := by rw [hν, hq]; ring
  have step : ∀ t (s : Sig n N), (∀ i, ‖(fun k => s k i) - xs i‖ ≤ q ^ t * r + τ₀ / 2) →
      ∃ e r', cur s = .ok e ∧ signalLoop stop (relErr ar P vt zt s e) = .ok r' ∧ (m ≤ t → r'.1.le (.fin stop)) ∧
        ∃ w, HBFp.update ar P inv cur vt zt damp s e = .ok w ∧ ∀ i, ‖(fun k => w k i) - xs i‖ ≤ q ^ (t + 1) * r + τ₀ / 2 := by
    intro t s hs
    have hin : ∀ i, ‖(fun k => s k i) - xs i‖ ≤ R := fun i => (hs i).trans (by
      have := mul_le_of_le_one_left hr0 (pow_le_one₀ hq0 hq1.le : q ^ t ≤ 1)
      rw [hR]; linarith)
    obtain ⟨e, he, hen⟩ := hcur s
    obtain ⟨r', hr'⟩ := signalLoop_total (stop := stop) (rel := relErr ar P vt zt s e) hN
    obtain ⟨w, hw, hwd⟩ := S.update ar P hω0 c1 hd0.le hd1 (r := R) (by linarith) (fun i => (c4 i).le) he hin
    refine ⟨e, r', he, hr', fun ht => ?_, w, hw, fun i => ?_⟩
    · have hsmall : ∀ i, ‖(fun k => s k i) - xs i‖ ≤ τ₀ := fun i => (hs i).trans (by
        have := mul_le_mul_of_nonneg_right (pow_le_pow_of_le_one hq0 hq1.le ht) hr0
        linarith)
      have hv : ∀ k i, μ / 2 ≤ ‖s k i‖ := by
        intro k i
        have h1 : ‖s k i - xs i k‖ ≤ τ₀ := (norm_le_pi_norm ((fun k => s k i) - xs i) k).trans (hsmall i)
        have h2 := hμx (i, k)
        have h3 := norm_sub_norm_le (xs i k) (s k i)
        rw [norm_sub_rev] at h3
        simp only at h2
        linarith
      have hvne : ∀ k i, s k i ≠ 0 := fun k i h0 => by
        have := hv k i
        rw [h0, norm_zero] at this
        linarith
      have hvu : ∀ k i, ‖s k i‖ ≤ X + ρ := by
        intro k i
        have h1 : ‖s k i - xs i k‖ ≤ R := (norm_le_pi_norm ((fun k => s k i) - xs i) k).trans (hin i)
        have h2 : ‖xs i k‖ ≤ X := (norm_le_pi_norm (xs i) k).trans (hX i)
        have h3 := norm_add_le (s k i - xs i k) (xs i k)
        rw [sub_add_cancel] at h3
        linarith
      have hF : ∀ k i, ‖errPt vt zt (g i) (fun k => s k i) k‖ ≤ stop * μ / 8 := by
        intro k i
        have hn := (hA i).near (fun k => s k i) (xs i) (by have := hin i; linarith) (by rw [sub_self, norm_zero]; linarith)
        rw [(hA i).solution, sub_zero] at hn
        set x : Fin n → ℂ := fun k => s k i
        have h1 : ‖errPt vt zt (g i) x‖ ≤ Λ * ‖x - xs i‖ := by
          have h2 := norm_add_le (errPt vt zt (g i) x - A i (x - xs i)) (A i (x - xs i))
          rw [sub_add_cancel] at h2
          have h3 := hmap i (x - xs i)
          have h4 := mul_le_mul_of_nonneg_right (hK i) (norm_nonneg (x - xs i))
          rw [hΛ]; linarith
        exact (norm_le_pi_norm _ k).trans (h1.trans ((mul_le_mul_of_nonneg_left (hsmall i) hΛ0).trans ht4))
      refine ((signalLoop_le_iff hr' (fun k i => ?_) stop).2).2 ⟨hstop.le, fun k i => ?_⟩
      · obtain ⟨x, hx, -⟩ := Props.relErr_fin ar P hω0 c1 vt zt s e k i (hvne k i)
        rw [hx]
        simp
      · refine Props.test_of_resid ar P hω0 c1 vt zt s e k i (hvne k i) (g i (fun k => s k i) k) ?_
        have p6 : 1 / 2 < (1 - ω) ^ 6 := by linarith
        have f1 : ‖vt k - zt k * g i (fun k => s k i) k - s k i‖ ≤ stop * μ / 8 := hF k i
        have f2 : ‖zt k‖ * ‖e k i - g i (fun k => s k i) k‖ ≤ Z * ω := mul_le_mul (hZ k) (hen k i) (norm_nonneg _) hZ0
        have f3 : ω * (‖vt k‖ + 2 * ‖s k i‖) ≤ ω * (V + 2 * (X + ρ)) :=
          mul_le_mul_of_nonneg_left (by have := hV k; have := hvu k i; linarith) hω0
        rw [div_le_iff₀ (by linarith)]
        have f4 := mul_le_mul_of_nonneg_left (hv k i) hstop.le
        have f5 : stop * (μ / 2) * (1 / 2) ≤ stop * ‖s k i‖ * (1 - ω) ^ 6 := mul_le_mul f4 p6.le (by norm_num) (by positivity)
        linarith
    · set E := ‖(fun k => s k i) - xs i‖ with hE
      have hE0 : 0 ≤ E := norm_nonneg _
      have h1 := hwd i
      have h2 : (1 - damp / 2) * E + corrE n ω ω ω B V Z X ρ (β i) (κ' i) C E + ω * (X + E)
          + 3 * ω * (3 / 2 * E + corrE n ω ω ω B V Z X ρ (β i) (κ' i) C E)
          = (1 - damp / 2) * E + relPart n ω (β i) (κ' i) C * E + absPart n ω B V Z X ρ (β i) := by
        unfold corrE relPart absPart
        ring
      rw [h2] at h1
      have h3 := mul_le_mul_of_nonneg_right (c5 i).le hE0
      have h4 := c6 i
      have h5 := mul_le_mul_of_nonneg_left (hs i) hq0
      have h6 : q ^ (t + 1) * r + τ₀ / 2 = q * (q ^ t * r + τ₀ / 2) + ν := by rw [hν4, pow_succ]; ring
      rw [h6]
      have h7 : (1 - damp / 2) * E + damp / 4 * E = q * E := by rw [hq]; ring
      linarith
  obtain ⟨s, hs, ht, hup, hinv', -⟩ := loop_converges (maxIt := maxIt)
    (fun t s => ∀ i, ‖(fun k => s k i) - xs i‖ ≤ q ^ t * r + τ₀ / 2) m hmax step (maxIt + 1).toNat 0 (by omega) (by omega)
    { vj := v0, iteration := 0, exit := .exhausted, mask := none, evals := 0, updates := 0 }
    (fun i => by have := hst i; simp only [pow_zero, one_mul]; linarith) rfl
  exact ⟨s, hs, ht, hup, fun i => (hinv' i).trans (by linarith)⟩

end QMix.HBFp
