import Verif.Lemmas.Newton
import Verif.Lemmas.Lipschitz
import Mathlib.Analysis.Normed.Module.FiniteDimension

/-! The iteration of the harmonic balance procedure near a solution. -/

namespace QMix.HB

open Complex QMix.Qt

/-! ## The loop -/

section Loop

variable {S E : Type} {n N : ℕ} {ev : S → Py E} {rel : S → E → Fin n → Fin N → Rel}
  {upd : S → E → Py S} {stop : ℝ} {maxIt : ℤ}

/-- If every pass succeeds and pass `m` meets the target, the loop ends with the target met. -/
theorem loop_converges (Inv : ℕ → S → Prop) (m : ℕ) (hm : (m : ℤ) ≤ maxIt)
    (h : ∀ t s, Inv t s → ∃ e r, ev s = .ok e ∧ signalLoop stop (rel s e) = .ok r ∧ (m ≤ t → r.1.le (.fin stop)) ∧
      ∃ w, upd s e = .ok w ∧ Inv (t + 1) w)
    (left it : ℕ) (hl : m < it + left) (hit : it ≤ m) (st : Stopped S N) (hst : Inv it st.vj)
    (hup : st.updates = it) :
    ∃ s, loop ev rel upd stop maxIt left it st = .ok s ∧ s.exit = .target ∧ s.updates ≤ m ∧ Inv s.updates s.vj ∧
      ∃ f, s.mask = some f := by
  induction left generalizing it st with
  | zero => omega
  | succ left ih =>
    obtain ⟨e, r, he, hr, ht, w, hw, hi⟩ := h it st.vj hst
    unfold loop
    rw [he, py_bind, hr, py_bind]
    dsimp only
    by_cases h1 : r.1.le (.fin stop)
    · rw [if_pos h1]
      exact ⟨_, rfl, rfl, by simp [hup, hit], by simpa [hup] using hst, _, rfl⟩
    · have hlt : it < m := by
        by_contra hc
        exact h1 (ht (by omega))
      rw [if_neg h1, if_neg (by rintro ⟨-, hc⟩; omega), hw, py_bind]
      exact ih (it + 1) (by omega) hlt _ hi (congrArg (· + 1) hup)

end Loop

/-! ## The current as a function of the voltages at one bias point -/

theorem to3d_signal {F P N : ℕ} (vj : Sig (F * P) N) (f p : ℕ) (i : Fin N) :
    to3d F P vj f p i = Spec.signal (fun k => vj k i) f p := by
  unfold to3d Spec.signal
  by_cases h : (1 ≤ f ∧ f ≤ F) ∧ 1 ≤ p ∧ p ≤ P
  · have hi : (f - 1) * P + (p - 1) < F * P := idx_lt (by omega) (by omega)
    rw [dif_pos h, dif_pos ⟨hi, h⟩]
  · rw [dif_neg h, dif_neg fun hc => h hc.2]

theorem signal_self {F P : ℕ} (x : Fin (F * P) → ℂ) (k : Fin (F * P)) :
    Spec.signal x (k / P + 1) (k % P + 1) = x k := by
  have h := congrFun (congrFun (to2d_to3d (fun k (_ : Fin 1) => x k)) k) 0
  unfold to2d at h
  rw [to3d_signal] at h
  exact h

/-- The current of all signals at one bias point. -/
noncomputable def curPt {N : ℕ} (cct : HCct N) (resp : ℝ → ℂ) (nb : NumB) (i : Fin N)
    (x : Fin (cct.numF * cct.numP) → ℂ) : Fin (cct.numF * cct.numP) → ℂ := fun k =>
  Spec.qt resp (Spec.signal x) cct.freq cct.numF cct.numP (nb.toTup cct.numF) (cct.vb i)
    (cct.freq (k / cct.numP + 1) * ((k % cct.numP + 1 : ℕ) : ℝ))

theorem current_pt {N : ℕ} (cct : HCct N) (resp : ℝ → ℂ) (nb : NumB) (h : Valid cct.toCct nb)
    {m : RespMat (Fin N)} (hm : interpolateRespfn cct.toCct resp nb = .ok m)
    (vj : Sig (cct.numF * cct.numP) N) :
    currentForHb cct resp nb m vj = .ok fun k i => curPt cct resp nb i (fun k => vj k i) k := by
  rw [currentForHb_eq cct resp nb h hm]
  congr 1
  funext k i
  unfold to2d specCur curPt
  simp only [to3d_signal]

theorem errPt_residuals {N : ℕ} (cct : HCct N) (resp : ℝ → ℂ) (nb : NumB) (i : Fin N) :
    errPt cct.sigVt cct.sigZt (curPt cct resp nb i)
      = Spec.residuals resp cct.freq cct.numF cct.numP (nb.toTup cct.numF) (cct.vb i) (clampVt cct.vt) cct.zt := by
  funext x k
  unfold errPt Spec.residuals Spec.residual curPt
  rw [signal_self]
  rfl

/-! ## The procedure -/

theorem exists_bound {n : ℕ} (A : (Fin n → ℂ) →ₗ[ℝ] (Fin n → ℂ)) : ∃ C, 0 ≤ C ∧ ∀ u, ‖A u‖ ≤ C * ‖u‖ :=
  ⟨‖LinearMap.toContinuousLinearMap A‖, norm_nonneg _, fun u => (LinearMap.toContinuousLinearMap A).le_opNorm u⟩

theorem exists_common {κ : Type} [Finite κ] (f : κ → ℝ) : ∃ C, 0 ≤ C ∧ ∀ k, f k ≤ C := by
  cases nonempty_fintype κ
  refine ⟨∑ k, |f k|, Finset.sum_nonneg fun _ _ => abs_nonneg _, fun k => (le_abs_self _).trans ?_⟩
  exact Finset.single_le_sum (f := fun k => |f k|) (fun _ _ => abs_nonneg _) (Finset.mem_univ k)

theorem exists_common_pos {κ : Type} [Finite κ] (f : κ → ℝ) (hf : ∀ k, 0 < f k) : ∃ c, 0 < c ∧ ∀ k, c ≤ f k := by
  obtain ⟨C, hC, h⟩ := exists_common fun k => (f k)⁻¹
  refine ⟨(C + 1)⁻¹, by positivity, fun k => ?_⟩
  rw [inv_le_comm₀ (by positivity) (hf k)]
  linarith [h k]

/-- From voltages within `ρ` of a solution near which the equations are nearly linear, the procedure
meets its target. -/
theorem hb_converges {N : ℕ} (hN : 0 < N) (cct : HCct N) (resp : ℝ → ℂ) (nb : NumB) (h : Valid cct.toCct nb)
    (hz : ¬ ztZero cct) (xs : Fin N → Fin (cct.numF * cct.numP) → ℂ) (ρ : ℝ)
    (A : Fin N → (Fin (cct.numF * cct.numP) → ℂ) →ₗ[ℝ] (Fin (cct.numF * cct.numP) → ℂ)) (β κ : Fin N → ℝ)
    (hA : ∀ i, Spec.NearLinear (Spec.residuals resp cct.freq cct.numF cct.numP (nb.toTup cct.numF) (cct.vb i)
      (clampVt cct.vt) cct.zt) (xs i) ρ (A i) (β i) (κ i)) (hx : ∀ i k, xs i k ≠ 0)
    (stop damp : ℝ) (hstop : 0 < stop) (hd0 : 0 < damp) (hd1 : damp ≤ 1) :
    ∃ m : ℕ, ∀ (maxIt : ℤ) (vjInit : Option (ℕ → ℕ → Arr (Fin N))) (mode : Mode) (zj : ℂ)
      (start : ℕ → ℕ → Arr (Fin N)), (m : ℤ) ≤ maxIt → startVj cct vjInit zj = .ok start →
      (∀ i, ‖(fun k => to2d cct.numF cct.numP start k i) - xs i‖ ≤ ρ) →
      ∃ run s, harmonicBalance cct resp nb maxIt stop vjInit damp mode zj = .ok run ∧
        run.stopped = some s ∧ s.exit = .target ∧ s.updates ≤ m ∧
        ∀ i, ‖(fun k => s.vj k i) - xs i‖ ≤ (1 - damp / 2) ^ s.updates * ρ := by
  set q := 1 - damp / 2 with hq
  have hq0 : 0 ≤ q := by linarith
  have hq1 : q < 1 := by linarith
  obtain ⟨μ, hμ, hμx⟩ := exists_common_pos (fun y : Fin N × Fin (cct.numF * cct.numP) => ‖xs y.1 y.2‖)
    (fun y => norm_pos_iff.2 (hx _ _))
  choose C hC hCA using fun i => exists_bound (A i)
  obtain ⟨Λ, hΛ, hΛi⟩ := exists_common fun i => C i + κ i
  -- pass `m`: the distance to the solution is small compared with the voltages
  obtain ⟨m, hm⟩ : ∃ m : ℕ, q ^ m * (|ρ| * (1 + 2 * Λ / stop)) < μ / 2 := by
    have hK : 0 ≤ |ρ| * (1 + 2 * Λ / stop) := by positivity
    obtain ⟨m, hm⟩ := exists_pow_lt_of_lt_one (show 0 < μ / 2 / (|ρ| * (1 + 2 * Λ / stop) + 1) by positivity) hq1
    refine ⟨m, ?_⟩
    rw [lt_div_iff₀ (by positivity)] at hm
    have := pow_nonneg hq0 m
    nlinarith
  refine ⟨m, fun maxIt vjInit mode zj start hmax hst hρ => ?_⟩
  have hρ0 : 0 ≤ ρ := (norm_nonneg _).trans (hρ ⟨0, hN⟩)
  rw [abs_of_nonneg hρ0] at hm
  obtain ⟨mat, hmat, -⟩ := matrix_same cct resp nb h
  have hcur := current_pt cct resp nb h hmat
  have hF : ∀ i, Spec.NearLinear (errPt cct.sigVt cct.sigZt (curPt cct resp nb i)) (xs i) ρ (A i) (β i) (κ i) := by
    intro i
    rw [errPt_residuals]
    exact hA i
  have hqm : ∀ t, q ^ t ≤ 1 := fun t => pow_le_one₀ hq0 hq1.le
  have step : ∀ t (s : Sig (cct.numF * cct.numP) N), (∀ i, ‖(fun k => s k i) - xs i‖ ≤ q ^ t * ρ) →
      ∃ e r, currentForHb cct resp nb mat s = .ok e ∧
        signalLoop stop (relErr cct.sigVt cct.sigZt s e) = .ok r ∧ (m ≤ t → r.1.le (.fin stop)) ∧
        ∃ w, update (currentForHb cct resp nb mat) cct.sigVt cct.sigZt damp s e = .ok w ∧
          ∀ i, ‖(fun k => w k i) - xs i‖ ≤ q ^ (t + 1) * ρ := by
    intro t s hs
    have hin : ∀ i, ‖(fun k => s k i) - xs i‖ ≤ ρ := fun i =>
      (hs i).trans (mul_le_of_le_one_left hρ0 (hqm t))
    obtain ⟨r, hr⟩ := signalLoop_total (stop := stop)
      (rel := relErr cct.sigVt cct.sigZt s fun k i => curPt cct resp nb i (fun k => s k i) k) hN
    obtain ⟨w, hw, hwd⟩ := update_newton (currentForHb cct resp nb mat) cct.sigVt cct.sigZt damp hd0.le hd1
      (curPt cct resp nb) hcur xs ρ A β κ hF s _ (hcur s) hin
    refine ⟨_, r, hcur s, hr, fun ht => ?_, w, hw, fun i => ?_⟩
    · have hsmall : ∀ i, ‖(fun k => s k i) - xs i‖ ≤ q ^ m * ρ := fun i =>
        (hs i).trans (mul_le_mul_of_nonneg_right (pow_le_pow_of_le_one hq0 hq1.le ht) hρ0)
      set D := q ^ m * ρ with hD
      have hD0 : 0 ≤ D := mul_nonneg (pow_nonneg hq0 _) hρ0
      have hDm : D + 2 * Λ / stop * D < μ / 2 := by
        calc _ = q ^ m * (ρ * (1 + 2 * Λ / stop)) := by rw [hD]; ring
          _ < _ := hm
      have hΛD : 0 ≤ 2 * Λ / stop * D := by positivity
      have hv : ∀ k i, μ / 2 ≤ ‖s k i‖ := by
        intro k i
        have h1 : ‖s k i - xs i k‖ ≤ D := (norm_le_pi_norm ((fun k => s k i) - xs i) k).trans (hsmall i)
        have h2 := hμx (i, k)
        have h3 := norm_sub_norm_le (xs i k) (s k i)
        rw [norm_sub_rev] at h3
        simp only at h2
        linarith
      have he : ∀ k i, ‖errPt cct.sigVt cct.sigZt (curPt cct resp nb i) (fun k => s k i) k‖ ≤ Λ * D := by
        intro k i
        have hn := (hF i).near (fun k => s k i) (xs i) (by have := hin i; linarith)
          (by rw [sub_self, norm_zero]; linarith)
        rw [(hF i).solution, sub_zero] at hn
        set x : Fin (cct.numF * cct.numP) → ℂ := fun k => s k i
        have h1 : ‖errPt cct.sigVt cct.sigZt (curPt cct resp nb i) x‖ ≤ (C i + κ i) * ‖x - xs i‖ := by
          have h2 := norm_add_le (errPt cct.sigVt cct.sigZt (curPt cct resp nb i) x - A i (x - xs i)) (A i (x - xs i))
          rw [sub_add_cancel] at h2
          have := hCA i (x - xs i)
          linarith
        refine (norm_le_pi_norm _ k).trans (h1.trans ?_)
        exact mul_le_mul (hΛi i) (hsmall i) (norm_nonneg _) hΛ
      have hle : Λ * D ≤ stop * (μ / 2) := by
        have : 2 * Λ / stop * D < μ / 2 := by linarith
        rw [div_mul_eq_mul_div, div_lt_iff₀ hstop] at this
        nlinarith
      refine ((signalLoop_le_iff hr (fun k i => ?_) stop).2).2 ⟨hstop.le, fun k i => ?_⟩
      · unfold relErr
        rw [Ne, relDiv_nan]
        rintro ⟨-, h0⟩
        have := hv k i
        linarith
      · unfold relErr
        rw [relDiv_le_iff (by have := hv k i; linarith)]
        have h1 : ‖errVec cct.sigVt cct.sigZt (fun k i => curPt cct resp nb i (fun k => s k i) k) s k i‖ ≤ Λ * D :=
          he k i
        exact h1.trans (hle.trans (mul_le_mul_of_nonneg_left (hv k i) hstop.le))
    · refine (hwd i).trans ?_
      rw [pow_succ, mul_comm (q ^ t), mul_assoc]
      exact mul_le_mul_of_nonneg_left (hs i) hq0
  obtain ⟨s, hs, ht, hup, hinv, f, hf⟩ := loop_converges (maxIt := maxIt)
    (fun t s => ∀ i, ‖(fun k => s k i) - xs i‖ ≤ q ^ t * ρ) m hmax step (maxIt + 1).toNat 0 (by omega) (by omega)
    { vj := to2d cct.numF cct.numP start, iteration := 0, exit := .exhausted, mask := none, evals := 0, updates := 0 }
    (by simpa using hρ) rfl
  obtain ⟨r, hr⟩ := result_total mode maxIt s hf
  refine ⟨{ res := r, cct := cct.clamp, vjInit := vjInit.map fun v => writeBack cct.numF cct.numP v s.vj,
            stopped := some s }, s, ?_, rfl, ht, hup, hinv⟩
  · unfold harmonicBalance
    rw [if_neg hz, hst, py_bind, hmat, py_bind]
    unfold iterate
    dsimp only
    rw [hs, py_bind, hr]
    rfl

end QMix.HB
