import Verif.Lemmas.Conv
import Verif.Spec.Phase

/-! The exact coefficients of a tone, and how the truncated ones converge to them. -/

namespace QMix

open Complex Filter Topology Finset Spec

/-- The Jacobi-Anger coefficients without truncation. -/
noncomputable def jaFull (v : ℂ) (w : ℝ) (p : ℕ) (n : ℤ) : ℂ :=
  (besselJ n (‖v‖ / (p * w)) : ℂ) * exp (-I * n * arg v)

theorem norm_jaFull (v : ℂ) (w : ℝ) (p : ℕ) (n : ℤ) : ‖jaFull v w p n‖ = |besselJ n (‖v‖ / (p * w))| := by
  unfold jaFull
  rw [norm_mul, norm_real, Real.norm_eq_abs, show -I * (n : ℂ) * (arg v : ℂ) = I * n * ((-arg v : ℝ) : ℂ) by
    push_cast; ring, norm_exp_I_mul, mul_one]

theorem small_bessel (x : ℝ) : Small fun n => |besselJ n x| :=
  ⟨fun _ => abs_nonneg _, summable_besselJ x⟩

theorem small_jaFull (v : ℂ) (w : ℝ) (p : ℕ) : Small fun n => ‖jaFull v w p n‖ := by
  simp only [norm_jaFull]
  exact small_bessel _

theorem hasSum_jaFull (v : ℂ) (w : ℝ) (p : ℕ) (s : ℝ) :
    HasSum (fun l : ℤ => jaFull v w p l * exp (I * l * s))
      (exp (I * (‖v‖ / (p * w) : ℝ) * Real.sin (s - arg v))) := by
  have h := jacobi_anger (‖v‖ / (p * w)) (s - arg v)
  have e : (fun l : ℤ => jaFull v w p l * exp (I * l * s)) =
      fun n : ℤ => (besselJ n (‖v‖ / (p * w)) : ℂ) * exp (I * n * (s - arg v : ℝ)) := by
    funext l
    unfold jaFull
    rw [mul_assoc, ← exp_add]
    congr 2
    push_cast
    ring
  rw [e]
  exact h

theorem phaseFactor_zero (v : ℕ → ℂ) (w t : ℝ) : phaseFactor v w 0 t = 1 := by
  simp [phaseFactor, junctionPhase]

theorem phaseFactor_succ (v : ℕ → ℂ) (w : ℝ) (P : ℕ) (t : ℝ) :
    phaseFactor v w (P + 1) t = phaseFactor v w P t *
      exp (I * (‖v (P + 1)‖ / ((P + 1 : ℕ) * w) : ℝ) * Real.sin ((P + 1 : ℤ) * t - arg (v (P + 1)))) := by
  unfold phaseFactor junctionPhase
  rw [← exp_add, Finset.sum_Icc_succ_top (by omega)]
  congr 1
  push_cast
  ring

/-- The phase factor is the sum of its Fourier series, whose coefficients fall fast, and adding one
harmonic is a convolution. -/
theorem phaseCoeff_series (v : ℕ → ℂ) (w : ℝ) (P : ℕ) :
    (Small fun k => ‖phaseCoeff v w P k‖) ∧
      (∀ t : ℝ, HasSum (fun k : ℤ => phaseCoeff v w P k * exp (I * k * t)) (phaseFactor v w P t)) := by
  induction P with
  | zero =>
    have h0 : ∀ t : ℝ, HasSum (fun k : ℤ => (if k = 0 then (1 : ℂ) else 0) * exp (I * k * t)) (phaseFactor v w 0 t) := by
      intro t
      rw [phaseFactor_zero]
      have := hasSum_single (f := fun k : ℤ => (if k = 0 then (1 : ℂ) else 0) * exp (I * k * t)) 0
        (fun k hk => by rw [if_neg hk, zero_mul])
      simpa using this
    have hs : Small fun k : ℤ => ‖if k = 0 then (1 : ℂ) else 0‖ := by
      have : (fun k : ℤ => ‖if k = 0 then (1 : ℂ) else 0‖) = fun k => if k = 0 then 1 else 0 := by
        funext k
        split_ifs <;> simp
      rw [this]
      exact Small.delta
    have hc : phaseCoeff v w 0 = fun k => if k = 0 then 1 else 0 := funext fun k => fcoef_of_hasSum hs.sum h0 k
    rw [hc]
    exact ⟨hs, h0⟩
  | succ P ih =>
    have hA := small_jaFull (v (P + 1)) w (P + 1)
    have h0 : ∀ t : ℝ, HasSum (fun k : ℤ => (∑' l, phaseCoeff v w P (k - (P + 1 : ℤ) * l) * jaFull (v (P + 1)) w (P + 1) l)
        * exp (I * k * t)) (phaseFactor v w (P + 1) t) := by
      intro t
      rw [phaseFactor_succ]
      exact hasSum_conv ih.1 hA (P + 1 : ℤ) (ih.2 t) (hasSum_jaFull (v (P + 1)) w (P + 1) (((P + 1 : ℤ) : ℝ) * t))
    have hs := conv_small ih.1 hA (P + 1 : ℤ)
    have hc : phaseCoeff v w (P + 1) = fun k => ∑' l, phaseCoeff v w P (k - (P + 1 : ℤ) * l) * jaFull (v (P + 1)) w (P + 1) l :=
      funext fun k => fcoef_of_hasSum hs.sum h0 k
    rw [hc]
    exact ⟨hs, h0⟩

theorem small_phaseCoeff (v : ℕ → ℂ) (w : ℝ) (P : ℕ) : Small fun k => ‖phaseCoeff v w P k‖ :=
  (phaseCoeff_series v w P).1

theorem phaseCoeff_zero (v : ℕ → ℂ) (w : ℝ) (k : ℤ) : phaseCoeff v w 0 k = if k = 0 then 1 else 0 := by
  refine fcoef_of_hasSum (c := fun k => if k = 0 then 1 else 0) ?_ (fun t => ?_) k
  · refine summable_of_ne_finset_zero (s := {0}) fun k hk => ?_
    rw [Finset.mem_singleton] at hk
    rw [if_neg hk, norm_zero]
  · rw [phaseFactor_zero]
    have := hasSum_single (f := fun k : ℤ => (if k = 0 then (1 : ℂ) else 0) * exp (I * k * t)) 0
      (fun k hk => by rw [if_neg hk, zero_mul])
    simpa using this

theorem phaseCoeff_succ (v : ℕ → ℂ) (w : ℝ) (P : ℕ) (k : ℤ) :
    phaseCoeff v w (P + 1) k
      = ∑' l, phaseCoeff v w P (k - (P + 1 : ℕ) * l) * jaFull (v (P + 1)) w (P + 1) l := by
  obtain ⟨h1, h2⟩ := phaseCoeff_series v w P
  have hA := small_jaFull (v (P + 1)) w (P + 1)
  refine fcoef_of_hasSum (c := fun k => ∑' l, phaseCoeff v w P (k - (P + 1 : ℕ) * l) * jaFull (v (P + 1)) w (P + 1) l)
    (conv_small h1 hA _).sum (fun t => ?_) k
  rw [phaseFactor_succ]
  have := hasSum_conv h1 hA ((P + 1 : ℕ) : ℤ) (h2 t) (hasSum_jaFull (v (P + 1)) w (P + 1) ((((P + 1 : ℕ) : ℤ) : ℝ) * t))
  push_cast at this ⊢
  exact this

/-! ## Convergence of the truncated coefficients -/

/-- A bound on the coefficients that does not depend on the truncation. -/
noncomputable def coeffBound (v : ℕ → ℂ) (w : ℝ) : ℕ → ℤ → ℝ
  | 0, k => if k = 0 then 1 else 0
  | p + 1, k => ∑' l, coeffBound v w p (k - (p + 1 : ℕ) * l) * |besselJ l (‖v (p + 1)‖ / ((p + 1 : ℕ) * w))|

theorem small_coeffBound (v : ℕ → ℂ) (w : ℝ) (p : ℕ) : Small (coeffBound v w p) := by
  induction p with
  | zero => exact Small.delta
  | succ p ih => exact ih.conv (small_bessel _) _

theorem norm_jacobiAnger_le (v : ℂ) (w : ℝ) (p nb : ℕ) (n : ℤ) :
    ‖jacobiAnger v w p nb n‖ ≤ |besselJ n (‖v‖ / (p * w))| := by
  unfold jacobiAnger
  split_ifs
  · exact (norm_jaFull v w p n).le
  · rw [norm_zero]
    exact abs_nonneg _

theorem norm_harmonicConv_le (v : ℕ → ℂ) (w : ℝ) (nb M p : ℕ) (k : ℤ) :
    ‖harmonicConv M (fun p => jacobiAnger (v p) w p nb) p k‖ ≤ coeffBound v w p k := by
  induction p generalizing k with
  | zero =>
    simp only [harmonicConv, coeffBound]
    split_ifs <;> simp
  | succ p ih =>
    simp only [harmonicConv, coeffBound]
    have hs := (small_coeffBound v w p).fibre (small_bessel (‖v (p + 1)‖ / ((p + 1 : ℕ) * w))) ((p + 1 : ℕ) : ℤ) k
    have h0 : ∀ l : ℤ, 0 ≤ coeffBound v w p (k - (p + 1 : ℕ) * l) * |besselJ l (‖v (p + 1)‖ / ((p + 1 : ℕ) * w))| :=
      fun l => mul_nonneg ((small_coeffBound v w p).nonneg _) (abs_nonneg _)
    refine (norm_sum_le _ _).trans ((Finset.sum_le_sum fun l _ => ?_).trans (hs.sum_le_tsum _ fun l _ => h0 l))
    split_ifs
    · rw [norm_mul]
      exact mul_le_mul (ih _) (norm_jacobiAnger_le _ _ _ _ _) (norm_nonneg _) ((small_coeffBound v w p).nonneg _)
    · rw [norm_zero]
      exact h0 l

theorem tendsto_jacobiAnger {T : Type*} {𝓕 : Filter T} {nb : T → ℕ} (hnb : Tendsto nb 𝓕 atTop) (v : ℂ) (w : ℝ) (p : ℕ)
    (n : ℤ) : Tendsto (fun t => jacobiAnger v w p (nb t) n) 𝓕 (𝓝 (jaFull v w p n)) := by
  refine tendsto_const_nhds.congr' ?_
  filter_upwards [hnb.eventually_ge_atTop n.natAbs] with t ht
  rw [jacobiAnger, if_pos (by rw [Int.abs_eq_natAbs]; exact_mod_cast ht)]
  rfl

theorem tendsto_harmonicConv {T : Type*} {𝓕 : Filter T} {nb M : T → ℕ} (hnb : Tendsto nb 𝓕 atTop)
    (hM : Tendsto M 𝓕 atTop) (v : ℕ → ℂ) (w : ℝ) (p : ℕ) (k : ℤ) :
    Tendsto (fun t => harmonicConv (M t) (fun p => jacobiAnger (v p) w p (nb t)) p k) 𝓕 (𝓝 (phaseCoeff v w p k)) := by
  induction p generalizing k with
  | zero =>
    simp only [harmonicConv, phaseCoeff_zero]
    exact tendsto_const_nhds
  | succ p ih =>
    rw [phaseCoeff_succ]
    simp only [harmonicConv]
    have hs := (small_coeffBound v w p).fibre (small_bessel (‖v (p + 1)‖ / ((p + 1 : ℕ) * w))) ((p + 1 : ℕ) : ℤ) k
    let f : T → ℤ → ℂ := fun t l => if l ∈ Icc (-(M t : ℤ)) (M t) then
      (if |k - (p + 1 : ℕ) * l| ≤ M t then harmonicConv (M t) (fun p => jacobiAnger (v p) w p (nb t)) p (k - (p + 1 : ℕ) * l)
        * jacobiAnger (v (p + 1)) w (p + 1) (nb t) l else 0) else 0
    have hf : ∀ t, ∑ l ∈ Icc (-(M t : ℤ)) (M t), (if |k - (p + 1 : ℕ) * l| ≤ M t then
        harmonicConv (M t) (fun p => jacobiAnger (v p) w p (nb t)) p (k - (p + 1 : ℕ) * l)
        * jacobiAnger (v (p + 1)) w (p + 1) (nb t) l else 0) = ∑' l, f t l := by
      intro t
      rw [tsum_eq_sum (s := Icc (-(M t : ℤ)) (M t)) (fun l hl => if_neg hl)]
      exact Finset.sum_congr rfl fun l hl => (if_pos hl).symm
    simp only [hf]
    refine tendsto_tsum_of_dominated_convergence hs (fun l => ?_) (Eventually.of_forall fun t l => ?_)
    · refine ((ih _).mul (tendsto_jacobiAnger hnb (v (p + 1)) w (p + 1) l)).congr' ?_
      filter_upwards [hM.eventually_ge_atTop l.natAbs, hM.eventually_ge_atTop (k - (p + 1 : ℕ) * l).natAbs] with t h1 h2
      show _ = if _ then _ else _
      rw [if_pos (Finset.mem_Icc.2 (by omega)), if_pos (by rw [Int.abs_eq_natAbs]; exact_mod_cast h2)]
    · show ‖if _ then _ else _‖ ≤ _
      have h0 : 0 ≤ coeffBound v w p (k - (p + 1 : ℕ) * l) * |besselJ l (‖v (p + 1)‖ / ((p + 1 : ℕ) * w))| :=
        mul_nonneg ((small_coeffBound v w p).nonneg _) (abs_nonneg _)
      split_ifs
      · rw [norm_mul]
        exact mul_le_mul (norm_harmonicConv_le _ _ _ _ _ _) (norm_jacobiAnger_le _ _ _ _ _) (norm_nonneg _)
          ((small_coeffBound v w p).nonneg _)
      · rw [norm_zero]
        exact h0
      · rw [norm_zero]
        exact h0

end QMix
