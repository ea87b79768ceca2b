import Verif.Lemmas.Deriv2

/-! Functions with a bounded derivative and a uniform quadratic remainder. -/

namespace QMix

open Complex Filter Topology Finset Spec

section taylor

variable {E V : Type} [NormedAddCommGroup E] [NormedSpace ℝ E] [NormedAddCommGroup V] [NormedSpace ℝ V]

/-- The remainder of the linear approximation at every point is at most `K ‖h‖²`. -/
def Taylor (K : ℝ) (F : E → V) : Prop := ∀ x, ∃ L : E →L[ℝ] V, ∀ h, ‖F (x + h) - F x - L h‖ ≤ K * ‖h‖ ^ 2

theorem Taylor.hasFDerivAt {K : ℝ} {F : E → V} (h : Taylor K F) (x : E) : ∃ L : E →L[ℝ] V, HasFDerivAt F L x ∧
    ∀ u, ‖F (x + u) - F x - L u‖ ≤ K * ‖u‖ ^ 2 := by
  obtain ⟨L, hL⟩ := h x
  refine ⟨L, ?_, hL⟩
  rw [hasFDerivAt_iff_isLittleO_nhds_zero]
  have h1 : (fun h => F (x + h) - F x - L h) =O[𝓝 0] fun h : E => ‖h‖ ^ 2 := by
    refine Asymptotics.IsBigO.of_bound K (Eventually.of_forall fun u => ?_)
    rw [norm_pow, norm_norm]
    exact hL u
  exact h1.trans_isLittleO (Asymptotics.isLittleO_norm_pow_id one_lt_two)

theorem Taylor.apply {K : ℝ} {F : E → V} (h : Taylor K F) {x : E} {L : E →L[ℝ] V} (hL : HasFDerivAt F L x) (u : E) :
    ‖F (x + u) - F x - L u‖ ≤ K * ‖u‖ ^ 2 := by
  obtain ⟨L', h1, h2⟩ := h.hasFDerivAt x
  rw [hL.unique h1]
  exact h2 u

/-- The derivative varies slowly. -/
theorem Taylor.lipschitz {K : ℝ} (hK : 0 ≤ K) {F : E → V} (h : Taylor K F) {x y : E} {L M : E →L[ℝ] V} (hL : HasFDerivAt F L x)
    (hM : HasFDerivAt F M y) (u : E) : ‖(M - L) u‖ ≤ 6 * K * ‖y - x‖ * ‖u‖ := by
  rcases eq_or_ne y x with rfl | hne
  · rw [hL.unique hM]
    simp
  have hd : 0 < ‖y - x‖ := norm_pos_iff.2 (sub_ne_zero.2 hne)
  rcases eq_or_ne u 0 with rfl | hu
  · simp
  have hu0 : 0 < ‖u‖ := norm_pos_iff.2 hu
  set d := y - x with hdd
  set c := ‖d‖ / ‖u‖ with hc
  have hc0 : 0 < c := div_pos hd hu0
  have hcu : ‖c • u‖ = ‖d‖ := by
    rw [norm_smul, Real.norm_of_nonneg hc0.le, hc, div_mul_cancel₀ _ hu0.ne']
  have h1 := h.apply hM (c • u)
  have h2 := h.apply hL (d + c • u)
  have h3 := h.apply hL d
  have e : (M - L) (c • u) = -(F (y + c • u) - F y - M (c • u)) + (F (x + (d + c • u)) - F x - L (d + c • u)) - (F (x + d) - F x - L d) := by
    have e1 : x + (d + c • u) = y + c • u := by rw [hdd]; abel
    have e2 : x + d = y := by rw [hdd]; abel
    rw [e1, e2, map_add]
    simp only [ContinuousLinearMap.sub_apply]
    abel
  have h4 : ‖(M - L) (c • u)‖ ≤ 6 * K * ‖d‖ ^ 2 := by
    rw [e]
    have h5 := norm_add_le (d) (c • u)
    rw [hcu] at h1 h5
    have h6 : ‖d + c • u‖ ^ 2 ≤ (‖d‖ + ‖d‖) ^ 2 := pow_le_pow_left₀ (norm_nonneg _) h5 2
    calc _ ≤ ‖F (y + c • u) - F y - M (c • u)‖ + ‖F (x + (d + c • u)) - F x - L (d + c • u)‖ + ‖F (x + d) - F x - L d‖ := by
          refine (norm_sub_le _ _).trans (add_le_add_left ((norm_add_le _ _).trans ?_) _)
          rw [norm_neg]
      _ ≤ K * ‖d‖ ^ 2 + K * (‖d‖ + ‖d‖) ^ 2 + K * ‖d‖ ^ 2 :=
          add_le_add (add_le_add h1 (h2.trans (mul_le_mul_of_nonneg_left h6 hK))) h3
      _ = _ := by ring
  rw [map_smul, norm_smul, Real.norm_of_nonneg hc0.le] at h4
  have h7 : ‖d‖ = c * ‖u‖ := by rw [hc, div_mul_cancel₀ _ hu0.ne']
  have h8 : c * ‖(M - L) u‖ ≤ c * (6 * K * ‖d‖ * ‖u‖) := by
    calc _ ≤ 6 * K * ‖d‖ ^ 2 := h4
      _ = 6 * K * ‖d‖ * (c * ‖u‖) := by rw [← h7]; ring
      _ = _ := by ring
  exact le_of_mul_le_mul_left h8 hc0

/-- Near a point, the function differs little from its linear approximation there. -/
theorem Taylor.near {K : ℝ} (hK : 0 ≤ K) {F : E → V} (h : Taylor K F) {c : E} {L : E →L[ℝ] V} (hL : HasFDerivAt F L c) {r : ℝ}
    {x y : E} (hx : ‖x - c‖ ≤ r) (hy : ‖y - c‖ ≤ r) : ‖F x - F y - L (x - y)‖ ≤ 8 * K * r * ‖x - y‖ := by
  obtain ⟨M, hM, h1⟩ := h.hasFDerivAt y
  have h2 := h1 (x - y)
  rw [add_sub_cancel] at h2
  have h3 := h.lipschitz hK hL hM (x - y)
  have e : F x - F y - L (x - y) = (F x - F y - M (x - y)) + (M - L) (x - y) := by
    rw [ContinuousLinearMap.sub_apply]; abel
  have h4 : ‖x - y‖ ≤ 2 * r := by
    have : x - y = (x - c) - (y - c) := by abel
    rw [this]
    exact (norm_sub_le _ _).trans (by linarith)
  rw [e]
  refine (norm_add_le _ _).trans ((add_le_add h2 h3).trans ?_)
  have h5 : ‖x - y‖ ^ 2 ≤ 2 * r * ‖x - y‖ := by
    rw [sq]
    exact mul_le_mul_of_nonneg_right h4 (norm_nonneg _)
  have h6 : ‖y - c‖ * ‖x - y‖ ≤ r * ‖x - y‖ := mul_le_mul_of_nonneg_right hy (norm_nonneg _)
  nlinarith [mul_le_mul_of_nonneg_left h5 hK, mul_le_mul_of_nonneg_left h6 hK]

end taylor

section sm

variable {E : Type} [NormedAddCommGroup E] [NormedSpace ℝ E]

/-- Bounded, with a bounded derivative and a uniform quadratic remainder. -/
def Sm (F : E → ℂ) : Prop := ∃ K : ℝ, 0 ≤ K ∧ ∀ x, ‖F x‖ ≤ K ∧
  ∃ L : E →L[ℝ] ℂ, ‖L‖ ≤ K ∧ ∀ h, ‖F (x + h) - F x - L h‖ ≤ K * ‖h‖ ^ 2

theorem Sm.diff {F : E → ℂ} {K : ℝ} (hK : 0 ≤ K) {x : E} (h : E) (h1 : ‖F x‖ ≤ K) (h2 : ‖F (x + h)‖ ≤ K) {L : E →L[ℝ] ℂ} (hL : ‖L‖ ≤ K)
    (h3 : ‖F (x + h) - F x - L h‖ ≤ K * ‖h‖ ^ 2) : ‖F (x + h) - F x‖ ≤ 2 * K * ‖h‖ := by
  rcases le_total ‖h‖ 1 with hh | hh
  · have h4 : ‖L h‖ ≤ K * ‖h‖ := L.le_of_opNorm_le hL h
    have h5 := norm_add_le (F (x + h) - F x - L h) (L h)
    rw [sub_add_cancel] at h5
    have h6 : ‖h‖ ^ 2 ≤ ‖h‖ := by nlinarith [norm_nonneg h]
    nlinarith [mul_le_mul_of_nonneg_left h6 hK]
  · have h5 := norm_sub_le (F (x + h)) (F x)
    nlinarith

theorem closed_sm : Closed (Sm : (E → ℂ) → Prop) where
  const c := ⟨‖c‖, norm_nonneg _, fun x => ⟨le_rfl, 0, by simp, fun h => by simp only [sub_self, ContinuousLinearMap.zero_apply, norm_zero]; positivity⟩⟩
  add := by
    rintro F G ⟨K, hK, hF⟩ ⟨M, hM, hG⟩
    refine ⟨K + M, add_nonneg hK hM, fun x => ?_⟩
    obtain ⟨h1, L, h2, h3⟩ := hF x
    obtain ⟨g1, L', g2, g3⟩ := hG x
    refine ⟨(norm_add_le _ _).trans (add_le_add h1 g1), L + L', (norm_add_le _ _).trans (add_le_add h2 g2), fun h => ?_⟩
    have e : F (x + h) + G (x + h) - (F x + G x) - (L + L') h = (F (x + h) - F x - L h) + (G (x + h) - G x - L' h) := by
      rw [ContinuousLinearMap.add_apply]; ring
    rw [e, add_mul]
    exact (norm_add_le _ _).trans (add_le_add (h3 h) (g3 h))
  mul := by
    rintro F G ⟨K, hK, hF⟩ ⟨M, hM, hG⟩
    refine ⟨6 * (K * M), by positivity, fun x => ?_⟩
    obtain ⟨h1, L, h2, h3⟩ := hF x
    obtain ⟨g1, L', g2, g3⟩ := hG x
    have hKM : 0 ≤ K * M := mul_nonneg hK hM
    refine ⟨?_, F x • L' + G x • L, ?_, fun h => ?_⟩
    · rw [norm_mul]
      have := mul_le_mul h1 g1 (norm_nonneg _) hK
      linarith
    · refine (norm_add_le _ _).trans ?_
      rw [norm_smul, norm_smul]
      have i1 := mul_le_mul h1 g2 (norm_nonneg _) hK
      have i2 := mul_le_mul g1 h2 (norm_nonneg _) hM
      nlinarith
    · have e : F (x + h) * G (x + h) - F x * G x - (F x • L' + G x • L) h
          = F x * (G (x + h) - G x - L' h) + G x * (F (x + h) - F x - L h) + (F (x + h) - F x) * (G (x + h) - G x) := by
        simp only [ContinuousLinearMap.add_apply, ContinuousLinearMap.smul_apply, smul_eq_mul]; ring
      rw [e]
      have i1 : ‖F x * (G (x + h) - G x - L' h)‖ ≤ K * (M * ‖h‖ ^ 2) := by
        rw [norm_mul]; exact mul_le_mul h1 (g3 h) (norm_nonneg _) hK
      have i2 : ‖G x * (F (x + h) - F x - L h)‖ ≤ M * (K * ‖h‖ ^ 2) := by
        rw [norm_mul]; exact mul_le_mul g1 (h3 h) (norm_nonneg _) hM
      have i3 : ‖(F (x + h) - F x) * (G (x + h) - G x)‖ ≤ 2 * K * ‖h‖ * (2 * M * ‖h‖) := by
        rw [norm_mul]
        exact mul_le_mul (Sm.diff hK h h1 (hF _).1 h2 (h3 h)) (Sm.diff hM h g1 (hG _).1 g2 (g3 h)) (norm_nonneg _) (by positivity)
      refine (norm_add₃_le).trans ((add_le_add_three i1 i2 i3).trans_eq ?_)
      ring
  conj := by
    rintro F ⟨K, hK, hF⟩
    refine ⟨K, hK, fun x => ?_⟩
    obtain ⟨h1, L, h2, h3⟩ := hF x
    refine ⟨by rwa [norm_conj], (conjCLE : ℂ →L[ℝ] ℂ).comp L, ?_, fun h => ?_⟩
    · refine ContinuousLinearMap.opNorm_le_bound _ hK fun u => ?_
      show ‖(starRingEnd ℂ) (L u)‖ ≤ _
      rw [norm_conj]
      exact L.le_of_opNorm_le h2 u
    · show ‖(starRingEnd ℂ) (F (x + h)) - (starRingEnd ℂ) (F x) - (starRingEnd ℂ) (L h)‖ ≤ _
      rw [← map_sub, ← map_sub, norm_conj]
      exact h3 h

theorem norm_jaFull_le (z : ℂ) (w : ℝ) (p : ℕ) (n : ℤ) : ‖jaFull z w p n‖ ≤ 1 := by
  rw [jaFull_eq]
  refine norm_fcoef_le (fun t => ?_) n
  rw [mul_comm, norm_exp_ofReal_mul_I]

theorem sm_jacobiAnger (l : E →L[ℝ] ℂ) (w : ℝ) (p nb : ℕ) (n : ℤ) : Sm fun x => jacobiAnger (l x) w p nb n := by
  unfold jacobiAnger
  by_cases hn : |n| ≤ (nb : ℤ)
  swap
  · simp only [if_neg hn]
    exact closed_sm.const 0
  simp only [if_pos hn]
  show Sm fun x => jaFull (l x) w p n
  set a := |(p : ℝ) * w| with ha
  have ha0 : 0 ≤ a⁻¹ := by positivity
  have hl := norm_nonneg l
  refine ⟨1 + a⁻¹ * ‖l‖ + (a⁻¹ * ‖l‖) ^ 2, by positivity, fun x => ⟨(norm_jaFull_le _ _ _ _).trans ?_, (jaDerivL (l x) w p n).comp l, ?_, fun h => ?_⟩⟩
  · have : 0 ≤ a⁻¹ * ‖l‖ := by positivity
    nlinarith
  · refine ContinuousLinearMap.opNorm_le_bound _ (by positivity) fun u => ?_
    rw [ContinuousLinearMap.comp_apply, jaDerivL_apply]
    have hu := l.le_opNorm u
    have h1 : ‖jaDeriv (l x) w p n (l u)‖ ≤ a⁻¹ * ‖l u‖ := by
      unfold jaDeriv
      rw [norm_div, norm_mul, norm_real, Complex.norm_ofNat, Real.norm_eq_abs, ← ha]
      have h2 : ‖(starRingEnd ℂ) (l u) * jaFull (l x) w p (n - 1) - l u * jaFull (l x) w p (n + 1)‖ ≤ 2 * ‖l u‖ := by
        refine (norm_sub_le _ _).trans ?_
        rw [norm_mul, norm_mul, norm_conj]
        have := norm_jaFull_le (l x) w p (n - 1)
        have := norm_jaFull_le (l x) w p (n + 1)
        nlinarith [norm_nonneg (l u)]
      rcases eq_or_ne a 0 with h0 | h0
      · rw [h0]; simp
      · have ha1 : 0 < a := lt_of_le_of_ne (abs_nonneg _) (Ne.symm h0)
        rw [div_le_iff₀ (by positivity)]
        calc _ ≤ 2 * ‖l u‖ := h2
          _ = _ := by field_simp
    have h3 : a⁻¹ * ‖l u‖ ≤ a⁻¹ * (‖l‖ * ‖u‖) := mul_le_mul_of_nonneg_left hu ha0
    have h4 : 0 ≤ (1 + (a⁻¹ * ‖l‖) ^ 2) * ‖u‖ := by positivity
    nlinarith
  · dsimp only
    rw [map_add, ContinuousLinearMap.comp_apply, jaDerivL_apply]
    refine (jaFull_taylor _ _ _ _ _).trans ?_
    rw [← ha, div_eq_inv_mul]
    have h1 : a⁻¹ * ‖l h‖ ≤ a⁻¹ * ‖l‖ * ‖h‖ := by
      rw [mul_assoc]
      exact mul_le_mul_of_nonneg_left (l.le_opNorm h) ha0
    have h2 := pow_le_pow_left₀ (by positivity) h1 2
    have h3 : 0 ≤ (1 + a⁻¹ * ‖l‖) * ‖h‖ ^ 2 := by positivity
    nlinarith

theorem sm_qt (resp : ℝ → ℂ) (l : ℕ → ℕ → E →L[ℝ] ℂ) (freq : ℕ → ℝ) (F P : ℕ) (tup : List ℕ) (vb f : ℝ) :
    Sm fun x => Spec.qt resp (fun g p => l g p x) freq F P tup vb f :=
  closed_sm.qt resp (fun x g p => l g p x) freq F P tup (fun g p _ _ _ _ _ _ => sm_jacobiAnger (l g p) _ _ _ _) vb f

end sm

end QMix
