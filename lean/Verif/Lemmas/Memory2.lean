import Verif.Lemmas.Memory
import Verif.Lemmas.Limit2

/-!
# The time domain: mixing products
-/

namespace QMix

open Complex Finset MeasureTheory Spec Filter Topology

/-! ## The conductance -/

/-- The Fourier coefficients of the voltage of a tone. -/
theorem mean_signalVoltage (v : ℕ → ℂ) (P : ℕ) (a : ℤ) :
    (1 / (2 * Real.pi) : ℝ) * ∫ t in (-Real.pi)..Real.pi, exp (-(I * a * t)) * (signalVoltage v P t : ℂ) = halfPhasor v P a := by
  have hp : (Real.pi : ℂ) ≠ 0 := by exact_mod_cast Real.pi_ne_zero
  have hint : ∀ k : ℤ, ∫ t in (-Real.pi)..Real.pi, exp (I * k * t) = if k = 0 then (2 * Real.pi : ℂ) else 0 := by
    intro k
    split_ifs with h
    · subst h
      simp
      ring
    · exact integral_exp_int h
  have e : ∀ t : ℝ, exp (-(I * a * t)) * (signalVoltage v P t : ℂ) = ∑ p ∈ Icc 1 P,
      ((starRingEnd ℂ) (v p) / 2 * exp (I * ((-(a + p) : ℤ) : ℂ) * t) + v p / 2 * exp (I * ((-(a - p) : ℤ) : ℂ) * t)) := by
    intro t
    rw [signalVoltage_eq, acVoltage_exp, Finset.mul_sum]
    refine Finset.sum_congr rfl fun p _ => ?_
    have e1 : exp (I * ((-(a + p) : ℤ) : ℂ) * t) = exp (-(I * a * t)) * exp (I * (p : ℤ) * ((-t : ℝ) : ℂ)) := by
      rw [← exp_add]; congr 1; push_cast; ring
    have e2 : exp (I * ((-(a - p) : ℤ) : ℂ) * t) = exp (-(I * a * t)) * exp (-(I * (p : ℤ) * ((-t : ℝ) : ℂ))) := by
      rw [← exp_add]; congr 1; push_cast; ring
    rw [e1, e2]
    ring
  simp only [e]
  rw [intervalIntegral.integral_finset_sum fun p _ => Continuous.intervalIntegrable (by fun_prop) _ _, halfPhasor, Finset.mul_sum]
  refine Finset.sum_congr rfl fun p _ => ?_
  rw [intervalIntegral.integral_add (Continuous.intervalIntegrable (by fun_prop) _ _) (Continuous.intervalIntegrable (by fun_prop) _ _),
    intervalIntegral.integral_const_mul, intervalIntegral.integral_const_mul, hint, hint]
  simp only [neg_eq_zero]
  push_cast
  split_ifs <;> field_simp <;> ring

/-- The mean of a constant. -/
theorem mean_const (a : ℤ) (c : ℂ) :
    (1 / (2 * Real.pi) : ℝ) * ∫ t in (-Real.pi)..Real.pi, exp (-(I * a * t)) * c = if a = 0 then c else 0 := by
  have hp : (Real.pi : ℂ) ≠ 0 := by exact_mod_cast Real.pi_ne_zero
  rw [intervalIntegral.integral_mul_const]
  split_ifs with h
  · subst h
    simp
    field_simp
    ring
  · have := integral_exp_int (neg_ne_zero.2 h)
    have e : ∀ t : ℝ, exp (I * ((-a : ℤ) : ℂ) * t) = exp (-(I * a * t)) := fun t => by congr 1; push_cast; ring
    simp only [e] at this
    rw [this]
    simp

/-- The mean voltage. -/
noncomputable def voltMean (P : ℕ) : List ((ℕ → ℂ) × ℝ × ℤ) → ℝ → ℂ
  | [], u => u
  | x :: l, u => (1 / (2 * Real.pi) : ℝ) * ∫ t in (-Real.pi)..Real.pi, exp (-(I * x.2.2 * t)) * voltMean P l (u + signalVoltage x.1 P t)

theorem voltMean_eq (P : ℕ) (l : List ((ℕ → ℂ) × ℝ × ℤ)) (u : ℝ) :
    voltMean P l u = ohm P (l.map fun x => x.1) (l.map fun x => x.2.2) u := by
  induction l generalizing u with
  | nil => simp [voltMean, ohm]
  | cons x l ih =>
    simp only [voltMean, List.map_cons, ohm]
    have e : ∀ t : ℝ, exp (-(I * x.2.2 * t)) * voltMean P l (u + signalVoltage x.1 P t)
        = exp (-(I * x.2.2 * t)) * ohm P (l.map fun x => x.1) (l.map fun x => x.2.2) u
          + exp (-(I * x.2.2 * t)) * (signalVoltage x.1 P t : ℂ) * allZero (l.map fun x => x.2.2) := by
      intro t
      rw [ih, ohm_add P _ _ (by simp)]
      ring
    simp only [e]
    have hc := continuous_signalVoltage x.1 P
    rw [intervalIntegral.integral_add (Continuous.intervalIntegrable (by fun_prop) _ _) (Continuous.intervalIntegrable (by fun_prop) _ _),
      mul_add, mean_const, intervalIntegral.integral_mul_const, ← mul_assoc, mean_signalVoltage]

theorem continuous_voltMean (P : ℕ) (l : List ((ℕ → ℂ) × ℝ × ℤ)) (x : (ℕ → ℂ) × ℝ × ℤ) (u : ℝ) :
    Continuous fun t : ℝ => exp (-(I * x.2.2 * t)) * voltMean P l (u + signalVoltage x.1 P t) := by
  simp only [voltMean_eq, ohm_add P _ _ (by simp : (l.map fun x => x.2.2).length = (l.map fun x => x.1).length)]
  have hc := continuous_signalVoltage x.1 P
  fun_prop

theorem intervalIntegrable_pastMean {χ : ℝ → ℂ} (hχ : IntegrableOn χ (Set.Ioi 0)) (P : ℕ) (x : (ℕ → ℂ) × ℝ × ℤ)
    (hw : x.2.1 ≠ 0) (l : List ((ℕ → ℂ) × ℝ × ℤ)) (hl : ∀ x ∈ l, x.2.1 ≠ 0) {δ : ℝ → ℝ} (hδ : Continuous δ) (a : ℤ) :
    IntervalIntegrable (fun t : ℝ => exp (-(I * a * t)) * pastMean χ P l fun τ => δ τ + phaseGain x.1 x.2.1 P t τ)
      volume (-Real.pi) Real.pi := by
  have hl'' : ∀ y ∈ l.map (fun x => (x.1, x.2.1, -x.2.2)), y.2.1 ≠ 0 := by
    intro y hy
    obtain ⟨z, hz, rfl⟩ := List.mem_map.1 hy
    exact hl z hz
  have h1 := intervalIntegrable_complexMean hχ P x hw l hl hδ a
  have h2 := intervalIntegrable_complexMean hχ P x hw _ hl'' hδ (-a)
  have h3 : IntervalIntegrable (fun t : ℝ => (starRingEnd ℂ) (exp (-(I * ((-a : ℤ) : ℂ) * t)) *
      complexMean χ P (l.map fun x => (x.1, x.2.1, -x.2.2)) fun τ => δ τ + phaseGain x.1 x.2.1 P t τ)) volume (-Real.pi) Real.pi := by
    rw [intervalIntegrable_iff] at h2 ⊢
    exact (LinearIsometryEquiv.integrable_comp_iff (conjLIE)).2 h2
  have h4 := (h1.sub h3).const_mul (1 / (2 * I))
  have e : (fun t : ℝ => exp (-(I * a * t)) * pastMean χ P l fun τ => δ τ + phaseGain x.1 x.2.1 P t τ) = fun t : ℝ =>
      1 / (2 * I) * (exp (-(I * a * t)) * complexMean χ P l (fun τ => δ τ + phaseGain x.1 x.2.1 P t τ)
        - (starRingEnd ℂ) (exp (-(I * ((-a : ℤ) : ℂ) * t)) *
          complexMean χ P (l.map fun x => (x.1, x.2.1, -x.2.2)) fun τ => δ τ + phaseGain x.1 x.2.1 P t τ)) := by
    funext t
    rw [map_mul, ← exp_conj, show (starRingEnd ℂ) (-(I * ((-a : ℤ) : ℂ) * t)) = -(I * a * t) by simp [map_neg, map_mul],
      ← mul_sub, ← pastMean_eq hχ P l hl (continuous_phaseGain_right x.1 hw P hδ t)]
    field_simp
  rw [e]
  exact h4

/-- The conductance and the memory contribute separately. -/
theorem memoryMean_split {χ : ℝ → ℂ} (hχ : IntegrableOn χ (Set.Ioi 0)) (g : ℝ) (P : ℕ) (l : List ((ℕ → ℂ) × ℝ × ℤ))
    (hl : ∀ x ∈ l, x.2.1 ≠ 0) (u : ℝ) {δ : ℝ → ℝ} (hδ : Continuous δ) :
    memoryMean g χ P l u δ = g * voltMean P l u + pastMean χ P l δ := by
  induction l generalizing u δ with
  | nil =>
    simp only [memoryMean, voltMean, pastMean]
    push_cast
    ring
  | cons x l ih =>
    have hw : x.2.1 ≠ 0 := hl x (by simp)
    have hl' : ∀ y ∈ l, y.2.1 ≠ 0 := fun y hy => hl y (by simp [hy])
    simp only [memoryMean, voltMean, pastMean]
    have e : ∀ t : ℝ, exp (-(I * x.2.2 * t)) * memoryMean g χ P l (u + signalVoltage x.1 P t) (fun τ => δ τ + phaseGain x.1 x.2.1 P t τ)
        = g * (exp (-(I * x.2.2 * t)) * voltMean P l (u + signalVoltage x.1 P t))
          + exp (-(I * x.2.2 * t)) * pastMean χ P l fun τ => δ τ + phaseGain x.1 x.2.1 P t τ := by
      intro t
      rw [ih hl' _ (continuous_phaseGain_right x.1 hw P hδ t)]
      ring
    simp only [e]
    rw [intervalIntegral.integral_add (((continuous_voltMean P l x u).intervalIntegrable _ _).const_mul _)
      (intervalIntegrable_pastMean hχ P x hw l hl' hδ x.2.2), intervalIntegral.integral_const_mul]
    ring

/-! ## Mixing products -/

theorem length_orders (v : ℕ → ℕ → ℂ) (freq : ℕ → ℝ) (f : ℕ) (as : List ℤ) : (orders v freq f as).length = as.length := by
  induction as generalizing f with
  | nil => rfl
  | cons a as ih => simp [orders, ih]

theorem withOrders_orders (v : ℕ → ℕ → ℂ) (freq : ℕ → ℝ) (P f : ℕ) (as : List ℤ) :
    withOrders P (orders v freq f as) = (tonesFull v freq P f as.length).zip as := by
  induction as generalizing f with
  | nil => rfl
  | cons a as ih =>
    have := ih (f + 1)
    simp only [withOrders] at this
    simp [orders, withOrders, tonesFull, this]

theorem orders_fst (v : ℕ → ℕ → ℂ) (freq : ℕ → ℝ) (f : ℕ) (as : List ℤ) :
    (orders v freq f as).map (fun x => x.1) = (List.range' f as.length).map v := by
  induction as generalizing f with
  | nil => rfl
  | cons a as ih => simp [orders, ih, List.range'_succ]

theorem orders_snd (v : ℕ → ℕ → ℂ) (freq : ℕ → ℝ) (f : ℕ) (as : List ℤ) :
    (orders v freq f as).map (fun x => x.2.2) = as := by
  induction as generalizing f with
  | nil => rfl
  | cons a as ih => simp [orders, ih]

theorem orders_neg (v : ℕ → ℕ → ℂ) (freq : ℕ → ℝ) (f : ℕ) (as : List ℤ) :
    (orders v freq f as).map (fun x => (x.1, x.2.1, -x.2.2)) = orders v freq f (as.map fun a => -a) := by
  induction as generalizing f with
  | nil => rfl
  | cons a as ih => simp [orders, ih]

theorem orders_freq (v : ℕ → ℕ → ℂ) (freq : ℕ → ℝ) (f : ℕ) (as : List ℤ) (h : ∀ g, f ≤ g → g < f + as.length → freq g ≠ 0) :
    ∀ x ∈ orders v freq f as, x.2.1 ≠ 0 := by
  induction as generalizing f with
  | nil => simp [orders]
  | cons a as ih =>
    intro x hx
    simp only [orders, List.mem_cons] at hx
    rcases hx with rfl | hx
    · exact h f le_rfl (by simp)
    · exact ih (f + 1) (fun g h1 h2 => h g (by omega) (by simp only [List.length_cons]; omega)) x hx

/-- The mixing products of the part that remembers. -/
theorem mixFull_past {χ : ℝ → ℂ} (hχ : IntegrableOn χ (Set.Ioi 0)) (v : ℕ → ℕ → ℂ) (freq : ℕ → ℝ) (P f : ℕ) (as : List ℤ)
    (h : ∀ g, f ≤ g → g < f + as.length → freq g ≠ 0) (vb : ℝ) :
    mixFull (fun v => ∫ τ in Set.Ioi 0, χ τ * exp (I * (v * τ : ℝ))) ((tonesFull v freq P f as.length).zip as) vb
      = (if ∀ a ∈ as, a = 0 then 1 else 2) * pastMean χ P (orders v freq f as) fun τ => vb * τ := by
  have hc : Continuous fun τ : ℝ => vb * τ := by fun_prop
  have h0 := orders_freq v freq f as h
  have h0' := orders_freq v freq f (as.map fun a => -a) (by simpa using h)
  have h1 := pastMean_eq hχ P _ h0 hc
  rw [orders_neg, complexMean_eq hχ P _ h0 hc, complexMean_eq hχ P _ h0' hc,
    ← corrFull_memory hχ, ← corrFull_memory hχ, withOrders_orders, withOrders_orders, List.length_map] at h1
  unfold mixFull
  rw [zip_neg]
  have hz : (∀ y ∈ (tonesFull v freq P f as.length).zip as, y.2 = 0) ↔ ∀ a ∈ as, a = 0 :=
    zip_zero_iff (by rw [length_tonesFull])
  simp only [hz]
  split_ifs with hall
  · have hn : as.map (fun a => -a) = as := by
      conv_rhs => rw [← List.map_id as]
      exact List.map_congr_left fun a ha => by simp [hall a ha]
    rw [hn, sub_conj] at h1
    rw [one_mul]
    have h2I : (2 * I : ℂ) ≠ 0 := by simp
    refine mul_left_cancel₀ h2I ?_
    rw [h1]
    push_cast
    ring
  · rw [← h1]
    linear_combination (-2 * pastMean χ P (orders v freq f as) fun τ => vb * τ) * I_sq

/-- The mixing products are additive in the response function. -/
theorem mixFull_add {r1 r2 : ℝ → ℂ} {m : ℕ} (h1 : Growth m r1) (h2 : Growth m r2) (c : ℝ)
    (hc : Growth m fun x => r1 x + c * r2 x)
    (v : ℕ → ℕ → ℂ) (freq : ℕ → ℝ) (P f : ℕ) (as : List ℤ) (vb : ℝ) :
    mixFull (fun x => r1 x + c * r2 x) ((tonesFull v freq P f as.length).zip as) vb
      = mixFull r1 ((tonesFull v freq P f as.length).zip as) vb + c * mixFull r2 ((tonesFull v freq P f as.length).zip as) vb := by
  have hl := toneFuns_lim (𝓕 := atTop) v freq P (fun t : ℕ => t) (fun t _ => t) as.length f 0 tendsto_id (fun _ _ => tendsto_id)
  have hlen : as.length = (toneFuns v freq P (fun t : ℕ => t) (fun t _ => t) f 0 as.length).length := by
    rw [hl.length_eq, length_tonesFull]
  have e1 := tendsto_mixProduct h1 hl as hlen vb
  have e2 := tendsto_mixProduct h2 hl as hlen vb
  have e3 := tendsto_mixProduct hc hl as hlen vb
  simp only [Spec.mixProduct_linear] at e3
  exact tendsto_nhds_unique e3 (e1.add (e2.const_mul _))

theorem growth_past {χ : ℝ → ℂ} (hχ : IntegrableOn χ (Set.Ioi 0)) :
    Growth 1 fun x : ℝ => ∫ τ in Set.Ioi 0, χ τ * exp (I * (x * τ : ℝ)) := by
  have h0 : 0 ≤ ∫ τ in Set.Ioi 0, ‖χ τ‖ := integral_nonneg fun _ => norm_nonneg _
  refine ⟨∫ τ in Set.Ioi 0, ‖χ τ‖, h0, fun x => (norm_integral_le_integral_norm _).trans ?_⟩
  simp only [norm_mul, norm_exp_I_real, mul_one, pow_one]
  nlinarith [abs_nonneg x]

theorem halfPhasor_conj (v : ℕ → ℂ) (P : ℕ) (a : ℤ) : (starRingEnd ℂ) (halfPhasor v P (-a)) = halfPhasor v P a := by
  unfold halfPhasor
  rw [map_sum]
  refine Finset.sum_congr rfl fun p _ => ?_
  have e1 : (-a + (p : ℤ) = 0) ↔ a - p = 0 := by omega
  have e2 : (-a - (p : ℤ) = 0) ↔ a + p = 0 := by omega
  simp only [e1, e2, map_div₀, map_add, map_mul, conj_conj, map_ofNat]
  split_ifs <;> simp <;> ring

theorem ohm_conj (P : ℕ) (vs : List (ℕ → ℂ)) (as : List ℤ) (hlen : as.length = vs.length) (x : ℝ) :
    (starRingEnd ℂ) (ohm P vs (as.map fun a => -a) x) = ohm P vs as x := by
  induction vs generalizing as with
  | nil =>
    cases as with
    | nil => simp [ohm]
    | cons => simp at hlen
  | cons v vs ih =>
    cases as with
    | nil => simp at hlen
    | cons a as =>
      have := ih as (by simpa using hlen)
      simp only [List.map_cons, ohm, neg_eq_zero, allZero_neg, map_add, map_mul, halfPhasor_conj]
      congr 1
      · split_ifs
        · exact this
        · simp
      · congr 1
        unfold allZero
        split_ifs <;> simp

/-- The mixing products are the Fourier coefficients of the current in the time domain. -/
theorem mixFull_memory {χ : ℝ → ℂ} (hχ : IntegrableOn χ (Set.Ioi 0)) (g : ℝ) (v : ℕ → ℕ → ℂ) (freq : ℕ → ℝ) (P : ℕ) (as : List ℤ)
    (h : ∀ f, 1 ≤ f → f < 1 + as.length → freq f ≠ 0) (hP : ∀ a ∈ as, |a| ≤ (P : ℤ)) (vb : ℝ) :
    mixFull (memoryResponse g χ) ((tonesFull v freq P 1 as.length).zip as) vb = memoryCurrent g χ v freq P as vb := by
  have hc : Continuous fun τ : ℝ => vb * τ := by fun_prop
  have g1 : Growth 1 fun x : ℝ => ∫ τ in Set.Ioi 0, χ τ * exp (I * (x * τ : ℝ)) := growth_past hχ
  have g2 : Growth 1 fun x : ℝ => I * x := ⟨1, zero_le_one, fun x => by
    rw [norm_mul, norm_I, norm_real, Real.norm_eq_abs]
    linarith⟩
  have g3 : Growth 1 fun x : ℝ => (∫ τ in Set.Ioi 0, χ τ * exp (I * (x * τ : ℝ))) + g * (I * x) := by
    obtain ⟨K, hK, hb⟩ := g1
    refine ⟨K + |g|, by positivity, fun x => (norm_add_le _ _).trans ?_⟩
    have h1 := hb x
    have h2 : ‖(g : ℂ) * (I * x)‖ = |g| * |x| := by
      rw [norm_mul, norm_mul, norm_I, norm_real, norm_real, Real.norm_eq_abs, Real.norm_eq_abs, one_mul]
    rw [h2]
    nlinarith [abs_nonneg g, abs_nonneg x]
  have e : memoryResponse g χ = fun x : ℝ => (∫ τ in Set.Ioi 0, χ τ * exp (I * (x * τ : ℝ))) + g * (I * x) := by
    funext x
    unfold memoryResponse
    push_cast
    ring
  have hE := tonesFull_exact v freq P 1 as.length h
  have h1 := mixFull_ohm P hE as (by simp) hP vb
  rw [e, mixFull_add g1 g2 g g3, mixFull_past hχ v freq P 1 as h, h1]
  unfold memoryCurrent
  rw [memoryMean_split hχ g P _ (orders_freq v freq 1 as h) vb hc, voltMean_eq, orders_fst, orders_snd]
  split_ifs with hall
  · rw [ohm_dc P _ as (by simp) hall]
    ring
  · rw [← ohm_ac P _ as (by simp) hP hall vb, ohm_conj P _ as (by simp) vb]
    ring

end QMix
