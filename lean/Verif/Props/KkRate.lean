import Verif.Props.KkTrans
import Mathlib.Analysis.Calculus.MeanValue

/-! # How fast `kk_trans` converges (C183) -/

namespace QMix.MathFn

open QMix.Np QMix.Spec MeasureTheory Filter Set Topology

/-- A curve that stays within `B` of the normal state between `a` and `b`, with a slope `I'` that stays within `G` of the slope of the normal
state and whose changes are bounded by `K`. -/
structure Smooth (I I' : ℝ → ℝ) (a b B G K : ℝ) : Prop where
  bounded : ∀ x ∈ Icc a b, |I x - x| ≤ B
  deriv : ∀ x ∈ Icc a b, HasDerivAt I (I' x) x
  slope : ∀ x ∈ Icc a b, |I' x - 1| ≤ G
  bend : ∀ x ∈ Icc a b, ∀ y ∈ Icc a b, |I' x - I' y| ≤ K * |x - y|

/-- The difference of the two sides, divided by the distance. -/
theorem lip_inner {g g' : ℝ → ℝ} {V s0 K : ℝ} (hd : ∀ x ∈ Icc (V - s0) (V + s0), HasDerivAt g (g' x) x)
    (hK : ∀ x ∈ Icc (V - s0) (V + s0), ∀ y ∈ Icc (V - s0) (V + s0), |g' x - g' y| ≤ K * |x - y|) (hK0 : 0 ≤ K) {s t : ℝ}
    (hs : s ∈ Ioc 0 s0) (ht : t ∈ Ioc 0 s0) : |sym g V s - sym g V t| ≤ 2 * K * |s - t| := by
  have h' : ∀ u ∈ Icc 0 s0, HasDerivAt (fun u => g (V + u) - g (V - u)) (g' (V + u) + g' (V - u)) u := fun u hu => by
    have a := (hd (V + u) ⟨by linarith [hu.1, hu.2], by linarith [hu.2]⟩).comp u ((hasDerivAt_id u).const_add V)
    have b := (hd (V - u) ⟨by linarith [hu.2], by linarith [hu.1, hu.2]⟩).comp u ((hasDerivAt_id u).const_sub V)
    refine (a.sub b).congr_deriv ?_
    ring
  have key : ∀ u ∈ Ioc 0 s0, ∃ D, HasDerivWithinAt (sym g V) D (Ioc 0 s0) u ∧ ‖D‖ ≤ 2 * K := by
    intro u hu
    have hu' : u ∈ Icc 0 s0 := ⟨hu.1.le, hu.2⟩
    refine ⟨_, ((h' u hu').div (hasDerivAt_id u) hu.1.ne').hasDerivWithinAt, ?_⟩
    obtain ⟨ξ, hξ, e⟩ := exists_hasDerivAt_eq_slope (fun u => g (V + u) - g (V - u)) (fun u => g' (V + u) + g' (V - u)) hu.1
      (fun x hx => (h' x ⟨hx.1, hx.2.trans hu.2⟩).continuousAt.continuousWithinAt) fun x hx => h' x ⟨hx.1.le, hx.2.le.trans hu.2⟩
    have e' : g (V + u) - g (V - u) = (g' (V + ξ) + g' (V - ξ)) * u := by
      rw [eq_div_iff (by linarith [hu.1])] at e
      simp only [add_zero, sub_zero, sub_self] at e
      exact e.symm
    have hu0 := hu.1
    simp only [id, mul_one]
    rw [e', Real.norm_eq_abs, abs_div, abs_of_pos (show 0 < u ^ 2 by positivity), div_le_iff₀ (by positivity)]
    have a := hK (V + u) ⟨by linarith [hu.1, hu.2], by linarith [hu.2]⟩ (V + ξ) ⟨by linarith [hξ.1, hu.2, hu.1], by linarith [hξ.2, hu.2]⟩
    have b := hK (V - u) ⟨by linarith [hu.2], by linarith [hu.1, hu.2]⟩ (V - ξ) ⟨by linarith [hξ.2, hu.2], by linarith [hξ.1, hu.1, hu.2]⟩
    rw [show V + u - (V + ξ) = u - ξ by ring, abs_of_pos (show 0 < u - ξ by linarith [hξ.2])] at a
    rw [show V - u - (V - ξ) = -(u - ξ) by ring, abs_neg, abs_of_pos (show 0 < u - ξ by linarith [hξ.2])] at b
    rw [show (g' (V + u) + g' (V - u)) * u - (g' (V + ξ) + g' (V - ξ)) * u = ((g' (V + u) - g' (V + ξ)) + (g' (V - u) - g' (V - ξ))) * u by ring,
      abs_mul, abs_of_pos hu0, pow_two, ← mul_assoc]
    refine mul_le_mul_of_nonneg_right ((abs_add_le _ _).trans ?_) hu0.le
    have : K * (u - ξ) ≤ K * u := mul_le_mul_of_nonneg_left (by linarith [hξ.1]) hK0
    linarith
  choose! D hD1 hD2 using key
  have := (convex_Ioc (0 : ℝ) s0).norm_image_sub_le_of_norm_hasDerivWithin_le (f := sym g V) hD1 hD2 ht hs
  simpa only [Real.norm_eq_abs] using this

/-- One side, divided by the distance. -/
theorem lip_outer {x y s t s0 B G : ℝ} (h0 : 0 < s0) (hs : s0 ≤ s) (ht : s0 ≤ t) (hy : |y| ≤ B) (hxy : |x - y| ≤ G * |s - t|) :
    |x / s - y / t| ≤ (G / s0 + B / s0 ^ 2) * |s - t| := by
  have s1 : 0 < s := h0.trans_le hs
  have t1 : 0 < t := h0.trans_le ht
  have e : x / s - y / t = (x - y) / s + y * ((t - s) / (s * t)) := by
    field_simp
    ring
  rw [e]
  refine (abs_add_le _ _).trans ?_
  rw [add_mul]
  refine add_le_add ?_ ?_
  · rw [abs_div, abs_of_pos s1, div_mul_eq_mul_div]
    exact div_le_div₀ ((abs_nonneg _).trans hxy) hxy h0 hs
  · rw [abs_mul, abs_div, abs_of_pos (mul_pos s1 t1), abs_sub_comm t s, div_mul_eq_mul_div, ← mul_div_assoc]
    exact div_le_div₀ (mul_nonneg ((abs_nonneg _).trans hy) (abs_nonneg _)) (mul_le_mul_of_nonneg_right hy (abs_nonneg _)) (by positivity)
      (by rw [pow_two]; exact mul_le_mul hs ht h0.le s1.le)

/-- The sum over the cells and the integral, for a function with two jumps. -/
theorem cells_rate {p : ℝ → ℝ} (hp : Measurable p) {s0 s1 R M Λ w θ : ℝ} (hw : 0 < w) (hθ : 0 < θ) (hθ1 : θ ≤ 1) (hR0 : 0 ≤ R)
    (hM : ∀ s, 0 < s → |p s| ≤ M) (hR : ∀ s, R < s → p s = 0)
    (hΛ : ∀ s t, 0 < s → 0 < t → (s < s0 ∧ t < s0) ∨ (s0 < s ∧ s0 < t ∧ s < s1 ∧ t < s1) ∨ (s1 < s ∧ s1 < t) → |p s - p t| ≤ Λ * |s - t|)
    (hΛ0 : 0 ≤ Λ) (h01 : s0 ≤ s1) {N : ℕ} (hN : R < w * N) :
    |(∑ m ∈ Finset.range N, w * p (w * (m + θ))) - ∫ s in Ioi 0, p s| ≤ w * (Λ * (R + w) + 8 * M) := by
  have hM0 : 0 ≤ M := (abs_nonneg _).trans (hM 1 one_pos)
  have hcm : Measurable fun s => p (cell w θ s) := by
    refine hp.comp ?_
    unfold cell
    fun_prop
  have i1 : IntegrableOn (fun s => p (cell w θ s)) (Ioi 0) := integ_bdd hcm measurableSet_Ioi (c := M) (R := R + w)
    (fun s hs => hM _ (cell_pos hw hθ hs)) fun s hs h => hR _ (by
      have := abs_le.1 (cell_near (s := s) hw hθ hθ1)
      rw [abs_of_pos hs] at h
      linarith [this.1])
  have i2 : IntegrableOn p (Ioi 0) := integ_bdd hp measurableSet_Ioi (c := M) (R := R) (fun s hs => hM _ hs) fun s hs h => hR _ (by
      rwa [abs_of_pos hs] at h)
  rw [← integral_cell hw hθ hθ1 hR hN, ← integral_sub i1 i2]
  set h : ℝ → ℝ := fun s => (Icc 0 (R + w)).indicator (fun _ => Λ * w) s + (Icc (s0 - w) (s0 + w)).indicator (fun _ => 2 * M) s
    + (Icc (s1 - w) (s1 + w)).indicator (fun _ => 2 * M) s with hh
  have j : ∀ x y c : ℝ, Integrable ((Icc x y).indicator fun _ : ℝ => c) := fun x y c =>
    (integrable_indicator_iff measurableSet_Icc).2 (integrableOn_const (by simp))
  have hint : Integrable h := ((j _ _ _).add (j _ _ _)).add (j _ _ _)
  have n : ∀ x y c : ℝ, 0 ≤ c → ∀ s, 0 ≤ (Icc x y).indicator (fun _ : ℝ => c) s := fun x y c hc s => indicator_nonneg (fun _ _ => hc) s
  have hn : ∀ s, 0 ≤ h s := fun s => add_nonneg (add_nonneg (n _ _ _ (by positivity) s) (n _ _ _ (by positivity) s)) (n _ _ _ (by positivity) s)
  have hb : ∀ s ∈ Ioi (0 : ℝ), ‖p (cell w θ s) - p s‖ ≤ h s := by
    intro s hs
    have hs' : 0 < s := hs
    have hc := cell_pos hw hθ hs'
    have hnear := abs_le.1 (cell_near (s := s) hw hθ hθ1)
    rw [Real.norm_eq_abs]
    have big : |p (cell w θ s) - p s| ≤ 2 * M := (abs_sub _ _).trans (by linarith [hM _ hc, hM _ hs'])
    by_cases c0 : s ∈ Icc (s0 - w) (s0 + w)
    · rw [hh]
      dsimp only
      rw [indicator_of_mem c0]
      linarith [n 0 (R + w) (Λ * w) (by positivity) s, n (s1 - w) (s1 + w) (2 * M) (by positivity) s]
    by_cases c1 : s ∈ Icc (s1 - w) (s1 + w)
    · rw [hh]
      dsimp only
      rw [indicator_of_mem c1]
      linarith [n 0 (R + w) (Λ * w) (by positivity) s, n (s0 - w) (s0 + w) (2 * M) (by positivity) s]
    by_cases c2 : s ≤ R + w
    · rw [hh]
      dsimp only
      rw [indicator_of_mem (show s ∈ Icc 0 (R + w) from ⟨hs'.le, c2⟩)]
      have := hΛ (cell w θ s) s hc hs' (by
        rw [mem_Icc, not_and_or, not_le, not_le] at c0 c1
        rcases c0 with c0 | c0
        · exact .inl ⟨by linarith [hnear.2], by linarith⟩
        · rcases c1 with c1 | c1
          · exact .inr (.inl ⟨by linarith [hnear.1], by linarith, by linarith [hnear.2], by linarith⟩)
          · exact .inr (.inr ⟨by linarith [hnear.1], by linarith⟩))
      have h2 := mul_le_mul_of_nonneg_left (abs_le.2 hnear) hΛ0
      linarith [n (s0 - w) (s0 + w) (2 * M) (by positivity) s, n (s1 - w) (s1 + w) (2 * M) (by positivity) s]
    · push Not at c2
      rw [hR s (by linarith), hR (cell w θ s) (by linarith [hnear.1]), sub_self, abs_zero]
      exact hn s
  have k1 := norm_integral_le_of_norm_le hint.integrableOn ((ae_restrict_iff' measurableSet_Ioi).2 (Eventually.of_forall hb))
  rw [Real.norm_eq_abs] at k1
  refine k1.trans ((setIntegral_le_integral hint (Eventually.of_forall hn)).trans ?_)
  have v : ∀ x y c : ℝ, x ≤ y → ∫ s, (Icc x y).indicator (fun _ : ℝ => c) s = (y - x) * c := fun x y c hxy => by
    rw [integral_indicator_const _ measurableSet_Icc, Real.volume_real_Icc_of_le hxy, smul_eq_mul]
  have e : ∫ s, h s = (R + w - 0) * (Λ * w) + (s0 + w - (s0 - w)) * (2 * M) + (s1 + w - (s1 - w)) * (2 * M) := by
    rw [← v 0 (R + w) (Λ * w) (by linarith), ← v (s0 - w) (s0 + w) (2 * M) (by linarith), ← v (s1 - w) (s1 + w) (2 * M) (by linarith),
      ← integral_add (j _ _ _) (j _ _ _)]
    exact integral_add ((j _ _ _).add (j _ _ _)) (j _ _ _)
  rw [e]
  refine le_of_eq ?_
  ring

theorem Smooth.lip {I I' : ℝ → ℝ} {a b B G K : ℝ} (h : Smooth I I' a b B G K) {x y : ℝ} (hx : x ∈ Icc a b) (hy : y ∈ Icc a b) :
    |(I x - x) - (I y - y)| ≤ G * |x - y| := by
  have := (convex_Icc a b).norm_image_sub_le_of_norm_hasDerivWithin_le (f := fun x => I x - x) (f' := fun x => I' x - 1)
    (fun x hx => ((h.deriv x hx).sub (hasDerivAt_id x)).hasDerivWithinAt) h.slope hy hx
  simpa only [Real.norm_eq_abs] using this

theorem Smooth.regular {I I' : ℝ → ℝ} {a b V B G K : ℝ} (h : Smooth I I' a b B G K) (h1 : a < V) (h2 : V < b) : Regular I a b V B where
  below := h1
  above := h2
  bounded := h.bounded
  jumps := by
    have : {x ∈ Ioo a b | ¬ ContinuousAt I x} = ∅ := by
      ext x
      simp only [mem_setOf_eq, mem_empty_iff_false, iff_false, not_and, not_not]
      exact fun hx => (h.deriv x ⟨hx.1.le, hx.2.le⟩).continuousAt
    rw [this]
    exact countable_empty
  slope := ⟨1, one_pos, G + 1, fun x hx _ => by
    have := h.lip hx (show V ∈ Icc a b from ⟨h1.le, h2.le⟩)
    have e : I x - I V = ((I x - x) - (I V - V)) + (x - V) := by ring
    rw [e]
    exact (abs_add_le _ _).trans (by linarith)⟩

/-- The symmetrised excess current: bound, support and slope. -/
theorem Smooth.parts {I I' : ℝ → ℝ} {a b V B G K : ℝ} (h : Smooth I I' a b B G K) (h1 : a < V) (h2 : V < b) {s0 s1 : ℝ}
    (hs0 : s0 = min (V - a) (b - V)) (hs1 : s1 = max (V - a) (b - V)) :
    0 ≤ B ∧ 0 ≤ G ∧ 0 ≤ K ∧ 0 < s0 ∧ s0 ≤ s1 ∧
    (∀ s, s1 < s → sym (cut (fun x => I x - x) a b) V s = 0) ∧
    (∀ s, 0 < s → |sym (cut (fun x => I x - x) a b) V s| ≤ 2 * G + B / s0) ∧
    ∀ s t, 0 < s → 0 < t → (s < s0 ∧ t < s0) ∨ (s0 < s ∧ s0 < t ∧ s < s1 ∧ t < s1) ∨ (s1 < s ∧ s1 < t) →
      |sym (cut (fun x => I x - x) a b) V s - sym (cut (fun x => I x - x) a b) V t| ≤ (2 * K + G / s0 + B / s0 ^ 2) * |s - t| := by
  have hab := h1.trans h2
  have hV' : V ∈ Icc a b := ⟨h1.le, h2.le⟩
  have hB0 : 0 ≤ B := (abs_nonneg _).trans (h.bounded V hV')
  have hG0 : 0 ≤ G := (abs_nonneg _).trans (h.slope V hV')
  have hK0 : 0 ≤ K := by
    have := (abs_nonneg _).trans (h.bend a ⟨le_rfl, hab.le⟩ b ⟨hab.le, le_rfl⟩)
    have p : 0 < |a - b| := abs_pos.2 (by linarith)
    exact nonneg_of_mul_nonneg_left this p
  have s0pos : 0 < s0 := by
    rw [hs0]
    exact lt_min (by linarith) (by linarith)
  have sa : s0 ≤ V - a := hs0 ▸ min_le_left _ _
  have sb : s0 ≤ b - V := hs0 ▸ min_le_right _ _
  have ta : V - a ≤ s1 := hs1 ▸ le_max_left _ _
  have tb : b - V ≤ s1 := hs1 ▸ le_max_right _ _
  set g : ℝ → ℝ := fun x => I x - x with hg
  have far : ∀ s, s1 < s → sym (cut g a b) V s = 0 := fun s hs => by
    unfold sym
    rw [cut_out (fun hh => by linarith [hh.2]), cut_out (fun hh => by linarith [hh.1]), sub_self, zero_div]
  have inner : ∀ s, 0 < s → s ≤ s0 → sym (cut g a b) V s = sym g V s := fun s h0 hs => by
    unfold sym
    rw [cut_in ⟨by linarith, by linarith⟩, cut_in ⟨by linarith, by linarith⟩]
  have outer : (∀ s, s0 < s → s ≤ s1 → V + s ∈ Icc a b ∧ sym (cut g a b) V s = g (V + s) / s) ∨
      ∀ s, s0 < s → s ≤ s1 → V - s ∈ Icc a b ∧ sym (cut g a b) V s = -(g (V - s) / s) := by
    rcases le_total (V - a) (b - V) with hc | hc
    · left
      intro s hs hs'
      rw [hs0, min_eq_left hc] at hs
      rw [hs1, max_eq_right hc] at hs'
      have m : V + s ∈ Icc a b := ⟨by linarith, by linarith⟩
      refine ⟨m, ?_⟩
      unfold sym
      rw [cut_in m, cut_out (fun hh => by linarith [hh.1]), sub_zero]
    · right
      intro s hs hs'
      rw [hs0, min_eq_right hc] at hs
      rw [hs1, max_eq_left hc] at hs'
      have m : V - s ∈ Icc a b := ⟨by linarith, by linarith⟩
      refine ⟨m, ?_⟩
      unfold sym
      rw [cut_in m, cut_out (fun hh => by linarith [hh.2]), zero_sub, neg_div]
  have small : ∀ s, s0 < s → ∀ x ∈ Icc a b, |g x / s| ≤ B / s0 := fun s hs x hx => by
    rw [abs_div, abs_of_pos (s0pos.trans hs)]
    exact div_le_div₀ hB0 (h.bounded x hx) s0pos hs.le
  have hM : ∀ s, 0 < s → |sym (cut g a b) V s| ≤ 2 * G + B / s0 := by
    intro s hs
    have p : 0 ≤ B / s0 := by positivity
    rcases le_or_gt s s0 with c | c
    · rw [inner s hs c]
      unfold sym
      rw [abs_div, abs_of_pos hs, div_le_iff₀ hs]
      have := h.lip (x := V + s) (y := V - s) ⟨by linarith, by linarith⟩ ⟨by linarith, by linarith⟩
      rw [show V + s - (V - s) = 2 * s by ring, abs_of_pos (show 0 < 2 * s by linarith)] at this
      refine this.trans ?_
      nlinarith
    rcases le_or_gt s s1 with c' | c'
    · rcases outer with o | o
      · rw [(o s c c').2]
        linarith [small s c _ (o s c c').1]
      · rw [(o s c c').2, abs_neg]
        linarith [small s c _ (o s c c').1]
    · rw [far s c', abs_zero]
      positivity
  have p1 : 0 ≤ G / s0 := by positivity
  have p2 : 0 ≤ B / s0 ^ 2 := by positivity
  have hΛ : ∀ s t, 0 < s → 0 < t → (s < s0 ∧ t < s0) ∨ (s0 < s ∧ s0 < t ∧ s < s1 ∧ t < s1) ∨ (s1 < s ∧ s1 < t) →
      |sym (cut g a b) V s - sym (cut g a b) V t| ≤ (2 * K + G / s0 + B / s0 ^ 2) * |s - t| := by
    intro s t hs ht hc
    have p3 := abs_nonneg (s - t)
    rcases hc with ⟨c1, c2⟩ | ⟨c1, c2, c3, c4⟩ | ⟨c1, c2⟩
    · rw [inner s hs c1.le, inner t ht c2.le]
      have := lip_inner (g := g) (g' := fun x => I' x - 1) (V := V) (s0 := s0) (K := K)
        (fun x hx => (h.deriv x ⟨by linarith [hx.1], by linarith [hx.2]⟩).sub (hasDerivAt_id x))
        (fun x hx y hy => by
          rw [show I' x - 1 - (I' y - 1) = I' x - I' y by ring]
          exact h.bend x ⟨by linarith [hx.1], by linarith [hx.2]⟩ y ⟨by linarith [hy.1], by linarith [hy.2]⟩) hK0 ⟨hs, c1.le⟩ ⟨ht, c2.le⟩
      nlinarith [mul_nonneg p1 p3, mul_nonneg p2 p3]
    · rcases outer with o | o
      · obtain ⟨m1, e1⟩ := o s c1 c3.le
        obtain ⟨m2, e2⟩ := o t c2 c4.le
        have := lip_outer (B := B) (G := G) s0pos c1.le c2.le (h.bounded _ m2) (by
          have := h.lip m1 m2
          rwa [show V + s - (V + t) = s - t by ring] at this)
        rw [e1, e2]
        nlinarith [mul_nonneg hK0 p3]
      · obtain ⟨m1, e1⟩ := o s c1 c3.le
        obtain ⟨m2, e2⟩ := o t c2 c4.le
        have := lip_outer (B := B) (G := G) s0pos c1.le c2.le (h.bounded _ m2) (by
          have := h.lip m1 m2
          rwa [show V - s - (V - t) = -(s - t) by ring, abs_neg] at this)
        rw [e1, e2, show -(g (V - s) / s) - -(g (V - t) / t) = -(g (V - s) / s - g (V - t) / t) by ring, abs_neg]
        nlinarith [mul_nonneg hK0 p3]
    · rw [far s c1, far t c2, sub_self, abs_zero]
      positivity
  exact ⟨hB0, hG0, hK0, s0pos, sa.trans ta, far, hM, hΛ⟩

/-- C183. For a smooth curve sampled at `N` evenly spaced voltages from `a` to `b`, at a sampled voltage `V` in between, `kk_trans` returns the
Kramers-Kronig integral up to `5 B / n ^ 2` from the padding and an error in proportion to the spacing of the voltages. -/
theorem C183_rate {I I' : ℝ → ℝ} {a b V B G K L : ℝ} (h : Smooth I I' a b B G K) (h1 : a < V) (h2 : V < b) (hL : IsKk I a b V L)
    {N k : ℕ} (hN : 2 ≤ N) (hk : k < N) (hV : V = a + (b - a) / ((N : ℝ) - 1) * k) {n : ℤ} (hn : 2 ≤ n) {d s0 : ℝ}
    (hd : d = (b - a) / ((N : ℝ) - 1)) (hs0 : s0 = min (V - a) (b - V)) :
    ∃ r, kkTrans (tab N fun t => a + (b - a) / ((N : ℝ) - 1) * t) (tab N fun t => I (a + (b - a) / ((N : ℝ) - 1) * t)) n = .ok r ∧
      r.length = N ∧ |r.getD k 0 - L| ≤
        5 * B / n ^ 2 + 2 * d / Real.pi * ((2 * K + G / s0 + B / s0 ^ 2) * (b - a + 2 * d) + 8 * (2 * G + B / s0)) := by
  have hab := h1.trans h2
  have hpi := Real.pi_pos
  have hN1 : (1 : ℝ) < N := by exact_mod_cast (by omega : 1 < N)
  rw [← hd] at hV ⊢
  have hd0 : 0 < d := by
    rw [hd]
    exact div_pos (by linarith) (by linarith)
  have hb : b = a + d * ((N : ℝ) - 1) := by
    rw [hd, div_mul_cancel₀ _ (by linarith)]; ring
  set s1 := max (V - a) (b - V) with hs1
  obtain ⟨hB0, hG0, hK0, s0pos, s01, far, hM, hΛ⟩ := h.parts h1 h2 hs0 hs1
  set g : ℝ → ℝ := fun x => I x - x with hg
  obtain ⟨Q, hQ⟩ := regular_nice (h.regular h1 h2)
  obtain ⟨r, hr⟩ := kkTrans_even N hN a d (tab N fun t : ℕ => I (a + d * t)) (tab_length _ _) (by omega : (1 : ℤ) ≤ n)
  refine ⟨r, hr, ?_⟩
  obtain ⟨-, -, rfl⟩ := kkTrans_ok (by simp) hr
  rw [tab_length N]
  refine ⟨tab_length _ _, ?_⟩
  obtain ⟨n, rfl⟩ : ∃ m : ℕ, n = m := ⟨n.toNat, by omega⟩
  have hn' : 2 ≤ n := by exact_mod_cast hn
  rw [tab_getD hk, Int.toNat_natCast]
  have e : (tab N fun t => (tab N fun t : ℕ => I (a + d * t)).getD t 0 - (tab N fun t : ℕ => a + d * t).getD t 0) =
      tab N fun t : ℕ => g (a + d * t) := by
    apply tab_ext rfl
    intro t ht
    rw [tab_getD ht, tab_getD ht]
  rw [e]
  have hBt : ∀ t < N, |g (a + d * t)| ≤ B := by
    intro t ht
    apply h.bounded
    have : (t : ℝ) ≤ N - 1 := by
      have : (t : ℝ) + 1 ≤ N := by exact_mod_cast ht
      linarith
    have := mul_le_mul_of_nonneg_left this hd0.le
    constructor
    · have : 0 ≤ d * t := by positivity
      linarith
    · linarith
  have k1 := kkAt_near N n (by omega) hn' (fun t : ℕ => g (a + d * t)) hBt hk
  have k2 := pv_fold (g := g) hd0 hk hV hb
  have k3 := cells_rate hQ.symMeas (s0 := s0) (s1 := s1) (R := b - a) (w := 2 * d) (θ := 1 / 2) (by linarith) (by norm_num) (by norm_num) (by linarith)
    hM (fun s hs => far s (lt_of_le_of_lt (max_le (by linarith) (by linarith)) hs)) hΛ (by positivity) s01 (N := N) (by
      have : b - a = d * ((N : ℝ) - 1) := by linarith
      rw [this]
      nlinarith)
  rw [k2] at k1
  rw [isKk_unique (h.regular h1 h2) hL]
  set S := ∑ m ∈ Finset.range N, 2 * d * sym (cut g a b) V (2 * d * (m + 1 / 2))
  set P := ∫ s in Ioi 0, sym (cut g a b) V s
  have k4 : |1 / Real.pi * S - 1 / Real.pi * P| ≤
      2 * d / Real.pi * ((2 * K + G / s0 + B / s0 ^ 2) * (b - a + 2 * d) + 8 * (2 * G + B / s0)) := by
    rw [← mul_sub, abs_mul, abs_of_pos (by positivity), div_mul_eq_mul_div, one_mul, div_mul_eq_mul_div]
    exact div_le_div_of_nonneg_right k3 hpi.le
  have k5 := abs_sub_le (kkAt (N * n) (tab N fun t : ℕ => g (a + d * t)) k) (1 / Real.pi * S) (1 / Real.pi * P)
  rw [Int.cast_natCast]
  linarith

/-- C183. For `kk_trans_trapz` the same without the error of the padding. -/
theorem C183_trapz {I I' : ℝ → ℝ} {a b V B G K L : ℝ} (h : Smooth I I' a b B G K) (hVa : a < V) (hVb : V < b) (hL : IsKk I a b V L)
    {N k : ℕ} (hN : 2 ≤ N) (hk : k < N) (hV : V = a + (b - a) / ((N : ℝ) - 1) * k) {d s0 : ℝ}
    (hdef : d = (b - a) / ((N : ℝ) - 1)) (hs0 : s0 = min (V - a) (b - V)) :
    ∃ r, kkTransTrapz (tab N fun t => a + (b - a) / ((N : ℝ) - 1) * t) (tab N fun t => I (a + (b - a) / ((N : ℝ) - 1) * t)) = .ok r ∧
      r.length = N ∧ |r.getD k 0 - L| ≤
        d / Real.pi * ((2 * K + G / s0 + B / s0 ^ 2) * (b - a + d) + 9 * (2 * G + B / s0) + B / s0) := by
  have hab := hVa.trans hVb
  have hpi := Real.pi_pos
  have hN1 : (1 : ℝ) < N := by exact_mod_cast (by omega : 1 < N)
  rw [← hdef] at hV ⊢
  have hd : 0 < d := by
    rw [hdef]
    exact div_pos (by linarith) (by linarith)
  have hb : b = a + d * ((N : ℝ) - 1) := by
    rw [hdef, div_mul_cancel₀ _ (by linarith)]; ring
  set s1 := max (V - a) (b - V) with hs1
  obtain ⟨hB0, hG0, hK0, s0pos, s01, far, hM, hΛ⟩ := h.parts hVa hVb hs0 hs1
  obtain ⟨Q, hQ⟩ := regular_nice (h.regular hVa hVb)
  have sa : s0 ≤ V - a := hs0 ▸ min_le_left _ _
  have sb : s0 ≤ b - V := hs0 ▸ min_le_right _ _
  obtain ⟨r, hr⟩ := kkTransTrapz_even N (by omega) a d hd.ne' (tab N fun t : ℕ => I (a + d * t))
    (tab_length _ _)
  refine ⟨r, hr, ?_⟩
  obtain ⟨-, -, rfl⟩ := kkTransTrapz_ok (by simp) hr
  rw [tab_length N]
  refine ⟨tab_length _ _, ?_⟩
  rw [tab_getD hk]
  have hk0 : 0 < k := by
    rcases Nat.eq_zero_or_pos k with rfl | h0
    · simp at hV; linarith
    · exact h0
  have hk1 : k + 1 < N := by
    rcases Nat.lt_or_ge (k + 1) N with h1 | h1
    · exact h1
    · exfalso
      have : (k : ℝ) + 1 = N := by exact_mod_cast (by omega : k + 1 = N)
      rw [show (k : ℝ) = N - 1 by linarith, ← hb] at hV
      linarith
  -- the voltages and currents as functions of the place
  have e : ∀ j, trapVal N (fun t => (tab N fun t : ℕ => a + d * t).getD t 0)
      (fun t => (tab N fun t : ℕ => I (a + d * t)).getD t 0) j =
      trapVal N (fun t : ℕ => a + d * t) (fun t : ℕ => I (a + d * t)) j ∨ ¬ j < N := by
    intro j
    by_cases hj : j < N
    · left
      unfold trapVal
      apply Finset.sum_congr rfl
      intro t ht
      rw [Finset.mem_range] at ht
      have l1 : skip j (t + 1) < N := skip_lt (by omega)
      have l2 : skip j t < N := skip_lt (by omega)
      unfold trapY
      dsimp only
      rw [tab_getD l1, tab_getD l2, tab_getD l1, tab_getD l2, tab_getD hj]
    · right; exact hj
  rw [(e k).resolve_right (by simpa using hk), trapVal_even hk0 hk1]
  -- the integrand in terms of the distance from the output voltage
  have hY : ∀ t, t < N → trapY (fun t : ℕ => a + d * t) (fun t : ℕ => I (a + d * t)) k t =
      cut (fun x => I x - x) a b (V + d * ((t : ℤ) - k : ℤ)) / (d * ((t : ℤ) - k : ℤ)) := by
    intro t ht
    rw [cut_grid hd hV hb ht]
    unfold trapY
    congr 1
    push_cast
    ring
  have hsum : ∑ t ∈ Finset.range N, d * trapY (fun t : ℕ => a + d * t) (fun t : ℕ => I (a + d * t)) k t =
      ∑ m ∈ Finset.range N, d * sym (cut (fun x => I x - x) a b) V (d * (m + 1)) := by
    rw [← plain_fold hd hk hV hb]
    apply Finset.sum_congr rfl
    intro t ht
    rw [hY t (Finset.mem_range.1 ht)]
  rw [hsum]
  have h3 := cells_rate hQ.symMeas (s0 := s0) (s1 := s1) (R := b - a) (w := d) (θ := 1) hd (by norm_num) le_rfl (by linarith)
    hM (fun s hs => far s (lt_of_le_of_lt (max_le (by linarith) (by linarith)) hs)) hΛ (by positivity) s01 (N := N) (by
      have : b - a = d * ((N : ℝ) - 1) := by linarith
      rw [this]
      nlinarith)
  -- the neighbours of the output voltage
  have hnb : |d / 2 * (trapY (fun t : ℕ => a + d * t) (fun t : ℕ => I (a + d * t)) k (k - 1) +
      trapY (fun t : ℕ => a + d * t) (fun t : ℕ => I (a + d * t)) k (k + 1))| ≤ d * ((2 * G + B / s0) / 2) := by
    rw [hY _ (by omega), hY _ (by omega)]
    have e1 : (((k - 1 : ℕ) : ℤ) - k : ℤ) = -1 := by omega
    have e2 : (((k + 1 : ℕ) : ℤ) - k : ℤ) = 1 := by push_cast; ring
    rw [e1, e2]
    have e3 : cut (fun x => I x - x) a b (V + d * ((-1 : ℤ) : ℝ)) / (d * ((-1 : ℤ) : ℝ)) +
        cut (fun x => I x - x) a b (V + d * ((1 : ℤ) : ℝ)) / (d * ((1 : ℤ) : ℝ)) =
        sym (cut (fun x => I x - x) a b) V d := by
      unfold sym
      push_cast
      rw [mul_one, mul_neg_one, ← sub_eq_add_neg, div_neg]
      ring
    rw [e3, abs_mul, abs_of_pos (by positivity)]
    have := hM d hd
    nlinarith
  -- the ends
  have hend : ∀ t, t < N → ∀ D, 0 < D → |d * (((t : ℤ) - k : ℤ) : ℝ)| = D →
      |trapY (fun t : ℕ => a + d * t) (fun t : ℕ => I (a + d * t)) k t| ≤ B / D := by
    intro t ht D hD he
    rw [hY t ht, abs_div, he]
    have := hQ.bdd (V + d * ((t : ℤ) - k : ℤ))
    gcongr
  have hE1 := hend 0 (by omega) (V - a) (by linarith) (by
    rw [hV]
    push_cast
    rw [zero_sub, mul_neg, abs_neg, abs_of_nonneg (by positivity)]
    ring)
  have hE2 := hend (N - 1) (by omega) (b - V) (by linarith) (by
    have : (((N - 1 : ℕ) : ℤ) - k : ℤ) = (N : ℤ) - 1 - k := by omega
    rw [this]
    push_cast
    have hkN : (k : ℝ) + 1 ≤ N := by exact_mod_cast hk
    rw [abs_of_nonneg (mul_nonneg hd.le (by linarith)), hV, hb]
    ring)
  rw [isKk_unique (h.regular hVa hVb) hL]
  set S := ∑ m ∈ Finset.range N, d * sym (cut (fun x => I x - x) a b) V (d * (m + 1))
  set P := ∫ s in Ioi 0, sym (cut (fun x => I x - x) a b) V s
  set Y := trapY (fun t : ℕ => a + d * t) (fun t : ℕ => I (a + d * t)) k
  have hends : |d / 2 * (Y 0 + Y (N - 1))| ≤ d * (B / (2 * (V - a)) + B / (2 * (b - V))) := by
    rw [abs_mul, abs_of_pos (by positivity)]
    have h0 := (abs_add_le (Y 0) (Y (N - 1))).trans (add_le_add hE1 hE2)
    have e1 : B / (2 * (V - a)) + B / (2 * (b - V)) = (B / (V - a) + B / (b - V)) / 2 := by
      have := (sub_pos.2 hVa).ne'
      have := (sub_pos.2 hVb).ne'
      field_simp
    rw [e1]
    nlinarith
  have e2 : (S + d / 2 * (Y (k - 1) + Y (k + 1)) - d / 2 * (Y 0 + Y (N - 1))) / Real.pi -
      1 / Real.pi * P =
      ((S - P) + d / 2 * (Y (k - 1) + Y (k + 1)) - d / 2 * (Y 0 + Y (N - 1))) / Real.pi := by
    field_simp
    ring
  rw [e2, abs_div, abs_of_pos hpi, div_le_iff₀ hpi]
  have t1 := abs_sub ((S - P) + d / 2 * (Y (k - 1) + Y (k + 1))) (d / 2 * (Y 0 + Y (N - 1)))
  have t2 := abs_add_le (S - P) (d / 2 * (Y (k - 1) + Y (k + 1)))
  have t4 : |S - P| ≤ d * ((2 * K + G / s0 + B / s0 ^ 2) * (b - a + d) + 8 * (2 * G + B / s0)) := h3
  have t5 : B / (2 * (V - a)) + B / (2 * (b - V)) ≤ B / s0 := by
    have u : ∀ x, s0 ≤ x → B / (2 * x) ≤ B / s0 / 2 := fun x hx => by
      rw [div_div, mul_comm s0]
      exact div_le_div_of_nonneg_left hB0 (by positivity) (by linarith)
    linarith [u _ sa, u _ sb]
  have t6 := mul_le_mul_of_nonneg_left t5 hd.le
  have t7 : 0 ≤ d * (2 * G + B / s0) := by positivity
  have t8 : d / Real.pi * ((2 * K + G / s0 + B / s0 ^ 2) * (b - a + d) + 9 * (2 * G + B / s0) + B / s0) * Real.pi =
      d * ((2 * K + G / s0 + B / s0 ^ 2) * (b - a + d) + 9 * (2 * G + B / s0) + B / s0) := by field_simp
  rw [t8]
  linarith

/-- The curve `x + sin x`. -/
theorem smooth_sin (a b : ℝ) : Smooth (fun x => x + Real.sin x) (fun x => 1 + Real.cos x) a b 1 1 1 where
  bounded x _ := by
    rw [add_sub_cancel_left]
    exact Real.abs_sin_le_one x
  deriv x _ := (hasDerivAt_id x).add (Real.hasDerivAt_sin x)
  slope x _ := by
    rw [add_sub_cancel_left]
    exact Real.abs_cos_le_one x
  bend x _ y _ := by
    rw [add_sub_add_left_eq_sub, one_mul]
    have := (convex_univ (𝕜 := ℝ) (E := ℝ)).norm_image_sub_le_of_norm_hasDerivWithin_le (f := Real.cos) (f' := fun x => -Real.sin x) (C := 1)
      (fun x _ => (Real.hasDerivAt_cos x).hasDerivWithinAt) (fun x _ => by rw [norm_neg]; exact Real.abs_sin_le_one x) (mem_univ y) (mem_univ x)
    simpa only [Real.norm_eq_abs, one_mul] using this

/-- 4001 voltages from -2 to 2, the padding that is the default: within 0.023. -/
example : ∃ L r, IsKk (fun x => x + Real.sin x) (-2) 2 0 L ∧ kkTrans (tab 4001 fun t => -2 + (2 - -2) / ((4001 : ℕ) - 1) * t)
    (tab 4001 fun t => (-2 + (2 - -2) / ((4001 : ℕ) - 1) * t) + Real.sin (-2 + (2 - -2) / ((4001 : ℕ) - 1) * t)) 50 = .ok r ∧
    |r.getD 2000 0 - L| ≤ 0.023 := by
  obtain ⟨L, hL⟩ := C104_exists ((smooth_sin (-2) 2).regular (V := 0) (by norm_num) (by norm_num))
  obtain ⟨r, h1, -, h2⟩ := C183_rate (smooth_sin (-2) 2) (V := 0) (by norm_num) (by norm_num) hL (N := 4001) (k := 2000) (by norm_num) (by norm_num)
    (by norm_num) (n := 50) (by norm_num) rfl (s0 := 2) (by norm_num)
  refine ⟨L, r, hL, h1, h2.trans ?_⟩
  have hp := Real.pi_gt_three
  have : 2 * ((2 - -2) / (((4001 : ℕ) : ℝ) - 1)) / Real.pi ≤ 0.002 / 3 := by
    refine div_le_div₀ (by norm_num) (by norm_num) (by norm_num) hp.le
  push_cast at this ⊢
  have h3 := mul_le_mul_of_nonneg_right this (show (0 : ℝ) ≤ (2 * 1 + 1 / 2 + 1 / 2 ^ 2) * (2 - -2 + 2 * ((2 - -2) / (4001 - 1))) + 8 * (2 * 1 + 1 / 2) by norm_num)
  refine (add_le_add le_rfl h3).trans ?_
  norm_num

/-- The same voltages with `kk_trans_trapz`: within 0.015. -/
example : ∃ L r, IsKk (fun x => x + Real.sin x) (-2) 2 0 L ∧ kkTransTrapz (tab 4001 fun t => -2 + (2 - -2) / ((4001 : ℕ) - 1) * t)
    (tab 4001 fun t => (-2 + (2 - -2) / ((4001 : ℕ) - 1) * t) + Real.sin (-2 + (2 - -2) / ((4001 : ℕ) - 1) * t)) = .ok r ∧
    |r.getD 2000 0 - L| ≤ 0.015 := by
  obtain ⟨L, hL⟩ := C104_exists ((smooth_sin (-2) 2).regular (V := 0) (by norm_num) (by norm_num))
  obtain ⟨r, h1, -, h2⟩ := C183_trapz (smooth_sin (-2) 2) (V := 0) (by norm_num) (by norm_num) hL (N := 4001) (k := 2000) (by norm_num) (by norm_num)
    (by norm_num) rfl (s0 := 2) (by norm_num)
  refine ⟨L, r, hL, h1, h2.trans ?_⟩
  have hp := Real.pi_gt_three
  have : (2 - -2) / (((4001 : ℕ) : ℝ) - 1) / Real.pi ≤ 0.001 / 3 := by
    refine div_le_div₀ (by norm_num) (by norm_num) (by norm_num) hp.le
  push_cast at this ⊢
  have h3 := mul_le_mul_of_nonneg_right this (show (0 : ℝ) ≤ (2 * 1 + 1 / 2 + 1 / 2 ^ 2) * (2 - -2 + (2 - -2) / (4001 - 1)) + 9 * (2 * 1 + 1 / 2)
    + 1 / 2 by norm_num)
  refine h3.trans ?_
  norm_num

end QMix.MathFn
