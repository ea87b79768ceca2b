import Verif.Lemmas.Truncation
import Mathlib.Analysis.SpecialFunctions.Trigonometric.Inverse

/-! Weighted sums whose characteristic functions converge, for the classical limit of the junction. -/

namespace QMix

open Complex Filter Topology Finset Spec MeasureTheory

variable {T : Type*} {𝓕 : Filter T}

/-- The mean of `e^{i a t} h(u(t))` over a period. -/
noncomputable def periodMean (u : ℝ → ℝ) (a : ℤ) (h : ℝ → ℂ) : ℂ :=
  (1 / (2 * Real.pi) : ℝ) * ∫ t in (-Real.pi)..Real.pi, exp (I * a * t) * h (u t)

/-- Weights `W t k` at the nodes `y t k` that approach the distribution of `u`. -/
structure Approach (𝓕 : Filter T) (W : T → ℤ → ℂ) (y : T → ℤ → ℝ) (u : ℝ → ℝ) (a : ℤ) (M : ℝ) : Prop where
  cont : Continuous u
  mass : ∀ t, Summable (fun k => ‖W t k‖) ∧ ∑' k, ‖W t k‖ ≤ 1
  second : ∀ t, Summable (fun k => ‖W t k‖ * y t k ^ 2) ∧ ∑' k, ‖W t k‖ * y t k ^ 2 ≤ M
  char : ∀ s : ℝ, Tendsto (fun t => ∑' k, W t k * exp (I * s * y t k)) 𝓕 (𝓝 (periodMean u a fun x => exp (I * s * x)))

theorem periodMean_integrable {u : ℝ → ℝ} (hu : Continuous u) (a : ℤ) {h : ℝ → ℂ} (hh : Continuous h) :
    IntervalIntegrable (fun t : ℝ => exp (I * a * t) * h (u t)) volume (-Real.pi) Real.pi :=
  Continuous.intervalIntegrable (by fun_prop) _ _

theorem periodMean_add {u : ℝ → ℝ} (hu : Continuous u) (a : ℤ) {g h : ℝ → ℂ} (hg : Continuous g) (hh : Continuous h) :
    periodMean u a (fun x => g x + h x) = periodMean u a g + periodMean u a h := by
  unfold periodMean
  rw [← mul_add, ← intervalIntegral.integral_add (periodMean_integrable hu a hg) (periodMean_integrable hu a hh)]
  simp only [mul_add]

theorem periodMean_smul (u : ℝ → ℝ) (a : ℤ) (c : ℂ) (h : ℝ → ℂ) :
    periodMean u a (fun x => c * h x) = c * periodMean u a h := by
  unfold periodMean
  rw [mul_left_comm c, ← intervalIntegral.integral_const_mul c]
  congr 2
  funext t
  ring

theorem periodMean_zero (u : ℝ → ℝ) (a : ℤ) : periodMean u a (fun _ => 0) = 0 := by
  simp [periodMean]

theorem periodMean_le (u : ℝ → ℝ) (a : ℤ) {h : ℝ → ℂ} {A : ℝ} (hA : ∀ t, ‖h (u t)‖ ≤ A) : ‖periodMean u a h‖ ≤ A := by
  unfold periodMean
  have hb := intervalIntegral.norm_integral_le_of_norm_le_const (a := -Real.pi) (b := Real.pi) (C := A)
    (f := fun t : ℝ => exp (I * a * t) * h (u t)) fun t _ => by
      rw [norm_mul, norm_exp_I_mul, one_mul]
      exact hA t
  have hp := Real.pi_pos
  rw [norm_mul, norm_real, Real.norm_eq_abs, abs_of_pos (by positivity)]
  rw [show |Real.pi - -Real.pi| = 2 * Real.pi by rw [abs_of_pos (by linarith)]; ring] at hb
  calc 1 / (2 * Real.pi) * _ ≤ 1 / (2 * Real.pi) * (A * (2 * Real.pi)) := mul_le_mul_of_nonneg_left hb (by positivity)
    _ = A := by field_simp

namespace Approach

variable {W : T → ℤ → ℂ} {y : T → ℤ → ℝ} {u : ℝ → ℝ} {a : ℤ} {M : ℝ}

/-- A bound near the origin and a bound of second order outside. -/
theorem sum_le (H : Approach 𝓕 W y u a M) (t : T) {f : ℝ → ℂ} {A B : ℝ} (hA : 0 ≤ A) (hB : 0 ≤ B)
    (hf : ∀ x, ‖f x‖ ≤ A + B * x ^ 2) : Summable (fun k => W t k * f (y t k)) ∧ ‖∑' k, W t k * f (y t k)‖ ≤ A + B * M := by
  have hs := ((H.mass t).1.mul_right A).add ((H.second t).1.mul_left B)
  have hle : ∀ k, ‖W t k * f (y t k)‖ ≤ ‖W t k‖ * A + B * (‖W t k‖ * y t k ^ 2) := by
    intro k
    rw [norm_mul]
    have := mul_le_mul_of_nonneg_left (hf (y t k)) (norm_nonneg (W t k))
    linarith
  refine ⟨Summable.of_norm_bounded hs hle, (tsum_of_norm_bounded hs.hasSum hle).trans ?_⟩
  rw [((H.mass t).1.mul_right A).tsum_add ((H.second t).1.mul_left B), tsum_mul_right, tsum_mul_left]
  have h1 := mul_le_mul_of_nonneg_right (H.mass t).2 hA
  have h2 := mul_le_mul_of_nonneg_left (H.second t).2 hB
  linarith

theorem M_nonneg [NeBot 𝓕] (H : Approach 𝓕 W y u a M) : 0 ≤ M := by
  obtain ⟨t⟩ := nonempty_of_neBot 𝓕
  exact (tsum_nonneg fun k => by positivity).trans (H.second t).2

/-- Trigonometric polynomials. -/
theorem trig (H : Approach 𝓕 W y u a M) {p : ℝ} [hp : Fact (0 < p)] {g : C(AddCircle p, ℂ)}
    (hg : g ∈ Submodule.span ℂ (Set.range (@fourier p))) :
    Tendsto (fun t => ∑' k, W t k * g (y t k : ℝ)) 𝓕 (𝓝 (periodMean u a fun x => g (x : ℝ))) := by
  have hc : ∀ g : C(AddCircle p, ℂ), Continuous fun x : ℝ => g (x : AddCircle p) := fun g =>
    g.continuous.comp (AddCircle.continuous_mk' p)
  have hsum : ∀ (g : C(AddCircle p, ℂ)) t, Summable fun k => W t k * g (y t k : ℝ) := fun g t =>
    (H.sum_le t (norm_nonneg g) le_rfl (f := fun x => g (x : ℝ)) fun x => by simpa using g.norm_coe_le_norm _).1
  induction hg using Submodule.span_induction with
  | mem g hg =>
    obtain ⟨n, rfl⟩ := hg
    have e : ∀ x : ℝ, fourier n (x : AddCircle p) = exp (I * (2 * Real.pi * n / p : ℝ) * x) := by
      intro x
      rw [fourier_coe_apply]
      congr 1
      push_cast
      ring
    simp only [e]
    exact H.char _
  | zero =>
    simp only [ContinuousMap.zero_apply, mul_zero, tsum_zero, periodMean_zero]
    exact tendsto_const_nhds
  | add g h _ _ h1 h2 =>
    simp only [ContinuousMap.add_apply, mul_add]
    rw [periodMean_add H.cont a (hc g) (hc h)]
    refine (h1.add h2).congr fun t => ?_
    rw [(hsum g t).tsum_add (hsum h t)]
  | smul c g _ h1 =>
    simp only [ContinuousMap.smul_apply, smul_eq_mul]
    rw [periodMean_smul]
    refine (h1.const_mul c).congr fun t => ?_
    rw [← tsum_mul_left]
    exact tsum_congr fun k => by ring

end Approach

/-- A continuous function is close to a trigonometric polynomial on an interval, and the polynomial
is not larger elsewhere. -/
theorem exists_trig {h : ℝ → ℂ} (hh : Continuous h) {R ε : ℝ} (hR : 0 < R) (hε : 0 < ε) :
    ∃ (p : ℝ) (_ : Fact (0 < p)) (g : C(AddCircle p, ℂ)), g ∈ Submodule.span ℂ (Set.range (@fourier p)) ∧
      (∀ x : ℝ, |x| ≤ R → ‖g (x : ℝ) - h x‖ ≤ ε) ∧ ∀ x : ℝ, ∃ x', |x'| ≤ R ∧ ‖g (x : ℝ)‖ ≤ ‖h x'‖ + ε := by
  have hpi := Real.pi_pos
  let ρ : ℝ → ℝ := fun x => 2 * R / Real.pi * Real.arcsin (Real.sin (Real.pi / (2 * R) * x))
  have hρc : Continuous ρ := by
    show Continuous fun x => 2 * R / Real.pi * Real.arcsin (Real.sin (Real.pi / (2 * R) * x))
    have := Real.continuous_arcsin
    fun_prop
  have hρp : Function.Periodic ρ (4 * R) := by
    intro x
    show 2 * R / Real.pi * Real.arcsin (Real.sin (Real.pi / (2 * R) * (x + 4 * R))) = _
    rw [show Real.pi / (2 * R) * (x + 4 * R) = Real.pi / (2 * R) * x + 2 * Real.pi by field_simp; ring, Real.sin_add_two_pi]
  have hρR : ∀ x, |ρ x| ≤ R := by
    intro x
    have h1 : |Real.arcsin (Real.sin (Real.pi / (2 * R) * x))| ≤ Real.pi / 2 :=
      abs_le.2 ⟨Real.neg_pi_div_two_le_arcsin _, Real.arcsin_le_pi_div_two _⟩
    show |2 * R / Real.pi * Real.arcsin (Real.sin (Real.pi / (2 * R) * x))| ≤ R
    rw [abs_mul, abs_of_pos (by positivity)]
    calc 2 * R / Real.pi * _ ≤ 2 * R / Real.pi * (Real.pi / 2) := mul_le_mul_of_nonneg_left h1 (by positivity)
      _ = R := by field_simp
  have hρi : ∀ x, |x| ≤ R → ρ x = x := by
    intro x hx
    have h1 := abs_le.1 hx
    have h2 : Real.pi / (2 * R) * x = Real.pi / 2 * (x / R) := by field_simp
    have h3 : -1 ≤ x / R := by rw [le_div_iff₀ hR]; linarith
    have h4 : x / R ≤ 1 := by rw [div_le_iff₀ hR]; linarith
    show 2 * R / Real.pi * Real.arcsin (Real.sin (Real.pi / (2 * R) * x)) = x
    rw [h2, Real.arcsin_sin (by nlinarith) (by nlinarith)]
    field_simp
  have : Fact (0 < 4 * R) := ⟨by linarith⟩
  have hper : Function.Periodic (h ∘ ρ) (4 * R) := hρp.comp h
  let f : C(AddCircle (4 * R), ℂ) := ⟨hper.lift, continuous_coinduced_dom.mpr (hh.comp hρc)⟩
  have hf : ∀ x : ℝ, f x = h (ρ x) := fun x => rfl
  have hcl : f ∈ (Submodule.span ℂ (Set.range (@fourier (4 * R)))).topologicalClosure := by
    rw [span_fourier_closure_eq_top]
    trivial
  rw [← SetLike.mem_coe, Submodule.topologicalClosure_coe, Metric.mem_closure_iff] at hcl
  obtain ⟨g, hg, hd⟩ := hcl ε hε
  have hd' : ∀ x : ℝ, ‖g (x : ℝ) - h (ρ x)‖ ≤ ε := by
    intro x
    rw [← hf, ← dist_eq_norm, dist_comm]
    exact (ContinuousMap.dist_apply_le_dist _).trans hd.le
  refine ⟨4 * R, this, g, hg, fun x hx => ?_, fun x => ⟨ρ x, hρR x, ?_⟩⟩
  · have := hd' x
    rwa [hρi x hx] at this
  · have h1 := norm_sub_norm_le (g (x : ℝ)) (h (ρ x))
    linarith [hd' x]

/-- The sums of functions of at most linear growth that converge evenly on bounded sets. -/
theorem Approach.tendsto [NeBot 𝓕] {W : T → ℤ → ℂ} {y : T → ℤ → ℝ} {u : ℝ → ℝ} {a : ℤ} {M : ℝ} (H : Approach 𝓕 W y u a M)
    {U : ℝ} (hU : ∀ t, |u t| ≤ U) {f : T → ℝ → ℂ} {h : ℝ → ℂ} (hh : Continuous h) {K : ℝ} (hK : 0 ≤ K)
    (hf : ∀ᶠ t in 𝓕, ∀ x, ‖f t x‖ ≤ K * (1 + |x|)) (hg : ∀ x, ‖h x‖ ≤ K * (1 + |x|))
    (hconv : ∀ R ε : ℝ, 0 < ε → ∀ᶠ t in 𝓕, ∀ x, |x| ≤ R → ‖f t x - h x‖ ≤ ε) :
    Tendsto (fun t => ∑' k, W t k * f t (y t k)) 𝓕 (𝓝 (periodMean u a h)) := by
  have hM := H.M_nonneg
  rw [Metric.tendsto_nhds]
  intro δ hδ
  set ε := δ / 6 with hε'
  have hε : 0 < ε := by positivity
  -- the radius
  set R := 1 + |U| + (4 * K + ε) * M / ε with hR'
  have hB0 : 0 ≤ (4 * K + ε) * M / ε := by positivity
  have hR1 : 1 ≤ R := by linarith [abs_nonneg U]
  have hRU : U ≤ R := by linarith [le_abs_self U]
  obtain ⟨p, hp, g, hgs, hg1, hg2⟩ := exists_trig hh (by linarith : 0 < R) hε
  have hgc : Continuous fun x : ℝ => g (x : AddCircle p) := g.continuous.comp (AddCircle.continuous_mk' p)
  have ht := Metric.tendsto_nhds.1 (H.trig hgs) ε hε
  filter_upwards [hf, hconv R ε hε, ht] with t h1 h2 h3
  have hR0 : 0 < R := by linarith
  set B := (4 * K + ε) / R with hB'
  have hB : 0 ≤ B := by positivity
  have hBM : B * M ≤ ε := by
    rw [hB', div_mul_eq_mul_div, div_le_iff₀ hR0]
    have : (4 * K + ε) * M / ε ≤ R := by linarith [abs_nonneg U]
    rw [div_le_iff₀ hε] at this
    linarith
  -- inside and outside
  have hb : ∀ x : ℝ, ‖f t x - g (x : ℝ)‖ ≤ 2 * ε + B * x ^ 2 := by
    intro x
    by_cases hx : |x| ≤ R
    · have e1 := h2 x hx
      have e2 := hg1 x hx
      have e3 := norm_sub_le_norm_sub_add_norm_sub (f t x) (h x) (g (x : ℝ))
      rw [norm_sub_rev (h x)] at e3
      have : 0 ≤ B * x ^ 2 := by positivity
      linarith
    · push Not at hx
      obtain ⟨x', hx', e1⟩ := hg2 x
      have e2 := hg x'
      have e3 := norm_sub_le (f t x) (g (x : ℝ))
      have e4 := h1 x
      have e5 : K * (1 + |x'|) ≤ K * (1 + |x|) := mul_le_mul_of_nonneg_left (by linarith) hK
      have e6 : K * (1 + |x|) ≤ K * (2 * |x|) := mul_le_mul_of_nonneg_left (by linarith) hK
      have e7 : (4 * K + ε) * |x| ≤ B * x ^ 2 := by
        rw [hB', div_mul_eq_mul_div, le_div_iff₀ hR0, ← sq_abs x]
        have : |x| * R ≤ |x| ^ 2 := by nlinarith [abs_nonneg x]
        calc (4 * K + ε) * |x| * R = (4 * K + ε) * (|x| * R) := by ring
          _ ≤ _ := mul_le_mul_of_nonneg_left this (by positivity)
      have e8 : ε ≤ ε * |x| := by nlinarith
      nlinarith
  have hd := H.sum_le t (by positivity : 0 ≤ 2 * ε) hB hb
  have hsf : Summable fun k => W t k * f t (y t k) := by
    refine (H.sum_le t (A := 2 * K) (B := K) (by positivity) hK (f := f t) fun x => (h1 x).trans ?_).1
    nlinarith [sq_nonneg (|x| - 1), sq_abs x, mul_nonneg hK (sq_nonneg (|x| - 1))]
  have hsg : Summable fun k => W t k * g (y t k : ℝ) :=
    (H.sum_le t (norm_nonneg g) le_rfl (f := fun x => g (x : ℝ)) fun x => by simpa using g.norm_coe_le_norm _).1
  have hsub : ∑' k, W t k * (f t (y t k) - g (y t k : ℝ)) = ∑' k, W t k * f t (y t k) - ∑' k, W t k * g (y t k : ℝ) := by
    rw [← hsf.tsum_sub hsg]
    exact tsum_congr fun k => by ring
  have hlim : ‖periodMean u a (fun x => g (x : ℝ)) - periodMean u a h‖ ≤ ε := by
    have e : periodMean u a (fun x => g (x : ℝ)) - periodMean u a h = periodMean u a (fun x => g (x : ℝ) + (-1) * h x) := by
      rw [periodMean_add H.cont a hgc (by fun_prop), periodMean_smul]
      ring
    rw [e]
    refine periodMean_le u a fun s => ?_
    have := hg1 (u s) ((hU s).trans hRU)
    rwa [show g ((u s : ℝ) : AddCircle p) + -1 * h (u s) = g ((u s : ℝ) : AddCircle p) - h (u s) by ring]
  rw [dist_eq_norm] at h3 ⊢
  have e1 := hd.2
  rw [hsub] at e1
  have e2 := norm_sub_le_norm_sub_add_norm_sub (∑' k, W t k * f t (y t k)) (∑' k, W t k * g (y t k : ℝ)) (periodMean u a h)
  have e3 := norm_sub_le_norm_sub_add_norm_sub (∑' k, W t k * g (y t k : ℝ)) (periodMean u a fun x => g (x : ℝ)) (periodMean u a h)
  have : δ = 6 * ε := by rw [hε']; ring
  linarith

end QMix
