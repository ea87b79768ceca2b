import Verif.Lemmas.Classical2
import Verif.Spec.Classical

/-! The classical limit of the tunnelling current for any number of tones. -/

namespace QMix

open Complex Filter Topology Finset Spec MeasureTheory

variable {T : Type*} {𝓕 : Filter T}

/-- Even convergence on bounded sets. -/
theorem even_convergence {F : T → ℝ → ℂ} {h : ℝ → ℂ} (hh : Continuous h)
    (hF : ∀ x, Tendsto (fun p : T × ℝ => F p.1 p.2) (𝓕 ×ˢ 𝓝 x) (𝓝 (h x))) (x R : ℝ) {ε : ℝ} (hε : 0 < ε) :
    ∀ᶠ p in 𝓕 ×ˢ 𝓝 x, ∀ y, |y| ≤ R → ‖F p.1 (p.2 + y) - h (x + y)‖ ≤ ε := by
  have hl : TendstoLocallyUniformly (fun p : T × ℝ => fun y => F p.1 (p.2 + y)) (fun y => h (x + y)) (𝓕 ×ˢ 𝓝 x) := by
    rw [tendstoLocallyUniformly_iff_forall_tendsto]
    intro y0
    have h1 : Tendsto (fun q : (T × ℝ) × ℝ => h (x + q.2)) ((𝓕 ×ˢ 𝓝 x) ×ˢ 𝓝 y0) (𝓝 (h (x + y0))) := by
      have : Continuous fun y => h (x + y) := by fun_prop
      exact (this.tendsto y0).comp tendsto_snd
    have h2 : Tendsto (fun q : (T × ℝ) × ℝ => (q.1.1, q.1.2 + q.2)) ((𝓕 ×ˢ 𝓝 x) ×ˢ 𝓝 y0) (𝓕 ×ˢ 𝓝 (x + y0)) := by
      refine Tendsto.prodMk (tendsto_fst.comp tendsto_fst) ?_
      exact (tendsto_snd.comp tendsto_fst).add tendsto_snd
    have h3 := (hF (x + y0)).comp h2
    exact (h1.prodMk_nhds h3).mono_right (nhds_le_uniformity _)
  have hc := tendstoLocallyUniformly_iff_forall_isCompact.1 hl (Metric.closedBall 0 R) (isCompact_closedBall 0 R)
  rw [Metric.tendstoUniformlyOn_iff] at hc
  filter_upwards [hc ε hε] with p hp y hy
  have := hp y (by simpa using hy)
  rw [dist_comm, dist_eq_norm] at this
  exact this.le

theorem length_drives (v : ℕ → ℕ → ℂ) (P f n : ℕ) : (drives v P f n).length = n := by
  induction n generalizing f with
  | zero => rfl
  | succ n ih => simp [drives, ih]

theorem tendsto_corrFull_classical [NeBot 𝓕] [𝓕.IsCountablyGenerated] {lam : T → ℝ} (h1 : ∀ t, 1 ≤ lam t)
    (hlim : Tendsto lam 𝓕 atTop) {h : ℝ → ℂ} (hh : Continuous h) {K₀ : ℝ} (hK₀ : 0 ≤ K₀) (hg : ∀ x, ‖h x‖ ≤ K₀ * (1 + |x|))
    (v : ℕ → ℕ → ℂ) (freq : ℕ → ℝ) (P n f : ℕ) (hf : ∀ g, f ≤ g → g < f + n → freq g ≠ 0) (as : List ℤ) (has : as.length = n) :
    ∃ K, 0 ≤ K ∧
      (∀ t x, ‖corrFull (fun x => h (x / lam t)) ((tonesFull (fun f p => lam t * v f p) freq P f n).zip as) (lam t * x)‖ ≤ K * (1 + |x|)) ∧
      Continuous (phaseAverage h ((drives v P f n).zip as)) ∧
      (∀ x, ‖phaseAverage h ((drives v P f n).zip as) x‖ ≤ K * (1 + |x|)) ∧
      ∀ x, Tendsto (fun p : T × ℝ => corrFull (fun x => h (x / lam p.1))
        ((tonesFull (fun f q => lam p.1 * v f q) freq P f n).zip as) (lam p.1 * p.2)) (𝓕 ×ˢ 𝓝 x)
          (𝓝 (phaseAverage h ((drives v P f n).zip as) x)) := by
  have h0 : ∀ t, 0 < lam t := fun t => by linarith [h1 t]
  induction n generalizing f as with
  | zero =>
    obtain rfl := List.length_eq_zero_iff.1 has
    have e : ∀ t x, lam t * x / lam t = x := fun t x => by
      have := (h0 t).ne'
      field_simp
    refine ⟨K₀, hK₀, fun t x => ?_, hh, hg, fun x => ?_⟩
    · simpa [tonesFull, corrFull, e] using hg x
    · simp only [tonesFull, drives, List.zip_nil_left, corrFull, phaseAverage, e]
      exact (hh.tendsto x).comp tendsto_snd
  | succ n ih =>
    cases as with
    | nil => simp at has
    | cons a as =>
      obtain ⟨K, hK, hb, hc, hd, ht⟩ := ih (f + 1) (fun g e1 e2 => hf g (by omega) (by omega)) as (by simpa using has)
      have hw := hf f le_rfl (by omega)
      set F : T → ℝ → ℂ := fun t x => corrFull (fun x => h (x / lam t))
        ((tonesFull (fun f p => lam t * v f p) freq P (f + 1) n).zip as) (lam t * x) with hF
      set g := phaseAverage h ((drives v P (f + 1) n).zip as) with hgdef
      set U := ∑ p ∈ Icc 1 P, ‖v f p‖ with hU
      set M := (3 * U ^ 2 + 2 * (a * freq f) ^ 2) / 2 with hM
      have hU0 : 0 ≤ U := Finset.sum_nonneg fun p _ => norm_nonneg _
      have hM0 : 0 ≤ M := by positivity
      have hA := approach_tone h1 hlim (v f) hw P a
      have eG : ∀ t x, corrFull (fun x => h (x / lam t)) ((tonesFull (fun f p => lam t * v f p) freq P f (n + 1)).zip (a :: as)) (lam t * x)
          = ∑' k : ℤ, phaseCoeff (fun p => lam t * v f p) (freq f) P k *
              (starRingEnd ℂ) (phaseCoeff (fun p => lam t * v f p) (freq f) P (k + a)) * F t (x + k * freq f / lam t) := by
        intro t x
        simp only [tonesFull, List.zip_cons_cons, corrFull]
        refine tsum_congr fun k => ?_
        rw [hF]
        beta_reduce
        congr 2
        have := (h0 t).ne'
        field_simp
      have eL : ∀ x, phaseAverage h ((drives v P f (n + 1)).zip (a :: as)) x = periodMean (acVoltage (v f) P) a fun y => g (x + y) :=
        fun x => rfl
      have habs : ∀ x y : ℝ, K * (1 + |x + y|) ≤ K * (1 + |x|) + K * |y| := by
        intro x y
        have := mul_le_mul_of_nonneg_left (abs_add_le x y) hK
        linarith
      refine ⟨K * (2 + M + U), by positivity, fun t x => ?_, ?_, fun x => ?_, fun x => ?_⟩
      · rw [eG]
        refine (hA.sum_le t (f := fun y => F t (x + y)) (A := K * (1 + |x|) + K) (B := K) (by positivity) hK fun y => ?_).2.trans ?_
        · refine (hb t (x + y)).trans ((habs x y).trans ?_)
          have : |y| ≤ 1 + y ^ 2 := by
            rw [← sq_abs y]
            nlinarith [sq_nonneg (|y| - 1)]
          have := mul_le_mul_of_nonneg_left this hK
          linarith
        · have hx := abs_nonneg x
          rw [← hU, ← hM]
          nlinarith [mul_nonneg hK hx, mul_nonneg (mul_nonneg hK hM0) hx, mul_nonneg (mul_nonneg hK hU0) hx, mul_nonneg hK hU0]
      · have : phaseAverage h ((drives v P f (n + 1)).zip (a :: as)) = fun x =>
            ((1 / (2 * Real.pi) : ℝ) : ℂ) * ∫ t in (-Real.pi)..Real.pi, exp (I * a * t) * g (x + acVoltage (v f) P t) := rfl
        rw [this]
        refine continuous_const.mul ?_
        have hu := continuous_acVoltage (v f) P
        refine intervalIntegral.continuous_parametric_intervalIntegral_of_continuous' ?_ _ _
        unfold Function.uncurry
        fun_prop
      · rw [eL]
        refine periodMean_le _ _ fun t => ?_
        refine (hd _).trans ((habs x _).trans ?_)
        have h2 := mul_le_mul_of_nonneg_left (abs_acVoltage_le (v f) P t) hK
        have hx := abs_nonneg x
        nlinarith [mul_nonneg hK hx, mul_nonneg (mul_nonneg hK hM0) hx, mul_nonneg (mul_nonneg hK hU0) hx, mul_nonneg hK hU0, mul_nonneg hK hM0]
      · simp only [eG, eL]
        have hA' := approach_tone (𝓕 := 𝓕 ×ˢ 𝓝 x) (lam := fun p => lam p.1) (fun p => h1 p.1) (hlim.comp tendsto_fst) (v f) hw P a
        refine hA'.tendsto (abs_acVoltage_le (v f) P) (f := fun p y => F p.1 (p.2 + y)) (h := fun y => g (x + y)) (by fun_prop)
          (K := K * (2 + |x|)) (by positivity) ?_ (fun y => ?_) fun R ε hε => even_convergence hc ht x R hε
        · have hnear : ∀ᶠ p in 𝓕 ×ˢ 𝓝 x, |p.2| ≤ |x| + 1 := by
            refine tendsto_snd.eventually (p := fun q : ℝ => |q| ≤ |x| + 1) ?_
            filter_upwards [Metric.ball_mem_nhds x one_pos] with q hq
            rw [Metric.mem_ball, Real.dist_eq] at hq
            have := abs_sub_abs_le_abs_sub q x
            linarith
          filter_upwards [hnear] with p hp y
          refine (hb p.1 (p.2 + y)).trans ((habs _ y).trans ?_)
          have hx := abs_nonneg x
          have hy := abs_nonneg y
          have := mul_le_mul_of_nonneg_left hp hK
          nlinarith [mul_nonneg hK hx, mul_nonneg hK hy, mul_nonneg (mul_nonneg hK hx) hy]
        · refine (hd _).trans ((habs x y).trans ?_)
          have hx := abs_nonneg x
          have hy := abs_nonneg y
          nlinarith [mul_nonneg hK hx, mul_nonneg hK hy, mul_nonneg (mul_nonneg hK hx) hy]

/-! ## Averages over the phase angles -/

theorem phaseAverage_conj (h : ℝ → ℂ) (l : List ((ℝ → ℝ) × ℤ)) (v : ℝ) :
    (starRingEnd ℂ) (phaseAverage h (l.map fun x => (x.1, -x.2)) v) = phaseAverage (fun x => (starRingEnd ℂ) (h x)) l v := by
  induction l generalizing v with
  | nil => rfl
  | cons x l ih =>
    obtain ⟨u, a⟩ := x
    simp only [List.map_cons, phaseAverage, map_mul, conj_ofReal]
    congr 1
    rw [intervalIntegral, intervalIntegral, map_sub, ← integral_conj, ← integral_conj]
    have e : ∀ t : ℝ, (starRingEnd ℂ) (exp (I * ((-a : ℤ) : ℂ) * t) * phaseAverage h (l.map fun x => (x.1, -x.2)) (v + u t))
        = exp (I * a * t) * phaseAverage (fun x => (starRingEnd ℂ) (h x)) l (v + u t) := by
      intro t
      rw [map_mul, ih, ← exp_conj]
      congr 2
      simp [map_mul, conj_I, conj_ofReal]
    simp only [e]

theorem continuous_phaseAverage {h : ℝ → ℂ} (hh : Continuous h) {l : List ((ℝ → ℝ) × ℤ)} (hl : ∀ x ∈ l, Continuous x.1) :
    Continuous (phaseAverage h l) := by
  induction l with
  | nil => exact hh
  | cons x l ih =>
    obtain ⟨u, a⟩ := x
    obtain ⟨hu, hl⟩ := List.forall_mem_cons.1 hl
    have hc := ih hl
    have : phaseAverage h ((u, a) :: l) = fun x =>
        ((1 / (2 * Real.pi) : ℝ) : ℂ) * ∫ t in (-Real.pi)..Real.pi, exp (I * a * t) * phaseAverage h l (x + u t) := rfl
    rw [this]
    refine continuous_const.mul ?_
    refine intervalIntegral.continuous_parametric_intervalIntegral_of_continuous' ?_ _ _
    unfold Function.uncurry
    have hu : Continuous u := hu
    fun_prop

theorem phaseAverage_add {g h : ℝ → ℂ} (hg : Continuous g) (hh : Continuous h) {l : List ((ℝ → ℝ) × ℤ)}
    (hl : ∀ x ∈ l, Continuous x.1) (v : ℝ) :
    phaseAverage (fun x => g x + h x) l v = phaseAverage g l v + phaseAverage h l v := by
  induction l generalizing v with
  | nil => rfl
  | cons x l ih =>
    obtain ⟨u, a⟩ := x
    obtain ⟨hu, hl⟩ := List.forall_mem_cons.1 hl
    have hu : Continuous u := hu
    have c1 := continuous_phaseAverage hg hl
    have c2 := continuous_phaseAverage hh hl
    simp only [phaseAverage]
    rw [← mul_add, ← intervalIntegral.integral_add (Continuous.intervalIntegrable (by fun_prop) _ _)
      (Continuous.intervalIntegrable (by fun_prop) _ _)]
    simp only [ih hl, mul_add]

theorem phaseAverage_smul (c : ℂ) (h : ℝ → ℂ) (l : List ((ℝ → ℝ) × ℤ)) (v : ℝ) :
    phaseAverage (fun x => c * h x) l v = c * phaseAverage h l v := by
  induction l generalizing v with
  | nil => rfl
  | cons x l ih =>
    obtain ⟨u, a⟩ := x
    simp only [phaseAverage, ih]
    rw [mul_left_comm c, ← intervalIntegral.integral_const_mul c]
    congr 2
    funext t
    ring

/-- The imaginary part of the response function, which is the I-V curve, is what remains. -/
theorem phaseAverage_im {h : ℝ → ℂ} (hh : Continuous h) {l : List ((ℝ → ℝ) × ℤ)} (hl : ∀ x ∈ l, Continuous x.1) (v : ℝ) :
    phaseAverage h l v - (starRingEnd ℂ) (phaseAverage h (l.map fun x => (x.1, -x.2)) v)
      = 2 * I * phaseAverage (fun x => ((h x).im : ℂ)) l v := by
  rw [phaseAverage_conj, ← phaseAverage_smul]
  have hc : Continuous fun x => (starRingEnd ℂ) (h x) := continuous_conj.comp hh
  have e : (fun x => 2 * I * ((h x).im : ℂ)) = fun x => h x + (-1) * (starRingEnd ℂ) (h x) := by
    funext x
    have := Complex.sub_conj (h x)
    rw [neg_one_mul, ← sub_eq_add_neg, this]
    push_cast
    ring
  rw [e, phaseAverage_add hh (by fun_prop) hl, phaseAverage_smul]
  ring

theorem drives_continuous (v : ℕ → ℕ → ℂ) (P f n : ℕ) : ∀ u ∈ drives v P f n, Continuous u := by
  induction n generalizing f with
  | zero => simp [drives]
  | succ n ih => exact List.forall_mem_cons.2 ⟨continuous_acVoltage (v f) P, ih (f + 1)⟩

/-- The mixing products of a strongly driven junction are those of a nonlinear resistor. -/
theorem tendsto_mixFull_classical [NeBot 𝓕] [𝓕.IsCountablyGenerated] {lam : T → ℝ} (h1 : ∀ t, 1 ≤ lam t)
    (hlim : Tendsto lam 𝓕 atTop) {h : ℝ → ℂ} (hh : Continuous h) (hg : Growth 1 h)
    (v : ℕ → ℕ → ℂ) (freq : ℕ → ℝ) (P n f : ℕ) (hf : ∀ g, f ≤ g → g < f + n → freq g ≠ 0) (as : List ℤ) (has : as.length = n) (x : ℝ) :
    Tendsto (fun t => mixFull (fun x => h (x / lam t)) ((tonesFull (fun f p => lam t * v f p) freq P f n).zip as) (lam t * x)) 𝓕
      (𝓝 (resistorCurrent (fun x => (h x).im) ((drives v P f n).zip as) x)) := by
  obtain ⟨K₀, hK₀, hg⟩ := hg
  simp only [pow_one] at hg
  have hx : Tendsto (fun t => (t, x)) 𝓕 (𝓕 ×ˢ 𝓝 x) := tendsto_id.prodMk tendsto_const_nhds
  have lim : ∀ bs : List ℤ, bs.length = n → Tendsto (fun t => corrFull (fun x => h (x / lam t))
      ((tonesFull (fun f p => lam t * v f p) freq P f n).zip bs) (lam t * x)) 𝓕 (𝓝 (phaseAverage h ((drives v P f n).zip bs) x)) := by
    intro bs hbs
    obtain ⟨K, _, _, _, _, ht⟩ := tendsto_corrFull_classical h1 hlim hh hK₀ hg v freq P n f hf bs hbs
    exact (ht x).comp hx
  have hl : ∀ y ∈ (drives v P f n).zip as, Continuous y.1 := fun y hy => drives_continuous v P f n _ (List.of_mem_zip hy).1
  have him := phaseAverage_im hh hl x
  have hz : ∀ t, (∀ x ∈ (tonesFull (fun f p => (lam t : ℂ) * v f p) freq P f n).zip as, x.2 = 0) ↔ ∀ a ∈ as, a = 0 := fun t =>
    zip_zero_iff (by rw [length_tonesFull, has])
  have hz' : (∀ x ∈ (drives v P f n).zip as, x.2 = 0) ↔ ∀ a ∈ as, a = 0 := zip_zero_iff (by rw [length_drives, has])
  unfold mixFull resistorCurrent
  simp only [hz, hz', zip_neg] at him ⊢
  split_ifs with h0
  · have hneg : as.map (fun a => -a) = as := by
      refine (List.map_congr_left fun a ha => ?_).trans (List.map_id as)
      rw [h0 a ha]
      rfl
    rw [hneg, Complex.sub_conj] at him
    have e : phaseAverage (fun x => ((h x).im : ℂ)) ((drives v P f n).zip as) x = ((phaseAverage h ((drives v P f n).zip as) x).im : ℂ) := by
      have h2 : (2 * I : ℂ) ≠ 0 := by simp
      refine mul_left_cancel₀ h2 ?_
      rw [← him]
      push_cast
      ring
    rw [one_mul, e]
    exact (continuous_ofReal.tendsto _).comp ((continuous_im.tendsto _).comp (lim as has))
  · have := ((lim as has).sub (lim (as.map fun a => -a) (by simpa using has)).star).const_mul (-I)
    have e : 2 * phaseAverage (fun x => ((h x).im : ℂ)) ((drives v P f n).zip as) x
        = -I * (phaseAverage h ((drives v P f n).zip as) x
          - star (phaseAverage h ((drives v P f n).zip (as.map fun a => -a)) x)) := by
      have : star (phaseAverage h ((drives v P f n).zip (as.map fun a => -a)) x)
          = (starRingEnd ℂ) (phaseAverage h ((drives v P f n).zip (as.map fun a => -a)) x) := rfl
      rw [this, him]
      ring_nf
      rw [I_sq]
      ring
    rw [e]
    exact this

end QMix
