import Verif.Lemmas.Parametric

/-! # Exact, rounded and tracked arithmetic -/

namespace QMix.Rnd

open Complex QMix.Qt

variable {ι : Type}

/-- A number with a bound of its magnitude and the number of roundings it went through. -/
abbrev Tr := ℂ × ℝ × ℕ

/-- `x` is `t` up to `n` roundings, relative to the magnitude of `t`. -/
def Near (u : ℝ) (x : ℂ) (t : Tr) : Prop := ‖t.1‖ ≤ t.2.1 ∧ ‖x - t.1‖ ≤ ((1 + u) ^ t.2.2 - 1) * t.2.1

theorem one_le_pow {u : ℝ} (hu : 0 ≤ u) (n : ℕ) : 1 ≤ (1 + u) ^ n := one_le_pow₀ (by linarith)

theorem Near.norm_le {u : ℝ} {x : ℂ} {t : Tr} (h : Near u x t) : ‖x‖ ≤ (1 + u) ^ t.2.2 * t.2.1 := by
  have h1 : ‖x‖ ≤ ‖x - t.1‖ + ‖t.1‖ := by
    have := norm_add_le (x - t.1) t.1
    rwa [sub_add_cancel] at this
  have := h.1
  have := h.2
  nlinarith

theorem Near.zero (u : ℝ) : Near u 0 (0, 0, 0) := by simp [Near]

theorem Near.mono {u : ℝ} (hu : 0 ≤ u) {x y : ℂ} {m : ℝ} {n n' : ℕ} (h : Near u x (y, m, n)) (hn : n ≤ n') : Near u x (y, m, n') := by
  refine ⟨h.1, h.2.trans ?_⟩
  have h1 : (1 + u) ^ n ≤ (1 + u) ^ n' := pow_le_pow_right₀ (by linarith) hn
  have h2 : 0 ≤ m := (norm_nonneg _).trans h.1
  simp only
  nlinarith

/-- Rounding once more. -/
theorem Near.round {u : ℝ} (hu : 0 ≤ u) {x x' y : ℂ} {m : ℝ} {n : ℕ} (h : Near u x (y, m, n)) (hr : ‖x' - x‖ ≤ u * ‖x‖) :
    Near u x' (y, m, n + 1) := by
  refine ⟨h.1, ?_⟩
  have h1 := h.norm_le
  have h2 := h.2
  have h3 : ‖x' - y‖ ≤ ‖x' - x‖ + ‖x - y‖ := by
    have := norm_add_le (x' - x) (x - y)
    rwa [sub_add_sub_cancel] at this
  simp only at h1 h2 ⊢
  have h4 : u * ‖x‖ ≤ u * ((1 + u) ^ n * m) := mul_le_mul_of_nonneg_left h1 hu
  calc ‖x' - y‖ ≤ u * ((1 + u) ^ n * m) + ((1 + u) ^ n - 1) * m := by linarith
    _ = ((1 + u) ^ (n + 1) - 1) * m := by ring

theorem Near.mul_exact {u : ℝ} {x y : ℂ} {s t : Tr} (hx : Near u x s) (hy : Near u y t) :
    Near u (x * y) (s.1 * t.1, s.2.1 * t.2.1, s.2.2 + t.2.2) := by
  obtain ⟨x0, m, n⟩ := s
  obtain ⟨y0, m', n'⟩ := t
  have hm : 0 ≤ m := (norm_nonneg _).trans hx.1
  have hm' : 0 ≤ m' := (norm_nonneg _).trans hy.1
  have h1 := hx.1
  have h2 := hx.2
  have h3 := hy.1
  have h4 := hy.2
  have h5 := hy.norm_le
  simp only at h1 h2 h3 h4 h5
  refine ⟨by simp only [norm_mul]; gcongr, ?_⟩
  simp only
  have e : x * y - x0 * y0 = (x - x0) * y + x0 * (y - y0) := by ring
  have h0 : 0 ≤ ((1 + u) ^ n - 1) * m := (norm_nonneg _).trans h2
  calc ‖x * y - x0 * y0‖ ≤ ‖x - x0‖ * ‖y‖ + ‖x0‖ * ‖y - y0‖ := by
        rw [e]
        refine (norm_add_le _ _).trans ?_
        rw [norm_mul, norm_mul]
    _ ≤ ((1 + u) ^ n - 1) * m * ((1 + u) ^ n' * m') + m * (((1 + u) ^ n' - 1) * m') := by gcongr
    _ = ((1 + u) ^ (n + n') - 1) * (m * m') := by ring

theorem Near.add_exact {u : ℝ} (hu : 0 ≤ u) {x y : ℂ} {s t : Tr} (hx : Near u x s) (hy : Near u y t) :
    Near u (x + y) (s.1 + t.1, s.2.1 + t.2.1, max s.2.2 t.2.2) := by
  obtain ⟨x0, m, n⟩ := s
  obtain ⟨y0, m', n'⟩ := t
  have hx' := hx.mono hu (le_max_left n n')
  have hy' := hy.mono hu (le_max_right n n')
  refine ⟨(norm_add_le _ _).trans (add_le_add hx.1 hy.1), ?_⟩
  simp only
  calc ‖x + y - (x0 + y0)‖ ≤ ‖x - x0‖ + ‖y - y0‖ := by
        rw [show x + y - (x0 + y0) = (x - x0) + (y - y0) by ring]
        exact norm_add_le _ _
    _ ≤ ((1 + u) ^ (max n n') - 1) * m + ((1 + u) ^ (max n n') - 1) * m' := add_le_add hx'.2 hy'.2
    _ = _ := by ring

theorem Near.conj {u : ℝ} {x : ℂ} {t : Tr} (hx : Near u x t) : Near u ((starRingEnd ℂ) x) ((starRingEnd ℂ) t.1, t.2) := by
  refine ⟨by simpa using hx.1, ?_⟩
  have := hx.2
  rw [← norm_conj, map_sub] at this
  exact this

theorem Near.im {u : ℝ} {x : ℂ} {t : Tr} (hx : Near u x t) : Near u (x.im : ℂ) ((t.1.im : ℂ), t.2) := by
  refine ⟨?_, ?_⟩
  · simp only [norm_real, Real.norm_eq_abs]
    exact (abs_im_le_norm _).trans hx.1
  · simp only
    rw [← ofReal_sub, ← sub_im, norm_real, Real.norm_eq_abs]
    exact (abs_im_le_norm _).trans hx.2

/-- Multiplication by a unit is exact. -/
theorem Near.unit {u : ℝ} {x : ℂ} {t : Tr} (hx : Near u x t) {c : ℂ} (hc : ‖c‖ = 1) : Near u (c * x) (c * t.1, t.2) := by
  refine ⟨by simpa [norm_mul, hc] using hx.1, ?_⟩
  simp only
  rw [← mul_sub, norm_mul, hc, one_mul]
  exact hx.2

theorem norm_le_of_parts {u : ℝ} (hu : 0 ≤ u) {d z : ℂ} (h1 : |d.re| ≤ u * |z.re|) (h2 : |d.im| ≤ u * |z.im|) : ‖d‖ ≤ u * ‖z‖ := by
  have h3 : ‖d‖ ^ 2 ≤ (u * ‖z‖) ^ 2 := by
    rw [mul_pow, Complex.sq_norm, Complex.sq_norm, normSq_apply, normSq_apply]
    have a1 : |d.re| ^ 2 ≤ (u * |z.re|) ^ 2 := pow_le_pow_left₀ (abs_nonneg _) h1 2
    have a2 : |d.im| ^ 2 ≤ (u * |z.im|) ^ 2 := pow_le_pow_left₀ (abs_nonneg _) h2 2
    rw [mul_pow, sq_abs, sq_abs] at a1 a2
    nlinarith
  exact le_of_sq_le_sq h3 (by positivity)

/-- The operations on tracked numbers. -/
noncomputable def tracked (ι : Type) : Ops (ι → Tr) (ι → Tr) (ι → Tr) where
  zeroC := fun _ => (0, 0, 0)
  addC x y := fun i => ((x i).1 + (y i).1, (x i).2.1 + (y i).2.1, max (x i).2.2 (y i).2.2 + 1)
  mulC x y := fun i => ((x i).1 * (y i).1, (x i).2.1 * (y i).2.1, (x i).2.2 + (y i).2.2 + 1)
  conj x := fun i => ((starRingEnd ℂ) (x i).1, (x i).2)
  zeroR := fun _ => (0, 0, 0)
  addR x y := fun i => ((x i).1 + (y i).1, (x i).2.1 + (y i).2.1, max (x i).2.2 (y i).2.2 + 1)
  act x y := fun i => ((x i).1 * (y i).1, (x i).2.1 * (y i).2.1, (x i).2.2 + (y i).2.2 + 1)
  zeroO := fun _ => (0, 0, 0)
  addO x y := fun i => ((x i).1 + (y i).1, (x i).2.1 + (y i).2.1, max (x i).2.2 (y i).2.2 + 1)
  fin dc p m := fun i => if dc then (((p i).1.im : ℂ) + I * 0, (p i).2)
    else ((((p i).1.im : ℂ) + ((m i).1.im : ℂ)) - I * (((p i).1.re : ℂ) - ((m i).1.re : ℂ)), (p i).2.1 + (m i).2.1,
      max (p i).2.2 (m i).2.2 + 1)

theorem rounded_near {u : ℝ} (hu : 0 ≤ u) (ar : Arith u) : Respects (rounded ar ι) (tracked ι) (fun x t => ∀ i, Near u (x i) (t i))
    (fun x t => ∀ i, Near u (x i) (t i)) (fun x t => ∀ i, Near u (x i) (t i)) where
  zeroC := fun _ => Near.zero u
  addC := fun hx hy i => ((hx i).add_exact hu (hy i)).round hu (ar.add_le _ _)
  mulC := fun hx hy i => ((hx i).mul_exact (hy i)).round hu (ar.mul_le _ _)
  conj := fun hx i => (hx i).conj
  zeroR := fun _ => Near.zero u
  addR := fun hx hy i => ((hx i).add_exact hu (hy i)).round hu (ar.add_le _ _)
  act := fun hx hy i => ((hx i).mul_exact (hy i)).round hu (ar.mul_le _ _)
  zeroO := fun _ => Near.zero u
  addO := fun hx hy i => ((hx i).add_exact hu (hy i)).round hu (ar.add_le _ _)
  fin := by
    intro dc p p' m m' hp hm i
    simp only [rounded, tracked]
    split_ifs with h
    · rw [mul_zero, add_zero, add_zero]
      exact (hp i).im
    · have h1 := ((hp i).unit (c := -I) (by simp)).add_exact hu ((hm i).conj.unit (c := I) (by simp))
      have e : ∀ p m : ℂ, -I * p + I * (starRingEnd ℂ) m = ((p.im : ℂ) + (m.im : ℂ)) - I * ((p.re : ℂ) - (m.re : ℂ)) := by
        intro p m
        apply Complex.ext
        · simp
        · simp; ring
      simp only [e] at h1
      refine h1.round hu (norm_le_of_parts hu ?_ ?_)
      · simpa using ar.radd_le (p i).im (m i).im
      · have := ar.rsub_le (p i).re (m i).re
        simp only [sub_im, add_im, mul_im, ofReal_im, ofReal_re, I_re, I_im, sub_re]
        have e1 : ∀ a b : ℝ, |(0 : ℝ) * (0 - 0) + 1 * (a - b)| = |a - b| := by intro a b; ring_nf
        have h5 : ∀ x y : ℝ, |x - y| ≤ u * |y| → |-x - -y| ≤ u * |-y| := by
          intro x y h
          rw [abs_neg, show -x - -y = -(x - y) by ring, abs_neg]
          exact h
        have := h5 _ _ this
        ring_nf at this ⊢
        exact this

theorem tracked_value : Respects (tracked ι) (exact ι) (fun t x => ∀ i, (t i).1 = x i) (fun t x => ∀ i, (t i).1 = x i)
    (fun t x => ∀ i, (t i).1 = x i) where
  zeroC := fun _ => rfl
  addC := fun hx hy i => by simp [tracked, exact, hx i, hy i]
  mulC := fun hx hy i => by simp [tracked, exact, hx i, hy i]
  conj := fun hx i => by simp [tracked, exact, conjA, hx i]
  zeroR := fun _ => rfl
  addR := fun hx hy i => by simp [tracked, exact, hx i, hy i]
  act := fun hx hy i => by simp [tracked, exact, hx i, hy i]
  zeroO := fun _ => rfl
  addO := fun hx hy i => by simp [tracked, exact, hx i, hy i]
  fin := by
    intro dc p p' m m' hp hm i
    simp only [tracked, exact, finish]
    split_ifs
    · simp [hp i]
    · simp [hp i, hm i]

/-- The magnitudes are an exact calculation with real coefficients and imaginary responses. -/
theorem tracked_mag : Respects (tracked ι) (exact ι) (fun t x => ∀ i, x i = ((t i).2.1 : ℂ)) (fun t x => ∀ i, x i = I * ((t i).2.1 : ℂ))
    (fun t x => ∀ i, x i = ((t i).2.1 : ℂ)) where
  zeroC := fun _ => by simp [tracked, exact]
  addC := fun hx hy i => by simp [tracked, exact, hx i, hy i]
  mulC := fun hx hy i => by simp [tracked, exact, hx i, hy i]
  conj := fun hx i => by simp [tracked, exact, conjA, hx i]
  zeroR := fun _ => by simp [tracked, exact]
  addR := fun hx hy i => by simp [tracked, exact, hx i, hy i, mul_add]
  act := fun hx hy i => by simp [tracked, exact, hx i, hy i, mul_left_comm]
  zeroO := fun _ => by simp [tracked, exact]
  addO := fun hx hy i => by simp [tracked, exact, hx i, hy i]
  fin := by
    intro dc p p' m m' hp hm i
    simp only [tracked, exact, finish]
    split_ifs
    · simp [hp i]
    · simp [hp i, hm i]

/-- Counting roundings. -/
def count : Ops ℕ ℕ ℕ where
  zeroC := 0
  addC x y := max x y + 1
  mulC x y := x + y + 1
  conj x := x
  zeroR := 0
  addR x y := max x y + 1
  act x y := x + y + 1
  zeroO := 0
  addO x y := max x y + 1
  fin dc p m := if dc then p else max p m + 1

theorem tracked_count : Respects (tracked ι) count (fun t n => ∀ i, (t i).2.2 ≤ n) (fun t n => ∀ i, (t i).2.2 ≤ n)
    (fun t n => ∀ i, (t i).2.2 ≤ n) where
  zeroC := fun _ => le_rfl
  addC := fun hx hy i => by have := hx i; have := hy i; simp only [tracked, count]; omega
  mulC := fun hx hy i => by have := hx i; have := hy i; simp only [tracked, count]; omega
  conj := fun hx i => hx i
  zeroR := fun _ => le_rfl
  addR := fun hx hy i => by have := hx i; have := hy i; simp only [tracked, count]; omega
  act := fun hx hy i => by have := hx i; have := hy i; simp only [tracked, count]; omega
  zeroO := fun _ => le_rfl
  addO := fun hx hy i => by have := hx i; have := hy i; simp only [tracked, count]; omega
  fin := by
    intro dc p p' m m' hp hm i
    have := hp i
    have := hm i
    simp only [tracked, count]
    split_ifs
    · simpa using hp i
    · simp only
      omega

end QMix.Rnd
