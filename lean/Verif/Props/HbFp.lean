import Verif.Model.HbFp
import Verif.Lemmas.HarmonicBalance
import Verif.Lemmas.RelErr
import Verif.Props.CircuitFp

/-!
# Property C169: the error test of harmonic balance in floating-point arithmetic
-/

namespace QMix.Props

open QMix.HB QMix.Rnd QMix.CctFp

variable {u : ℝ} {n N : ℕ}

/-- The computed residual of one signal, from below. -/
theorem resid_le (ar : Arith u) (h0 : 0 ≤ u) (h1 : u < 1) (vt zt ι ι' v : ℂ) :
    ‖vt - zt * ι - v‖ ≤ ‖ar.add (ar.add vt (-ar.mul zt ι')) (-v)‖ / (1 - u) ^ 3 + u / (1 - u) ^ 2 * (‖vt‖ + 2 * ‖v‖)
      + ‖zt‖ * ‖ι' - ι‖ := by
  set m := ar.mul zt ι'
  set a := ar.add vt (-m)
  set e := ar.add a (-v)
  have hm : ‖m - zt * ι'‖ ≤ u * ‖zt * ι'‖ := ar.mul_le zt ι'
  have ha : ‖a - (vt - m)‖ ≤ u * ‖vt - m‖ := by simpa only [sub_eq_add_neg] using ar.add_le vt (-m)
  have he : ‖e - (a - v)‖ ≤ u * ‖a - v‖ := by simpa only [sub_eq_add_neg] using ar.add_le a (-v)
  have q : 0 < 1 - u := by linarith
  have s1 : (1 - u) * ‖a - v‖ ≤ ‖e‖ := by
    have := norm_sub_norm_le (a - v) e
    rw [norm_sub_rev (a - v) e] at this
    linarith
  have s2 : (1 - u) * ‖vt - m - v‖ ≤ ‖a - v‖ + u * ‖v‖ := by
    have t1 : ‖vt - m - v‖ ≤ ‖a - v‖ + ‖a - (vt - m)‖ := by
      rw [show vt - m - v = (a - v) - (a - (vt - m)) by ring]
      exact norm_sub_le _ _
    have t2 : ‖vt - m‖ ≤ ‖vt - m - v‖ + ‖v‖ := by
      rw [show vt - m = (vt - m - v) + v by ring]
      simpa using norm_add_le (vt - m - v) v
    nlinarith
  have s3 : (1 - u) * ‖vt - zt * ι' - v‖ ≤ ‖vt - m - v‖ + u * (‖vt‖ + ‖v‖) := by
    have t1 : ‖vt - zt * ι' - v‖ ≤ ‖vt - m - v‖ + ‖m - zt * ι'‖ := by
      rw [show vt - zt * ι' - v = (vt - m - v) + (m - zt * ι') by ring]
      exact norm_add_le _ _
    have t2 : ‖zt * ι'‖ ≤ ‖vt - zt * ι' - v‖ + (‖vt‖ + ‖v‖) := by
      have : zt * ι' = (vt - v) - (vt - zt * ι' - v) := by ring
      have h := norm_sub_le (vt - v) (vt - zt * ι' - v)
      rw [← this] at h
      have := norm_sub_le vt v
      linarith
    nlinarith
  have s4 : ‖vt - zt * ι - v‖ ≤ ‖vt - zt * ι' - v‖ + ‖zt‖ * ‖ι' - ι‖ := by
    rw [← norm_mul, show vt - zt * ι - v = (vt - zt * ι' - v) + zt * (ι' - ι) by ring]
    exact norm_add_le _ _
  have k1 : ‖vt - zt * ι' - v‖ * (1 - u) ^ 3 ≤ ‖e‖ + u * (1 - u) * (‖vt‖ + 2 * ‖v‖) := by
    have a1 := mul_le_mul_of_nonneg_left s3 (by positivity : 0 ≤ (1 - u) ^ 2)
    have a2 := mul_le_mul_of_nonneg_left s2 q.le
    have a3 : 0 ≤ u * (1 - u) := mul_nonneg h0 q.le
    have a4 : 0 ≤ u * (1 - u) * u * (‖vt‖ + ‖v‖) := by positivity
    nlinarith
  have k2 : ‖vt - zt * ι' - v‖ ≤ ‖e‖ / (1 - u) ^ 3 + u / (1 - u) ^ 2 * (‖vt‖ + 2 * ‖v‖) := by
    have : ‖e‖ / (1 - u) ^ 3 + u / (1 - u) ^ 2 * (‖vt‖ + 2 * ‖v‖) = (‖e‖ + u * (1 - u) * (‖vt‖ + 2 * ‖v‖)) / (1 - u) ^ 3 := by
      field_simp
    rw [this]
    exact (le_div_iff₀ (by positivity)).2 k1
  linarith

/-- The computed residual of one signal, from above. -/
theorem le_resid (ar : Arith u) (h0 : 0 ≤ u) (vt zt ι ι' v : ℂ) :
    ‖ar.add (ar.add vt (-ar.mul zt ι')) (-v)‖ ≤ (1 + u) ^ 3 * (‖vt - zt * ι - v‖ + ‖zt‖ * ‖ι' - ι‖ + u * (‖vt‖ + 2 * ‖v‖)) := by
  set m := ar.mul zt ι'
  set a := ar.add vt (-m)
  set e := ar.add a (-v)
  have hm : ‖m - zt * ι'‖ ≤ u * ‖zt * ι'‖ := ar.mul_le zt ι'
  have ha : ‖a - (vt - m)‖ ≤ u * ‖vt - m‖ := by simpa only [sub_eq_add_neg] using ar.add_le vt (-m)
  have he : ‖e - (a - v)‖ ≤ u * ‖a - v‖ := by simpa only [sub_eq_add_neg] using ar.add_le a (-v)
  have s1 : ‖e‖ ≤ (1 + u) * ‖a - v‖ := by
    have := norm_add_le (e - (a - v)) (a - v)
    rw [sub_add_cancel] at this
    linarith
  have s2 : ‖a - v‖ ≤ (1 + u) * ‖vt - m - v‖ + u * ‖v‖ := by
    have t1 : ‖a - v‖ ≤ ‖vt - m - v‖ + ‖a - (vt - m)‖ := by
      rw [show a - v = (vt - m - v) + (a - (vt - m)) by ring]
      exact norm_add_le _ _
    have t2 : ‖vt - m‖ ≤ ‖vt - m - v‖ + ‖v‖ := by
      rw [show vt - m = (vt - m - v) + v by ring]
      simpa using norm_add_le (vt - m - v) v
    nlinarith
  have s3 : ‖vt - m - v‖ ≤ (1 + u) * ‖vt - zt * ι' - v‖ + u * (‖vt‖ + ‖v‖) := by
    have t1 : ‖vt - m - v‖ ≤ ‖vt - zt * ι' - v‖ + ‖m - zt * ι'‖ := by
      rw [show vt - m - v = (vt - zt * ι' - v) - (m - zt * ι') by ring]
      exact norm_sub_le _ _
    have t2 : ‖zt * ι'‖ ≤ ‖vt - zt * ι' - v‖ + (‖vt‖ + ‖v‖) := by
      have : zt * ι' = (vt - v) - (vt - zt * ι' - v) := by ring
      have h := norm_sub_le (vt - v) (vt - zt * ι' - v)
      rw [← this] at h
      have := norm_sub_le vt v
      linarith
    nlinarith
  have s4 : ‖vt - zt * ι' - v‖ ≤ ‖vt - zt * ι - v‖ + ‖zt‖ * ‖ι' - ι‖ := by
    rw [← norm_mul, show vt - zt * ι' - v = (vt - zt * ι - v) - zt * (ι' - ι) by ring]
    exact norm_sub_le _ _
  have nv := norm_nonneg v
  have nt := norm_nonneg vt
  set R := ‖vt - zt * ι - v‖ + ‖zt‖ * ‖ι' - ι‖
  calc ‖e‖ ≤ (1 + u) * ((1 + u) * ((1 + u) * R + u * (‖vt‖ + ‖v‖)) + u * ‖v‖) := by
        refine s1.trans (mul_le_mul_of_nonneg_left (s2.trans ?_) (by linarith))
        have b1 := mul_le_mul_of_nonneg_left s4 (by linarith : 0 ≤ 1 + u)
        have b2 := mul_le_mul_of_nonneg_left (s3.trans (add_le_add_left b1 _)) (by linarith : 0 ≤ 1 + u)
        linarith
    _ ≤ (1 + u) ^ 3 * (R + u * (‖vt‖ + 2 * ‖v‖)) := by
        have c1 : 0 ≤ u * u := by positivity
        have : (1 + u) ^ 3 * (R + u * (‖vt‖ + 2 * ‖v‖)) - (1 + u) * ((1 + u) * ((1 + u) * R + u * (‖vt‖ + ‖v‖)) + u * ‖v‖)
            = (1 + u) * u * (u * (1 + u) * (‖vt‖ + ‖v‖) + ((1 + u) ^ 2 - 1) * ‖v‖) := by ring
        have : 0 ≤ (1 + u) * u * (u * (1 + u) * (‖vt‖ + ‖v‖) + ((1 + u) ^ 2 - 1) * ‖v‖) := by
          have : 0 ≤ (1 + u) ^ 2 - 1 := by nlinarith
          positivity
        linarith

/-- The computed relative error against the residual. -/
theorem relErr_fin (ar : Arith u) (A : Fp u) (h0 : 0 ≤ u) (h1 : u < 1) (vt zt : Fin n → ℂ) (vj ij : Sig n N) (k : Fin n) (i : Fin N)
    (hv : vj k i ≠ 0) : ∃ x, HBFp.relErr ar A vt zt vj ij k i = .fin x ∧
      Rel.Rel u 3 (x * ‖vj k i‖) ‖HBFp.errVec ar vt zt ij vj k i‖ := by
  have ra : Rel.Rel u 1 (A.abs (HBFp.errVec ar vt zt ij vj k i)) ‖HBFp.errVec ar vt zt ij vj k i‖ :=
    .of_le h0 h1 (by rw [abs_norm]; exact A.abs_le _)
  have rb : Rel.Rel u 1 (A.abs (vj k i)) ‖vj k i‖ := .of_le h0 h1 (by rw [abs_norm]; exact A.abs_le _)
  have hn : ‖vj k i‖ ≠ 0 := norm_ne_zero_iff.2 hv
  have hb : A.abs (vj k i) ≠ 0 := (rb.sign h1).2.2.1 hn
  refine ⟨A.rnd (A.abs (HBFp.errVec ar vt zt ij vj k i) / A.abs (vj k i)), by simp only [HBFp.relErr, if_neg hb], ?_⟩
  have := (rnd_step A h0 h1 (ra.div h1 rb)).mulLeft ‖vj k i‖
  rwa [mul_div_cancel₀ _ hn, mul_comm] at this

theorem rel_le_of (h1 : u < 1) {m : ℕ} {x y : ℝ} (h : Rel.Rel u m x y) (hy : 0 ≤ y) : y ≤ x / (1 - u) ^ m ∧ x ≤ y / (1 - u) ^ m := by
  obtain ⟨c, a, b, rfl⟩ := h
  have p : 0 < (1 - u) ^ m := pow_pos (by linarith) m
  rw [le_div_iff₀ p, le_div_iff₀ p, mul_assoc]
  exact ⟨mul_le_mul_of_nonneg_left a hy, mul_le_of_le_one_right hy b⟩

/-- A computed relative error within the target bounds the residual. -/
theorem resid_of_test (ar : Arith u) (A : Fp u) (h0 : 0 ≤ u) (h1 : u < 1) (vt zt : Fin n → ℂ) (vj ij : Sig n N) (k : Fin n) (i : Fin N)
    (hv : vj k i ≠ 0) {stop : ℝ} (h : (HBFp.relErr ar A vt zt vj ij k i).le (.fin stop)) (ι : ℂ) :
    ‖vt k - zt k * ι - vj k i‖ ≤ stop * ‖vj k i‖ / (1 - u) ^ 6 + u / (1 - u) ^ 2 * (‖vt k‖ + 2 * ‖vj k i‖) + ‖zt k‖ * ‖ij k i - ι‖ := by
  obtain ⟨x, hx, r⟩ := relErr_fin ar A h0 h1 vt zt vj ij k i hv
  rw [hx] at h
  have hle : x ≤ stop := h
  have q : 0 < 1 - u := by linarith
  have e1 := (rel_le_of h1 r (norm_nonneg _)).1
  have e2 := resid_le ar h0 h1 (vt k) (zt k) ι (ij k i) (vj k i)
  have e3 : ‖HBFp.errVec ar vt zt ij vj k i‖ / (1 - u) ^ 3 ≤ stop * ‖vj k i‖ / (1 - u) ^ 6 := by
    rw [show (1 - u) ^ 6 = (1 - u) ^ 3 * (1 - u) ^ 3 by ring, ← div_div]
    refine div_le_div_of_nonneg_right (e1.trans (div_le_div_of_nonneg_right ?_ (by positivity))) (by positivity)
    exact mul_le_mul_of_nonneg_right hle (norm_nonneg _)
  have e4 : ‖ar.add (ar.add (vt k) (-ar.mul (zt k) (ij k i))) (-vj k i)‖ = ‖HBFp.errVec ar vt zt ij vj k i‖ := rfl
  rw [e4] at e2
  linarith

/-- A small residual passes the test. -/
theorem test_of_resid (ar : Arith u) (A : Fp u) (h0 : 0 ≤ u) (h1 : u < 1) (vt zt : Fin n → ℂ) (vj ij : Sig n N) (k : Fin n) (i : Fin N)
    (hv : vj k i ≠ 0) {stop : ℝ} (ι : ℂ)
    (h : (‖vt k - zt k * ι - vj k i‖ + ‖zt k‖ * ‖ij k i - ι‖ + u * (‖vt k‖ + 2 * ‖vj k i‖)) / (1 - u) ^ 6 ≤ stop * ‖vj k i‖) :
    (HBFp.relErr ar A vt zt vj ij k i).le (.fin stop) := by
  obtain ⟨x, hx, r⟩ := relErr_fin ar A h0 h1 vt zt vj ij k i hv
  rw [hx]
  have q : 0 < 1 - u := by linarith
  have e1 := (rel_le_of h1 r (norm_nonneg _)).2
  have e2 : ‖HBFp.errVec ar vt zt ij vj k i‖
      ≤ (1 + u) ^ 3 * (‖vt k - zt k * ι - vj k i‖ + ‖zt k‖ * ‖ij k i - ι‖ + u * (‖vt k‖ + 2 * ‖vj k i‖)) :=
    le_resid ar h0 (vt k) (zt k) ι (ij k i) (vj k i)
  set Z := ‖vt k - zt k * ι - vj k i‖ + ‖zt k‖ * ‖ij k i - ι‖ + u * (‖vt k‖ + 2 * ‖vj k i‖)
  have hZ : 0 ≤ Z := by positivity
  have e3 : (1 + u) ^ 3 ≤ 1 / (1 - u) ^ 3 := by
    rw [le_div_iff₀ (by positivity), ← mul_pow]
    exact pow_le_one₀ (by nlinarith) (by nlinarith)
  have e4 : x * ‖vj k i‖ ≤ stop * ‖vj k i‖ := by
    refine e1.trans (le_trans ?_ h)
    rw [show (1 - u) ^ 6 = (1 - u) ^ 3 * (1 - u) ^ 3 by ring, ← div_div]
    refine div_le_div_of_nonneg_right (e2.trans ?_) (by positivity)
    rw [div_eq_mul_one_div, mul_comm]
    exact mul_le_mul_of_nonneg_left e3 hZ
  exact le_of_mul_le_mul_right e4 (norm_pos_iff.2 hv)

/-- C169. If the iteration stops because the target is met in floating-point arithmetic, every circuit equation is met to the target up to
a few roundings and the error of the computed current. `I` is the exact current. -/
theorem C169_target (ar : Arith u) (A : Fp u) (h0 : 0 ≤ u) (h1 : u < 1) {cur : Sig n N → Py (Sig n N)}
    {upd : Sig n N → Sig n N → Py (Sig n N)} (vt zt : Fin n → ℂ) {stop : ℝ} {maxIt : ℤ} {v0 : Sig n N} {s : Stopped (Sig n N) N}
    (h : HBFp.iterate ar A cur upd vt zt stop maxIt v0 = .ok s) (ht : s.exit = .target) (hv : ∀ k i, s.vj k i ≠ 0)
    {I : Sig n N → Sig n N} {δ : ℝ} (hI : ∀ v e, cur v = .ok e → ∀ k i, ‖e k i - I v k i‖ ≤ δ) (k : Fin n) (i : Fin N) :
    ‖vt k - zt k * I s.vj k i - s.vj k i‖
      ≤ stop * ‖s.vj k i‖ / (1 - u) ^ 6 + u / (1 - u) ^ 2 * (‖vt k‖ + 2 * ‖s.vj k i‖) + ‖zt k‖ * δ := by
  obtain ⟨-, hc⟩ := iterate_post _ _ _ _ _ _ _ h
  rcases hc with hc | hc | hc
  · obtain ⟨-, -, -, -, r, ⟨e, he, hr⟩, hle, -⟩ := hc
    have hnan : ∀ k i, HBFp.relErr ar A vt zt s.vj e k i ≠ .nan := by
      intro k i
      obtain ⟨x, hx, -⟩ := relErr_fin ar A h0 h1 vt zt s.vj e k i (hv k i)
      rw [hx]
      simp
    have := ((signalLoop_le_iff hr hnan stop).2.1 hle).2 k i
    have := resid_of_test ar A h0 h1 vt zt s.vj e k i (hv k i) this (I s.vj k i)
    have hd := mul_le_mul_of_nonneg_left (hI s.vj e he k i) (norm_nonneg (zt k))
    linarith
  · rw [hc.1] at ht; cases ht
  · rw [hc.1] at ht; cases ht

/-- C169. If the iteration gives up, some circuit equation is not met with this margin: rounding alone does not keep it going. -/
theorem C169_limit (ar : Arith u) (A : Fp u) (h0 : 0 ≤ u) (h1 : u < 1) {cur : Sig n N → Py (Sig n N)}
    {upd : Sig n N → Sig n N → Py (Sig n N)} (vt zt : Fin n → ℂ) {stop : ℝ} (hstop : 0 ≤ stop) {maxIt : ℤ} {v0 : Sig n N}
    {s : Stopped (Sig n N) N} (h : HBFp.iterate ar A cur upd vt zt stop maxIt v0 = .ok s) (ht : s.exit = .limit)
    (hv : ∀ k i, s.vj k i ≠ 0) {I : Sig n N → Sig n N} {δ : ℝ} (hI : ∀ v e, cur v = .ok e → ∀ k i, ‖e k i - I v k i‖ ≤ δ) :
    ∃ k i, stop * ‖s.vj k i‖
      < (‖vt k - zt k * I s.vj k i - s.vj k i‖ + ‖zt k‖ * δ + u * (‖vt k‖ + 2 * ‖s.vj k i‖)) / (1 - u) ^ 6 := by
  obtain ⟨-, hc⟩ := iterate_post _ _ _ _ _ _ _ h
  rcases hc with hc | hc | hc
  · rw [hc.1] at ht; cases ht
  · obtain ⟨-, -, -, -, -, r, ⟨e, he, hr⟩, hlt, -⟩ := hc
    have hnan : ∀ k i, HBFp.relErr ar A vt zt s.vj e k i ≠ .nan := by
      intro k i
      obtain ⟨x, hx, -⟩ := relErr_fin ar A h0 h1 vt zt s.vj e k i (hv k i)
      rw [hx]
      simp
    by_contra hcon
    push Not at hcon
    have hle : r.1.le (.fin stop) := by
      refine (signalLoop_le_iff hr hnan stop).2.2 ⟨hstop, fun k i => test_of_resid ar A h0 h1 vt zt s.vj e k i (hv k i) (I s.vj k i) ?_⟩
      refine le_trans (div_le_div_of_nonneg_right ?_ (pow_nonneg (by linarith) 6)) (hcon k i)
      have hd := mul_le_mul_of_nonneg_left (hI s.vj e he k i) (norm_nonneg (zt k))
      linarith
    cases hr1 : r.1 with
    | nan => rw [hr1] at hle; exact hle
    | fin x =>
      rw [hr1] at hle hlt
      exact absurd (show x ≤ stop from hle) (not_le.2 (show stop < x from hlt))
    | inf => rw [hr1] at hle; exact hle
  · rw [hc.1] at ht; cases ht

/-- C169. A point marked as finished (`mode="m"`) meets all its circuit equations in this sense. -/
theorem C169_mask (ar : Arith u) (A : Fp u) (h0 : 0 ≤ u) (h1 : u < 1) {cur : Sig n N → Py (Sig n N)}
    {upd : Sig n N → Sig n N → Py (Sig n N)} (vt zt : Fin n → ℂ) {stop : ℝ} {maxIt : ℤ} {v0 : Sig n N} {s : Stopped (Sig n N) N}
    (h : HBFp.iterate ar A cur upd vt zt stop maxIt v0 = .ok s) (ht : s.exit ≠ .exhausted) {mask : Fin N → Prop} (hm : s.mask = some mask)
    {I : Sig n N → Sig n N} {δ : ℝ} (hI : ∀ v e, cur v = .ok e → ∀ k i, ‖e k i - I v k i‖ ≤ δ) (i : Fin N) (hi : mask i)
    (hv : ∀ k, s.vj k i ≠ 0) (k : Fin n) :
    ‖vt k - zt k * I s.vj k i - s.vj k i‖
      ≤ stop * ‖s.vj k i‖ / (1 - u) ^ 6 + u / (1 - u) ^ 2 * (‖vt k‖ + 2 * ‖s.vj k i‖) + ‖zt k‖ * δ := by
  obtain ⟨-, hc⟩ := iterate_post _ _ _ _ _ _ _ h
  have key : ∀ r, Evaluated cur (HBFp.relErr ar A vt zt) stop s.vj r → s.mask = some r.2 → ‖vt k - zt k * I s.vj k i - s.vj k i‖
      ≤ stop * ‖s.vj k i‖ / (1 - u) ^ 6 + u / (1 - u) ^ 2 * (‖vt k‖ + 2 * ‖s.vj k i‖) + ‖zt k‖ * δ := fun r hr hmr => by
    obtain ⟨e, he, hr⟩ := hr
    rw [hm] at hmr
    cases hmr
    have h3 := (signalLoop_mask hr i).1 hi k
    have h4 : (HBFp.relErr ar A vt zt s.vj e k i).le (.fin stop) := by
      obtain ⟨x, hx, -⟩ := relErr_fin ar A h0 h1 vt zt s.vj e k i (hv k)
      rw [hx] at h3 ⊢
      exact le_of_lt (show x < stop from h3)
    have h5 := resid_of_test ar A h0 h1 vt zt s.vj e k i (hv k) h4 (I s.vj k i)
    have hd := mul_le_mul_of_nonneg_left (hI s.vj e he k i) (norm_nonneg (zt k))
    exact h5.trans (by linarith)
  rcases hc with hc | hc | hc
  · obtain ⟨-, -, -, -, r, hr, -, hm'⟩ := hc
    exact key r hr hm'
  · obtain ⟨-, -, -, -, -, r, hr, -, hm'⟩ := hc
    exact key r hr hm'
  · exact absurd hc.1 ht

/-! ## Double precision -/

/-- The real functions with a larger bound. -/
noncomputable def fp64' : Fp (4 * Spec.u64) where
  rnd := fp64.rnd
  pow10 := fp64.pow10
  log10 := fp64.log10
  abs := fp64.abs
  rnd_le x := (fp64.rnd_le x).trans (mul_le_mul_of_nonneg_right (by linarith [Spec.u64_pos]) (abs_nonneg _))
  pow10_le x := (fp64.pow10_le x).trans (mul_le_mul_of_nonneg_right (by linarith [Spec.u64_pos]) (by positivity))
  log10_le x := (fp64.log10_le x).trans (mul_le_mul_of_nonneg_right (by linarith [Spec.u64_pos]) (abs_nonneg _))
  abs_le z := (fp64.abs_le z).trans (mul_le_mul_of_nonneg_right (by linarith [Spec.u64_pos]) (norm_nonneg _))

/-- C169 in double precision (unit roundoff `2^-51` for the complex product). -/
theorem C169_target_64 (ar : Arith (4 * Spec.u64)) (A : Fp (4 * Spec.u64)) {cur : Sig n N → Py (Sig n N)}
    {upd : Sig n N → Sig n N → Py (Sig n N)} (vt zt : Fin n → ℂ) {stop : ℝ} (hstop : 0 ≤ stop) {maxIt : ℤ} {v0 : Sig n N}
    {s : Stopped (Sig n N) N} (h : HBFp.iterate ar A cur upd vt zt stop maxIt v0 = .ok s) (ht : s.exit = .target)
    (hv : ∀ k i, s.vj k i ≠ 0) {I : Sig n N → Sig n N} {δ : ℝ} (hI : ∀ v e, cur v = .ok e → ∀ k i, ‖e k i - I v k i‖ ≤ δ)
    (k : Fin n) (i : Fin N) :
    ‖vt k - zt k * I s.vj k i - s.vj k i‖
      ≤ stop * ‖s.vj k i‖ * (1 + 2⁻¹ ^ 48) + 2⁻¹ ^ 50 * (‖vt k‖ + 2 * ‖s.vj k i‖) + ‖zt k‖ * δ := by
  have u0 := Spec.u64_pos
  have us := u64_small
  have main := C169_target ar A (by positivity) (by norm_num at us; linarith) vt zt h ht hv hI k i
  obtain ⟨w, hw⟩ : ∃ w, w = 4 * Spec.u64 := ⟨_, rfl⟩
  rw [← hw] at main
  have hwe : w = 2⁻¹ ^ 51 := by rw [hw]; unfold Spec.u64; norm_num
  have w0 : 0 ≤ w := by rw [hw]; positivity
  have w1 : w ≤ 1 / 10 ^ 12 := by rw [hw]; norm_num at us ⊢; linarith
  have k6 := Rel.inv_pow_le (n := 6) w0 (by norm_num at w1 ⊢; linarith)
  have k2 := Rel.inv_pow_le (n := 2) w0 (by norm_num at w1 ⊢; linarith)
  have b1 : stop * ‖s.vj k i‖ / (1 - w) ^ 6 ≤ stop * ‖s.vj k i‖ * (1 + 2⁻¹ ^ 48) := by
    rw [div_eq_mul_inv]
    refine mul_le_mul_of_nonneg_left ?_ (by positivity)
    rw [hwe] at k6 ⊢
    norm_num at k6 ⊢
  have b2 : w / (1 - w) ^ 2 * (‖vt k‖ + 2 * ‖s.vj k i‖) ≤ 2⁻¹ ^ 50 * (‖vt k‖ + 2 * ‖s.vj k i‖) := by
    refine mul_le_mul_of_nonneg_right ?_ (by positivity)
    rw [hwe]
    norm_num
  linarith

/-- One signal whose current is proportional to the voltage, one bias point: the iteration stops at once. -/
example : ∃ s : Stopped (Sig 1 1) 1, HBFp.iterate Spec.binary64 fp64' (fun v => .ok v) (fun v _ => .ok v) (fun _ => 1) (fun _ => 1) 0.001 10
    (fun _ _ => 1 / 2) = .ok s ∧ s.exit = .target ∧ ∀ k i, s.vj k i ≠ 0 := by
  have u0 := Spec.u64_pos
  have us := u64_small
  obtain ⟨r, hr⟩ := signalLoop_total (n := 1) (N := 1) (stop := 0.001)
    (rel := HBFp.relErr Spec.binary64 fp64' (fun _ => 1) (fun _ => 1) (fun _ _ => 1 / 2) (fun _ _ => 1 / 2)) one_pos
  have hnan : ∀ k i, HBFp.relErr (n := 1) (N := 1) Spec.binary64 fp64' (fun _ => 1) (fun _ => 1) (fun _ _ => 1 / 2) (fun _ _ => 1 / 2) k i
      ≠ .nan := by
    intro k i
    obtain ⟨x, hx, -⟩ := relErr_fin (n := 1) (N := 1) Spec.binary64 fp64' (by positivity) (by norm_num at us; linarith) (fun _ => 1)
      (fun _ => 1) (fun _ _ => 1 / 2) (fun _ _ => 1 / 2) k i (by norm_num)
    rw [hx]
    simp
  have hle : r.1.le (.fin 0.001) := by
    refine (signalLoop_le_iff hr hnan 0.001).2.2 ⟨by norm_num, fun k i =>
      test_of_resid Spec.binary64 fp64' (by positivity) (by norm_num at us; linarith) _ _ _ _ k i (by norm_num) (1 / 2) ?_⟩
    have k6 := Rel.inv_pow_le (u := 4 * Spec.u64) (n := 6) (by positivity) (by norm_num at us ⊢; linarith)
    rw [div_eq_mul_inv]
    norm_num at k6 us ⊢
    nlinarith
  exact ⟨_, iterate_target _ _ _ _ _ (by norm_num) ⟨_, rfl, hr⟩ hle, rfl, fun _ _ => by norm_num⟩

end QMix.Props
