import Verif.Model.KkFp
import Verif.Props.GaussFp
import Verif.Lemmas.KkTrapz

/-!
# The trapezoidal Kramers-Kronig transform in floating-point arithmetic (C193)
-/

namespace QMix.KkFp

open QMix.Np QMix.CctFp QMix.GaussFp QMix.MathFn

variable {u : ℝ}

/-! ## Specification -/

/-- The sum of the sizes of the areas that make up the result at place `k`: the trapezoids between neighbours among the points other than
`k`, with the integrand `(I(V) - V) / (V - V_k)`. -/
noncomputable def areas (v i : List ℝ) (k : ℕ) : ℝ :=
  let V := fun t => (v.eraseIdx k).getD t 0
  let Y := fun t => ((i.eraseIdx k).getD t 0 - V t) / (V t - v.getD k 0)
  ∑ t ∈ Finset.range (v.length - 2), |V (t + 1) - V t| * (|Y (t + 1)| + |Y t|) / 2

/-! ## Lemmas -/

theorem rnd_any (A : Fp u) (h0 : 0 ≤ u) (h1 : u ≤ 1 / 2) (x : ℝ) : ∃ c, Near (2 * u) c ∧ A.rnd x = x * c := by
  have hr := A.rnd_le x
  rcases eq_or_ne x 0 with rfl | hx
  · refine ⟨1, near_of_le h1 (by simpa using h0), ?_⟩
    rw [abs_zero, mul_zero, sub_zero] at hr
    rw [zero_mul]
    exact abs_nonpos_iff.1 hr
  · refine ⟨A.rnd x / x, near_of_le h1 ?_, (mul_div_cancel₀ _ hx).symm⟩
    rw [show A.rnd x / x - 1 = (A.rnd x - x) / x by field_simp, abs_div, div_le_iff₀ (abs_pos.2 hx)]
    exact hr

theorem rnd_ne (A : Fp u) (h0 : 0 ≤ u) (h1 : u ≤ 1 / 2) {x : ℝ} (hx : x ≠ 0) : A.rnd x ≠ 0 := by
  obtain ⟨c, hc, e⟩ := rnd_any A h0 h1 x
  rw [e]
  exact mul_ne_zero hx hc.pos.ne'

theorem div_fp (A : Fp u) {n : ℕ} {f g : ℕ → ℝ} (h : ∀ i, i < n → g i ≠ 0) :
    DataFp.div A (tab n f) (tab n g) = .ok (tab n fun i => A.rnd (f i / g i)) := by
  unfold DataFp.div
  rw [if_neg, zip_tab]
  rw [mem_tab]
  rintro ⟨i, hi, e⟩
  exact h i hi e

theorem tail_tab (M : ℕ) (f : ℕ → ℝ) : slice (tab M f) (some 1) none = tab (M - 1) fun t => f (t + 1) := by
  rcases Nat.eq_zero_or_pos M with rfl | h
  · simp [tab, slice]
  · rw [slice_tab (a := 1) (b := M) _ _ _ (by simp [bound]; omega) rfl le_rfl]
    apply tab_ext rfl
    intro t _
    rw [add_comm]

theorem init_tab (M : ℕ) (f : ℕ → ℝ) : slice (tab M f) none (some (-1)) = tab (M - 1) f := by
  rw [slice_tab (a := 0) (b := M - 1) _ _ _ rfl (by simp [bound]; omega) (by omega), Nat.sub_zero]
  apply tab_ext rfl
  intro t _
  rw [zero_add]

/-- One computed area. -/
noncomputable def area (A : Fp u) (y x : ℕ → ℝ) (t : ℕ) : ℝ :=
  A.rnd (A.rnd (A.rnd (x (t + 1) - x t) * A.rnd (y (t + 1) + y t)) / 2)

theorem trapz_fp (A : Fp u) (K : Kit u) (M : ℕ) (y x : ℕ → ℝ) :
    trapz A K (tab M y) (tab M x) = .ok (K.sum (tab (M - 1) (area A y x))) := by
  unfold trapz DataFp.sub
  rw [tail_tab, init_tab, tail_tab, init_tab, zip_tab, py_bind, zip_tab, py_bind, zip_tab, py_bind]
  rfl

/-- The computed integrand. -/
noncomputable def integrand (A : Fp u) (x f : ℕ → ℝ) (k t : ℕ) : ℝ := A.rnd (A.rnd (f t - x t) / A.rnd (x t - x k))

theorem trapzAt_fp (A : Fp u) (K : Kit u) (h0 : 0 ≤ u) (h1 : u ≤ 1 / 2) {N k : ℕ} (hk : k < N) (x f : ℕ → ℝ)
    (hx : ∀ t < N, t ≠ k → x t ≠ x k) : trapzAt A K (tab N x) (tab N f) k =
      .ok (K.sum (tab (N - 2) (area A (fun t => integrand A x f k (skip k t)) fun t => x (skip k t)))) := by
  unfold trapzAt DataFp.sub
  have hg : pyGet (tab N x) (k : ℤ) = .ok (x k) := pyGet_tab _ (pyIndex_nonneg (by omega) (by omega))
  rw [delete_tab hk, py_bind, delete_tab hk, py_bind, zip_tab, py_bind, hg, py_bind, map_tab, div_fp, py_bind, trapz_fp]
  · rfl
  · intro t ht
    exact rnd_ne A h0 h1 (sub_ne_zero.2 (hx _ (skip_lt ht) (skip_ne k t)))

theorem integrand_near (A : Fp u) (h0 : 0 ≤ u) (h1 : u ≤ 1 / 2) (x f : ℕ → ℝ) (k t : ℕ) :
    ∃ c, Near (6 * u) c ∧ integrand A x f k t = trapY x f k t * c := by
  unfold integrand trapY
  obtain ⟨a, ha, ea⟩ := rnd_any A h0 h1 (f t - x t)
  obtain ⟨b, hb, eb⟩ := rnd_any A h0 h1 (x t - x k)
  rw [ea, eb]
  obtain ⟨c, hc, ec⟩ := rnd_any A h0 h1 ((f t - x t) * a / ((x t - x k) * b))
  refine ⟨a * b⁻¹ * c, ((ha.mul hb.inv).mul hc).mono (by linarith), ?_⟩
  rw [ec, mul_div_mul_comm, div_eq_mul_inv a b]
  ring

/-- A computed area is made of two parts, each with a small relative error. -/
theorem area_near (A : Fp u) (h0 : 0 ≤ u) (h1 : u ≤ 1 / 2) (x y y' : ℕ → ℝ) (hy : ∀ t, ∃ c, Near (6 * u) c ∧ y' t = y t * c) (t : ℕ) :
    ∃ b c, Near (14 * u) b ∧ Near (14 * u) c ∧
      area A y' x t = (x (t + 1) - x t) * y (t + 1) / 2 * b + (x (t + 1) - x t) * y t / 2 * c := by
  unfold area
  obtain ⟨p, hp, ep⟩ := hy (t + 1)
  obtain ⟨q, hq, eq⟩ := hy t
  rw [ep, eq]
  obtain ⟨d, hd, ed⟩ := rnd_any A h0 h1 (x (t + 1) - x t)
  obtain ⟨s, hs, es⟩ := rnd_any A h0 h1 (y (t + 1) * p + y t * q)
  rw [ed, es]
  obtain ⟨m, hm, em⟩ := rnd_any A h0 h1 ((x (t + 1) - x t) * d * ((y (t + 1) * p + y t * q) * s))
  rw [em]
  obtain ⟨w, hw, ew⟩ := rnd_any A h0 h1 ((x (t + 1) - x t) * d * ((y (t + 1) * p + y t * q) * s) * m / 2)
  rw [ew]
  have hh := ((hd.mul hs).mul hm).mul hw
  refine ⟨p * (d * s * m * w), q * (d * s * m * w), (hp.mul hh).mono (by linarith), (hq.mul hh).mono (by linarith), ?_⟩
  ring

/-- One value of the transform. -/
theorem value_near (A : Fp u) (K : Kit u) (h0 : 0 ≤ u) (N k : ℕ) (hN : 2 ≤ N) (hu : (18 + 2 * N) * u ≤ 1) (x f : ℕ → ℝ) :
    |A.rnd (K.sum (tab (N - 2) (area A (fun t => integrand A x f k (skip k t)) fun t => x (skip k t))) / A.rnd Real.pi) -
      trapVal N x f k / Real.pi| ≤ (36 + 4 * N) * u / Real.pi * ∑ t ∈ Finset.range (N - 2), |x (skip k (t + 1)) - x (skip k t)| *
        (|trapY x f k (skip k (t + 1))| + |trapY x f k (skip k t)|) / 2 := by
  have hN0 : (0 : ℝ) ≤ N := Nat.cast_nonneg N
  have h1 : u ≤ 1 / 2 := by nlinarith
  have hpi := Real.pi_pos
  obtain ⟨c, hc, ec⟩ := K.sum_eq (N - 2) (area A (fun t => integrand A x f k (skip k t)) fun t => x (skip k t))
  have har := area_near A h0 h1 (fun t => x (skip k t)) (fun t => trapY x f k (skip k t)) (fun t => integrand A x f k (skip k t))
    fun t => integrand_near A h0 h1 x f k (skip k t)
  choose b1 b0 hb1 hb0 eb using har
  obtain ⟨p, hp, ep⟩ := rnd_any A h0 h1 Real.pi
  rw [ec, ep]
  obtain ⟨w, hw, ew⟩ := rnd_any A h0 h1
    ((∑ j ∈ Finset.range (N - 2), area A (fun t => integrand A x f k (skip k t)) (fun t => x (skip k t)) j * c j) / (Real.pi * p))
  rw [ew]
  have hcn : ∀ j, Near (2 * N * u) (c j) := fun j => (near_pow h0 h1 (hc j)).mono (by
    have : ((N - 2 : ℕ) : ℝ) ≤ N := by exact_mod_cast Nat.sub_le N 2
    nlinarith)
  have hq : Near (4 * u) (p⁻¹ * w) := (hp.inv.mul hw).mono (by linarith)
  have fac : ∀ (b : ℕ → ℝ), (∀ j, Near (14 * u) (b j)) → ∀ j, |b j * c j * (p⁻¹ * w) - 1| ≤ (36 + 4 * N) * u := fun b hb j => by
    have := near_one (d := (18 + 2 * N) * u) hu (by positivity) ((((hb j).mul (hcn j)).mul hq).mono (by linarith))
    linarith
  unfold trapVal
  have e1 : (∑ j ∈ Finset.range (N - 2), area A (fun t => integrand A x f k (skip k t)) (fun t => x (skip k t)) j * c j) / (Real.pi * p) * w -
      (∑ t ∈ Finset.range (N - 2), (x (skip k (t + 1)) - x (skip k t)) * (trapY x f k (skip k (t + 1)) + trapY x f k (skip k t)) / 2) /
        Real.pi = (∑ t ∈ Finset.range (N - 2), ((x (skip k (t + 1)) - x (skip k t)) * trapY x f k (skip k (t + 1)) / 2 *
          (b1 t * c t * (p⁻¹ * w) - 1) + (x (skip k (t + 1)) - x (skip k t)) * trapY x f k (skip k t) / 2 *
          (b0 t * c t * (p⁻¹ * w) - 1))) / Real.pi := by
    rw [show ∀ S : ℝ, S / (Real.pi * p) * w = S * (p⁻¹ * w) / Real.pi from fun S => by
      have := hp.pos.ne'
      field_simp, ← sub_div, Finset.sum_mul, ← Finset.sum_sub_distrib]
    congr 1
    refine Finset.sum_congr rfl fun t _ => ?_
    rw [eb t]
    ring
  rw [e1, abs_div, abs_of_pos hpi, div_mul_eq_mul_div]
  refine div_le_div_of_nonneg_right ?_ hpi.le
  refine (Finset.abs_sum_le_sum_abs _ _).trans ?_
  rw [Finset.mul_sum]
  refine Finset.sum_le_sum fun t _ => ?_
  refine (abs_add_le _ _).trans ?_
  rw [abs_mul, abs_mul, abs_div, abs_div, abs_mul, abs_mul, abs_of_pos (show (0 : ℝ) < 2 by norm_num)]
  have q1 := mul_le_mul_of_nonneg_left (fac b1 hb1 t)
    (show 0 ≤ |x (skip k (t + 1)) - x (skip k t)| * |trapY x f k (skip k (t + 1))| / 2 by positivity)
  have q0 := mul_le_mul_of_nonneg_left (fac b0 hb0 t)
    (show 0 ≤ |x (skip k (t + 1)) - x (skip k t)| * |trapY x f k (skip k t)| / 2 by positivity)
  linarith

theorem erase_skip (l : List ℝ) (k t : ℕ) : (l.eraseIdx k).getD t 0 = l.getD (skip k t) 0 := by
  rw [List.getD_eq_getElem?_getD, List.getD_eq_getElem?_getD, List.getElem?_eraseIdx]
  unfold skip
  split_ifs <;> rfl

theorem areas_eq (v i : List ℝ) (k : ℕ) : areas v i k = ∑ t ∈ Finset.range (v.length - 2),
    |v.getD (skip k (t + 1)) 0 - v.getD (skip k t) 0| * (|trapY (fun t => v.getD t 0) (fun t => i.getD t 0) k (skip k (t + 1))| +
      |trapY (fun t => v.getD t 0) (fun t => i.getD t 0) k (skip k t)|) / 2 := by
  unfold areas trapY
  simp only [erase_skip]

theorem run_exact {N : ℕ} (hN : 2 ≤ N) (x f : ℕ → ℝ) (hx : ∀ k < N, ∀ t < N, t ≠ k → x t ≠ x k)
    (hgap : ∀ j, j + 1 < N → x (j + 1) - x j - (x 1 - x 0) < 1 / 10 ^ 5) :
    MathFn.kkTransTrapz (tab N x) (tab N f) = .ok (tab N fun k => trapVal N x f k / Real.pi) := by
  have i0 : pyIndex N 0 = .ok 0 := pyIndex_nonneg (by omega) (by omega)
  have i1 : pyIndex N 1 = .ok 1 := pyIndex_nonneg (by omega) (by omega)
  unfold MathFn.kkTransTrapz
  rw [tail_tab, init_tab, zip_tab, py_bind, pyGet_tab _ i1, py_bind, pyGet_tab _ i0, py_bind, map_tab]
  obtain ⟨m, hm⟩ := amax_ok (l := tab (N - 1) fun j => x (j + 1) - x j - (x 1 - x 0)) (fun hh => by
    have := congrArg List.length hh
    simp at this
    omega)
  rw [hm, py_bind, pyAssert_pos, tab_length]
  · change (do
      let ikk ← (List.range N).mapM (MathFn.trapzAt (tab N x) (tab N f))
      pure (ikk.map fun t => t / Real.pi)) = _
    rw [RespFn.mapM_of (fun k => trapVal N x f k), py_bind, List.map_map]
    · rfl
    · intro k hk
      exact trapzAt_tab (List.mem_range.1 hk) x f (hx k (List.mem_range.1 hk))
  · rw [amax_lt hm]
    intro y hy
    obtain ⟨j, hj, rfl⟩ := mem_tab.1 hy
    exact hgap j (by omega)

theorem run_fp (A : Fp u) (K : Kit u) (h0 : 0 ≤ u) (h1 : u ≤ 1 / 2) {N : ℕ} (hN : 2 ≤ N) (x f : ℕ → ℝ)
    (hx : ∀ k < N, ∀ t < N, t ≠ k → x t ≠ x k)
    (hgap : ∀ j, j + 1 < N → A.rnd (A.rnd (x (j + 1) - x j) - A.rnd (x 1 - x 0)) < A.rnd (1 / 10 ^ 5)) :
    kkTransTrapz A K (tab N x) (tab N f) = .ok (tab N fun k => A.rnd (K.sum (tab (N - 2)
      (area A (fun t => integrand A x f k (skip k t)) fun t => x (skip k t))) / A.rnd Real.pi)) := by
  have i0 : pyIndex N 0 = .ok 0 := pyIndex_nonneg (by omega) (by omega)
  have i1 : pyIndex N 1 = .ok 1 := pyIndex_nonneg (by omega) (by omega)
  unfold kkTransTrapz DataFp.sub
  rw [tail_tab, init_tab, zip_tab, py_bind, pyGet_tab _ i1, py_bind, pyGet_tab _ i0, py_bind, map_tab]
  obtain ⟨m, hm⟩ := amax_ok (l := tab (N - 1) fun j => A.rnd (A.rnd (x (j + 1) - x j) - A.rnd (x 1 - x 0))) (fun hh => by
    have := congrArg List.length hh
    simp at this
    omega)
  rw [hm, py_bind, pyAssert_pos, tab_length]
  · change (do
      let ikk ← (List.range N).mapM (trapzAt A K (tab N x) (tab N f))
      pure (ikk.map fun t => A.rnd (t / A.rnd Real.pi))) = _
    rw [RespFn.mapM_of (fun k => K.sum (tab (N - 2) (area A (fun t => integrand A x f k (skip k t)) fun t => x (skip k t)))), py_bind,
      List.map_map]
    · rfl
    · intro k hk
      exact trapzAt_fp A K h0 h1 (List.mem_range.1 hk) x f (hx k (List.mem_range.1 hk))
  · rw [amax_lt hm]
    intro y hy
    obtain ⟨j, hj, rfl⟩ := mem_tab.1 hy
    exact hgap j (by omega)

/-! ## C193 -/

/-- C193: on voltages that are evenly spaced (the test of the code passes with a margin `12 u M` for rounding errors) and distinct, the
transform is computed with an error that is small in comparison to the areas it is made of. -/
theorem C193_trapz (A : Fp u) (K : Kit u) (h0 : 0 ≤ u) (v i : List ℝ) (hl : i.length = v.length) (h2 : 2 ≤ v.length) (hne : v.Nodup)
    (hu : (18 + 2 * v.length) * u ≤ 1) {M e : ℝ} (hM : ∀ t ∈ v, |t| ≤ M)
    (hgap : ∀ j, j + 1 < v.length → v.getD (j + 1) 0 - v.getD j 0 - (v.getD 1 0 - v.getD 0 0) ≤ e)
    (he : e + 12 * u * M < (1 - u) / 10 ^ 5) :
    ∃ r r' : List ℝ, MathFn.kkTransTrapz v i = .ok r ∧ kkTransTrapz A K v i = .ok r' ∧ r.length = v.length ∧ r'.length = v.length ∧
      ∀ k < v.length, |r'.getD k 0 - r.getD k 0| ≤ (36 + 4 * v.length) * u / Real.pi * areas v i k := by
  have hN0 : (0 : ℝ) ≤ v.length := Nat.cast_nonneg _
  have h1 : u ≤ 1 / 2 := by nlinarith
  have hv := eq_tab v 0
  have hi := eq_tab i 0
  rw [hl] at hi
  have get : ∀ t (ht : t < v.length), v.getD t 0 = v[t] := fun t ht => by
    rw [List.getD_eq_getElem?_getD, List.getElem?_eq_getElem ht, Option.getD_some]
  have hMx : ∀ t < v.length, |v.getD t 0| ≤ M := fun t ht => by
    rw [get t ht]
    exact hM _ (List.getElem_mem _)
  have hM0 : 0 ≤ M := (abs_nonneg _).trans (hMx 0 (by omega))
  have hdist : ∀ k < v.length, ∀ t < v.length, t ≠ k → v.getD t 0 ≠ v.getD k 0 := by
    intro k hk t ht htk heq
    rw [get t ht, get k hk] at heq
    exact htk ((List.Nodup.getElem_inj_iff hne).1 heq)
  have hpow : (1 - u) / 10 ^ 5 ≤ 1 / 10 ^ 5 := div_le_div_of_nonneg_right (by linarith) (by positivity)
  have huM : 0 ≤ u * M := mul_nonneg h0 hM0
  have hrnd : (1 - u) / 10 ^ 5 ≤ A.rnd (1 / 10 ^ 5) := by
    have := (abs_le.1 (A.rnd_le (1 / 10 ^ 5))).1
    rw [abs_of_pos (by positivity)] at this
    linarith
  have r1 := run_exact h2 (fun t => v.getD t 0) (fun t => i.getD t 0) hdist fun j hj => by
    have := hgap j hj
    linarith
  have r2 := run_fp A K h0 h1 h2 (fun t => v.getD t 0) (fun t => i.getD t 0) hdist fun j hj => by
    refine lt_of_le_of_lt ?_ (he.trans_le hrnd)
    have g := hgap j hj
    have a1 := abs_le.1 (A.rnd_le (v.getD (j + 1) 0 - v.getD j 0))
    have a2 := abs_le.1 (A.rnd_le (v.getD 1 0 - v.getD 0 0))
    have s1 : |v.getD (j + 1) 0 - v.getD j 0| ≤ 2 * M := (abs_sub _ _).trans (by linarith [hMx (j + 1) hj, hMx j (by omega)])
    have s2 : |v.getD 1 0 - v.getD 0 0| ≤ 2 * M := (abs_sub _ _).trans (by linarith [hMx 1 (by omega), hMx 0 (by omega)])
    have t1 := mul_le_mul_of_nonneg_left s1 h0
    have t2 := mul_le_mul_of_nonneg_left s2 h0
    have a3 := abs_le.1 (A.rnd_le (A.rnd (v.getD (j + 1) 0 - v.getD j 0) - A.rnd (v.getD 1 0 - v.getD 0 0)))
    have b1 := abs_le.1 s1
    have b2 := abs_le.1 s2
    have uM : u * M ≤ 1 / 2 * M := mul_le_mul_of_nonneg_right h1 hM0
    have s3 : |A.rnd (v.getD (j + 1) 0 - v.getD j 0) - A.rnd (v.getD 1 0 - v.getD 0 0)| ≤ 8 * M := by
      rw [abs_le]
      constructor <;> linarith
    have t3 := mul_le_mul_of_nonneg_left s3 h0
    linarith
  rw [← hv, ← hi] at r1 r2
  refine ⟨_, _, r1, r2, tab_length _ _, tab_length _ _, fun k hk => ?_⟩
  rw [tab_getD hk, tab_getD hk, areas_eq]
  exact value_near A K h0 v.length k h2 hu _ _

/-- C193: the transform of the normal state, `I = V`, is exactly zero, with rounding errors too. -/
theorem C193_ohmic (A : Fp u) (K : Kit u) (h0 : 0 ≤ u) (v : List ℝ) (h2 : 2 ≤ v.length) (hne : v.Nodup)
    (hu : (18 + 2 * v.length) * u ≤ 1) {M e : ℝ} (hM : ∀ t ∈ v, |t| ≤ M)
    (hgap : ∀ j, j + 1 < v.length → v.getD (j + 1) 0 - v.getD j 0 - (v.getD 1 0 - v.getD 0 0) ≤ e)
    (he : e + 12 * u * M < (1 - u) / 10 ^ 5) : kkTransTrapz A K v v = .ok (List.replicate v.length 0) := by
  obtain ⟨r, r', e1, e2, l1, l2, h⟩ := C193_trapz A K h0 v v rfl h2 hne hu hM hgap he
  rw [e2]
  congr 1
  apply List.ext_getElem (by rw [l2, List.length_replicate])
  intro k hk hk'
  have hkv : k < v.length := l2 ▸ hk
  have hb := h k hkv
  have ha : areas v v k = 0 := by
    unfold areas
    simp
  have hr : r.getD k 0 = 0 := by
    obtain ⟨-, -, rfl⟩ := kkTransTrapz_ok rfl e1
    rw [tab_getD hkv]
    unfold trapVal trapY
    simp
  rw [ha, mul_zero, hr, sub_zero] at hb
  rw [List.getElem_replicate, ← abs_nonpos_iff.1 hb, List.getD_eq_getElem?_getD, List.getElem?_eq_getElem hk, Option.getD_some]

/-- Double precision, 401 voltages from -2 to 2: the relative error is below `1e-13`. -/
example (A : Fp (1 / 2 ^ 53)) (i : List ℝ) (hl : i.length = 401) : ∃ r r' : List ℝ,
    MathFn.kkTransTrapz (tab 401 fun t => -2 + t / 100) i = .ok r ∧
    kkTransTrapz A (leftToRight A (by positivity) (by norm_num)) (tab 401 fun t => -2 + t / 100) i = .ok r' ∧
    ∀ k < 401, |r'.getD k 0 - r.getD k 0| ≤ 1e-13 * areas (tab 401 fun t => -2 + t / 100) i k := by
  have hlen : (tab 401 fun t : ℕ => (-2 + t / 100 : ℝ)).length = 401 := tab_length _ _
  obtain ⟨r, r', e1, e2, -, -, h⟩ := C193_trapz A (leftToRight A (by positivity) (by norm_num)) (by positivity)
    (tab 401 fun t : ℕ => (-2 + t / 100 : ℝ)) i (by rw [hl, hlen]) (by rw [hlen]; norm_num)
    (List.Nodup.map (fun a b hab => by
      have : (a : ℝ) = b := by
        have hab' : (-2 + (a : ℝ) / 100) = -2 + b / 100 := hab
        linarith
      exact_mod_cast this) List.nodup_range)
    (by rw [hlen]; norm_num) (M := 2) (e := 0) (by
      intro t ht
      obtain ⟨j, hj, rfl⟩ := mem_tab.1 ht
      have : (j : ℝ) ≤ 400 := by exact_mod_cast Nat.le_of_lt_succ hj
      rw [abs_le]
      constructor <;> linarith [(Nat.cast_nonneg j : (0 : ℝ) ≤ j)]) (by
      intro j hj
      rw [hlen] at hj
      rw [tab_getD hj, tab_getD (by omega), tab_getD (by norm_num), tab_getD (by norm_num)]
      push_cast
      linarith) (by norm_num)
  refine ⟨r, r', e1, e2, fun k hk => (h k (by rw [hlen]; exact hk)).trans ?_⟩
  refine mul_le_mul_of_nonneg_right ?_ ?_
  · rw [hlen, div_le_iff₀ Real.pi_pos]
    have := Real.pi_gt_three
    norm_num
    linarith
  · unfold areas
    exact Finset.sum_nonneg fun t _ => by positivity

end QMix.KkFp
