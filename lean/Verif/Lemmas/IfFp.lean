import Verif.Model.IfFp
import Verif.Lemmas.CircuitFp
import Verif.Lemmas.IfData
import Verif.Props.IfData

/-!
# Rounding errors of noise temperature and gain
-/

namespace QMix.IfFp

open QMix.IfData QMix.CctFp QMix.Rel

variable {u : ℝ}

/-- The relative error of `n` roundings. -/
noncomputable def gam (u : ℝ) (n : ℕ) : ℝ := ((1 - u) ^ n)⁻¹ - 1

theorem gam_mono (h0 : 0 ≤ u) (h1 : u < 1) {n m : ℕ} (h : n ≤ m) : gam u n ≤ gam u m := by
  unfold gam
  have : ((1 - u) ^ n)⁻¹ ≤ ((1 - u) ^ m)⁻¹ :=
    inv_anti₀ (pow_pos (by linarith) m) (pow_le_pow_of_le_one (by linarith) (by linarith) h)
  linarith

theorem gam_nonneg (h0 : 0 ≤ u) (h1 : u < 1) (n : ℕ) : 0 ≤ gam u n := by
  have := gam_mono h0 h1 (Nat.zero_le n)
  simpa [gam] using this

theorem gam_step (h0 : 0 ≤ u) (h1 : u < 1) (n : ℕ) : gam u n + u * (1 + gam u n) ≤ gam u (n + 1) := by
  unfold gam
  have p : 0 < 1 - u := by linarith
  rw [pow_succ, mul_inv]
  have : 1 + u ≤ (1 - u)⁻¹ := by
    rw [← one_div, le_div_iff₀ p]
    nlinarith
  have q : 0 < ((1 - u) ^ n)⁻¹ := inv_pos.2 (pow_pos p n)
  have := mul_le_mul_of_nonneg_left this q.le
  linarith

theorem gam_ge (h0 : 0 ≤ u) (h1 : u < 1) (n : ℕ) : n * u ≤ gam u n := by
  induction n with
  | zero => simp [gam]
  | succ n ih =>
    have := gam_step h0 h1 n
    have g := gam_nonneg h0 h1 n
    push_cast
    nlinarith

/-- The hyperbolic tangent does not amplify relative errors. -/
theorem tanh_rel (h0 : 0 ≤ u) (h1 : u < 1) {n : ℕ} {x y : ℝ} (hy : 0 < y) (h : Rel u n x y) : Rel u n (Real.tanh x) (Real.tanh y) := by
  have conc : ∀ {a c : ℝ}, 0 < a → 1 ≤ c → Real.tanh (a * c) ≤ Real.tanh a * c := by
    intro a c ha hc
    rcases hc.eq_or_lt with rfl | hc
    · simp
    have hp : 0 < a * c := by positivity
    have := div_tanh_lt ha (show a < a * c by nlinarith)
    rw [div_lt_div_iff₀ (tanh_pos' ha) (tanh_pos' hp)] at this
    have e : a * Real.tanh (a * c) ≤ a * (Real.tanh a * c) := by nlinarith
    exact le_of_mul_le_mul_left e ha
  have mono : ∀ {a b : ℝ}, a ≤ b → Real.tanh a ≤ Real.tanh b := by
    intro a b hab
    rcases hab.eq_or_lt with rfl | hab
    · exact le_rfl
    · exact (tanh_lt_tanh hab).le
  obtain ⟨c, a, b, rfl⟩ := h
  have p : 0 < (1 - u) ^ n := pow_pos (by linarith) n
  have hc : 0 < c := p.trans_le a
  have hty := tanh_pos' hy
  refine ⟨Real.tanh (y * c) / Real.tanh y, ?_, ?_, by field_simp⟩
  · rw [le_div_iff₀ hty]
    rcases le_total 1 c with h | h
    · have := mono (show y ≤ y * c by nlinarith)
      have : (1 - u) ^ n ≤ 1 := pow_le_one₀ (by linarith) (by linarith)
      nlinarith
    · have := conc (a := y * c) (c := c⁻¹) (by positivity) ((one_le_inv₀ hc).2 h)
      rw [mul_assoc, mul_inv_cancel₀ hc.ne', mul_one, ← div_eq_mul_inv, le_div_iff₀ hc] at this
      nlinarith
  · rw [div_mul_eq_mul_div, div_le_iff₀ hty, one_mul]
    rcases le_total 1 c with h | h
    · have := conc hy h
      have := mul_le_mul_of_nonneg_right this p.le
      nlinarith
    · have := mono (show y * c ≤ y by nlinarith)
      have : (1 - u) ^ n ≤ 1 := pow_le_one₀ (by linarith) (by linarith)
      have := tanh_pos' (show 0 < y * c by positivity)
      nlinarith

theorem max_rel (h1 : u < 1) {n : ℕ} {x y z w : ℝ} (hw : 0 < w) (h : Rel u n x y) (h' : Rel u n z w) : Rel u n (max x z) (max y w) := by
  have p : 0 < (1 - u) ^ n := pow_pos (by linarith) n
  have hm : 0 < max y w := lt_max_of_lt_right hw
  have key : ∀ {a b : ℝ}, Rel u n a b → 0 ≤ b → a * (1 - u) ^ n ≤ b ∧ b * (1 - u) ^ n ≤ a := by
    rintro a b ⟨c, ca, cb, rfl⟩ hb
    exact ⟨by nlinarith, by nlinarith⟩
  have neg : ∀ {a b : ℝ}, Rel u n a b → b < 0 → a < 0 := by
    rintro a b ⟨c, ca, cb, rfl⟩ hb
    have : 0 < c := p.trans_le ca
    nlinarith
  obtain ⟨k1, k2⟩ := key h' hw.le
  have hz : 0 < z := by nlinarith [mul_pos hw p]
  have up : max x z * (1 - u) ^ n ≤ max y w := by
    rcases le_total x z with hxz | hxz
    · rw [max_eq_right hxz]; exact k1.trans (le_max_right _ _)
    · rw [max_eq_left hxz]
      have hy : 0 ≤ y := by
        by_contra hy
        have := neg h (not_le.1 hy)
        linarith
      exact (key h hy).1.trans (le_max_left _ _)
  have low : max y w * (1 - u) ^ n ≤ max x z := by
    rcases le_total y w with hyw | hyw
    · rw [max_eq_right hyw]; exact k2.trans (le_max_right _ _)
    · rw [max_eq_left hyw]; exact (key h (hw.le.trans hyw)).2.trans (le_max_left _ _)
  refine ⟨max x z / max y w, ?_, ?_, by field_simp⟩
  · rw [le_div_iff₀ hm, mul_comm]; exact low
  · rw [div_mul_eq_mul_div, div_le_one hm]; exact up

variable (A : Fp u) (T : Tanh u) (h0 : 0 ≤ u) (h1 : u < 1)
include h0 h1

/-- A temperature is right to 17 roundings. -/
theorem tempCw_rel {f t : ℝ} (hf : 0 < f) (ht : 0 < t) {c : ℝ} (hc : IfData.tempCw (f * 1e9) t = .ok c) :
    ∃ c', tempCw A T (A.rnd (f * A.rnd 1e9)) t = .ok c' ∧ Rel u 17 c' c := by
  have hf' : 0 < f * 1e9 := by positivity
  have ha := halfPhoton_pos hf'
  rw [tempCw_eq hf' ht] at hc
  obtain rfl := Except.ok.inj hc
  have r1 : Rel u 2 (A.rnd (f * A.rnd 1e9)) (f * 1e9) := rnd_step A h0 h1 ((rnd_rel A h0 h1 _).mulLeft f)
  have r2 : Rel u 7 (half A (A.rnd (f * A.rnd 1e9))) (halfPhoton (f * 1e9)) := by
    unfold half halfPhoton
    have a1 := rnd_step A h0 h1 ((rnd_rel A h0 h1 planckH).mul h1 r1)
    have a2 := rnd_step A h0 h1 (a1.divRight 2)
    exact rnd_step A h0 h1 (a2.div h1 (rnd_rel A h0 h1 boltzmann))
  have r3 : Rel u 8 (A.rnd (half A (A.rnd (f * A.rnd 1e9)) / t)) (halfPhoton (f * 1e9) / t) := rnd_step A h0 h1 (r2.divRight t)
  have hx := div_pos ha ht
  have r4 : Rel u 9 (T.tanh (A.rnd (half A (A.rnd (f * A.rnd 1e9)) / t))) (Real.tanh (halfPhoton (f * 1e9) / t)) := by
    have b1 := tanh_rel h0 h1 hx r3
    have b2 : Rel u 1 _ _ := Rel.of_le h0 h1 (T.tanh_le (A.rnd (half A (A.rnd (f * A.rnd 1e9)) / t)))
    exact b2.trans h1 b1
  refine ⟨_, ?_, rnd_step A h0 h1 (r2.div h1 r4)⟩
  unfold tempCw
  rw [raiseIf_neg ht.ne']
  unfold Np.fdiv
  rw [if_neg ((r4.sign h1).2.2.1 (tanh_pos' hx).ne')]
  rfl

/-- The error of a rounded quotient whose parts have absolute errors. -/
theorem quot_le {n n' d d' N D g : ℝ} (hg0 : 5 * u ≤ g) (hg1 : g ≤ 1) (hn : |n' - n| ≤ g * N) (hN : |n| ≤ N) (hd : |d' - d| ≤ g * D)
    (hd0 : 0 < d) (hdD : d ≤ D) (hs : g * D ≤ d / 2) : d' ≠ 0 ∧ |A.rnd (n' / d') - n / d| ≤ 5 * g * (N * D / d ^ 2) := by
  have hg : 0 ≤ g := by linarith
  have hN0 : 0 ≤ N := (abs_nonneg n).trans hN
  have hD0 : 0 ≤ D := by linarith
  have hd' : d / 2 ≤ d' := by have := (abs_le.1 hd).1; linarith
  have hp : 0 < d' := by linarith
  refine ⟨hp.ne', ?_⟩
  have e1 : n' / d' - n / d = ((n' - n) * d - n * (d' - d)) / (d' * d) := by field_simp; ring
  have e2 : |n' / d' - n / d| ≤ 4 * g * (N * D / d ^ 2) := by
    rw [e1, abs_div, abs_of_pos (mul_pos hp hd0), div_le_iff₀ (mul_pos hp hd0)]
    have a1 : |(n' - n) * d - n * (d' - d)| ≤ g * N * D + N * (g * D) := by
      refine (abs_sub _ _).trans ?_
      rw [abs_mul, abs_mul, abs_of_pos hd0]
      gcongr
    have a2 : 4 * g * (N * D / d ^ 2) * (d / 2 * d) ≤ 4 * g * (N * D / d ^ 2) * (d' * d) := by gcongr
    have a3 : 4 * g * (N * D / d ^ 2) * (d / 2 * d) = 2 * (g * (N * D)) := by field_simp; ring
    rw [a3] at a2
    nlinarith
  have e3 : |n / d| ≤ N * D / d ^ 2 := by
    rw [abs_div, abs_of_pos hd0, div_le_div_iff₀ hd0 (by positivity)]
    have : |n| * d ≤ N * D := by gcongr
    nlinarith
  have e4 := A.rnd_le (n' / d')
  have e5 : |n' / d'| ≤ (1 + 4 * g) * (N * D / d ^ 2) := by
    have := abs_add_le (n' / d' - n / d) (n / d)
    rw [sub_add_cancel] at this
    linarith
  have e6 := abs_add_le (A.rnd (n' / d') - n' / d') (n' / d' - n / d)
  rw [sub_add_sub_cancel] at e6
  have hQ : 0 ≤ N * D / d ^ 2 := (abs_nonneg _).trans e3
  have e7 := mul_le_mul_of_nonneg_left e5 h0
  have e8 : u * ((1 + 4 * g) * (N * D / d ^ 2)) ≤ g * (N * D / d ^ 2) := by
    rw [← mul_assoc]
    refine mul_le_mul_of_nonneg_right ?_ hQ
    nlinarith
  linarith

/-- The error of a rounded difference of inexact numbers. -/
theorem diff_le {n m : ℕ} {x x' y y' : ℝ} (hx : Rel u n x' x) (hy : Rel u n y' y) (hm : n + 1 ≤ m) :
    |A.rnd (x' - y') - (x - y)| ≤ gam u m * (|x| + |y|) := by
  have a1 := hx.abs_sub_le h1 h0
  have a2 := hy.abs_sub_le h1 h0
  have a3 : |x' - y' - (x - y)| ≤ gam u n * (|x| + |y|) := by
    rw [show x' - y' - (x - y) = (x' - x) - (y' - y) by ring, mul_add]
    exact (abs_sub _ _).trans (add_le_add a1 a2)
  have a4 := A.rnd_le (x' - y')
  have a5 : |x' - y'| ≤ (1 + gam u n) * (|x| + |y|) := by
    have := abs_add_le (x' - y' - (x - y)) (x - y)
    rw [sub_add_cancel] at this
    have := abs_sub x y
    linarith
  have a6 := abs_add_le (A.rnd (x' - y') - (x' - y')) (x' - y' - (x - y))
  rw [sub_add_sub_cancel] at a6
  have a7 := mul_le_mul_of_nonneg_left a5 h0
  have a8 : (gam u n + u * (1 + gam u n)) * (|x| + |y|) ≤ gam u m * (|x| + |y|) :=
    mul_le_mul_of_nonneg_right ((gam_step h0 h1 n).trans (gam_mono h0 h1 hm)) (by positivity)
  linarith

/-- The Y-factor. -/
theorem yFactor_rel {m : ℕ} {ph pc Ph Pc : ℝ} (hh : Rel u m ph Ph) (hc : Rel u m pc Pc) (hP : 0 < Pc) :
    ∃ y, yFactor A ph pc = .ok y ∧ Rel u (2 * m + 2) y (max (Ph / Pc) (1 + 1e-10)) := by
  have hpc := (hc.sign h1).2.1 hP
  have r1 : Rel u (2 * m + 2) (A.rnd (ph / pc)) (Ph / Pc) :=
    (rnd_step A h0 h1 (hh.div h1 hc)).mono h0 h1 (by omega)
  have r2 : Rel u (2 * m + 2) (floorY A) (1 + 1e-10) := by
    unfold floorY
    have a : Rel u 1 (1 + A.rnd 1e-10) (1 + 1e-10) := Rel.of_le h0 h1 (by
      rw [add_sub_add_left_eq_sub]
      refine (A.rnd_le _).trans (mul_le_mul_of_nonneg_left ?_ h0)
      rw [abs_of_pos (by norm_num), abs_of_pos (by norm_num)]
      norm_num)
    exact (rnd_step A h0 h1 a).mono h0 h1 (by omega)
  refine ⟨max (A.rnd (ph / pc)) (floorY A), ?_, max_rel h1 (by norm_num) r1 r2⟩
  unfold yFactor Np.fdiv
  rw [if_neg hpc.ne', py_bind]
  by_cases h : A.rnd (ph / pc) ≤ floorY A
  · rw [if_pos h, max_eq_right h]; rfl
  · rw [if_neg h, max_eq_left (not_le.1 h).le]; rfl

/-- The noise temperature for a Y-factor `Y`. -/
theorem noiseTemp_le {m : ℕ} {th tc th' tc' ph pc Ph Pc : ℝ} (ht : 0 < th) (hc : 0 < tc) (h1' : Rel u 17 th' th) (h2' : Rel u 17 tc' tc)
    (hh : Rel u m ph Ph) (hpc : Rel u m pc Pc) (hP : 0 < Pc) {Y : ℝ} (hY : Y = max (Ph / Pc) (1 + 1e-10)) (hg : gam u (2 * m + 21) ≤ 1)
    (hs : gam u (2 * m + 21) * Y ≤ (Y - 1) / 2) :
    ∃ T', noiseTemp A th' tc' ph pc = .ok T' ∧
      |T' - (th - tc * Y) / (Y - 1)| ≤ 5 * gam u (2 * m + 21) * ((th + tc * Y) * Y / (Y - 1) ^ 2) := by
  obtain ⟨y, e1, e2⟩ := yFactor_rel A h0 h1 hh hpc hP
  rw [← hY] at e2
  have hY1 : 1 < Y := by rw [hY]; exact lt_max_of_lt_right (by norm_num)
  have hY0 : 0 < Y := by linarith
  have r1 : Rel u (2 * m + 20) (A.rnd (tc' * y)) (tc * Y) := (rnd_step A h0 h1 (h2'.mul h1 e2)).mono h0 h1 (by omega)
  have n1 := diff_le A h0 h1 (h1'.mono h0 h1 (by omega)) r1 (m := 2 * m + 21) le_rfl
  have d1 := diff_le A h0 h1 e2 ((Rel.refl (1 : ℝ)).mono h0 h1 (Nat.zero_le _)) (m := 2 * m + 21) (by omega)
  rw [abs_of_pos ht, abs_of_pos (mul_pos hc hY0)] at n1
  rw [abs_of_pos hY0, abs_one] at d1
  -- the error of the difference `y - 1` comes from `y` and from the rounding
  have d2 : |A.rnd (y - 1) - (Y - 1)| ≤ gam u (2 * m + 21) * Y := by
    have a1 := e2.abs_sub_le h1 h0
    rw [abs_of_pos hY0] at a1
    have a4 := A.rnd_le (y - 1)
    have a5 : |y - 1| ≤ (1 + gam u (2 * m + 2)) * Y := by
      have := abs_add_le (y - Y) (Y - 1)
      rw [sub_add_sub_cancel, abs_of_pos (show 0 < Y - 1 by linarith)] at this
      unfold gam
      linarith
    have a6 := abs_add_le (A.rnd (y - 1) - (y - 1)) (y - Y)
    rw [show A.rnd (y - 1) - (y - 1) + (y - Y) = A.rnd (y - 1) - (Y - 1) by ring] at a6
    have a7 := mul_le_mul_of_nonneg_left a5 h0
    have a8 : (gam u (2 * m + 2) + u * (1 + gam u (2 * m + 2))) * Y ≤ gam u (2 * m + 21) * Y :=
      mul_le_mul_of_nonneg_right ((gam_step h0 h1 _).trans (gam_mono h0 h1 (by omega))) hY0.le
    have a9 : |y - Y| ≤ gam u (2 * m + 2) * Y := a1
    linarith
  have g5 : 5 * u ≤ gam u (2 * m + 21) := by
    have a1 := gam_ge h0 h1 5
    have a2 := gam_mono h0 h1 (show 5 ≤ 2 * m + 21 by omega)
    push_cast at a1
    linarith
  obtain ⟨q1, q2⟩ := quot_le A h0 h1 (N := th + tc * Y) (D := Y) g5 hg n1
    (by
      refine (abs_sub _ _).trans ?_
      rw [abs_of_pos ht, abs_of_pos (mul_pos hc hY0)]) d2 (by linarith) (by linarith) hs
  refine ⟨_, ?_, q2⟩
  unfold noiseTemp
  rw [e1, py_bind]
  unfold Np.fdiv
  rw [if_neg q1]
  rfl

/-- The gain. -/
theorem gainOf_le {m : ℕ} {th tc th' tc' ph pc Ph Pc : ℝ} (hc : 0 < tc) (ht : tc < th) (h1' : Rel u 17 th' th) (h2' : Rel u 17 tc' tc)
    (hh : Rel u m ph Ph) (hpc : Rel u m pc Pc) (hP : 0 < Pc) (hPh : 0 < Ph) (hg : gam u (m + 18) ≤ 1)
    (hs : gam u (m + 18) * (th + tc) ≤ (th - tc) / 2) :
    ∃ g, gainOf A th' tc' ph pc = .ok g ∧
      |g - (Ph - Pc) / (th - tc)| ≤ 5 * gam u (m + 18) * ((Ph + Pc) * (th + tc) / (th - tc) ^ 2) := by
  have n1 := diff_le A h0 h1 hh hpc (m := m + 18) (by omega)
  have d1 := diff_le A h0 h1 h1' h2' (m := m + 18) (by omega)
  rw [abs_of_pos hP, abs_of_pos hPh] at n1
  rw [abs_of_pos hc, abs_of_pos (hc.trans ht)] at d1
  have g5 : 5 * u ≤ gam u (m + 18) := by
    have a1 := gam_ge h0 h1 5
    have a2 := gam_mono h0 h1 (show 5 ≤ m + 18 by omega)
    push_cast at a1
    linarith
  obtain ⟨q1, q2⟩ := quot_le A h0 h1 (N := Ph + Pc) (D := th + tc) g5 hg n1
    (by
      refine (abs_sub _ _).trans ?_
      rw [abs_of_pos hP, abs_of_pos hPh]) d1 (by linarith) (by linarith) hs
  refine ⟨_, ?_, q2⟩
  unfold gainOf Np.fdiv
  rw [if_neg q1]
  rfl

end QMix.IfFp
