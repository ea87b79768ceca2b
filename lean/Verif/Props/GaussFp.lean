import Verif.Model.GaussFp
import Verif.Lemmas.CircuitFp
import Verif.Lemmas.MathFn
import Verif.Props.Filters

/-!
# Gaussian smoothing in floating-point arithmetic (C192)
-/

namespace QMix.GaussFp

open QMix.Np QMix.CctFp QMix.MathFn QMix.Spec

variable {u : ℝ}

/-! ## Factors near one -/

/-- `c` is a factor that differs from one by at most `d` on a logarithmic scale. -/
def Near (d c : ℝ) : Prop := Real.exp (-d) ≤ c ∧ c ≤ Real.exp d

theorem Near.pos {d c : ℝ} (h : Near d c) : 0 < c := (Real.exp_pos _).trans_le h.1

theorem Near.mono {d e c : ℝ} (h : Near d c) (hd : d ≤ e) : Near e c :=
  ⟨(Real.exp_le_exp.2 (by linarith)).trans h.1, h.2.trans (Real.exp_le_exp.2 hd)⟩

theorem Near.mul {d e c b : ℝ} (h : Near d c) (h' : Near e b) : Near (d + e) (c * b) := by
  refine ⟨?_, ?_⟩
  · rw [neg_add, Real.exp_add]
    exact mul_le_mul h.1 h'.1 (Real.exp_pos _).le h.pos.le
  · rw [Real.exp_add]
    exact mul_le_mul h.2 h'.2 h'.pos.le (Real.exp_pos _).le

theorem Near.inv {d c : ℝ} (h : Near d c) : Near d c⁻¹ := by
  refine ⟨?_, ?_⟩
  · rw [Real.exp_neg]
    exact inv_anti₀ h.pos h.2
  · rw [← neg_neg d, Real.exp_neg (-d)]
    exact inv_anti₀ (Real.exp_pos _) h.1

theorem Near.exp (t d : ℝ) (h : |t| ≤ d) : Near d (Real.exp t) :=
  ⟨Real.exp_le_exp.2 (abs_le.1 h).1, Real.exp_le_exp.2 (abs_le.1 h).2⟩

theorem exp_neg_le {x : ℝ} (h0 : 0 ≤ x) (h1 : x ≤ 1 / 2) : Real.exp (-(2 * x)) ≤ 1 - x := by
  have h2 := Real.add_one_le_exp (2 * x)
  rw [Real.exp_neg]
  rw [inv_le_comm₀ (Real.exp_pos _) (by linarith)]
  refine le_trans ?_ h2
  rw [inv_le_iff_one_le_mul₀ (by linarith)]
  nlinarith

theorem near_of_le {x c : ℝ} (h1 : x ≤ 1 / 2) (h : |c - 1| ≤ x) : Near (2 * x) c := by
  have h0 : 0 ≤ x := (abs_nonneg _).trans h
  have := abs_le.1 h
  refine ⟨(exp_neg_le h0 h1).trans (by linarith), ?_⟩
  have := Real.add_one_le_exp (2 * x)
  linarith

theorem near_pow (h0 : 0 ≤ u) (h1 : u ≤ 1 / 2) {n : ℕ} {c : ℝ} (h : (1 - u) ^ n ≤ c ∧ c * (1 - u) ^ n ≤ 1) :
    Near (2 * n * u) c := by
  have hp : Real.exp (-(2 * n * u)) ≤ (1 - u) ^ n := by
    rw [show -(2 * n * u) = n * -(2 * u) by ring, Real.exp_nat_mul]
    exact pow_le_pow_left₀ (Real.exp_pos _).le (exp_neg_le h0 h1) n
  refine ⟨hp.trans h.1, ?_⟩
  have hpos : 0 < (1 - u) ^ n := pow_pos (by linarith) n
  rw [← le_div_iff₀ hpos, one_div] at h
  refine h.2.trans ?_
  rw [← neg_neg (2 * n * u), Real.exp_neg]
  exact inv_anti₀ (Real.exp_pos _) hp

/-- A rounded number. -/
theorem rnd_near (A : Fp u) (h1 : u ≤ 1 / 2) {x : ℝ} (hx : 0 < x) : ∃ c, Near (2 * u) c ∧ A.rnd x = x * c := by
  refine ⟨A.rnd x / x, near_of_le h1 ?_, (mul_div_cancel₀ _ hx.ne').symm⟩
  have := A.rnd_le x
  rw [show A.rnd x / x - 1 = (A.rnd x - x) / x by field_simp, abs_div, div_le_iff₀ (abs_pos.2 hx.ne')]
  exact this

theorem exp_near (K : Kit u) (h1 : u ≤ 1 / 4) (x : ℝ) : ∃ c, Near (4 * u) c ∧ K.exp x = Real.exp x * c := by
  have hx := Real.exp_pos x
  refine ⟨K.exp x / Real.exp x, ?_, (mul_div_cancel₀ _ hx.ne').symm⟩
  rw [show 4 * u = 2 * (2 * u) by ring]
  refine near_of_le (by linarith) ?_
  have := K.exp_le x
  rw [show K.exp x / Real.exp x - 1 = (K.exp x - Real.exp x) / Real.exp x by field_simp, abs_div, div_le_iff₀ (abs_pos.2 hx.ne'),
    abs_of_pos hx]
  exact this

theorem near_sum {n : ℕ} {f c : ℕ → ℝ} {d : ℝ} (hn : 0 < n) (hf : ∀ j, 0 < f j) (hc : ∀ j < n, Near d (c j)) :
    ∃ b, Near d b ∧ ∑ j ∈ Finset.range n, f j * c j = (∑ j ∈ Finset.range n, f j) * b := by
  have hs : 0 < ∑ j ∈ Finset.range n, f j := Finset.sum_pos (fun j _ => hf j) ⟨0, Finset.mem_range.2 hn⟩
  refine ⟨(∑ j ∈ Finset.range n, f j * c j) / ∑ j ∈ Finset.range n, f j, ⟨?_, ?_⟩, (mul_div_cancel₀ _ hs.ne').symm⟩
  · rw [le_div_iff₀ hs, mul_comm, Finset.sum_mul]
    exact Finset.sum_le_sum fun j hj => mul_le_mul_of_nonneg_left (hc j (Finset.mem_range.1 hj)).1 (hf j).le
  · rw [div_le_iff₀ hs, mul_comm, Finset.sum_mul]
    exact Finset.sum_le_sum fun j hj => mul_le_mul_of_nonneg_left (hc j (Finset.mem_range.1 hj)).2 (hf j).le

theorem near_one {d c : ℝ} (hd : d ≤ 1) (h0 : 0 ≤ d) (h : Near d c) : |c - 1| ≤ 2 * d := by
  have h2 := Real.add_one_le_exp (-d)
  have h3 : Real.exp d ≤ 1 + 2 * d := by
    have := Real.abs_exp_sub_one_le (x := d) (by rw [abs_of_nonneg h0]; exact hd)
    have := (abs_le.1 this).2
    rw [abs_of_nonneg h0] at this
    linarith
  rw [abs_le]
  exact ⟨by linarith [h.1], by linarith [h.2]⟩

/-! ## The window -/

/-- The positions at which the window is evaluated. -/
noncomputable def pos (A : Fp u) (sigma ext : ℝ) (i : ℕ) : ℝ :=
  let start := -A.rnd (ext * sigma)
  let next := A.rnd (start + 1)
  let delta := A.rnd (next - start)
  if i = 0 then start else if i = 1 then next else A.rnd (start + A.rnd (i * delta))

/-- The computed exponent. -/
noncomputable def expo (A : Fp u) (sigma t : ℝ) : ℝ := A.rnd (-0.5 * A.rnd (A.rnd (t / sigma) ^ 2))

theorem rnd_err (A : Fp u) {x y e m : ℝ} (h0 : 0 ≤ u) (he : |x - y| ≤ e) (hm : |x| ≤ m) : |A.rnd x - y| ≤ e + u * m := by
  have := A.rnd_le x
  have h2 : u * |x| ≤ u * m := mul_le_mul_of_nonneg_left hm h0
  calc |A.rnd x - y| ≤ |A.rnd x - x| + |x - y| := abs_sub_le _ _ _
    _ ≤ e + u * m := by linarith

theorem abs_of_near {x y e m : ℝ} (h : |x - y| ≤ e) (hm : |y| ≤ m) : |x| ≤ m + e := by
  calc |x| = |(x - y) + y| := by ring_nf
    _ ≤ |x - y| + |y| := abs_add_le _ _
    _ ≤ m + e := by linarith

/-- The positions are accurate. -/
theorem pos_err (A : Fp u) {sigma ext r : ℝ} (hr : ext * sigma = r) (h1 : 1 ≤ r) (h0 : 0 ≤ u) {L : ℕ} (hL : 2 * r ≤ L)
    (hLr : (L : ℝ) ≤ 2 * r + 2) (hu : 20 * L * u ≤ 1) {j : ℕ} (hj : j < L) : |pos A sigma ext j - (-r + j)| ≤ 6 * L * u * r := by
  have hj' : (j : ℝ) + 1 ≤ L := by exact_mod_cast hj
  have hj0 : (0 : ℝ) ≤ j := Nat.cast_nonneg j
  have hr0 : 0 ≤ r := by linarith
  have hur0 : 0 ≤ u * r := mul_nonneg h0 hr0
  have hur : 40 * (u * r) ≤ 1 := by nlinarith
  have huj : 20 * (u * j) ≤ 1 := by nlinarith
  have huj0 : 0 ≤ u * j := mul_nonneg h0 hj0
  have hu1 : 40 * u ≤ 1 := by nlinarith
  have huu : u * (u * r) ≤ u := by nlinarith
  have huur : u * (u * r) ≤ u * r := by nlinarith
  have es : |-A.rnd (ext * sigma) - -r| ≤ u * r := by
    have := A.rnd_le (ext * sigma)
    rw [hr, abs_of_nonneg hr0] at this
    rw [hr, show -A.rnd r - -r = -(A.rnd r - r) by ring, abs_neg]
    exact this
  have goal : ∀ y : ℝ, |y - (-r + j)| ≤ u * r * (6 * j + 5) → |y - (-r + j)| ≤ 6 * L * u * r := fun y hy => by
    refine hy.trans ?_
    nlinarith
  unfold pos
  dsimp only
  set start := -A.rnd (ext * sigma) with hstart
  have hx : |start + 1| ≤ r + u * r := by
    have : |start + 1 - (1 - r)| ≤ u * r := by rw [show start + 1 - (1 - r) = start - -r by ring]; exact es
    refine abs_of_near this ?_
    rw [abs_le]; constructor <;> linarith
  have hn : |A.rnd (start + 1) - (start + 1)| ≤ 2 * (u * r) := by
    refine (A.rnd_le _).trans ((mul_le_mul_of_nonneg_left hx h0).trans ?_)
    nlinarith
  have hx2 : |A.rnd (start + 1) - start - 1| ≤ 2 * (u * r) := by
    rw [show A.rnd (start + 1) - start - 1 = A.rnd (start + 1) - (start + 1) by ring]; exact hn
  have hd : |A.rnd (A.rnd (start + 1) - start) - 1| ≤ 4 * (u * r) := by
    refine (rnd_err A h0 hx2 (abs_of_near hx2 (m := 1) (by norm_num))).trans ?_
    nlinarith
  split_ifs with hj1 hj2
  · refine goal _ ?_
    subst hj1
    push_cast
    rw [show start - (-r + 0) = start - -r by ring]
    nlinarith
  · refine goal _ ?_
    subst hj2
    push_cast
    calc |A.rnd (start + 1) - (-r + 1)| = |(A.rnd (start + 1) - (start + 1)) + (start - -r)| := by ring_nf
      _ ≤ 2 * (u * r) + u * r := (abs_add_le _ _).trans (add_le_add hn es)
      _ ≤ _ := by nlinarith
  · refine goal _ ?_
    set delta := A.rnd (A.rnd (start + 1) - start) with hdelta
    have h2 : |(j : ℝ) * delta - j| ≤ 4 * (u * r) * j := by
      rw [show (j : ℝ) * delta - j = (delta - 1) * j by ring, abs_mul, abs_of_nonneg hj0]
      exact mul_le_mul_of_nonneg_right hd hj0
    have h3 : |A.rnd (j * delta) - j| ≤ 4 * (u * r) * j + u * (j + 4 * (u * r) * j) :=
      rnd_err A h0 h2 (abs_of_near h2 (m := j) (by rw [abs_of_nonneg hj0]))
    have h3' : |A.rnd (j * delta) - j| ≤ 6 * (u * r) * j := by
      refine h3.trans ?_
      have : u * (4 * (u * r) * j) ≤ u * j := by nlinarith
      nlinarith
    have h4 : |start + A.rnd (j * delta) - (-r + j)| ≤ u * r + 6 * (u * r) * j := by
      rw [show start + A.rnd (j * delta) - (-r + j) = (start - -r) + (A.rnd (j * delta) - j) by ring]
      exact (abs_add_le _ _).trans (add_le_add es h3')
    have h5 : |-r + (j : ℝ)| ≤ 2 * r := by rw [abs_le]; constructor <;> linarith
    refine (rnd_err A h0 h4 (abs_of_near h4 h5)).trans ?_
    have h6 : u * (2 * r + (u * r + 6 * (u * r) * j)) ≤ 4 * (u * r) := by
      have h7 : u * (u * r) * j ≤ u * r := by nlinarith
      nlinarith
    nlinarith

/-- The exponents are accurate. -/
theorem expo_err (A : Fp u) {sigma ext r t t' : ℝ} (hr : ext * sigma = r) (hs : 0 < sigma) (h1 : 1 ≤ r) (h0 : 0 ≤ u) {l : ℝ}
    (hl : 2 ≤ l) (hu : 20 * l * u ≤ 1) (ht : |t| ≤ 2 * r) (hd : |t' - t| ≤ 6 * l * u * r) :
    |expo A sigma t' - -0.5 * (t / sigma) ^ 2| ≤ 30 * l * u * ext ^ 2 := by
  have he : 0 < ext := by
    by_contra h
    have := mul_nonpos_of_nonpos_of_nonneg (not_lt.1 h) hs.le
    linarith
  have hrs : r / sigma = ext := by rw [← hr]; field_simp
  have hul : 0 ≤ l * u := by positivity
  have hul1 : u ≤ l * u / 2 := by nlinarith
  set v := l * u with hv
  have hv1 : 20 * v ≤ 1 := by rw [hv]; linarith
  have q1 : |t' / sigma - t / sigma| ≤ 6 * v * ext := by
    rw [← sub_div, abs_div, abs_of_pos hs, div_le_iff₀ hs]
    refine hd.trans (le_of_eq ?_)
    rw [← hr, hv]; ring
  have q2 : |t / sigma| ≤ 2 * ext := by
    rw [abs_div, abs_of_pos hs, div_le_iff₀ hs, mul_assoc, hr]; exact ht
  have q3 : |A.rnd (t' / sigma) - t / sigma| ≤ 8 * v * ext := by
    refine (rnd_err A h0 q1 (abs_of_near q1 q2)).trans ?_
    have : u * (2 * ext + 6 * v * ext) ≤ v / 2 * (2 * ext + 6 * v * ext) := mul_le_mul_of_nonneg_right hul1 (by positivity)
    have : v * (v * ext) ≤ v * ext / 20 := by
      have := mul_le_mul_of_nonneg_right hv1 (show 0 ≤ v * ext by positivity)
      nlinarith
    nlinarith
  set a := A.rnd (t' / sigma)
  set b := t / sigma
  have q4 : |a| ≤ 2.4 * ext := by
    refine (abs_of_near q3 q2).trans ?_
    have := mul_le_mul_of_nonneg_right hv1 he.le
    nlinarith
  have q5 : |a ^ 2 - b ^ 2| ≤ 35.2 * v * ext ^ 2 := by
    rw [show a ^ 2 - b ^ 2 = (a - b) * (a + b) by ring, abs_mul]
    have : |a + b| ≤ 4.4 * ext := (abs_add_le _ _).trans (by linarith)
    calc |a - b| * |a + b| ≤ 8 * v * ext * (4.4 * ext) := mul_le_mul q3 this (abs_nonneg _) (by positivity)
      _ = _ := by ring
  have q6 : |a ^ 2| ≤ 5.76 * ext ^ 2 := by
    rw [abs_pow]
    calc |a| ^ 2 ≤ (2.4 * ext) ^ 2 := pow_le_pow_left₀ (abs_nonneg _) q4 2
      _ = _ := by ring
  have q7 : |A.rnd (a ^ 2) - b ^ 2| ≤ 38.08 * v * ext ^ 2 := by
    refine (rnd_err A h0 q5 q6).trans ?_
    have : u * (5.76 * ext ^ 2) ≤ v / 2 * (5.76 * ext ^ 2) := mul_le_mul_of_nonneg_right hul1 (by positivity)
    linarith
  have q8 : |-0.5 * A.rnd (a ^ 2) - -0.5 * b ^ 2| ≤ 19.04 * v * ext ^ 2 := by
    rw [← mul_sub, abs_mul]
    have : |(-0.5 : ℝ)| = 0.5 := by norm_num
    rw [this]
    linarith
  have q9 : |-0.5 * b ^ 2| ≤ 2 * ext ^ 2 := by
    rw [abs_mul, abs_pow]
    have : |(-0.5 : ℝ)| = 0.5 := by norm_num
    rw [this]
    have := pow_le_pow_left₀ (abs_nonneg _) q2 2
    nlinarith
  unfold expo
  refine (rnd_err A h0 q8 (abs_of_near q8 q9)).trans ?_
  have h10 : u * (2 * ext ^ 2 + 19.04 * v * ext ^ 2) ≤ v / 2 * (2 * ext ^ 2 + 19.04 * v * ext ^ 2) :=
    mul_le_mul_of_nonneg_right hul1 (by positivity)
  have h11 : v * (v * ext ^ 2) ≤ v * ext ^ 2 / 20 := by
    have := mul_le_mul_of_nonneg_right hv1 (show 0 ≤ v * ext ^ 2 by positivity)
    nlinarith
  rw [show 30 * l * u * ext ^ 2 = 30 * (v * ext ^ 2) by rw [hv]; ring]
  have : 0 ≤ v * ext ^ 2 := by positivity
  nlinarith

/-- The computed number of points of the window. -/
noncomputable def len (A : Fp u) (sigma ext : ℝ) : ℕ :=
  ⌈A.rnd (A.rnd (A.rnd (ext * sigma) + A.rnd (1 / 10 ^ 5)) - -A.rnd (ext * sigma))⌉.toNat

/-- The computed window. -/
noncomputable def bell (A : Fp u) (K : Kit u) (sigma ext : ℝ) (j : ℕ) : ℝ :=
  A.rnd (A.rnd (1 / A.rnd (sigma * A.rnd √(A.rnd (2 * A.rnd Real.pi)))) * K.exp (expo A sigma (pos A sigma ext j)))

theorem gauss_fp (A : Fp u) (K : Kit u) {sigma ext : ℝ} (h0 : sigma ≠ 0) :
    gauss A K sigma ext = .ok (tab (len A sigma ext) (bell A K sigma ext)) := by
  unfold gauss arange
  dsimp only
  rw [raiseIf_neg h0, map_tab]
  rfl

/-- The computed window, normalised. -/
noncomputable def weight (A : Fp u) (K : Kit u) (sigma ext : ℝ) (j : ℕ) : ℝ :=
  A.rnd (bell A K sigma ext j / K.sum (tab (len A sigma ext) (bell A K sigma ext)))

theorem gaussConv_fp (A : Fp u) (K : Kit u) {sigma ext : ℝ} {x : List ℝ} (h0 : sigma ≠ 0) (h : 1 ≤ A.rnd (sigma * ext))
    (h3 : 3 ≤ len A sigma ext) (hl : len A sigma ext ≤ x.length)
    (hS : K.sum (tab (len A sigma ext) (bell A K sigma ext)) ≠ 0) :
    gaussConv A K x sigma ext = .ok (tab x.length fun i => K.dot (tab (len A sigma ext) (weight A K sigma ext))
      (tab (len A sigma ext) fun j => x.getD (reflect x.length ((i : ℤ) + (len A sigma ext / 2 : ℕ) - j)) 0)) := by
  set L := len A sigma ext with hL
  set n := x.length with hn
  unfold gaussConv
  rw [pyAssert_pos h0, gauss_fp A K h0, py_bind]
  dsimp only
  rw [tab_length, ← hL, pyAssert_pos hl, pyAssert_pos h, raiseIf_neg hS]
  have hx := eq_tab x 0
  rw [← hn] at hx
  have hs : sliceRev x (some ((L : ℤ) - 1)) (some 0) ++ x ++ sliceRev x (some (-2)) (some (-(L : ℤ) - 1))
      = tab (n + 2 * (L - 1)) fun t => x.getD (reflect n ((t : ℤ) - (L - 1 : ℕ))) 0 := by
    conv_lhs => rw [hx]
    rw [sliceRev_tab (a := 1) (b := L) _ _ _ (by simp [boundRev]; omega) (by
        simp [boundRev]; rw [if_neg (by omega)]; omega) hl,
      sliceRev_tab (a := n - L) (b := n - 1) _ _ _ (by simp [boundRev]; rw [if_pos (by omega)]; omega)
        (by simp [boundRev]; omega) (by omega), append_tab, append_tab]
    apply tab_ext (by omega)
    intro i hi
    beta_reduce
    by_cases h1 : i < L - 1
    · rw [if_pos (by omega), if_pos h1]
      congr 1
      unfold reflect
      rw [if_pos (by omega)]
      omega
    · by_cases h2 : i < L - 1 + n
      · rw [if_pos h2, if_neg h1]
        congr 1
        unfold reflect
        rw [if_neg (by omega), if_neg (by omega)]
        omega
      · rw [if_neg h2]
        congr 1
        unfold reflect
        rw [if_neg (by omega), if_pos (by omega)]
        omega
  rw [hs, map_tab]
  unfold convolveValid
  rw [if_neg (by
    rintro (hh | hh)
    · have := congrArg List.length hh; simp at this; omega
    · have := congrArg List.length hh; simp at this; omega)]
  dsimp only
  rw [tab_length, tab_length, min_eq_left (by omega), max_eq_right (by omega), py_bind,
    slice_tab (a := L / 2) (b := n + L - 1 - ((L + 1) / 2 - 1)) _ _ _
      (by simp [bound]; rw [if_neg (by omega)]; omega)
      (by simp [bound]; rw [if_pos (by omega)]; omega) (by omega)]
  show Except.ok _ = _
  congr 1
  apply tab_ext (by omega)
  intro i hi
  congr 1
  apply tab_ext rfl
  intro j hj
  rw [if_pos (by omega), tab_getD (by omega)]
  congr 2
  omega

/-- The computed and the exact weights. -/
theorem weight_near (A : Fp u) (K : Kit u) {sigma ext : ℝ} (hs : 0 < sigma) (h : 1 ≤ sigma * ext) (h0 : 0 ≤ u)
    (hlen : len A sigma ext = winLen sigma ext) (hu : 20 * winLen sigma ext * u ≤ 1) :
    K.sum (tab (len A sigma ext) (bell A K sigma ext)) ≠ 0 ∧ ∀ j < winLen sigma ext, ∃ c,
      Near ((60 * ext ^ 2 + 8) * winLen sigma ext * u) c ∧ weight A K sigma ext j = win sigma ext j * c := by
  have h3 := winLen_ge h
  unfold weight win
  rw [hlen]
  have hL1 : 2 * (ext * sigma) ≤ winLen sigma ext := by
    have : ext * sigma + 1 / 10 ^ 5 - -(ext * sigma) ≤ (⌈ext * sigma + 1 / 10 ^ 5 - -(ext * sigma)⌉ : ℝ) := Int.le_ceil _
    have h5 : ((winLen sigma ext : ℕ) : ℤ) = ⌈ext * sigma + 1 / 10 ^ 5 - -(ext * sigma)⌉ := by
      unfold winLen at h3 ⊢; omega
    have h6 : (winLen sigma ext : ℝ) = (⌈ext * sigma + 1 / 10 ^ 5 - -(ext * sigma)⌉ : ℝ) := by exact_mod_cast h5
    rw [h6]
    linarith
  have hL2 : (winLen sigma ext : ℝ) ≤ 2 * (ext * sigma) + 2 := by
    have := Int.ceil_lt_add_one (ext * sigma + 1 / 10 ^ 5 - -(ext * sigma))
    have h5 : ((winLen sigma ext : ℕ) : ℤ) = ⌈ext * sigma + 1 / 10 ^ 5 - -(ext * sigma)⌉ := by
      unfold winLen at h3 ⊢; omega
    have h6 : (winLen sigma ext : ℝ) = (⌈ext * sigma + 1 / 10 ^ 5 - -(ext * sigma)⌉ : ℝ) := by exact_mod_cast h5
    rw [h6]
    norm_num at this ⊢
    linarith
  set L := winLen sigma ext with hL
  have hL3 : (3 : ℝ) ≤ L := by exact_mod_cast h3
  have hu1 : 60 * u ≤ 1 := by nlinarith
  have hu4 : u ≤ 1 / 4 := by linarith
  have hu2 : u ≤ 1 / 2 := by linarith
  set C := A.rnd (1 / A.rnd (sigma * A.rnd √(A.rnd (2 * A.rnd Real.pi)))) with hC
  have rpos : ∀ {y : ℝ}, 0 < y → 0 < A.rnd y := fun hy => by
    obtain ⟨c, hc, e⟩ := rnd_near A hu2 hy
    rw [e]; exact mul_pos hy hc.pos
  have hCpos : 0 < C := by
    rw [hC]
    exact rpos (one_div_pos.2 (rpos (mul_pos hs (rpos (Real.sqrt_pos.2 (rpos (mul_pos two_pos (rpos Real.pi_pos))))))))
  set D := 30 * L * u * ext ^ 2 with hD
  have hb : ∀ j < L, ∃ c, Near (D + 6 * u) c ∧ bell A K sigma ext j = C * winExp sigma ext j * c := by
    intro j hj
    have hp := pos_err A rfl (by rwa [mul_comm] at h) h0 hL1 hL2 hu hj
    have hj' : (j : ℝ) + 1 ≤ L := by exact_mod_cast hj
    have ht : |-(ext * sigma) + (j : ℝ)| ≤ 2 * (ext * sigma) := by
      have : (0 : ℝ) ≤ j := Nat.cast_nonneg j
      rw [mul_comm] at h
      rw [abs_le]; constructor <;> linarith
    have hex := expo_err A (sigma := sigma) rfl hs (by rwa [mul_comm] at h) h0 (by linarith) hu ht hp
    obtain ⟨c1, hc1, e1⟩ := exp_near K hu4 (expo A sigma (pos A sigma ext j))
    have hpos : 0 < K.exp (expo A sigma (pos A sigma ext j)) := by rw [e1]; exact mul_pos (Real.exp_pos _) hc1.pos
    obtain ⟨c2, hc2, e2⟩ := rnd_near A hu2 (mul_pos hCpos hpos)
    refine ⟨Real.exp (expo A sigma (pos A sigma ext j) - -0.5 * ((-(ext * sigma) + j) / sigma) ^ 2) * c1 * c2, ?_, ?_⟩
    · exact (((Near.exp _ D hex).mul hc1).mul hc2).mono (by linarith)
    · unfold bell winExp
      rw [← hC, e2, e1, Real.exp_sub]
      field_simp
  choose! c hc eb using hb
  obtain ⟨d, hd, es⟩ := K.sum_eq L (bell A K sigma ext)
  have hw := fun j => winExp_pos sigma ext j
  obtain ⟨b, hb, eS⟩ : ∃ b, Near (D + 6 * u + 2 * L * u) b ∧
      K.sum (tab L (bell A K sigma ext)) = C * (∑ k ∈ Finset.range L, winExp sigma ext k) * b := by
    obtain ⟨b, hb, e⟩ := near_sum (n := L) (f := fun j => C * winExp sigma ext j) (c := fun j => c j * d j)
      (d := D + 6 * u + 2 * L * u) (by omega) (fun j => mul_pos hCpos (hw j))
      (fun j hj => (hc j hj).mul (near_pow h0 hu2 (hd j)))
    refine ⟨b, hb, ?_⟩
    rw [es, Finset.mul_sum, ← e]
    refine Finset.sum_congr rfl fun j hj => ?_
    rw [eb j (Finset.mem_range.1 hj)]
    ring
  have hT : 0 < ∑ k ∈ Finset.range L, winExp sigma ext k := winSum_pos h
  have hSpos : 0 < K.sum (tab L (bell A K sigma ext)) := by rw [eS]; exact mul_pos (mul_pos hCpos hT) hb.pos
  refine ⟨hSpos.ne', fun j hj => ?_⟩
  have hbp : 0 < bell A K sigma ext j := by rw [eb j hj]; exact mul_pos (mul_pos hCpos (hw j)) (hc j hj).pos
  obtain ⟨a, ha, ea⟩ := rnd_near A hu2 (div_pos hbp hSpos)
  refine ⟨c j * b⁻¹ * a, (((hc j hj).mul hb.inv).mul ha).mono ?_, ?_⟩
  · rw [hD]
    nlinarith
  · rw [ea, eS, eb j hj]
    have := hb.pos
    field_simp

/-- The computed window has the right number of points if the exact one is not on the verge of another number. -/
theorem len_eq (A : Fp u) {sigma ext : ℝ} (h0 : 0 ≤ u) (h : 1 ≤ sigma * ext) (hu : u ≤ 1 / 80)
    (hgap : ∀ m : ℤ, 5 * u * (2 * (sigma * ext) + 1) < |2 * (sigma * ext) + 1e-5 - m|) :
    len A sigma ext = winLen sigma ext := by
  rw [mul_comm sigma ext] at h hgap
  unfold len winLen
  set r := ext * sigma with hr
  have hr0 : 0 ≤ r := by linarith
  have hur : 0 ≤ u * r := mul_nonneg h0 hr0
  have e1 : |A.rnd r - r| ≤ u * r := by have := A.rnd_le r; rwa [abs_of_nonneg hr0] at this
  have e2 : |A.rnd (1 / 10 ^ 5) - 1 / 10 ^ 5| ≤ u * (1 / 10 ^ 5) := by
    have := A.rnd_le (1 / 10 ^ 5); rwa [abs_of_nonneg (show (0 : ℝ) ≤ 1 / 10 ^ 5 by norm_num)] at this
  have e3 : |A.rnd r + A.rnd (1 / 10 ^ 5) - (r + 1 / 10 ^ 5)| ≤ u * r + u * (1 / 10 ^ 5) := by
    rw [show A.rnd r + A.rnd (1 / 10 ^ 5) - (r + 1 / 10 ^ 5) = (A.rnd r - r) + (A.rnd (1 / 10 ^ 5) - 1 / 10 ^ 5) by ring]
    exact (abs_add_le _ _).trans (add_le_add e1 e2)
  have e4 := rnd_err A h0 e3 (abs_of_near e3 (m := r + 1 / 10 ^ 5) (by rw [abs_of_nonneg (by positivity)]))
  set q := A.rnd (A.rnd r + A.rnd (1 / 10 ^ 5))
  have huur : u * (u * r) ≤ u * r / 80 := by nlinarith
  have huu : u * u ≤ u / 80 := by nlinarith
  have e4' : |q - (r + 1 / 10 ^ 5)| ≤ 2.1 * (u * r) + u * 0.001 := by
    refine e4.trans ?_
    nlinarith
  have e5 : |q - -A.rnd r - (r + 1 / 10 ^ 5 - -r)| ≤ 3.1 * (u * r) + u * 0.001 := by
    rw [show q - -A.rnd r - (r + 1 / 10 ^ 5 - -r) = (q - (r + 1 / 10 ^ 5)) + (A.rnd r - r) by ring]
    refine (abs_add_le _ _).trans ?_
    linarith
  have e6 := rnd_err A h0 e5 (abs_of_near e5 (m := r + 1 / 10 ^ 5 - -r) (by rw [abs_of_nonneg (by linarith [show (0:ℝ) < 1 / 10 ^ 5 by norm_num])]))
  set e := A.rnd (q - -A.rnd r)
  have e7 : |e - (r + 1 / 10 ^ 5 - -r)| ≤ 5 * u * (2 * r + 1) := by
    refine e6.trans ?_
    nlinarith
  have hgap' : ∀ m : ℤ, 5 * u * (2 * r + 1) < |r + 1 / 10 ^ 5 - -r - m| := fun m => by
    have := hgap m
    rwa [show 2 * r + 1e-5 - (m : ℝ) = r + 1 / 10 ^ 5 - -r - m by norm_num; ring] at this
  set a := r + 1 / 10 ^ 5 - -r
  congr 1
  rw [Int.ceil_eq_iff]
  have c1 := Int.le_ceil a
  have c2 := Int.ceil_lt_add_one a
  have g1 := hgap' ⌈a⌉
  have g2 := hgap' (⌈a⌉ - 1)
  push_cast at g2
  rw [abs_of_nonpos (by linarith)] at g1
  rw [abs_of_nonneg (by linarith)] at g2
  have := abs_le.1 e7
  constructor <;> linarith

theorem smooth_fp (A : Fp u) (K : Kit u) {sigma ext M : ℝ} {x : List ℝ} (hs : 0 < sigma) (h0 : 0 ≤ u)
    (h : 1 ≤ sigma * ext) (hone : 1 ≤ A.rnd (sigma * ext)) (hlen : len A sigma ext = winLen sigma ext)
    (hl : winLen sigma ext ≤ x.length) (hM : ∀ t ∈ x, |t| ≤ M)
    (hu : (60 * ext ^ 2 + 20) * winLen sigma ext * u ≤ 1) :
    ∃ y y' : List ℝ, gaussConv A K x sigma ext = .ok y' ∧ Smoothed sigma ext x y ∧ y'.length = y.length ∧
      ∀ (i : ℕ) (a b : ℝ), y[i]? = some a → y'[i]? = some b → |b - a| ≤ (120 * ext ^ 2 + 20) * winLen sigma ext * u * M := by
  have h3 := winLen_ge h
  have hL3 : (3 : ℝ) ≤ winLen sigma ext := by exact_mod_cast h3
  have hLu : 0 ≤ winLen sigma ext * u := by positivity
  have hu' : 20 * winLen sigma ext * u ≤ 1 := by
    have : 0 ≤ 60 * ext ^ 2 * (winLen sigma ext * u) := by positivity
    nlinarith
  have hu2 : u ≤ 1 / 2 := by nlinarith
  obtain ⟨hS, hw⟩ := weight_near A K hs h h0 hlen hu'
  refine ⟨_, _, gaussConv_fp A K hs.ne' hone (by omega) (by omega) hS, Props.C155_average (gaussConv_eq h hl), by simp, ?_⟩
  intro i a b ha hb
  rw [hlen] at hb
  have hi : i < x.length := by
    obtain ⟨hi, _⟩ := List.getElem?_eq_some_iff.1 ha
    rwa [tab_length] at hi
  have ga : ∀ f : ℕ → ℝ, (tab x.length f)[i]? = some (f i) := fun f => by
    unfold tab; simp [hi]
  rw [ga] at ha hb
  cases ha
  cases hb
  have hM0 : 0 ≤ M := by
    obtain ⟨t, ht⟩ : ∃ t, t ∈ x := List.exists_mem_of_length_pos (by omega)
    exact (abs_nonneg t).trans (hM t ht)
  have hx : ∀ k, |x.getD k 0| ≤ M := fun k => by
    by_cases hk : k < x.length
    · rw [show x.getD k 0 = x[k] by simp [List.getD, hk]]
      exact hM _ (List.getElem_mem hk)
    · rw [show x.getD k 0 = 0 by simp [List.getD, not_lt.1 hk], abs_zero]
      exact hM0
  obtain ⟨c, hc, e⟩ := K.dot_eq (winLen sigma ext) (weight A K sigma ext)
    (fun j => x.getD (reflect x.length ((i : ℤ) + (winLen sigma ext / 2 : ℕ) - j)) 0)
  rw [e]
  unfold smoothAt
  rw [← Finset.sum_sub_distrib]
  choose! d hd ed using hw
  refine (Finset.abs_sum_le_sum_abs _ _).trans ?_
  set E := (120 * ext ^ 2 + 20) * winLen sigma ext * u with hE
  calc _ ≤ ∑ j ∈ Finset.range (winLen sigma ext), win sigma ext j * (E * M) := by
        refine Finset.sum_le_sum fun j hj => ?_
        have hj := Finset.mem_range.1 hj
        rw [ed j hj]
        set X := x.getD (reflect x.length ((i : ℤ) + (winLen sigma ext / 2 : ℕ) - j)) 0 with hX
        have hn := (hd j hj).mul (near_pow h0 hu2 (hc j))
        have hn1 := near_one (d := (60 * ext ^ 2 + 8) * winLen sigma ext * u + 2 * winLen sigma ext * u)
          (by nlinarith) (by positivity) hn
        rw [show win sigma ext j * d j * X * c j - win sigma ext j * X = win sigma ext j * ((d j * c j - 1) * X) by ring, abs_mul,
          abs_of_pos (win_pos h j), abs_mul]
        refine mul_le_mul_of_nonneg_left (mul_le_mul (hn1.trans ?_) (hx _) (abs_nonneg _) (by positivity)) (win_pos h j).le
        rw [hE]
        linarith
    _ = E * M := by rw [← Finset.sum_mul, win_sum h, one_mul]

/-- **C192.** In floating-point arithmetic the smoothed data differ from the mirrored Gaussian average by rounding errors only: at most
about `120 ext²` units per point of the window, relative to the largest value. The window must not be on the verge of having one point
more or less (see `C192_whole`). -/
theorem C192_smooth (A : Fp u) (K : Kit u) {sigma ext M : ℝ} {x : List ℝ} (hs : 0 < sigma) (h0 : 0 ≤ u)
    (h : 1 ≤ sigma * ext) (hone : 1 ≤ A.rnd (sigma * ext))
    (hgap : ∀ m : ℤ, 5 * u * (2 * (sigma * ext) + 1) < |2 * (sigma * ext) + 1e-5 - m|)
    (hl : 2 * (sigma * ext) + 1e-5 ≤ x.length) (hM : ∀ t ∈ x, |t| ≤ M)
    (hu : (60 * ext ^ 2 + 20) * (2 * (sigma * ext) + 2) * u ≤ 1) :
    ∃ y y' : List ℝ, gaussConv A K x sigma ext = .ok y' ∧ Smoothed sigma ext x y ∧ y'.length = y.length ∧
      ∀ (i : ℕ) (a b : ℝ), y[i]? = some a → y'[i]? = some b →
        |b - a| ≤ (120 * ext ^ 2 + 20) * (2 * (sigma * ext) + 2) * u * M := by
  have hu1 : u ≤ 1 / 80 := by
    have : 80 * u ≤ (60 * ext ^ 2 + 20) * (2 * (sigma * ext) + 2) * u := by
      refine mul_le_mul_of_nonneg_right ?_ h0
      nlinarith [sq_nonneg ext]
    linarith
  have hwl : winLen sigma ext ≤ x.length := by
    unfold winLen
    rw [Int.toNat_le, Int.ceil_le]
    push_cast
    rw [show ext * sigma + 1 / 10 ^ 5 - -(ext * sigma) = 2 * (sigma * ext) + 1e-5 by norm_num; ring]
    exact hl
  have hL : (winLen sigma ext : ℝ) ≤ 2 * (sigma * ext) + 2 := by
    have h3 := winLen_ge h
    have := Int.ceil_lt_add_one (ext * sigma + 1 / 10 ^ 5 - -(ext * sigma))
    have h5 : ((winLen sigma ext : ℕ) : ℤ) = ⌈ext * sigma + 1 / 10 ^ 5 - -(ext * sigma)⌉ := by
      unfold winLen at h3 ⊢; omega
    have h6 : (winLen sigma ext : ℝ) = (⌈ext * sigma + 1 / 10 ^ 5 - -(ext * sigma)⌉ : ℝ) := by exact_mod_cast h5
    rw [h6]
    norm_num at this ⊢
    linarith
  have hM0 : 0 ≤ M := by
    obtain ⟨t, ht⟩ : ∃ t, t ∈ x := List.exists_mem_of_length_pos (by have := winLen_ge h; omega)
    exact (abs_nonneg t).trans (hM t ht)
  obtain ⟨y, y', e, hy, hyl, hb⟩ := smooth_fp A K hs h0 h hone (len_eq A h0 h hu1 hgap) hwl hM (le_trans (by gcongr) hu)
  exact ⟨y, y', e, hy, hyl, fun i a b ha hb' => (hb i a b ha hb').trans (by gcongr)⟩

/-- **C192.** The window has the right number of points if it reaches over a whole number `k` of points, as in all uses with the default
width. -/
theorem C192_whole (A : Fp u) (K : Kit u) {sigma ext M : ℝ} {x : List ℝ} {k : ℕ} (hk : sigma * ext = k) (hk1 : 1 ≤ k) (hs : 0 < sigma)
    (h0 : 0 ≤ u) (hone : 1 ≤ A.rnd 1) (hk5 : 5 * u * (2 * k + 1) < 1e-5) (hl : 2 * k + 1 ≤ x.length) (hM : ∀ t ∈ x, |t| ≤ M)
    (hu : (60 * ext ^ 2 + 20) * (2 * k + 2) * u ≤ 1) :
    ∃ y y' : List ℝ, gaussConv A K x sigma ext = .ok y' ∧ Smoothed sigma ext x y ∧ y'.length = y.length ∧
      ∀ (i : ℕ) (a b : ℝ), y[i]? = some a → y'[i]? = some b → |b - a| ≤ (120 * ext ^ 2 + 20) * (2 * k + 2) * u * M := by
  have hk1' : (1 : ℝ) ≤ k := by exact_mod_cast hk1
  have h := C192_smooth A K (x := x) (M := M) hs h0 (by rw [hk]; exact hk1') ?_ ?_ ?_ hM (by rw [hk]; exact hu)
  · rw [hk] at h
    exact h
  · rcases hk1.eq_or_lt with h1 | h1
    · rw [hk, ← h1]
      simpa using hone
    · have h2 : (2 : ℝ) ≤ k := by exact_mod_cast h1
      have hu2 : u ≤ 1 / 2 := by
        norm_num at hk5 ⊢
        nlinarith
      have := (abs_le.1 (A.rnd_le k)).1
      rw [abs_of_nonneg (by linarith)] at this
      rw [hk]
      nlinarith
  · intro m
    rw [hk]
    refine hk5.trans_le ?_
    rcases le_or_gt m (2 * k) with hm | hm
    · have : (m : ℝ) ≤ 2 * k := by exact_mod_cast hm
      rw [abs_of_nonneg (by norm_num; linarith)]
      linarith
    · have : (2 * k + 1 : ℝ) ≤ m := by exact_mod_cast hm
      rw [abs_of_nonpos (by norm_num; linarith)]
      norm_num
      linarith
  · rw [hk]
    have : (2 * k + 1 : ℝ) ≤ x.length := by exact_mod_cast hl
    norm_num
    linarith

/-! ## Sums in the order of the array -/

/-- Sum of `F 0, …, F (n - 1)` from left to right. -/
noncomputable def seq (A : Fp u) (F : ℕ → ℝ) : ℕ → ℝ
  | 0 => 0
  | 1 => F 0
  | n + 2 => A.rnd (seq A F (n + 1) + F (n + 1))

theorem seq_eq (A : Fp u) (h0 : 0 ≤ u) (h1 : u < 1) (p d : ℕ → ℝ) (hd : ∀ j, 1 - u ≤ d j ∧ d j * (1 - u) ≤ 1) (n : ℕ) :
    ∃ c : ℕ → ℝ, (∀ j, (1 - u) ^ n ≤ c j ∧ c j * (1 - u) ^ n ≤ 1) ∧
      seq A (fun j => p j * d j) n = ∑ j ∈ Finset.range n, p j * c j := by
  induction n with
  | zero => exact ⟨fun _ => 1, by simp, by simp [seq]⟩
  | succ n ih =>
    rcases n with _ | n
    · exact ⟨d, fun j => by simpa using hd j, by simp [seq]⟩
    · obtain ⟨c, hc, e⟩ := ih
      obtain ⟨b, hb1, hb2, eb⟩ := rnd_rel A h0 h1 (seq A (fun j => p j * d j) (n + 1) + p (n + 1) * d (n + 1))
      rw [pow_one] at hb1 hb2
      have hu : 0 < 1 - u := by linarith
      have hb0 : 0 < b := hu.trans_le hb1
      have hpow : (1 - u) ^ n ≤ 1 := pow_le_one₀ hu.le (by linarith)
      have hpow0 : 0 < (1 - u) ^ n := pow_pos hu n
      refine ⟨fun j => if j < n + 1 then c j * b else d j * b, fun j => ?_, ?_⟩
      · have key : ∀ g : ℝ, (1 - u) ^ (n + 1) ≤ g ∧ g * (1 - u) ^ (n + 1) ≤ 1 →
            (1 - u) ^ (n + 1 + 1) ≤ g * b ∧ g * b * (1 - u) ^ (n + 1 + 1) ≤ 1 := by
          rintro g ⟨g1, g2⟩
          have hg0 : 0 < g := (pow_pos hu _).trans_le g1
          refine ⟨?_, ?_⟩
          · rw [pow_succ]
            exact mul_le_mul g1 hb1 hu.le hg0.le
          · calc g * b * (1 - u) ^ (n + 1 + 1) = g * (1 - u) ^ (n + 1) * (b * (1 - u)) := by ring
              _ ≤ 1 := mul_le_one₀ g2 (by positivity) hb2
        by_cases hj : j < n + 1
        · dsimp only
          rw [if_pos hj]
          exact key _ (hc j)
        · dsimp only
          rw [if_neg hj]
          refine key _ ⟨?_, ?_⟩
          · rw [pow_succ]
            nlinarith [(hd j).1]
          · have hdj : 0 < d j := hu.trans_le (hd j).1
            calc d j * (1 - u) ^ (n + 1) = (1 - u) ^ n * (d j * (1 - u)) := by ring
              _ ≤ 1 := mul_le_one₀ hpow (by positivity) (hd j).2
      · rw [show seq A (fun j => p j * d j) (n + 1 + 1) = A.rnd (seq A (fun j => p j * d j) (n + 1) + p (n + 1) * d (n + 1)) from rfl,
          eb, e, Finset.sum_range_succ _ (n + 1)]
        dsimp only
        rw [if_neg (by omega : ¬ n + 1 < n + 1), add_mul, Finset.sum_mul]
        congr 1
        · refine Finset.sum_congr rfl fun j hj => ?_
          rw [if_pos (Finset.mem_range.1 hj)]
          ring
        · ring

/-- Exact exponentials, and sums from left to right in the arithmetic `A`. -/
noncomputable def leftToRight (A : Fp u) (h0 : 0 ≤ u) (h1 : u < 1) : Kit u where
  exp := Real.exp
  sum l := seq A (fun j => l.getD j 0) l.length
  dot a b := seq A (fun j => A.rnd (a.getD j 0 * b.getD j 0)) a.length
  exp_le x := by rw [sub_self, abs_zero]; positivity
  sum_eq n f := by
    obtain ⟨c, hc, e⟩ := seq_eq A h0 h1 (fun j => (tab n f).getD j 0) (fun _ => 1) (fun _ => ⟨by linarith, by linarith⟩) n
    refine ⟨c, hc, ?_⟩
    simp only [mul_one] at e
    rw [tab_length, e]
    exact Finset.sum_congr rfl fun j hj => by rw [tab_getD (Finset.mem_range.1 hj)]
  dot_eq n f g := by
    have := fun j => rnd_rel A h0 h1 ((tab n f).getD j 0 * (tab n g).getD j 0)
    choose d d1 d2 ed using this
    simp only [pow_one] at d1 d2
    obtain ⟨c, hc, e⟩ := seq_eq A h0 h1 (fun j => (tab n f).getD j 0 * (tab n g).getD j 0) d (fun j => ⟨d1 j, d2 j⟩) n
    refine ⟨c, hc, ?_⟩
    rw [tab_length]
    simp only [ed]
    rw [e]
    refine Finset.sum_congr rfl fun j hj => ?_
    rw [tab_getD (Finset.mem_range.1 hj), tab_getD (Finset.mem_range.1 hj)]

/-- Double precision, the default width and reach, data between -1 and 1: the error is below 1e-11. -/
example (A : Fp (1 / 2 ^ 53)) (hone : 1 ≤ A.rnd 1) (x : List ℝ) (hl : 61 ≤ x.length) (hM : ∀ t ∈ x, |t| ≤ 1) :
    ∃ y y' : List ℝ, gaussConv A (leftToRight A (by positivity) (by norm_num)) x 10 3 = .ok y' ∧ Smoothed 10 3 x y ∧
      y'.length = y.length ∧ ∀ (i : ℕ) (a b : ℝ), y[i]? = some a → y'[i]? = some b → |b - a| ≤ 1e-11 := by
  obtain ⟨y, y', h1, h2, h3, h4⟩ := C192_whole A (leftToRight A (by positivity) (by norm_num)) (sigma := 10) (ext := 3) (M := 1) (x := x)
    (k := 30) (by norm_num) (by norm_num) (by norm_num) (by positivity) hone (by norm_num) (by simpa using hl) hM (by norm_num)
  exact ⟨y, y', h1, h2, h3, fun i a b ha hb => (h4 i a b ha hb).trans (by norm_num)⟩

/-! ## On the verge of another number of points -/

/-- An arithmetic that makes every number too large by the factor `1 + u`. -/
noncomputable def upward (u : ℝ) (h0 : 0 ≤ u) : Fp u where
  rnd x := x * (1 + u)
  pow10 x := 10 ^ x
  log10 x := Real.logb 10 x
  abs z := ‖z‖
  rnd_le x := by rw [show x * (1 + u) - x = u * x by ring, abs_mul, abs_of_nonneg h0]
  pow10_le x := by rw [sub_self, abs_zero]; positivity
  log10_le x := by rw [sub_self, abs_zero]; positivity
  abs_le z := by rw [sub_self, abs_zero]; positivity

/-- The distance from a whole number of points is needed in `C192_smooth`: three points are smoothed with exact numbers, but refused with
rounding errors, however small they are. -/
theorem C192_verge (h0 : 0 < u) (K : Kit u) (x : List ℝ) (hx : x.length = 3) :
    (∃ y, MathFn.gaussConv x 1.499995 1 = .ok y) ∧ gaussConv (upward u h0.le) K x 1.499995 1 = .error .assertion := by
  refine ⟨(Props.C155_accepts x _ _).2 ⟨by norm_num, by rw [hx]; norm_num⟩, ?_⟩
  have hne : (1.499995 : ℝ) ≠ 0 := by norm_num
  unfold gaussConv
  rw [pyAssert_pos hne, gauss_fp _ K hne, py_bind]
  dsimp only
  rw [tab_length, hx, pyAssert_neg]
  · rw [not_le]
    unfold len upward
    dsimp only
    have : (3 : ℤ) < ⌈(((1 * 1.499995 * (1 + u) + 1 / 10 ^ 5 * (1 + u)) * (1 + u)) - -(1 * 1.499995 * (1 + u))) * (1 + u)⌉ := by
      rw [Int.lt_ceil]
      push_cast
      norm_num
      nlinarith [mul_pos h0 h0, mul_pos (mul_pos h0 h0) h0]
    omega

end QMix.GaussFp
