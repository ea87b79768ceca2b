import Verif.Props.IvData
import Verif.Props.IfNoise

/-!
# Straight-line fits to data with errors
-/

namespace QMix.IvData

open Np Fl Clean

/-- The mean voltage of points. -/
noncomputable def meanX (L : List (ℝ × ℝ)) : ℝ := (L.map Prod.fst).sum / L.length

/-- The voltages of the points are spread by at least `w` (root mean square distance from the mean). -/
def Spread (L : List (ℝ × ℝ)) (w : ℝ) : Prop := L.length * w ^ 2 ≤ (L.map fun q => (q.1 - meanX L) ^ 2).sum

/-! ## Lemmas -/

theorem sum_quad (L : List (ℝ × ℝ)) (f g : ℝ × ℝ → ℝ) (s : ℝ) :
    (L.map fun q => (f q - s * g q) ^ 2).sum
      = (L.map fun q => f q ^ 2).sum - 2 * s * (L.map fun q => f q * g q).sum + s ^ 2 * (L.map fun q => g q ^ 2).sum := by
  induction L with
  | nil => simp
  | cons a L ih =>
    simp only [List.map_cons, List.sum_cons]
    rw [ih]
    ring

/-- A least-squares fit does not increase the errors. -/
theorem fit_contracts {L : List (ℝ × ℝ)} {p : ℝ × ℝ} {a b : ℝ} (hb : ∀ q : ℝ × ℝ, resid L p ≤ resid L q) :
    (L.map fun q => ((p.1 - a) * q.1 + (p.2 - b)) ^ 2).sum ≤ (L.map fun q => (q.2 - (a * q.1 + b)) ^ 2).sum := by
  set f : ℝ × ℝ → ℝ := fun q => q.2 - (a * q.1 + b) with hf
  set g : ℝ × ℝ → ℝ := fun q => (p.1 - a) * q.1 + (p.2 - b) with hg
  set A := (L.map fun q => f q ^ 2).sum with hA
  set B := (L.map fun q => f q * g q).sum with hB
  set C := (L.map fun q => g q ^ 2).sum with hC
  have key : ∀ s : ℝ, resid L (a + s * (p.1 - a), b + s * (p.2 - b)) = A - 2 * s * B + s ^ 2 * C := by
    intro s
    rw [hA, hB, hC, ← sum_quad]
    unfold resid
    congr 1
    apply List.map_congr_left
    intro q _
    simp only [hf, hg]
    ring
  have h1 : ∀ s : ℝ, A - 2 * 1 * B + 1 ^ 2 * C ≤ A - 2 * s * B + s ^ 2 * C := by
    intro s
    rw [← key 1, ← key s]
    have := hb (a + s * (p.1 - a), b + s * (p.2 - b))
    simpa using this
  have hA0 : 0 ≤ A := List.sum_nonneg (by
    intro x hx
    obtain ⟨q, -, rfl⟩ := List.mem_map.1 hx
    positivity)
  have hC0 : 0 ≤ C := List.sum_nonneg (by
    intro x hx
    obtain ⟨q, -, rfl⟩ := List.mem_map.1 hx
    positivity)
  rcases hC0.eq_or_lt with h0 | h0
  · rw [← h0]
    exact hA0
  · have h2 := h1 (B / C)
    have h3 : A - 2 * (B / C) * B + (B / C) ^ 2 * C = A - B ^ 2 / C := by
      field_simp
      ring
    rw [h3] at h2
    have h4 : B ^ 2 / C ≤ 2 * B - C := by linarith
    rw [div_le_iff₀ h0] at h4
    have hBC : B = C := by nlinarith [sq_nonneg (B - C)]
    have h5 : 0 ≤ resid L (a + 1 * (p.1 - a), b + 1 * (p.2 - b)) := List.sum_nonneg (by
      intro x hx
      obtain ⟨q, -, rfl⟩ := List.mem_map.1 hx
      positivity)
    rw [key] at h5
    linarith

theorem sum_centred (L : List (ℝ × ℝ)) (hL : L ≠ []) (α β : ℝ) :
    (L.map fun q => (α * q.1 + β) ^ 2).sum
      = α ^ 2 * (L.map fun q => (q.1 - meanX L) ^ 2).sum + L.length * (α * meanX L + β) ^ 2 := by
  have hn : (L.length : ℝ) ≠ 0 := by
    have := List.length_pos_iff.2 hL
    positivity
  have hm : (L.map Prod.fst).sum = L.length * meanX L := by
    unfold meanX
    field_simp
  have h : ∀ (M : List (ℝ × ℝ)) (m : ℝ), (M.map fun q => (α * q.1 + β) ^ 2).sum
      = α ^ 2 * (M.map fun q => (q.1 - m) ^ 2).sum + 2 * α * (α * m + β) * ((M.map Prod.fst).sum - M.length * m)
        + M.length * (α * m + β) ^ 2 := by
    intro M m
    induction M with
    | nil => simp
    | cons a M ih =>
      simp only [List.map_cons, List.sum_cons, List.length_cons]
      rw [ih]
      push_cast
      ring
  rw [h L (meanX L), hm]
  ring

/-! ## C180 -/

/-- C180. A least-squares line through points that are within `ν` of the line `a x + b` and whose voltages are spread by `w`: the slope
is wrong by at most `ν / w`, and the line by at most `ν (1 + |x - mean| / w)` at `x`. -/
theorem C180_line {L : List (ℝ × ℝ)} {p : ℝ × ℝ} {a b ν w : ℝ} (hL : L ≠ []) (hb : BestLine L p) (hw : 0 < w) (hs : Spread L w)
    (hν : ∀ q ∈ L, |q.2 - (a * q.1 + b)| ≤ ν) :
    |p.1 - a| ≤ ν / w ∧ ∀ x, |p.1 * x + p.2 - (a * x + b)| ≤ ν * (1 + |x - meanX L| / w) := by
  have hn : (0 : ℝ) < L.length := by
    have := List.length_pos_iff.2 hL
    positivity
  have hν0 : 0 ≤ ν := by
    obtain ⟨q, hq⟩ := List.exists_mem_of_ne_nil L hL
    exact (abs_nonneg _).trans (hν q hq)
  have h1 : (L.map fun q => (q.2 - (a * q.1 + b)) ^ 2).sum ≤ L.length * ν ^ 2 := by
    have : ∀ M : List (ℝ × ℝ), (∀ q ∈ M, |q.2 - (a * q.1 + b)| ≤ ν) →
        (M.map fun q => (q.2 - (a * q.1 + b)) ^ 2).sum ≤ M.length * ν ^ 2 := by
      intro M
      induction M with
      | nil => simp
      | cons c M ih =>
        intro h
        simp only [List.map_cons, List.sum_cons, List.length_cons]
        push_cast
        have h2 := ih fun q hq => h q (by simp [hq])
        have h3 : (c.2 - (a * c.1 + b)) ^ 2 ≤ ν ^ 2 := by
          rw [← sq_abs]
          exact pow_le_pow_left₀ (abs_nonneg _) (h c (by simp)) 2
        linarith
    exact this L hν
  have h2 := (fit_contracts (a := a) (b := b) hb).trans h1
  rw [sum_centred L hL] at h2
  have h3 : (p.1 - a) ^ 2 * (L.length * w ^ 2) ≤ (p.1 - a) ^ 2 * (L.map fun q => (q.1 - meanX L) ^ 2).sum :=
    mul_le_mul_of_nonneg_left hs (sq_nonneg _)
  have h4 : (p.1 - a) ^ 2 * w ^ 2 + ((p.1 - a) * meanX L + (p.2 - b)) ^ 2 ≤ ν ^ 2 := by
    have : L.length * ((p.1 - a) ^ 2 * w ^ 2 + ((p.1 - a) * meanX L + (p.2 - b)) ^ 2) ≤ L.length * ν ^ 2 := by linarith
    exact le_of_mul_le_mul_left this hn
  have h5 : |p.1 - a| ≤ ν / w := by
    rw [le_div_iff₀ hw]
    have : (|p.1 - a| * w) ^ 2 ≤ ν ^ 2 := by
      rw [mul_pow, sq_abs]
      nlinarith [sq_nonneg ((p.1 - a) * meanX L + (p.2 - b))]
    exact abs_le_of_sq_le_sq' this hν0 |>.2
  refine ⟨h5, fun x => ?_⟩
  have h6 : |(p.1 - a) * meanX L + (p.2 - b)| ≤ ν := by
    refine abs_le_of_sq_le_sq ?_ hν0
    nlinarith [mul_nonneg (sq_nonneg (p.1 - a)) (sq_nonneg w)]
  have e : p.1 * x + p.2 - (a * x + b) = ((p.1 - a) * meanX L + (p.2 - b)) + (p.1 - a) * (x - meanX L) := by ring
  rw [e]
  refine (abs_add_le _ _).trans ?_
  rw [abs_mul]
  have := mul_le_mul_of_nonneg_right h5 (abs_nonneg (x - meanX L))
  calc _ ≤ ν + ν / w * |x - meanX L| := add_le_add h6 this
    _ = _ := by ring

/-- The inverse of a slope that is wrong by at most `m`. -/
theorem inverse_slope {σ r m : ℝ} (hr : 0 < r) (h : |σ - 1 / r| ≤ m) (hm : r * m < 1) :
    0 < σ ∧ |1 / σ - r| ≤ r * (r * m) / (1 - r * m) := by
  have h1 : (1 - r * m) / r ≤ σ := by
    have := (abs_le.1 h).1
    rw [sub_div, mul_div_cancel_left₀ _ hr.ne']
    linarith
  have h2 : 0 < (1 - r * m) / r := div_pos (by linarith) hr
  have hσ : 0 < σ := h2.trans_le h1
  refine ⟨hσ, ?_⟩
  have e : 1 / σ - r = -(r * (σ - 1 / r)) / σ := by
    field_simp
    ring
  rw [e, abs_div, abs_neg, abs_mul, abs_of_pos hr, abs_of_pos hσ, div_le_div_iff₀ hσ (by linarith)]
  rw [div_le_iff₀ hr] at h1
  have hm0 : 0 ≤ m := (abs_nonneg _).trans h
  calc r * |σ - 1 / r| * (1 - r * m) ≤ r * m * (1 - r * m) := by
        refine mul_le_mul_of_nonneg_right (mul_le_mul_of_nonneg_left h hr.le) (by linarith)
    _ ≤ r * m * (σ * r) := mul_le_mul_of_nonneg_left h1 (by positivity)
    _ = _ := by ring

theorem polyfit_some (R : Routines) {L : List (ℝ × ℝ)} (h : L ≠ []) :
    ∃ p, polyfit R (L.map Prod.fst) (L.map Prod.snd) = .ok p ∧ BestLine L p := by
  have e : polyfit R (L.map Prod.fst) (L.map Prod.snd) = .ok (R.fitLine (L.map Prod.fst) (L.map Prod.snd)) := by
    unfold polyfit
    rw [raiseIf_neg (by simpa using h), raiseIf_neg (by simp)]
    rfl
  exact ⟨_, e, fun q => polyfit_best e q⟩

/-- C180. The normal resistance and the intercept, if the points of the normal branch are within `ν` of `i = (v - v0) / r`. -/
theorem C180_normal (R : Routines) (o : Opts) (v i : List ℝ) {r v0 ν w κ : ℝ} {L : List (ℝ × ℝ)} (hl : v.length = i.length) (hr : 0 < r)
    (hL : L = (v.zip i).filter fun p => decide (o.vrn.1 < p.1 ∧ p.1 < o.vrn.2)) (hne : L ≠ [])
    (hline : ∀ p ∈ L, |p.2 - (p.1 - v0) / r| ≤ ν) (hw : 0 < w) (hs : Spread L w) (hκ : κ = r * (ν / w)) (hκ1 : κ < 1) :
    ∃ rn vint, normalResistance R o v i = .ok (rn, vint) ∧ 0 < rn ∧ |rn - r| ≤ r * κ / (1 - κ) ∧
      |vint - v0| ≤ rn * (ν * (1 + |v0 - meanX L| / w)) := by
  obtain ⟨M, rfl, rfl⟩ := exists_points hl
  rw [zip_fst_snd] at hL
  obtain ⟨p, hp, hbest⟩ := polyfit_some R hne
  obtain ⟨h1, h2⟩ := C180_line (a := 1 / r) (b := -v0 / r) hne hbest hw hs (by
    intro q hq
    have := hline q hq
    rwa [show q.2 - (1 / r * q.1 + -v0 / r) = q.2 - (q.1 - v0) / r by ring])
  obtain ⟨hσ, h3⟩ := inverse_slope hr h1 (by rw [← hκ]; exact hκ1)
  rw [← hκ] at h3
  refine ⟨1 / p.1, -p.2 / p.1, ?_, by positivity, h3, ?_⟩
  · unfold normalResistance
    rw [masked_points, py_bind]
    dsimp only
    rw [← hL, hp, py_bind]
    unfold Np.fdiv
    rw [if_neg hσ.ne', py_bind, if_neg hσ.ne', py_bind]
    rfl
  · have h4 := h2 v0
    have e : -p.2 / p.1 - v0 = -(1 / p.1 * (p.1 * v0 + p.2 - (1 / r * v0 + -v0 / r))) := by
      field_simp
      ring
    rw [e, abs_neg, abs_mul, abs_of_pos (by positivity : 0 < 1 / p.1)]
    exact mul_le_mul_of_nonneg_left h4 (by positivity)

/-- C180. The same for the subgap resistance. -/
theorem C180_subgap (R : Routines) (o : Opts) (v i : List ℝ) {r v0 ν w κ : ℝ} {L : List (ℝ × ℝ)} (hl : v.length = i.length) (hr : 0 < r)
    (hL : L = (v.zip i).filter fun p => decide (|p.1 - o.vrsg| < 1e-4)) (hne : L ≠ [])
    (hline : ∀ p ∈ L, |p.2 - (p.1 - v0) / r| ≤ ν) (hw : 0 < w) (hs : Spread L w) (hκ : κ = r * (ν / w)) (hκ1 : κ < 1) :
    ∃ rsg, subgapResistance R o v i = .ok rsg ∧ 0 < rsg ∧ |rsg - r| ≤ r * κ / (1 - κ) := by
  obtain ⟨M, rfl, rfl⟩ := exists_points hl
  rw [zip_fst_snd] at hL
  have hL' : L = M.filter fun p => decide (o.vrsg - 1e-4 < p.1 ∧ p.1 < o.vrsg + 1e-4) := by
    rw [hL]
    apply List.filter_congr
    intro q _
    rw [decide_eq_decide, abs_lt]
    constructor
    · rintro ⟨h1, h2⟩
      constructor <;> linarith
    · rintro ⟨h1, h2⟩
      constructor <;> linarith
  obtain ⟨p, hp, hbest⟩ := polyfit_some R hne
  obtain ⟨h1, -⟩ := C180_line (a := 1 / r) (b := -v0 / r) hne hbest hw hs (by
    intro q hq
    have := hline q hq
    rwa [show q.2 - (1 / r * q.1 + -v0 / r) = q.2 - (q.1 - v0) / r by ring])
  obtain ⟨hσ, h3⟩ := inverse_slope hr h1 (by rw [← hκ]; exact hκ1)
  rw [← hκ] at h3
  refine ⟨1 / p.1, ?_, by positivity, h3⟩
  unfold subgapResistance
  rw [masked_points, py_bind]
  dsimp only
  rw [← hL', hp, py_bind]
  unfold Np.fdiv
  rw [if_neg hσ.ne']

open Classical in
/-- C180. The calibration of the IF power in kelvin, if the powers at the voltages of the user are within `ν` of the shot-noise line
`s V + i` (`V` in mV): the factor `c` found for `5.8 / s` is wrong by at most the fraction given, and so is the line. The voltages
are spread by `w` (normalised). -/
theorem C180_shot_noise (R : Routines) (o : IfData.IfOpts) (dc : DCIV) (x y : List ℝ) (l P : List (ℝ × ℝ)) {s i ν w c n : ℝ} {line : List ℝ}
    {good : Bool} (hl : IfData.Given o l) (hxy : x.length = y.length) (hg : 0 < dc.vgap)
    (hP : P = (x.zip y).filter fun p => decide (IfData.Fitted l dc.vgap x p.1))
    (hline : ∀ p ∈ P, |p.2 - (s * (p.1 * dc.vgap * 1000) + i)| ≤ ν) (hw : 0 < w) (hs : Spread P w)
    (h : IfData.findIfNoise R o dc x y = .ok (n, c, line, good)) :
    |5.8 / c - s| ≤ ν / (w * dc.vgap * 1000) ∧ line.length = x.length ∧
      ∀ k, k < x.length → |line.getD k 0 / c - (s * (x.getD k 0 * dc.vgap * 1000) + i)| ≤ ν * (1 + |x.getD k 0 - meanX P| / w) := by
  obtain ⟨mask, m0, hm0, hmask, -, -, h2, hne, -, -, hc, hlin, -, -⟩ := IfData.findIfNoise_ok h
  rw [IfData.shotMask_given hl] at hm0
  cases hm0
  rw [IfData.fitted_mask] at hmask
  have hch : IfData.chosen mask x y = P := by rw [hmask, IfData.chosen_map _ x y hxy, hP]
  rw [hch] at h2 hne hc hlin
  have hPne : P ≠ [] := by
    obtain ⟨p, hp, -⟩ := h2
    exact List.ne_nil_of_mem hp
  obtain ⟨h3, h4⟩ := C180_line (a := s * (dc.vgap * 1000)) (b := i) (ν := ν) (p := closedForm P) hPne (closedForm_best P) hw hs (by
    intro q hq
    have := hline q hq
    rwa [show s * (dc.vgap * 1000) * q.1 + i = s * (q.1 * dc.vgap * 1000) + i by ring])
  have hc0 : c ≠ 0 := by
    rw [hc]
    exact mul_ne_zero (mul_ne_zero (div_ne_zero (by norm_num) hne) hg.ne') (by norm_num)
  refine ⟨?_, by rw [hlin]; simp, ?_⟩
  · have e : 5.8 / c - s = ((closedForm P).1 - s * (dc.vgap * 1000)) / (dc.vgap * 1000) := by
      rw [hc]
      norm_num
      field_simp
    rw [e, abs_div, abs_of_pos (by positivity : 0 < dc.vgap * 1000)]
    calc _ ≤ ν / w / (dc.vgap * 1000) := div_le_div_of_nonneg_right h3 (by positivity)
      _ = _ := by rw [div_div]; ring_nf
  · intro k hk
    have e1 : x.getD k 0 = x[k] := by simp [hk]
    have e2 : line.getD k 0 = ((closedForm P).1 * x[k] + (closedForm P).2) * c := by simp [hlin, hk]
    rw [e1, e2, mul_div_cancel_right₀ _ hc0]
    have := h4 x[k]
    rwa [show s * (dc.vgap * 1000) * x[k] + i = s * (x[k] * dc.vgap * 1000) + i by ring] at this

open Classical in
/-- C180. Under the same conditions the calibration succeeds if the slope is above its error. -/
theorem C180_shot_noise_ok (R : Routines) (o : IfData.IfOpts) (dc : DCIV) (x y : List ℝ) (l P : List (ℝ × ℝ)) {s i ν w : ℝ}
    (hl : IfData.Given o l) (hxy : x.length = y.length) (hg : 0 < dc.vgap)
    (hP : P = (x.zip y).filter fun p => decide (IfData.Fitted l dc.vgap x p.1)) (h2 : ∃ p ∈ P, ∃ q ∈ P, p.1 ≠ q.1)
    (hline : ∀ p ∈ P, |p.2 - (s * (p.1 * dc.vgap * 1000) + i)| ≤ ν) (hw : 0 < w) (hs : Spread P w)
    (hlarge : ν / (w * dc.vgap * 1000) < s) :
    ∃ n c line good, IfData.findIfNoise R o dc x y = .ok (n, c, line, good) ∧ 0 < c := by
  have hPne : P ≠ [] := by
    obtain ⟨p, hp, -⟩ := h2
    exact List.ne_nil_of_mem hp
  obtain ⟨h3, -⟩ := C180_line (a := s * (dc.vgap * 1000)) (b := i) (ν := ν) (p := closedForm P) hPne (closedForm_best P) hw hs (by
    intro q hq
    have := hline q hq
    rwa [show s * (dc.vgap * 1000) * q.1 + i = s * (q.1 * dc.vgap * 1000) + i by ring])
  have hσ : 0 < (closedForm P).1 := by
    have := (abs_le.1 h3).1
    have h4 : ν / w < s * (dc.vgap * 1000) := by
      rw [div_lt_iff₀ (by positivity)] at hlarge
      rw [div_lt_iff₀ hw]
      linarith
    linarith
  unfold IfData.findIfNoise
  rw [IfData.shotMask_given hl, py_bind]
  dsimp only
  rw [IfData.fitted_mask, IfData.masked_map _ x y hxy, py_bind]
  dsimp only
  rw [← hP, IfData.linregress_eq P h2, py_bind]
  rw [Np.fdiv_ok hσ.ne', py_bind, Np.fdiv_ok hg.ne', py_bind]
  have hxne : x ≠ [] := by
    rintro rfl
    rw [List.zip_nil_left, List.filter_nil] at hP
    exact hPne hP
  have hi : ∀ f : List ℝ, x.length = f.length →
      interp [dc.vint / dc.vgap] x f = .ok [RespFn.npInterp x f (dc.vint / dc.vgap)] := by
    intro f hf
    unfold interp
    rw [raiseIf_neg (by simpa using hf), raiseIf_neg hxne]
    rfl
  rw [hi _ (by simp), py_bind]
  have hg0 : ∀ t : ℝ, pyGet [t] 0 = .ok t := fun _ => rfl
  rw [hg0, py_bind]
  exact ⟨_, _, _, _, rfl, by positivity⟩

/-- Eight powers within `0.05` of a shot-noise line: the calibration succeeds and finds its slope up to `0.01`. -/
example (R : Routines) : ∃ n c line good, IfData.findIfNoise R IfData.above2 (IfData.junction 0.003 0) IfData.ramp
    [0, 1.05, 2, 3, 3.95, 5, 6, 7] = .ok (n, c, line, good) ∧ |5.8 / c - 1 / 3| ≤ 0.01 := by
  classical
  obtain ⟨P, hPd⟩ : ∃ P : List (ℝ × ℝ), P = [(1, 1.05), (2, 2), (3, 3), (4, 3.95), (5, 5), (6, 6), (7, 7)] := ⟨_, rfl⟩
  have hfit := IfData.ramp_fitted
  have hP : P = (IfData.ramp.zip ([0, 1.05, 2, 3, 3.95, 5, 6, 7] : List ℝ)).filter
      fun p => decide (IfData.Fitted [(0.002, 1)] (IfData.junction 0.003 0).vgap IfData.ramp p.1) := by
    have e : (IfData.ramp.zip ([0, 1.05, 2, 3, 3.95, 5, 6, 7] : List ℝ)).filter
        (fun p => decide (IfData.Fitted [(0.002, 1)] (IfData.junction 0.003 0).vgap IfData.ramp p.1))
        = (IfData.ramp.zip ([0, 1.05, 2, 3, 3.95, 5, 6, 7] : List ℝ)).filter fun p => decide (p.1 ≠ 0) := by
      apply List.filter_congr
      intro q hq
      rw [decide_eq_decide]
      exact hfit q.1 (List.of_mem_zip hq).1
    rw [e, hPd]
    unfold IfData.ramp
    norm_num
  have hm : meanX P = 4 := by
    rw [hPd]
    unfold meanX
    norm_num
  have hs : Spread P 2 := by
    unfold Spread
    rw [hm, hPd]
    norm_num
  have hline : ∀ p ∈ P, |p.2 - (1 / 3 * (p.1 * (IfData.junction 0.003 0).vgap * 1000) + 0)| ≤ 0.05 := by
    intro p hp
    rw [hPd] at hp
    change |p.2 - (1 / 3 * (p.1 * 0.003 * 1000) + 0)| ≤ 0.05
    simp only [List.mem_cons, List.not_mem_nil, or_false] at hp
    rcases hp with rfl | rfl | rfl | rfl | rfl | rfl | rfl <;> norm_num [abs_le]
  have hgv : (0 : ℝ) < (IfData.junction 0.003 0).vgap := by
    change (0 : ℝ) < 0.003
    norm_num
  obtain ⟨n, c, line, good, h, -⟩ := C180_shot_noise_ok R IfData.above2 (IfData.junction 0.003 0) IfData.ramp
    [0, 1.05, 2, 3, 3.95, 5, 6, 7] [(0.002, 1)] P (s := 1 / 3) (i := 0) (ν := 0.05) (w := 2) (Or.inr ⟨_, _, rfl, rfl⟩) rfl hgv hP
    ⟨(1, 1.05), by simp [hPd], (2, 2), by simp [hPd], by norm_num⟩ hline (by norm_num) hs
    (by change (0.05 : ℝ) / (2 * 0.003 * 1000) < 1 / 3; norm_num)
  refine ⟨n, c, line, good, h, ?_⟩
  have := (C180_shot_noise R IfData.above2 (IfData.junction 0.003 0) IfData.ramp
    [0, 1.05, 2, 3, 3.95, 5, 6, 7] [(0.002, 1)] P (s := 1 / 3) (i := 0) (ν := 0.05) (w := 2) (Or.inr ⟨_, _, rfl, rfl⟩) rfl hgv hP hline
    (by norm_num) hs h).1
  refine this.trans ?_
  change (0.05 : ℝ) / (2 * 0.003 * 1000) ≤ 0.01
  norm_num

/-- Three points within `0.1` of a resistor of `1`: the resistance is found up to `1/7`. -/
example (R : Routines) (o : Opts) (ho : o.vrn = (0, 10)) :
    ∃ rn vint, normalResistance R o [1, 2, 3] [1.1, 1.9, 3.05] = .ok (rn, vint) ∧ 0 < rn ∧ |rn - 1| ≤ 1 / 7 := by
  have hL : ([((1 : ℝ), (1.1 : ℝ)), (2, 1.9), (3, 3.05)] : List (ℝ × ℝ))
      = (([1, 2, 3] : List ℝ).zip [1.1, 1.9, 3.05]).filter fun p => decide (o.vrn.1 < p.1 ∧ p.1 < o.vrn.2) := by
    rw [ho]
    norm_num
  have hm : meanX [((1 : ℝ), (1.1 : ℝ)), (2, 1.9), (3, 3.05)] = 2 := by
    unfold meanX
    norm_num
  obtain ⟨rn, vint, h1, h2, h3, -⟩ := C180_normal R o [1, 2, 3] [1.1, 1.9, 3.05] (r := 1) (v0 := 0) (ν := 0.1) (w := 0.8) rfl one_pos
    hL (by simp) (by
      intro p hp
      simp only [List.mem_cons, List.not_mem_nil, or_false] at hp
      rcases hp with rfl | rfl | rfl <;> norm_num [abs_le])
    (by norm_num) (by unfold Spread; rw [hm]; norm_num) rfl (by norm_num)
  exact ⟨rn, vint, h1, h2, h3.trans (by norm_num)⟩

end QMix.IvData
