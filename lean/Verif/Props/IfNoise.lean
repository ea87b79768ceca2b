import Verif.Lemmas.IfNoise
import Verif.Props.IvData2
import Verif.Props.IfData

/-!
# Properties of `qmix/exp/if_data.py`: the IF noise (C59), the gain of the IF chain (C86)
-/

namespace QMix.IfData

open Np Fl Clean IvData

/-! ## The shot-noise line (C59) -/

/-- Sum of the squared deviations of points from the line `a x + b`. -/
noncomputable def sumSq (P : List (ℝ × ℝ)) (a b : ℝ) : ℝ := (P.map fun q => (q.2 - (a * q.1 + b)) ^ 2).sum

/-- The line `a x + b` fits the points best. -/
def LeastSquares (P : List (ℝ × ℝ)) (a b : ℝ) : Prop := ∀ a' b', sumSq P a b ≤ sumSq P a' b'

/-- Normalised voltages in mV. -/
noncomputable def inMv (vgap : ℝ) (x : List ℝ) : List ℝ := x.map fun t => t * vgap * 1000

/-- The points of the fit, calibrated: voltage in mV, power in K. -/
noncomputable def inKelvin (vgap c : ℝ) (P : List (ℝ × ℝ)) : List (ℝ × ℝ) :=
  P.map fun q => (q.1 * vgap * 1000, q.2 * c)

theorem sumSq_kelvin (vgap c : ℝ) (hc : c ≠ 0) (P : List (ℝ × ℝ)) (a b : ℝ) :
    sumSq (inKelvin vgap c P) a b = c ^ 2 * resid P (a * vgap * 1000 / c, b / c) := by
  unfold sumSq inKelvin resid
  rw [List.map_map, ← List.sum_map_mul_left]
  congr 1
  apply List.map_congr_left
  intro q _
  simp only [Function.comp_apply]
  field_simp

theorem kelvin_best {vgap c s i : ℝ} {P : List (ℝ × ℝ)} (hc : c = 5.8 / s * vgap * 1e3) (hs : s ≠ 0)
    (hg : vgap ≠ 0) (hb : ∀ q, resid P (s, i) ≤ resid P q) : LeastSquares (inKelvin vgap c P) 5.8 (i * c) := by
  have hc0 : c ≠ 0 := by
    rw [hc]
    apply mul_ne_zero (mul_ne_zero (div_ne_zero (by norm_num) hs) hg) (by norm_num)
  intro a b
  rw [sumSq_kelvin _ _ hc0, sumSq_kelvin _ _ hc0]
  apply mul_le_mul_of_nonneg_left _ (sq_nonneg c)
  have e : (5.8 * vgap * 1000 / c, i * c / c) = (s, i) := by
    rw [mul_div_cancel_right₀ _ hc0, hc]
    congr 1
    field_simp
    norm_num
  rw [e]
  exact hb _

/-- C59: whichever points are chosen (automatically or by the user): after the calibration the line that
fits them best rises by 5.8 K per mV, this line is returned, and the noise is called reasonable if it is
between 0 and 50 K. -/
theorem C59_slope (R : Routines) (o : IfOpts) (dc : DCIV) (x y : List ℝ) (n c : ℝ) (line : List ℝ) (good : Bool)
    (h : findIfNoise R o dc x y = .ok (n, c, line, good)) :
    ∃ P : List (ℝ × ℝ), ∃ b, P.Sublist ((inMv dc.vgap x).zip (y.map (· * c))) ∧
      (∃ p ∈ P, ∃ q ∈ P, p.1 ≠ q.1) ∧ LeastSquares P 5.8 b ∧
      line = (inMv dc.vgap x).map (fun v => 5.8 * v + b) ∧ (good = true ↔ 0 < n ∧ n < 50) := by
  obtain ⟨mask, m0, -, -, l1, l2, ⟨p, hp, q, hq, hne⟩, hs, hg, -, hc, hl, -, hgood⟩ := findIfNoise_ok h
  refine ⟨inKelvin dc.vgap c (chosen mask x y), (closedForm (chosen mask x y)).2 * c, ?_, ?_, ?_, ?_, ?_⟩
  · have := (chosen_sublist mask x y).map fun q => (q.1 * dc.vgap * 1000, q.2 * c)
    unfold inMv
    rw [List.zip_map]
    exact this
  · refine ⟨_, List.mem_map.2 ⟨p, hp, rfl⟩, _, List.mem_map.2 ⟨q, hq, rfl⟩, ?_⟩
    intro he
    simp only [mul_eq_mul_right_iff] at he
    rcases he with (he | he) | he
    · exact hne he
    · exact hg he
    · norm_num at he
  · exact kelvin_best hc hs hg fun r => closedForm_best _ _
  · rw [hl]
    unfold inMv
    rw [List.map_map]
    apply List.map_congr_left
    intro t _
    simp only [Function.comp_apply]
    rw [add_mul]
    congr 1
    rw [hc]
    field_simp
    norm_num
  · rw [hgood, decide_eq_true_iff]

/-- The value of a straight line at a voltage limited to the range of the data. -/
theorem interp_line_clamped {x : List ℝ} (hx : x.Pairwise (· < ·)) {a b : ℝ} (hab : (a ∈ x ∧ b ∈ x))
    (ha : ∀ t ∈ x, a ≤ t) (hb : ∀ t ∈ x, t ≤ b) (c d v : ℝ) :
    RespFn.npInterp x (x.map fun t => c * t + d) v = c * max a (min b v) + d := by
  set L : List (ℝ × ℝ) := x.map fun t => (t, c * t + d) with hL
  have e1 : L.map Prod.fst = x := by rw [hL, List.map_map]; simp [Function.comp_def]
  have e2 : L.map Prod.snd = x.map fun t => c * t + d := by rw [hL, List.map_map]; rfl
  have hI : Incr L := by
    unfold Incr
    rw [hL, List.pairwise_map]
    exact hx
  have hm : ∀ t ∈ x, (t, c * t + d) ∈ L := fun t ht => List.mem_map.2 ⟨t, ht, rfl⟩
  have hline : ∀ p ∈ L, p.2 = c * p.1 + d := by
    intro p hp
    obtain ⟨t, -, rfl⟩ := List.mem_map.1 hp
    rfl
  have hab' : a ≤ b := ha b hab.2
  have key : RespFn.npInterp x (x.map fun t => c * t + d) v = interpAt L v := by
    unfold interpAt
    rw [e1, e2]
  rw [key]
  have hne : L ≠ [] := by intro h; have := hm a hab.1; rw [h] at this; cases this
  rcases lt_or_ge v a with h | h
  · rw [min_eq_right (h.le.trans hab'), max_eq_left h.le]
    obtain ⟨p, l, hpl⟩ := List.exists_cons_of_ne_nil hne
    have hp : p ∈ L := by rw [hpl]; simp
    have hpa : p.1 = a := by
      apply le_antisymm
      · have hmem := hm a hab.1
        rw [hpl] at hmem
        rcases List.mem_cons.1 hmem with h' | h'
        · rw [← h']
        · rw [hpl] at hI
          exact ((List.pairwise_cons.1 hI).1 _ h').le
      · obtain ⟨t, ht, rfl⟩ := List.mem_map.1 hp
        exact ha t ht
    rw [hpl] at hI ⊢
    rw [interpAt_below p l hI v (by rw [hpa]; exact h.le), hline p hp, hpa]
  · rcases lt_or_ge b v with h' | h'
    · rw [min_eq_left h'.le, max_eq_right hab']
      obtain ⟨l, p, hpl⟩ := L.eq_nil_or_concat'.resolve_left hne
      have hp : p ∈ L := by rw [hpl]; simp
      have hpb : p.1 = b := by
        apply le_antisymm
        · obtain ⟨t, ht, rfl⟩ := List.mem_map.1 hp
          exact hb t ht
        · have hmem := hm b hab.2
          rw [hpl] at hmem
          rcases List.mem_append.1 hmem with h'' | h''
          · rw [hpl] at hI
            exact ((List.pairwise_append.1 hI).2.2 _ h'' p (by simp)).le
          · rw [List.mem_singleton] at h''
            rw [← h'']
      rw [hpl] at hI ⊢
      rw [interpAt_above p l hI v (by rw [hpb]; exact h'.le), hline p hp, hpb]
    · rw [min_eq_right h', max_eq_right h]
      exact interpAt_line L hI v c d hline ⟨_, hm a hab.1, h⟩ ⟨_, hm b hab.2, h'⟩

/-- C59: the reported noise is the value of the calibrated line at the voltage `vint` at which the normal
branch of the I-V curve meets the voltage axis, or at the nearest voltage of the data. -/
theorem C59_noise (R : Routines) (o : IfOpts) (dc : DCIV) (x y : List ℝ) (n c : ℝ) (line : List ℝ) (good : Bool)
    (h : findIfNoise R o dc x y = .ok (n, c, line, good)) (hx : x.Pairwise (· < ·)) (hg : 0 < dc.vgap)
    {a b : ℝ} (ha : a ∈ x) (ha' : ∀ t ∈ x, a ≤ t) (hb : b ∈ x) (hb' : ∀ t ∈ x, t ≤ b) {i : ℝ}
    (hl : line = (inMv dc.vgap x).map (fun v => 5.8 * v + i)) :
    n = 5.8 * (max (a * dc.vgap) (min (b * dc.vgap) dc.vint) * 1000) + i := by
  obtain ⟨mask, m0, -, -, -, -, -, -, -, -, -, -, hn, -⟩ := findIfNoise_ok h
  have e : line = x.map fun t => 5.8 * dc.vgap * 1000 * t + i := by
    rw [hl]
    unfold inMv
    rw [List.map_map]
    apply List.map_congr_left
    intro t _
    simp only [Function.comp_apply]
    ring
  rw [hn, e, interp_line_clamped hx ⟨ha, hb⟩ ha' hb']
  have e1 : max (a * dc.vgap) (min (b * dc.vgap) dc.vint) = max a (min b (dc.vint / dc.vgap)) * dc.vgap := by
    rw [max_mul_of_nonneg _ _ hg.le, min_mul_of_nonneg _ _ hg.le, div_mul_cancel₀ _ hg.ne']
  rw [e1]
  ring

/-- C59: if `vint` is not positive, and the data starts at zero as it does after loading, the reported
noise is the intercept of the calibrated line. Missing: positive `vint`, see `C59_false_intercept`. -/
theorem C59_intercept_partial (R : Routines) (o : IfOpts) (dc : DCIV) (x y : List ℝ) (n c : ℝ) (line : List ℝ)
    (good : Bool) (h : findIfNoise R o dc x y = .ok (n, c, line, good)) (hx : x.Pairwise (· < ·))
    (hg : 0 < dc.vgap) (h0 : (0 : ℝ) ∈ x) (h0' : ∀ t ∈ x, 0 ≤ t) (hv : dc.vint ≤ 0) {i : ℝ}
    (hl : line = (inMv dc.vgap x).map (fun v => 5.8 * v + i)) : n = i := by
  obtain ⟨b, hb⟩ := amax_ok (l := x) (by rintro rfl; cases h0)
  have hb2 := (amax_le hb b).1 le_rfl
  rw [C59_noise R o dc x y n c line good h hx hg h0 h0' (amax_mem hb) hb2 hl,
    min_eq_right (hv.trans (mul_nonneg (hb2 0 h0) hg.le)), zero_mul, max_eq_left hv]
  ring

/-! ### Ranges given by the user -/

/-- Does a voltage belong to one of the ranges? -/
def Inside (l : List (ℝ × ℝ)) (v : ℝ) : Prop := ∃ r ∈ l, r.1 < v ∧ v < r.2

/-- The ranges given by the user. -/
def Given (o : IfOpts) (l : List (ℝ × ℝ)) : Prop :=
  (o.vshot = .nested (l.map fun r => [r.1, r.2]) ∧ l ≠ []) ∨ ∃ a b, o.vshot = .flat [a, b] ∧ l = [(a, b)]

open Classical in
theorem userMask_eq (l : List (ℝ × ℝ)) (vgap : ℝ) (x : List ℝ) :
    userMask (l.map fun r => [r.1, r.2]) vgap x = .ok (x.map fun t => decide (Inside l (t * vgap))) := by
  unfold userMask
  have key : ∀ (l : List (ℝ × ℝ)) (c : ℝ → Bool),
      pyFor (l.map fun r => [r.1, r.2]) (x.map c) (fun mask r => do
        let a ← pyGet r 0
        let b ← pyGet r 1
        zip (· || ·) mask (x.map fun t => decide (a < t * vgap ∧ t * vgap < b))) =
      .ok (x.map fun t => c t || decide (Inside l (t * vgap))) := by
    intro l
    induction l with
    | nil =>
      intro c
      show Except.ok _ = _
      congr 1
      apply List.map_congr_left
      intro t _
      simp [Inside]
    | cons r l ih =>
      intro c
      rw [List.map_cons]
      unfold pyFor
      have e : (do
          let a ← pyGet [r.1, r.2] 0
          let b ← pyGet [r.1, r.2] 1
          zip (· || ·) (x.map c) (x.map fun t => decide (a < t * vgap ∧ t * vgap < b))) =
          (.ok (x.map fun t => c t || decide (r.1 < t * vgap ∧ t * vgap < r.2)) : Py (List Bool)) := by
        show zip (· || ·) (x.map c) (x.map fun t => decide (r.1 < t * vgap ∧ t * vgap < r.2)) = _
        rw [zip_map]
      rw [e]
      dsimp only
      rw [ih fun t => c t || decide (r.1 < t * vgap ∧ t * vgap < r.2)]
      congr 1
      apply List.map_congr_left
      intro t _
      unfold Inside
      simp [Bool.or_assoc]
  have := key l fun _ => false
  rw [show List.replicate x.length false = x.map fun _ => false by simp, this]
  simp only [Bool.false_or]

open Classical in
theorem shotMask_given {R : Routines} {o : IfOpts} {l : List (ℝ × ℝ)} (h : Given o l) (vgap : ℝ) (x y : List ℝ) :
    shotMask R o vgap x y = .ok (x.map fun t => decide (Inside l (t * vgap))) := by
  unfold shotMask
  rcases h with ⟨h, hne⟩ | ⟨a, b, h, rfl⟩
  · rw [h]
    obtain ⟨r, l', rfl⟩ := List.exists_cons_of_ne_nil hne
    exact userMask_eq (r :: l') vgap x
  · rw [h]
    exact userMask_eq [(a, b)] vgap x

open Classical in
/-- The voltages of the fit: those in the ranges of the user, or, if there are fewer than five, those above
twice the gap. -/
def Fitted (l : List (ℝ × ℝ)) (vgap : ℝ) (x : List ℝ) (t : ℝ) : Prop :=
  if (x.filter fun t => decide (Inside l (t * vgap))).length < 5 then 2 < t else Inside l (t * vgap)

open Classical in
theorem chosen_map (c : ℝ → Bool) (x y : List ℝ) (h : x.length = y.length) :
    chosen (x.map c) x y = (x.zip y).filter fun p => c p.1 := by
  unfold chosen
  induction x generalizing y with
  | nil => simp
  | cons a x ih =>
    match y, h with
    | b :: y, h =>
      have := ih y (by simpa using h)
      cases hc : c a <;> simp_all

open Classical in
theorem masked_map (c : ℝ → Bool) (x y : List ℝ) (h : x.length = y.length) :
    masked (x.map c) x y = .ok (((x.zip y).filter fun p => c p.1).map Prod.fst,
      ((x.zip y).filter fun p => c p.1).map Prod.snd) := by
  have := masked_points c (x.zip y)
  rwa [List.map_fst_zip (by omega), List.map_snd_zip (by omega)] at this

open Classical in
theorem fitted_mask (l : List (ℝ × ℝ)) (vgap : ℝ) (x : List ℝ) :
    (if (x.map fun t => decide (Inside l (t * vgap))).count true < 5 then x.map fun t => decide (2 < t)
      else x.map fun t => decide (Inside l (t * vgap))) = x.map fun t => decide (Fitted l vgap x t) := by
  have e : (x.map fun t => decide (Inside l (t * vgap))).count true =
      (x.filter fun t => decide (Inside l (t * vgap))).length := by
    rw [List.count, List.countP_map, List.countP_eq_length_filter]
    congr 2
    funext t
    simp
  unfold Fitted
  rw [e]
  split_ifs <;> rfl

/-- C59: a straight shot-noise line, whatever its slope `s` (in units of power per mV) and offset `i`: if the
data lies on it at the voltages of the user, the calibration succeeds, finds the factor `5.8 / s`, and gives
the line `5.8 V + 5.8 i / s` and its value at `vint`. -/
theorem C59_line (R : Routines) (o : IfOpts) (dc : DCIV) (x y : List ℝ) (l : List (ℝ × ℝ)) (s i a b : ℝ)
    (hl : Given o l) (hxy : x.length = y.length) (hx : x.Pairwise (· < ·)) (hg : 0 < dc.vgap) (hs : s ≠ 0)
    (hline : ∀ p ∈ x.zip y, Fitted l dc.vgap x p.1 → p.2 = s * (p.1 * dc.vgap * 1000) + i)
    (h2 : ∃ t ∈ x, ∃ u ∈ x, t ≠ u ∧ Fitted l dc.vgap x t ∧ Fitted l dc.vgap x u)
    (ha : a ∈ x) (ha' : ∀ t ∈ x, a ≤ t) (hb : b ∈ x) (hb' : ∀ t ∈ x, t ≤ b) :
    ∃ n good, findIfNoise R o dc x y =
        .ok (n, 5.8 / s, (inMv dc.vgap x).map (fun v => 5.8 * v + 5.8 * i / s), good) ∧
      n = 5.8 * (max (a * dc.vgap) (min (b * dc.vgap) dc.vint) * 1000) + 5.8 * i / s ∧
      (good = true ↔ 0 < n ∧ n < 50) := by
  classical
  have hfit : ∃ n c line good, findIfNoise R o dc x y = .ok (n, c, line, good) ∧ c = 5.8 / s ∧
      line = (inMv dc.vgap x).map (fun v => 5.8 * v + 5.8 * i / s) ∧ (good = true ↔ 0 < n ∧ n < 50) := by
    unfold findIfNoise
    rw [shotMask_given hl, py_bind]
    dsimp only
    rw [fitted_mask, masked_map _ x y hxy, py_bind]
    dsimp only
    set P := (x.zip y).filter fun p => decide (Fitted l dc.vgap x p.1) with hP
    have hP2 : ∃ p ∈ P, ∃ q ∈ P, p.1 ≠ q.1 := by
      obtain ⟨t, ht, u, hu, hne, f1, f2⟩ := h2
      have get : ∀ t ∈ x, Fitted l dc.vgap x t → ∃ p ∈ P, p.1 = t := by
        intro t ht hf
        have e := List.map_fst_zip (l₁ := x) (l₂ := y) (by omega)
        rw [← e] at ht
        obtain ⟨p, hp, rfl⟩ := List.mem_map.1 ht
        exact ⟨p, List.mem_filter.2 ⟨hp, by simpa using hf⟩, rfl⟩
      obtain ⟨p, hp, rfl⟩ := get t ht f1
      obtain ⟨q, hq, rfl⟩ := get u hu f2
      exact ⟨p, hp, q, hq, hne⟩
    have hcf : closedForm P = (s * (dc.vgap * 1000), i) := by
      apply best_unique (L := P) (closedForm_best P) _ hP2
      intro q hq
      obtain ⟨hq1, hq2⟩ := List.mem_filter.1 hq
      rw [hline q hq1 (by simpa using hq2)]
      ring
    rw [linregress_eq P hP2, py_bind, hcf]
    dsimp only
    have hz : s * (dc.vgap * 1000) ≠ 0 := mul_ne_zero hs (mul_ne_zero hg.ne' (by norm_num))
    rw [Np.fdiv_ok hz, py_bind, Np.fdiv_ok hg.ne', py_bind]
    have hxne : x ≠ [] := by rintro rfl; cases ha
    have hi : ∀ f : List ℝ, x.length = f.length →
        interp [dc.vint / dc.vgap] x f = .ok [RespFn.npInterp x f (dc.vint / dc.vgap)] := by
      intro f hf
      unfold interp
      rw [raiseIf_neg (by simpa using hf), raiseIf_neg hxne]
      rfl
    rw [hi _ (by simp), py_bind]
    have hg0 : ∀ t : ℝ, pyGet [t] 0 = .ok t := fun _ => rfl
    rw [hg0, py_bind]
    have hc : 5.8 / (s * (dc.vgap * 1000)) * dc.vgap * 1e3 = 5.8 / s := by
      field_simp
      norm_num
    refine ⟨_, _, _, _, rfl, hc, ?_, ?_⟩
    · rw [hc]
      unfold inMv
      rw [List.map_map, List.map_map]
      apply List.map_congr_left
      intro t _
      simp only [Function.comp_apply]
      field_simp
    · rw [decide_eq_true_iff]
  obtain ⟨n, c, line, good, h, rfl, rfl, h3⟩ := hfit
  exact ⟨n, good, h, C59_noise R o dc x y _ _ _ _ h hx hg ha ha' hb hb' rfl, h3⟩

/-- Metadata of a junction: only the gap voltage, the intercept and the offset matter here. -/
noncomputable def junction (vgap vint : ℝ) : DCIV where
  vraw := []
  iraw := []
  vnorm := []
  inorm := []
  vgap := vgap
  igap := 1
  fgap := 1
  rn := 1
  rsg := 1
  offset := (0, 0)
  vint := vint
  rseries := none

/-- Options: the line is fitted above 2 mV. -/
noncomputable def above2 : IfOpts where
  vMult := 1
  sigma := none
  vmax := 0.021
  npts := 8
  rseries := none
  vFmt := "V"
  vshot := .flat [0.002, 1]

/-- Eight voltages, and a power that rises in proportion. -/
noncomputable def ramp : List ℝ := [0, 1, 2, 3, 4, 5, 6, 7]

open Classical in
theorem ramp_fitted : ∀ t ∈ ramp, Fitted [(0.002, 1)] 0.003 ramp t ↔ t ≠ 0 := by
  have e : (ramp.filter fun t => decide (Inside [(0.002, 1)] (t * 0.003))) = [1, 2, 3, 4, 5, 6, 7] := by
    unfold ramp
    simp only [Inside, List.filter_cons, List.mem_singleton, exists_eq_left]
    norm_num
  intro t ht
  unfold Fitted
  rw [e]
  simp only [List.length_cons, List.length_nil, Inside, List.mem_singleton, exists_eq_left]
  rw [if_neg (by norm_num)]
  simp only [ramp, List.mem_cons, List.not_mem_nil, or_false] at ht
  rcases ht with rfl | rfl | rfl | rfl | rfl | rfl | rfl | rfl <;> norm_num

/-- The hypotheses of `C59_line` are met, with power in units of 1/3 per mV. -/
theorem ramp_calibrated (R : Routines) (vint : ℝ) :
    ∃ n good, findIfNoise R above2 (junction 0.003 vint) ramp ramp =
        .ok (n, 5.8 / (1 / 3), (inMv 0.003 ramp).map (fun v => 5.8 * v + 5.8 * 0 / (1 / 3)), good) ∧
      n = 5.8 * (max (0 * 0.003) (min (7 * 0.003) vint) * 1000) + 5.8 * 0 / (1 / 3) ∧
      (good = true ↔ 0 < n ∧ n < 50) := by
  refine C59_line R above2 (junction 0.003 vint) ramp ramp [(0.002, 1)] (1 / 3) 0 0 7
    (Or.inr ⟨_, _, rfl, rfl⟩) rfl ?_ ?_ (by norm_num) ?_ ?_ ?_ ?_ ?_ ?_
  · unfold ramp; norm_num
  · show (0 : ℝ) < 0.003; norm_num
  · intro p hp _
    unfold ramp at hp
    simp only [List.zip_cons_cons, List.zip_nil_right, List.mem_cons, List.not_mem_nil, or_false] at hp
    change p.2 = 1 / 3 * (p.1 * 0.003 * 1000) + 0
    rcases hp with rfl | rfl | rfl | rfl | rfl | rfl | rfl | rfl <;> norm_num
  · have h1 : (1 : ℝ) ∈ ramp := by simp [ramp]
    have h2 : (2 : ℝ) ∈ ramp := by simp [ramp]
    exact ⟨1, h1, 2, h2, by norm_num, (ramp_fitted 1 h1).2 (by norm_num), (ramp_fitted 2 h2).2 (by norm_num)⟩
  · simp [ramp]
  · unfold ramp; simp
  · simp [ramp]
  · unfold ramp; simp; norm_num

/-- C59, "the intercept is the reported IF noise", is false for a positive `vint`: on a line through the
origin the reported noise is 5.8 K for `vint` = 1 mV. -/
theorem C59_false_intercept (R : Routines) : ∃ o dc x y n c line good i, dc.vgap = 0.003 ∧ dc.vint = 0.001 ∧
    x.Pairwise (· < ·) ∧ x.head? = some 0 ∧ findIfNoise R o dc x y = .ok (n, c, line, good) ∧
    line = (inMv dc.vgap x).map (fun v => 5.8 * v + i) ∧ i = 0 ∧ n = 5.8 := by
  obtain ⟨n, good, h, hn, -⟩ := ramp_calibrated R 0.001
  refine ⟨above2, junction 0.003 0.001, ramp, ramp, n, _, _, good, _, rfl, rfl, ?_, rfl, h, rfl, ?_, ?_⟩
  · unfold ramp; norm_num
  · norm_num
  · rw [hn]; norm_num

/-- An example of `C59_intercept_partial` (and `C59_slope`, `C59_noise`). -/
example : ∃ n c line good, findIfNoise ideal above2 (junction 0.003 0) ramp ramp = .ok (n, c, line, good) ∧
    (0 : ℝ) ∈ ramp ∧ (∀ t ∈ ramp, 0 ≤ t) ∧ n = 0 := by
  obtain ⟨n, good, h, hn, -⟩ := ramp_calibrated ideal 0
  refine ⟨n, _, _, good, h, by simp [ramp], by unfold ramp; simp, ?_⟩
  rw [hn]; norm_num

/-- Ranges that cannot be used. -/
theorem C59_refused (R : Routines) (o : IfOpts) (dc : DCIV) (x y : List ℝ) :
    (o.vshot = .other → findIfNoise R o dc x y = .error .assertion) ∧
    (o.vshot = .flat [] → findIfNoise R o dc x y = .error .index) ∧
    (∀ a, o.vshot = .flat [a] → findIfNoise R o dc x y = .error .index) ∧
    (o.vshot = .nested [] → findIfNoise R o dc x y = .error .index) := by
  refine ⟨?_, ?_, ?_, ?_⟩
  · intro h; unfold findIfNoise shotMask; rw [h]; rfl
  · intro h; unfold findIfNoise shotMask; rw [h]; rfl
  · intro a h; unfold findIfNoise shotMask; rw [h]; rfl
  · intro h; unfold findIfNoise shotMask; rw [h]; rfl

/-! ## The gain of the IF chain (C59, C86) -/

theorem select_mul (y : List ℝ) (g : ℝ) (mask : List Bool) :
    select (y.map (· * g)) mask = (select y mask).map (List.map (· * g)) := by
  unfold select
  rw [List.length_map]
  split_ifs
  · show Except.ok _ = Except.ok _
    congr 1
    rename_i h
    clear h
    induction y generalizing mask with
    | nil => simp
    | cons a y ih =>
      cases mask with
      | nil => simp
      | cons c mask =>
        have := ih mask
        cases c <;> simpa using this
  · rfl

theorem findIfNoise_gain (R : Routines) (o : IfOpts) (dc : DCIV) (x y : List ℝ) (g : ℝ) (hg : g ≠ 0)
    (hm : shotMask R o dc.vgap x (y.map (· * g)) = shotMask R o dc.vgap x y) :
    findIfNoise R o dc x (y.map (· * g)) =
      (findIfNoise R o dc x y).map fun r => (r.1, r.2.1 / g, r.2.2.1, r.2.2.2) := by
  unfold findIfNoise
  rw [hm]
  cases shotMask R o dc.vgap x y with
  | error e => rfl
  | ok m0 =>
    rw [py_bind, py_bind]
    dsimp only
    generalize (if m0.count true < 5 then x.map fun t => decide (2 < t) else m0) = mask
    have e : masked mask x (y.map (· * g)) = (masked mask x y).map fun r => (r.1, r.2.map (· * g)) := by
      unfold masked
      rw [select_mul]
      cases select x mask with
      | error e => rfl
      | ok a =>
        rw [py_bind, py_bind]
        cases select y mask <;> rfl
    rw [e]
    cases masked mask x y with
    | error e => rfl
    | ok red =>
      change (do let l ← linregress red.1 (red.2.map (· * g)); _) = Except.map _ (do let l ← linregress red.1 red.2; _)
      rw [linregress_smul]
      cases linregress red.1 red.2 with
      | error e => rfl
      | ok l =>
        rw [py_bind]
        change (do let q ← Np.fdiv 5.8 (l.1 * g); _) = _
        by_cases hz : l.1 = 0
        · have : Np.fdiv 5.8 l.1 = .error .nonFinite := by unfold Np.fdiv; rw [if_pos hz]
          have h2 : Np.fdiv 5.8 (l.1 * g) = .error .nonFinite := by
            unfold Np.fdiv; rw [if_pos (by rw [hz, zero_mul])]
          rw [this, h2]
          rfl
        · rw [Np.fdiv_ok hz, Np.fdiv_ok (mul_ne_zero hz hg), py_bind, py_bind]
          have e2 : (x.map fun t => l.1 * g * t + l.2 * g).map (· * (5.8 / (l.1 * g) * dc.vgap * 1e3)) =
              (x.map fun t => l.1 * t + l.2).map (· * (5.8 / l.1 * dc.vgap * 1e3)) := by
            rw [List.map_map, List.map_map]
            apply List.map_congr_left
            intro t _
            simp only [Function.comp_apply]
            field_simp
          have e3 : 5.8 / (l.1 * g) * dc.vgap * 1e3 = 5.8 / l.1 * dc.vgap * 1e3 / g := by
            field_simp
          dsimp only
          rw [e2, e3]
          cases Np.fdiv dc.vint dc.vgap with
          | error e => rfl
          | ok at0 =>
            rw [py_bind, py_bind]
            cases interp [at0] x ((x.map fun t => l.1 * t + l.2).map (· * (5.8 / l.1 * dc.vgap * 1e3))) with
            | error e => rfl
            | ok ns =>
              rw [py_bind, py_bind]
              cases pyGet ns 0 <;> rfl

theorem shotMask_user (R : Routines) (o : IfOpts) (vgap : ℝ) (x y y' : List ℝ) (h : o.vshot ≠ .auto) :
    shotMask R o vgap x y = shotMask R o vgap x y' := by
  unfold shotMask
  cases hv : o.vshot with
  | auto => exact absurd hv h
  | other => rfl
  | flat r => cases r <;> rfl
  | nested l => cases l <;> rfl

/-- C59: with voltage ranges from the user, the calibration does not depend on the gain of the IF chain:
if all powers are multiplied by `g` the correction factor is divided by `g`, so that the calibrated powers
are the same, and noise, line and verdict are the same. -/
theorem C59_gain (R : Routines) (o : IfOpts) (dc : DCIV) (x y : List ℝ) (g : ℝ) (hg : g ≠ 0)
    (hu : o.vshot ≠ .auto) (n c : ℝ) (line : List ℝ) (good : Bool)
    (h : findIfNoise R o dc x y = .ok (n, c, line, good)) :
    ∃ c', findIfNoise R o dc x (y.map (· * g)) = .ok (n, c', line, good) ∧
      (y.map (· * g)).map (· * c') = y.map (· * c) := by
  refine ⟨c / g, ?_, ?_⟩
  · rw [findIfNoise_gain R o dc x y g hg (shotMask_user R o _ _ _ _ hu), h]
    rfl
  · rw [List.map_map]
    apply List.map_congr_left
    intro t _
    simp only [Function.comp_apply]
    field_simp

/-- An example. -/
example : ∃ n c line good, findIfNoise ideal above2 (junction 0.003 0) ramp (ramp.map (· * 7)) =
    .ok (n, c, line, good) ∧ n = 0 := by
  obtain ⟨n, good, h, hn, -⟩ := ramp_calibrated ideal 0
  obtain ⟨c', h', -⟩ := C59_gain ideal above2 (junction 0.003 0) ramp ramp 7 (by norm_num) (by simp [above2]) _ _ _ _ h
  exact ⟨n, c', _, good, h', by rw [hn]; norm_num⟩

/-! ### Points chosen automatically -/

theorem noZeros_id {d : List ℝ} (h : (0 : ℝ) ∉ d) (b : Bool) : MathFn.noZeros b d = d := by
  classical
  unfold MathFn.noZeros
  split_ifs
  · conv_rhs => rw [← List.map_id d]
    apply List.map_congr_left
    intro t ht
    rw [if_neg (by rintro rfl; exact h ht)]
    rfl
  · rfl

/-- The slopes between points eleven apart, without the replacement of zeros. -/
noncomputable def slopes (x z : List ℝ) : List ℝ :=
  tab x.length fun i => MathFn.quot (x.getD · 0) (z.getD · 0) (MathFn.spanPts x.length 5 i).1
    (MathFn.spanPts x.length 5 i).2

theorem slopeSpan11 {x z : List ℝ} (hx : x.Pairwise (· < ·)) (h17 : 17 ≤ x.length) (hz : z.length = x.length)
    (b : Bool) : MathFn.slopeSpanN x z 11 b = .ok (MathFn.noZeros b (slopes x z)) := by
  have ex : x = tab x.length fun i => x.getD i 0 := eq_tab x 0
  have ez : z = tab x.length fun i => z.getD i 0 := by rw [← hz]; exact eq_tab z 0
  have := MathFn.slopeSpanN_eq x.length 5 (by norm_num) (by omega) (fun i => x.getD i 0) (fun i => z.getD i 0) b (by
    intro i j hi hj he
    rw [List.pairwise_iff_getElem] at hx
    simp only [List.getD_eq_getElem?_getD, List.getElem?_eq_getElem hi, List.getElem?_eq_getElem hj,
      Option.getD_some] at he
    rcases lt_trichotomy i j with h | h | h
    · exact absurd he (hx i j hi hj h).ne
    · exact h
    · exact absurd he.symm (hx j i hj hi h).ne)
  rw [← ex, ← ez] at this
  exact this

theorem slopes_mul (x z : List ℝ) (g : ℝ) : slopes x (z.map (· * g)) = (slopes x z).map (· * g) := by
  unfold slopes
  rw [map_tab]
  apply tab_ext rfl
  intro i _
  unfold MathFn.quot
  simp only [getD_map_mul]
  ring

theorem savgol_mul (R : Routines) (y : List ℝ) (w p : ℤ) (g : ℝ) :
    R.savgol (y.map (· * g)) w p = (R.savgol y w p).map (List.map (· * g)) := by
  have := R.savgol_smul y w p g
  simpa only [mul_comm g] using this

theorem median_mul (l : List ℝ) {g : ℝ} (hg : 0 < g) :
    median (l.map (· * g)) = fmul (median l) (num g) := by
  classical
  unfold median
  by_cases h : l = []
  · rw [h]; rfl
  rw [if_neg h, if_neg (by simpa using h), fmul_num]
  have e : (l.map (· * g)).mergeSort (fun a b => decide (a ≤ b)) =
      (l.mergeSort fun a b => decide (a ≤ b)).map (· * g) := by
    symm
    apply List.map_mergeSort
    intro a _ b _
    simp [hg]
  dsimp only
  rw [e, List.length_map, getD_map_mul, getD_map_mul]
  congr 1
  ring

/-- The filtered slope and the filtered size of the second slope. -/
def Smoothed (R : Routines) (x y yf d e : List ℝ) : Prop :=
  R.savgol y 21 3 = .ok yf ∧ R.savgol (slopes x yf) 51 3 = .ok d ∧
    R.savgol ((slopes x d).map fun t => |t|) 51 3 = .ok e

theorem below_median (t : ℝ) (l : List ℝ) {g : ℝ} (hg : 0 < g) :
    (0 < t * g ∧ flt (num (t * g)) (fmul (median (l.map (· * g))) (num 2))) ↔
      (0 < t ∧ flt (num t) (fmul (median l) (num 2))) := by
  rw [median_mul l hg, mul_pos_iff_of_pos_right hg]
  by_cases h : l = []
  · have : median l = none := by unfold median; rw [if_pos h]
    rw [this]
    exact Iff.rfl
  · obtain ⟨m, hm⟩ : ∃ m : ℝ, median l = num m := by
      unfold median; rw [if_neg h]; exact ⟨_, rfl⟩
    rw [hm, fmul_num, fmul_num, fmul_num, flt_num, flt_num, mul_right_comm, mul_lt_mul_iff_left₀ hg]

open Classical in
/-- With no slope exactly zero, the choice of the points does not depend on the gain. -/
theorem autoMask_gain (R : Routines) {x y yf d e : List ℝ} (hx : x.Pairwise (· < ·)) (h17 : 17 ≤ x.length)
    (hy : y.length = x.length) (h : Smoothed R x y yf d e) (h1 : (0 : ℝ) ∉ slopes x yf) (h2 : (0 : ℝ) ∉ slopes x d)
    {g : ℝ} (hg : 0 < g) : autoMask R x (y.map (· * g)) = autoMask R x y := by
  obtain ⟨s1, s2, s3⟩ := h
  have hyf : yf.length = x.length := by rw [R.savgol_length _ _ _ _ s1, hy]
  have hd : d.length = x.length := by rw [R.savgol_length _ _ _ _ s2]; unfold slopes; rw [tab_length]
  have he : e.length = x.length := by rw [R.savgol_length _ _ _ _ s3, List.length_map]; unfold slopes; rw [tab_length]
  have nz : ∀ l : List ℝ, (0 : ℝ) ∉ l → (0 : ℝ) ∉ l.map (· * g) := by
    intro l hl hm
    obtain ⟨t, ht, h0⟩ := List.mem_map.1 hm
    rcases mul_eq_zero.1 h0 with h | h
    · rw [h] at ht; exact hl ht
    · exact hg.ne' h
  unfold autoMask
  rw [savgol_mul, s1]
  change (do
    let dd ← MathFn.slopeSpanN x (yf.map (· * g)) 11 true
    _) = (do let dd ← MathFn.slopeSpanN x yf 11 true; _)
  rw [slopeSpan11 hx h17 hyf, slopeSpan11 hx h17 (by rw [List.length_map, hyf]), slopes_mul, noZeros_id h1,
    noZeros_id (nz _ h1), py_bind, py_bind, savgol_mul, s2]
  change (do
    let dd ← MathFn.slopeSpanN x (d.map (· * g)) 11 true
    _) = (do let dd ← MathFn.slopeSpanN x d 11 true; _)
  rw [slopeSpan11 hx h17 hd, slopeSpan11 hx h17 (by rw [List.length_map, hd]), slopes_mul, noZeros_id h2,
    noZeros_id (nz _ h2), py_bind, py_bind]
  have habs : ∀ l : List ℝ, (l.map (· * g)).map (fun t => |t|) = (l.map fun t => |t|).map (· * g) := by
    intro l
    rw [List.map_map, List.map_map]
    apply List.map_congr_left
    intro t _
    simp only [Function.comp_apply, abs_mul, abs_of_pos hg]
  rw [habs, savgol_mul, s3]
  change (do
    let top ← amax ((e.map (· * g)).map fun t => |t|)
    _) = (do let top ← amax (e.map fun t => |t|); _)
  rw [habs]
  have hne : (e.map fun t => |t|) ≠ [] := by
    intro h
    have : e = [] := by simpa using h
    rw [this] at he
    simp at he
    omega
  obtain ⟨top, htop⟩ := amax_ok hne
  have htop' : amax ((e.map fun t => |t|).map (· * g)) = .ok (top * g) := by
    apply amax_eq
    · exact List.mem_map_of_mem (amax_mem htop)
    · intro y hy
      obtain ⟨t, ht, rfl⟩ := List.mem_map.1 hy
      exact mul_le_mul_of_nonneg_right ((amax_le htop top).1 le_rfl t ht) hg.le
  rw [htop, htop', py_bind, py_bind]
  have em : zip (fun a b => decide (1.7 < a ∧ |b| < top * g * 1e-2)) x (e.map (· * g)) =
      zip (fun a b => decide (1.7 < a ∧ |b| < top * 1e-2)) x e := by
    unfold zip
    rw [List.length_map, if_pos he.symm, if_pos he.symm, List.zipWith_map_right]
    congr 2
    funext a b
    rw [decide_eq_decide, abs_mul, abs_of_pos hg, mul_right_comm, mul_lt_mul_iff_left₀ hg]
  rw [em]
  cases zip (fun a b => decide (1.7 < a ∧ |b| < top * 1e-2)) x e with
  | error e => rfl
  | ok m1 =>
    rw [py_bind, py_bind, select_mul]
    cases select d m1 with
    | error e => rfl
    | ok sel =>
      rw [py_bind]
      change (do
        let m ← zip (· && ·) m1 ((d.map (· * g)).map fun t =>
          decide (0 < t ∧ flt (num t) (fmul (median (sel.map (· * g))) (num 2))))
        _) = _
      have : ((d.map (· * g)).map fun t =>
          decide (0 < t ∧ flt (num t) (fmul (median (sel.map (· * g))) (num 2)))) =
          d.map fun t => decide (0 < t ∧ flt (num t) (fmul (median sel) (num 2))) := by
        rw [List.map_map]
        apply List.map_congr_left
        intro t _
        simp only [Function.comp_apply]
        exact decide_eq_decide.2 (below_median t sel hg)
      rw [this]

/-- C59: the same for the automatic choice of the points, if none of the slopes is exactly zero. Missing:
data with a slope that is exactly zero, where the code puts `1e-10` whatever the unit of the power. -/
theorem C59_gain_auto_partial (R : Routines) (o : IfOpts) (dc : DCIV) (x y yf d e : List ℝ)
    (hx : x.Pairwise (· < ·)) (h17 : 17 ≤ x.length) (hy : y.length = x.length) (hs : Smoothed R x y yf d e)
    (h1 : (0 : ℝ) ∉ slopes x yf) (h2 : (0 : ℝ) ∉ slopes x d) (g : ℝ) (hg : 0 < g) (ho : o.vshot = .auto)
    (n c : ℝ) (line : List ℝ) (good : Bool) (h : findIfNoise R o dc x y = .ok (n, c, line, good)) :
    ∃ c', findIfNoise R o dc x (y.map (· * g)) = .ok (n, c', line, good) ∧
      (y.map (· * g)).map (· * c') = y.map (· * c) := by
  refine ⟨c / g, ?_, ?_⟩
  · rw [findIfNoise_gain R o dc x y g hg.ne', h]
    · rfl
    · unfold shotMask
      rw [ho]
      exact autoMask_gain R hx h17 hy hs h1 h2 hg
  · rw [List.map_map]
    apply List.map_congr_left
    intro t _
    simp only [Function.comp_apply]
    field_simp

/-! An example: a parabola of eighteen points. -/

/-- The voltages 0 to 17. -/
noncomputable def eighteen : List ℝ := tab 18 fun i => (i : ℝ)

/-- Their squares. -/
noncomputable def squares : List ℝ := tab 18 fun i => (i : ℝ) ^ 2

/-- The slopes of the parabola. -/
def parSlope (i : ℕ) : ℕ := (MathFn.spanPts 18 5 i).1 + (MathFn.spanPts 18 5 i).2

theorem slopes_squares : slopes eighteen squares = tab 18 fun i => (parSlope i : ℝ) := by
  unfold slopes eighteen squares
  rw [tab_length]
  apply tab_ext rfl
  intro i hi
  obtain ⟨h1, h2⟩ := MathFn.spanPts_range (N := 18) (k := 5) (by norm_num) (by norm_num) hi
  unfold MathFn.quot
  dsimp only
  rw [tab_getD h1, tab_getD (h2.trans h1), tab_getD h1, tab_getD (h2.trans h1)]
  unfold parSlope
  have h2' : ((MathFn.spanPts 18 5 i).2 : ℝ) < (MathFn.spanPts 18 5 i).1 := by exact_mod_cast h2
  push_cast
  rw [div_eq_iff (by linarith)]
  ring

theorem slopes_second : slopes eighteen (tab 18 fun i => (parSlope i : ℝ)) = tab 18 fun i =>
    ((parSlope (MathFn.spanPts 18 5 i).1 : ℝ) - parSlope (MathFn.spanPts 18 5 i).2) /
      ((MathFn.spanPts 18 5 i).1 - (MathFn.spanPts 18 5 i).2) := by
  unfold slopes eighteen
  rw [tab_length]
  apply tab_ext rfl
  intro i hi
  obtain ⟨h1, h2⟩ := MathFn.spanPts_range (N := 18) (k := 5) (by norm_num) (by norm_num) hi
  unfold MathFn.quot
  dsimp only
  rw [tab_getD h1, tab_getD (h2.trans h1), tab_getD h1, tab_getD (h2.trans h1)]

theorem second_size (i : ℕ) (hi : i < 18) :
    2 / 9 ≤ |((parSlope (MathFn.spanPts 18 5 i).1 : ℝ) - parSlope (MathFn.spanPts 18 5 i).2) /
      ((MathFn.spanPts 18 5 i).1 - (MathFn.spanPts 18 5 i).2)| ∧
    |((parSlope (MathFn.spanPts 18 5 i).1 : ℝ) - parSlope (MathFn.spanPts 18 5 i).2) /
      ((MathFn.spanPts 18 5 i).1 - (MathFn.spanPts 18 5 i).2)| ≤ 4 := by
  interval_cases i <;> norm_num [parSlope, MathFn.spanPts, abs_of_pos, abs_div]

theorem zip_false (n : ℕ) (l : List Bool) (h : l.length = n) :
    zip (· && ·) (List.replicate n false) l = .ok (List.replicate n false) := by
  unfold zip
  rw [if_pos (by simp [h])]
  congr 1
  subst h
  induction l with
  | nil => rfl
  | cons a l ih => simpa [List.replicate_succ] using ih

theorem auto_squares : ∃ e, Smoothed ideal eighteen squares squares (tab 18 fun i => (parSlope i : ℝ)) e ∧
    autoMask ideal eighteen squares = .ok (List.replicate 18 false) := by
  have hx : eighteen.Pairwise (· < ·) := by
    unfold eighteen tab
    rw [List.pairwise_map]
    exact List.pairwise_lt_range.imp fun h => by exact_mod_cast h
  have hl : eighteen.length = 18 := by unfold eighteen; rw [tab_length]
  have hl2 : squares.length = 18 := by unfold squares; rw [tab_length]
  set E := (slopes eighteen (tab 18 fun i => (parSlope i : ℝ))).map fun t => |t| with hE
  have hEeq : E = tab 18 fun i => |((parSlope (MathFn.spanPts 18 5 i).1 : ℝ) - parSlope (MathFn.spanPts 18 5 i).2) /
      ((MathFn.spanPts 18 5 i).1 - (MathFn.spanPts 18 5 i).2)| := by
    rw [hE, slopes_second, map_tab]
  have hE1 : ∀ t ∈ E, 2 / 9 ≤ t ∧ t ≤ 4 := by
    rw [hEeq]
    intro t ht
    obtain ⟨i, hi, rfl⟩ := mem_tab.1 ht
    exact second_size i hi
  have hEl : E.length = 18 := by rw [hEeq, tab_length]
  refine ⟨E, ⟨rfl, ?_, rfl⟩, ?_⟩
  · rw [slopes_squares]; rfl
  have n1 : (0 : ℝ) ∉ slopes eighteen squares := by
    rw [slopes_squares]
    intro h
    obtain ⟨i, hi, h⟩ := mem_tab.1 h
    have h : parSlope i = 0 := by exact_mod_cast h
    interval_cases i <;> revert h <;> decide
  have n2 : (0 : ℝ) ∉ slopes eighteen (tab 18 fun i => (parSlope i : ℝ)) := by
    intro h
    have := hE1 |0| (List.mem_map_of_mem h)
    norm_num at this
  have habs : (E.map fun t => |t|) = E := by
    conv_rhs => rw [← List.map_id E]
    apply List.map_congr_left
    intro t ht
    exact abs_of_pos (by linarith [(hE1 t ht).1])
  obtain ⟨top, htop⟩ := amax_ok (l := E) (by intro h; rw [h] at hEl; cases hEl)
  unfold autoMask
  have sv : ∀ y w p, ideal.savgol y w p = .ok y := fun _ _ _ => rfl
  rw [sv, py_bind, slopeSpan11 hx (by omega) (by omega), noZeros_id n1, py_bind, sv, py_bind, slopes_squares,
    slopeSpan11 hx (by omega) (by rw [tab_length, hl]), noZeros_id n2, py_bind, sv, py_bind, ← hE, habs, htop, py_bind]
  have m1 : zip (fun a b => decide (1.7 < a ∧ |b| < top * 1e-2)) eighteen E = .ok (List.replicate 18 false) := by
    unfold zip
    rw [if_pos (by omega)]
    congr 1
    apply List.eq_replicate_iff.2
    refine ⟨by simp [hl, hEl], ?_⟩
    intro b hb
    obtain ⟨i, hi, rfl⟩ := List.getElem_of_mem hb
    rw [List.getElem_zipWith, decide_eq_false_iff_not]
    rintro ⟨-, h⟩
    have h1 := (hE1 _ (List.getElem_mem (l := E) (n := i) (by simp at hi; omega))).1
    have h2 := (hE1 top (amax_mem htop)).2
    rw [abs_of_pos (by linarith)] at h
    norm_num at h
    linarith
  rw [m1, py_bind]
  obtain ⟨sel, hsel⟩ : ∃ sel, select (tab 18 fun i => (parSlope i : ℝ)) (List.replicate 18 false) = .ok sel := by
    unfold select
    rw [if_pos (by simp)]
    exact ⟨_, rfl⟩
  rw [hsel, py_bind]
  dsimp only
  rw [zip_false 18 _ (by simp), py_bind]
  rfl

/-- The automatic choice finds nothing here, and the line is fitted above twice the gap. -/
theorem squares_calibrated (o : IfOpts) (ho : o.vshot = .auto) :
    ∃ n c line good, findIfNoise ideal o (junction 0.003 0) eighteen squares = .ok (n, c, line, good) := by
  classical
  obtain ⟨e, -, hm⟩ := auto_squares
  have hmask : shotMask ideal o (junction 0.003 0).vgap eighteen squares = .ok (List.replicate 18 false) := by
    unfold shotMask
    rw [ho]
    exact hm
  set P : List (ℝ × ℝ) := (eighteen.zip squares).filter fun p => decide (2 < p.1) with hP
  have hPeq : P = [(3, 9), (4, 16), (5, 25), (6, 36), (7, 49), (8, 64), (9, 81), (10, 100), (11, 121), (12, 144),
      (13, 169), (14, 196), (15, 225), (16, 256), (17, 289)] := by
    rw [hP]
    unfold eighteen squares tab
    simp only [List.range_succ, List.range_zero, List.nil_append, List.cons_append, List.map_cons, List.map_nil,
      List.zip_cons_cons, List.zip_nil_right, List.filter_cons, List.filter_nil]
    norm_num
  have hP2 : ∃ a ∈ P, ∃ b ∈ P, a.1 ≠ b.1 := ⟨(3, 9), by rw [hPeq]; simp, (4, 16), by rw [hPeq]; simp, by norm_num⟩
  have hs : (closedForm P).1 = 20 := by
    rw [hPeq]
    unfold closedForm sm
    norm_num
  have hred := masked_map (fun t => decide (2 < t)) eighteen squares (by unfold eighteen squares; simp)
  unfold findIfNoise
  rw [hmask, py_bind]
  dsimp only
  rw [if_pos (by decide), hred, py_bind]
  dsimp only
  rw [← hP, linregress_eq P hP2, py_bind, hs, Np.fdiv_ok (by norm_num), py_bind]
  rw [Np.fdiv_ok (show (junction 0.003 0).vgap ≠ 0 by show (0.003 : ℝ) ≠ 0; norm_num), py_bind]
  have hi : ∀ f : List ℝ, eighteen.length = f.length → ∀ t,
      interp [t] eighteen f = .ok [RespFn.npInterp eighteen f t] := by
    intro f hf t
    unfold interp
    rw [raiseIf_neg (by simpa using hf), raiseIf_neg (by unfold eighteen; simp [tab])]
    rfl
  rw [hi _ (by simp), py_bind]
  exact ⟨_, _, _, _, rfl⟩

example (o : IfOpts) (ho : o.vshot = .auto) : ∃ n c line good,
    findIfNoise ideal o (junction 0.003 0) eighteen (squares.map (· * 1e-12)) = .ok (n, c, line, good) := by
  obtain ⟨n, c, line, good, h⟩ := squares_calibrated o ho
  obtain ⟨e, he, -⟩ := auto_squares
  obtain ⟨c', h', -⟩ := C59_gain_auto_partial ideal o (junction 0.003 0) eighteen squares squares _ e
    (by
      unfold eighteen tab
      rw [List.pairwise_map]
      exact List.pairwise_lt_range.imp fun h => by exact_mod_cast h) (by unfold eighteen; simp) (by
      unfold eighteen squares; simp) he (by
      rw [slopes_squares]
      intro h
      obtain ⟨i, hi, h⟩ := mem_tab.1 h
      have h : parSlope i = 0 := by exact_mod_cast h
      interval_cases i <;> revert h <;> decide) (by
      rw [slopes_second]
      intro h
      obtain ⟨i, hi, h⟩ := mem_tab.1 h
      have := (second_size i hi).1
      rw [h] at this
      norm_num at this) 1e-12 (by norm_num) ho n c line good h
  exact ⟨n, c', line, good, h'⟩

/-! A counterexample: a parabola that goes over into a straight line. -/

/-- The voltages 0 to 29. -/
noncomputable def thirty : List ℝ := tab 30 fun i => (i : ℝ)

/-- A parabola up to 8, a straight line from there on. -/
def bentAt (i : ℕ) : ℕ := if i ≤ 8 then i ^ 2 else 64 + (i - 8) * 34

/-- The powers. -/
noncomputable def bent : List ℝ := tab 30 fun i => (bentAt i : ℝ)

/-- Their slopes. -/
noncomputable def bent1 (i : ℕ) : ℝ :=
  ((bentAt (MathFn.spanPts 30 5 i).1 : ℝ) - bentAt (MathFn.spanPts 30 5 i).2) /
    ((MathFn.spanPts 30 5 i).1 - (MathFn.spanPts 30 5 i).2)

/-- The slopes of the slopes. -/
noncomputable def bent2 (i : ℕ) : ℝ :=
  (bent1 (MathFn.spanPts 30 5 i).1 - bent1 (MathFn.spanPts 30 5 i).2) /
    ((MathFn.spanPts 30 5 i).1 - (MathFn.spanPts 30 5 i).2)

theorem bent_slopes : slopes thirty bent = tab 30 bent1 ∧ slopes thirty (tab 30 bent1) = tab 30 bent2 := by
  constructor
  · unfold slopes thirty bent
    rw [tab_length]
    apply tab_ext rfl
    intro i hi
    obtain ⟨h1, h2⟩ := MathFn.spanPts_range (N := 30) (k := 5) (by norm_num) (by norm_num) hi
    unfold MathFn.quot
    dsimp only
    rw [tab_getD h1, tab_getD (h2.trans h1), tab_getD h1, tab_getD (h2.trans h1)]
    rfl
  · unfold slopes thirty
    rw [tab_length]
    apply tab_ext rfl
    intro i hi
    obtain ⟨h1, h2⟩ := MathFn.spanPts_range (N := 30) (k := 5) (by norm_num) (by norm_num) hi
    unfold MathFn.quot
    dsimp only
    rw [tab_getD h1, tab_getD (h2.trans h1), tab_getD h1, tab_getD (h2.trans h1)]
    rfl

theorem bent1_pos (i : ℕ) (hi : i < 30) : 0 < bent1 i := by
  interval_cases i <;> norm_num [bent1, bentAt, MathFn.spanPts]

theorem bent1_line (i : ℕ) (hi : i < 30) (h : 20 ≤ i) : bent1 i = 34 ∧ bent2 i = 0 := by
  interval_cases i <;> norm_num [bent2, bent1, bentAt, MathFn.spanPts]

theorem bent2_curve (i : ℕ) (h : i < 20) : 19 / 121 ≤ |bent2 i| ∧ |bent2 i| ≤ 173 / 27 := by
  interval_cases i <;> norm_num [bent2, bent1, bentAt, MathFn.spanPts, abs_div]

theorem thirty_incr : thirty.Pairwise (· < ·) := by
  unfold thirty tab
  rw [List.pairwise_map]
  exact List.pairwise_lt_range.imp fun h => by exact_mod_cast h

open Classical in
/-- The second slopes as the code sees them, with zeros replaced. -/
noncomputable def seen (g : ℝ) (i : ℕ) : ℝ := |if bent2 i * g = 0 then 1 / 10 ^ 10 else bent2 i * g|

theorem seen_line {g : ℝ} {i : ℕ} (hi : i < 30) (h : 20 ≤ i) : seen g i = 1 / 10 ^ 10 := by
  unfold seen
  rw [if_pos (by rw [(bent1_line i hi h).2, zero_mul])]
  norm_num

theorem seen_curve {g : ℝ} (hg : 0 < g) {i : ℕ} (h : i < 20) : 19 / 121 * g ≤ seen g i ∧ seen g i ≤ 173 / 27 * g := by
  obtain ⟨h1, h2⟩ := bent2_curve i h
  have : bent2 i ≠ 0 := by intro h0; rw [h0] at h1; norm_num at h1
  unfold seen
  rw [if_neg (mul_ne_zero this hg.ne'), abs_mul, abs_of_pos hg]
  exact ⟨mul_le_mul_of_nonneg_right h1 hg.le, mul_le_mul_of_nonneg_right h2 hg.le⟩

open Classical in
/-- The first steps of the automatic choice. -/
theorem auto_bent {g : ℝ} (hg : 0 < g) {top : ℝ} (htop : amax (tab 30 (seen g)) = .ok top) (m1 : ℕ → Bool)
    (hm1 : ∀ i, i < 30 → (m1 i = true ↔ 1.7 < (i : ℝ) ∧ seen g i < top * 1e-2)) :
    autoMask ideal thirty (bent.map (· * g)) = (do
      let sel ← select (tab 30 fun i => bent1 i * g) (tab 30 m1)
      let m ← zip (· && ·) (tab 30 m1) (tab 30 fun i =>
        decide (0 < bent1 i * g ∧ flt (num (bent1 i * g)) (fmul (median sel) (num 2))))
      let both ← zip (· && ·) (slice m none (some (-1))) (slice m (some 1) none)
      let m3 ← setSlice (List.replicate m.length false) none (some (-1)) both
      zip (· && ·) m m3) := by
  have hl : thirty.length = 30 := by unfold thirty; rw [tab_length]
  have hl2 : bent.length = 30 := by unfold bent; rw [tab_length]
  have sv : ∀ y w p, ideal.savgol y w p = .ok y := fun _ _ _ => rfl
  have e1 : slopes thirty (bent.map (· * g)) = tab 30 fun i => bent1 i * g := by
    rw [slopes_mul, bent_slopes.1, map_tab]
  have e2 : slopes thirty (tab 30 fun i => bent1 i * g) = tab 30 fun i => bent2 i * g := by
    have : (tab 30 fun i => bent1 i * g) = (tab 30 bent1).map (· * g) := by rw [map_tab]
    rw [this, slopes_mul, bent_slopes.2, map_tab]
  have n1 : (0 : ℝ) ∉ tab 30 fun i => bent1 i * g := by
    intro h
    obtain ⟨i, hi, h⟩ := mem_tab.1 h
    exact (mul_pos (bent1_pos i hi) hg).ne' h
  have e3 : (MathFn.noZeros true (tab 30 fun i => bent2 i * g)).map (fun t => |t|) = tab 30 (seen g) := by
    unfold MathFn.noZeros
    rw [if_pos rfl, map_tab, map_tab]
    rfl
  have e4 : (tab 30 (seen g)).map (fun t => |t|) = tab 30 (seen g) := by
    rw [map_tab]
    apply tab_ext rfl
    intro i _
    unfold seen
    rw [abs_abs]
  have e5 : zip (fun a b => decide (1.7 < a ∧ |b| < top * 1e-2)) thirty (tab 30 (seen g)) = .ok (tab 30 m1) := by
    unfold thirty
    rw [zip_tab]
    congr 1
    apply tab_ext rfl
    intro i hi
    rw [← Bool.coe_iff_coe, decide_eq_true_iff, hm1 i hi]
    unfold seen
    rw [abs_abs]
  unfold autoMask
  rw [sv, py_bind, slopeSpan11 thirty_incr (by omega) (by rw [List.length_map]; omega), e1, noZeros_id n1, py_bind, sv,
    py_bind, slopeSpan11 thirty_incr (by omega) (by rw [tab_length, hl]), e2, py_bind, e3, sv, py_bind, e4, htop,
    py_bind, e5, py_bind]
  simp only [map_tab]

theorem top_bent {g : ℝ} : ∃ top, amax (tab 30 (seen g)) = .ok top ∧ ∃ i, i < 30 ∧ seen g i = top ∧
    ∀ j, j < 30 → seen g j ≤ top := by
  obtain ⟨top, h⟩ := amax_ok (l := tab 30 (seen g)) (by simp [tab])
  obtain ⟨i, hi, e⟩ := mem_tab.1 (amax_mem h)
  exact ⟨top, h, i, hi, e, fun j hj => (amax_le h top).1 le_rfl _ (mem_tab.2 ⟨j, hj, rfl⟩)⟩

/-- With powers of this size the straight part is found. -/
theorem auto_bent_large : autoMask ideal thirty bent = .ok (tab 30 fun i => decide (20 ≤ i ∧ i < 29)) := by
  classical
  obtain ⟨top, htop, i, hi, he, hle⟩ := top_bent (g := 1)
  have h0 := hle 0 (by norm_num)
  have hc0 := seen_curve (g := 1) one_pos (i := 0) (by norm_num)
  have hb : top ≤ 173 / 27 := by
    rw [← he]
    by_cases h : i < 20
    · linarith [(seen_curve (g := 1) one_pos h).2]
    · rw [seen_line hi (by omega)]; norm_num
  have key := auto_bent (g := 1) one_pos htop (fun i => decide (20 ≤ i)) (by
    intro j hj
    rw [decide_eq_true_iff]
    constructor
    · intro h
      rw [seen_line hj h]
      have : (20 : ℝ) ≤ j := by exact_mod_cast h
      refine ⟨by norm_num; linarith, ?_⟩
      norm_num at *
      linarith
    · rintro ⟨-, h⟩
      by_contra hc
      have := (seen_curve (g := 1) one_pos (i := j) (by omega)).1
      norm_num at *
      linarith)
  have e0 : bent.map (· * 1) = bent := by simp
  rw [e0] at key
  rw [key]
  simp only [mul_one]
  have hsel : select (tab 30 bent1) (tab 30 fun i => decide (20 ≤ i)) = .ok (List.replicate 10 34) := by
    unfold select
    rw [if_pos (by simp)]
    have : (tab 30 bent1).zip (tab 30 fun i => decide (20 ≤ i)) = tab 30 fun i => (bent1 i, decide (20 ≤ i)) := by
      unfold tab
      rw [List.zip_map']
    rw [this]
    unfold tab
    rw [List.filter_map, List.map_map]
    have : (List.range 30).filter ((fun p : ℝ × Bool => p.2) ∘ fun i => (bent1 i, decide (20 ≤ i))) =
        [20, 21, 22, 23, 24, 25, 26, 27, 28, 29] := by
      change (List.range 30).filter (fun i => decide (20 ≤ i)) = _
      decide
    rw [this]
    congr 1
    rw [List.eq_replicate_iff]
    refine ⟨rfl, ?_⟩
    intro b hb
    obtain ⟨i, hi, rfl⟩ := List.mem_map.1 hb
    simp only [List.mem_cons, List.not_mem_nil, or_false] at hi
    exact (bent1_line i (by omega) (by omega)).1
  have hmed : median (List.replicate 10 (34 : ℝ)) = num 34 := by
    unfold median
    rw [if_neg (by simp)]
    have hall : ∀ t ∈ (List.replicate 10 (34 : ℝ)).mergeSort (fun a b => decide (a ≤ b)), t = 34 := by
      intro t ht
      rw [List.mem_mergeSort] at ht
      exact (List.mem_replicate.1 ht).2
    have hlen : ((List.replicate 10 (34 : ℝ)).mergeSort (fun a b => decide (a ≤ b))).length = 10 := by
      rw [List.length_mergeSort, List.length_replicate]
    rw [List.eq_replicate_iff.2 ⟨hlen, hall⟩]
    simp only [List.length_replicate]
    norm_num
  rw [hsel, py_bind, hmed, fmul_num]
  have e6 : zip (· && ·) (tab 30 fun i => decide (20 ≤ i)) (tab 30 fun i =>
      decide (0 < bent1 i ∧ flt (num (bent1 i)) (num (34 * 2)))) = .ok (tab 30 fun i => decide (20 ≤ i)) := by
    rw [zip_tab]
    congr 1
    apply tab_ext rfl
    intro i hi
    by_cases h : 20 ≤ i
    · have := (bent1_line i hi h).1
      rw [this]
      have h2 : (0 : ℝ) < 34 ∧ flt (num 34) (num (34 * 2)) := ⟨by norm_num, flt_num.2 (by norm_num)⟩
      rw [decide_eq_true h2, Bool.and_true]
    · rw [decide_eq_false h, Bool.false_and]
  rw [e6, py_bind]
  decide

/-- With powers ten orders of magnitude smaller nothing is found. -/
theorem auto_bent_small : autoMask ideal thirty (bent.map (· * (1 / 10 ^ 10))) = .ok (List.replicate 30 false) := by
  classical
  have hg : (0 : ℝ) < 1 / 10 ^ 10 := by norm_num
  obtain ⟨top, htop, i, hi, he, hle⟩ := top_bent (g := 1 / 10 ^ 10)
  have hb : top ≤ 173 / 27 * (1 / 10 ^ 10) := by
    rw [← he]
    by_cases h : i < 20
    · exact (seen_curve hg h).2
    · rw [seen_line hi (by omega)]; norm_num
  rw [auto_bent hg htop (fun _ => false) (by
    intro j hj
    constructor
    · intro h; cases h
    · rintro ⟨-, h⟩
      exfalso
      by_cases hc : j < 20
      · have := (seen_curve hg hc).1
        norm_num at *
        linarith
      · rw [seen_line hj (by omega)] at h
        norm_num at *
        linarith)]
  obtain ⟨sel, hsel⟩ : ∃ sel, select (tab 30 fun i => bent1 i * (1 / 10 ^ 10)) (tab 30 fun _ => false) = .ok sel := by
    unfold select
    rw [if_pos (by simp)]
    exact ⟨_, rfl⟩
  rw [hsel, py_bind]
  have : (tab 30 fun _ => false) = List.replicate 30 false := by decide
  rw [this, zip_false 30 _ (by simp), py_bind]
  rfl

theorem find_masked {R : Routines} {o : IfOpts} {dc : DCIV} {x y : List ℝ} (hxy : x.length = y.length) (hx : x ≠ [])
    {m0 : List Bool} (h0 : shotMask R o dc.vgap x y = .ok m0) (c : ℝ → Bool)
    (hc : (if m0.count true < 5 then x.map fun t => decide (2 < t) else m0) = x.map c)
    (hg : dc.vgap ≠ 0) (h2 : ∃ a ∈ (x.zip y).filter (fun p => c p.1), ∃ b ∈ (x.zip y).filter (fun p => c p.1), a.1 ≠ b.1)
    {s : ℝ} (hs : (closedForm ((x.zip y).filter fun p => c p.1)).1 = s) (hs0 : s ≠ 0) :
    ∃ n line good, findIfNoise R o dc x y = .ok (n, 5.8 / s * dc.vgap * 1e3, line, good) := by
  classical
  unfold findIfNoise
  rw [h0, py_bind]
  dsimp only
  have hred := masked_map c x y hxy
  rw [← hc] at hred
  have hi : ∀ f : List ℝ, x.length = f.length → ∀ t, interp [t] x f = .ok [RespFn.npInterp x f t] := by
    intro f hf t
    unfold interp
    rw [raiseIf_neg (by simpa using hf), raiseIf_neg hx]
    rfl
  rw [hred, py_bind]
  dsimp only
  rw [linregress_eq _ h2, py_bind, hs, Np.fdiv_ok hs0, py_bind, Np.fdiv_ok hg, py_bind, hi _ (by simp), py_bind]
  exact ⟨_, _, _, rfl⟩

/-- C59, "the calibrated data does not depend on the gain of the IF chain", is false for the automatic
choice of the points: a parabola that goes over into a straight line is calibrated on its straight part,
but on all of its points above twice the gap if the power is measured in a unit ten orders of magnitude
larger. -/
theorem C59_false_gain : ∃ R o dc x y g, 0 < g ∧ x.Pairwise (· < ·) ∧ ∃ n c line good n' c' line' good',
    findIfNoise R o dc x y = .ok (n, c, line, good) ∧
    findIfNoise R o dc x (y.map (· * g)) = .ok (n', c', line', good') ∧
    (y.map (· * g)).map (· * c') ≠ y.map (· * c) := by
  set o : IfOpts := { above2 with vshot := .auto } with ho
  have hgv : (junction 0.003 0).vgap ≠ 0 := by show (0.003 : ℝ) ≠ 0; norm_num
  have hl : thirty.length = 30 := by unfold thirty; rw [tab_length]
  have hl2 : bent.length = 30 := by unfold bent; rw [tab_length]
  have hne : thirty ≠ [] := by intro h; rw [h] at hl; cases hl
  have hz : thirty.zip bent = [(0, 0), (1, 1), (2, 4), (3, 9), (4, 16), (5, 25), (6, 36), (7, 49), (8, 64), (9, 98),
      (10, 132), (11, 166), (12, 200), (13, 234), (14, 268), (15, 302), (16, 336), (17, 370), (18, 404), (19, 438),
      (20, 472), (21, 506), (22, 540), (23, 574), (24, 608), (25, 642), (26, 676), (27, 710), (28, 744), (29, 778)] := by
    unfold thirty bent tab
    simp only [List.range_succ, List.range_zero, List.nil_append, List.cons_append, List.map_cons, List.map_nil,
      List.zip_cons_cons, List.zip_nil_right, bentAt]
    norm_num
  -- large powers
  have h1 : ∃ n line good, findIfNoise ideal o (junction 0.003 0) thirty bent =
      .ok (n, 5.8 / 34 * (junction 0.003 0).vgap * 1e3, line, good) := by
    set c : ℝ → Bool := fun t => decide (19.5 < t ∧ t < 28.5) with hc
    have hf : (thirty.zip bent).filter (fun p => c p.1) = [(20, 472), (21, 506), (22, 540), (23, 574), (24, 608),
        (25, 642), (26, 676), (27, 710), (28, 744)] := by
      rw [hz, hc]
      simp only [List.filter_cons, List.filter_nil]
      norm_num
    refine find_masked (R := ideal) (o := o) (dc := junction 0.003 0) (y := bent) (by omega) hne
      (m0 := tab 30 fun i => decide (20 ≤ i ∧ i < 29)) auto_bent_large c ?_ hgv ?_ ?_
      (by norm_num)
    · rw [if_neg (by decide)]
      unfold thirty
      rw [map_tab]
      apply tab_ext rfl
      intro i hi
      rw [hc, decide_eq_decide]
      interval_cases i <;> norm_num
    · rw [hf]
      exact ⟨(20, 472), by simp, (21, 506), by simp, by norm_num⟩
    · rw [hf]
      unfold closedForm sm
      norm_num
  -- small powers
  have h2 : ∃ n line good, findIfNoise ideal o (junction 0.003 0) thirty (bent.map (· * (1 / 10 ^ 10))) =
      .ok (n, 5.8 / (7411/234 / 10 ^ 10) * (junction 0.003 0).vgap * 1e3, line, good) := by
    set c : ℝ → Bool := fun t => decide (2 < t) with hc
    have hf : (thirty.zip (bent.map (· * (1 / 10 ^ 10)))).filter (fun p => c p.1) = [(3, 9 / 10 ^ 10), (4, 16 / 10 ^ 10),
        (5, 25 / 10 ^ 10), (6, 36 / 10 ^ 10), (7, 49 / 10 ^ 10), (8, 64 / 10 ^ 10), (9, 98 / 10 ^ 10),
        (10, 132 / 10 ^ 10), (11, 166 / 10 ^ 10), (12, 200 / 10 ^ 10), (13, 234 / 10 ^ 10), (14, 268 / 10 ^ 10),
        (15, 302 / 10 ^ 10), (16, 336 / 10 ^ 10), (17, 370 / 10 ^ 10), (18, 404 / 10 ^ 10), (19, 438 / 10 ^ 10),
        (20, 472 / 10 ^ 10), (21, 506 / 10 ^ 10), (22, 540 / 10 ^ 10), (23, 574 / 10 ^ 10), (24, 608 / 10 ^ 10),
        (25, 642 / 10 ^ 10), (26, 676 / 10 ^ 10), (27, 710 / 10 ^ 10), (28, 744 / 10 ^ 10), (29, 778 / 10 ^ 10)] := by
      rw [List.zip_map_right, hz, hc]
      simp only [List.map_cons, List.map_nil, List.filter_cons, List.filter_nil, Prod.map]
      norm_num
    refine find_masked (R := ideal) (o := o) (dc := junction 0.003 0) (y := bent.map (· * (1 / 10 ^ 10)))
      (by simp [hl, hl2]) hne (m0 := List.replicate 30 false) auto_bent_small c ?_ hgv ?_ ?_
      (by norm_num)
    · rw [if_pos (by decide)]
    · rw [hf]
      exact ⟨(3, 9 / 10 ^ 10), by simp, (4, 16 / 10 ^ 10), by simp, by norm_num⟩
    · rw [hf]
      unfold closedForm sm
      norm_num
  obtain ⟨n, line, good, h1⟩ := h1
  obtain ⟨n', line', good', h2⟩ := h2
  refine ⟨ideal, o, junction 0.003 0, thirty, bent, 1 / 10 ^ 10, by norm_num, thirty_incr, n, _, line, good, n', _, line',
    good', h1, h2, ?_⟩
  intro h
  have := congrArg (fun l => List.getD l 1 0) h
  simp only [getD_map_mul] at this
  have hb1 : bent.getD 1 0 = 1 := by unfold bent; rw [tab_getD (by norm_num)]; norm_num [bentAt]
  have hv : (junction 0.003 0).vgap = 0.003 := rfl
  rw [hb1, hv] at this
  norm_num at this

end QMix.IfData
