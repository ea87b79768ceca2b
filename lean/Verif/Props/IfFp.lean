import Verif.Lemmas.IfFp
import Verif.Lemmas.RespFn2
import Verif.Props.CircuitFp

/-!
# Property C174: noise temperature and gain in floating-point arithmetic
-/

namespace QMix.Props

open Fl QMix.IfData QMix.CctFp QMix.Rel QMix.IfFp

variable {u : ℝ}

/-- A bias point of a receiver (voltage, gain, noise temperature) with the powers that are stored for the hot and for the cold load. -/
structure Point where
  v : ℝ
  g : ℝ
  t : ℝ
  ph : ℝ
  pc : ℝ

/-- The stored powers are right to the relative error `u`. -/
def Stored (u th tc : ℝ) (p : Point) : Prop :=
  0 < p.g ∧ 0 < tc + p.t ∧ |p.ph - p.g * (th + p.t)| ≤ u * |p.g * (th + p.t)| ∧ |p.pc - p.g * (tc + p.t)| ≤ u * |p.g * (tc + p.t)|

/-- The measurement with the hot load and the one with the cold load. -/
def hotRows (l : List Point) : List (ℝ × ℝ) := l.map fun p => (p.v, p.ph)
def coldRows (l : List Point) : List (ℝ × ℝ) := l.map fun p => (p.v, p.pc)

/-- The noise temperature, or the largest one that the method can tell. -/
noncomputable def told (th tc : ℝ) (p : Point) : ℝ := min p.t ((th - tc) * 1e10 - tc)

/-- The error of a noise temperature `s`. -/
noncomputable def tnErr (u th tc s : ℝ) : ℝ := 120 * u * ((th * (tc + s) + tc * (th + s)) * (th + s) / (th - tc) ^ 2)

/-- The error of a gain. -/
noncomputable def gainErr (u th tc : ℝ) (p : Point) : ℝ := 100 * u * (p.g * (th + tc + 2 * p.t) * (th + tc) / (th - tc) ^ 2)

theorem gam_le (h0 : 0 ≤ u) (hu : u ≤ 1e-12) {n : ℕ} (hn : n ≤ 100) : gam u n ≤ (n + 1) * u := by
  refine inv_pow_le h0 ?_
  have hn' : (n : ℝ) ≤ 100 := by exact_mod_cast hn
  have : (n : ℝ) * (n + 1) ≤ 100 * 101 := by gcongr; linarith
  have : (n : ℝ) * (n + 1) * u ≤ 100 * 101 * 1e-12 := by gcongr
  norm_num at this ⊢
  linarith

theorem mapM_forall₂ {α β : Type} {f : α → Py β} {P : α → β → Prop} {l : List α} (h : ∀ a ∈ l, ∃ b, f a = .ok b ∧ P a b) :
    ∃ r, l.mapM f = .ok r ∧ List.Forall₂ P l r := by
  induction l with
  | nil => exact ⟨[], rfl, .nil⟩
  | cons a l ih =>
    obtain ⟨b, hb, hP⟩ := h a (by simp)
    obtain ⟨r, hr, hF⟩ := ih fun c hc => h c (by simp [hc])
    refine ⟨b :: r, ?_, .cons hP hF⟩
    rw [List.mapM_cons, hb, py_bind, hr, py_bind]
    rfl

section
variable (A : Fp u) (T : Tanh u) (h0 : 0 ≤ u) (hu : u ≤ 1e-12)
include h0 hu

/-- The noise temperature of one point. -/
theorem point_tn {th tc th' tc' : ℝ} (hc : 0 < tc) (hT : tc < th) (h1 : Rel u 17 th' th) (h2 : Rel u 17 tc' tc) {p : Point}
    (hp : Stored u th tc p) :
    ∃ t, noiseTemp A th' tc' p.ph p.pc = .ok t ∧ |t - told th tc p| ≤ tnErr u th tc (told th tc p) := by
  have u1 : u < 1 := hu.trans_lt (by norm_num)
  obtain ⟨hg, ht, hh, hpc⟩ := hp
  have hd : 0 < th - tc := by linarith
  have hs : 0 < tc + told th tc p := by
    unfold told
    rcases min_choice p.t ((th - tc) * 1e10 - tc) with h | h <;> rw [h]
    · exact ht
    · norm_num; linarith
  have hs' : told th tc p ≤ (th - tc) * 1e10 - tc := min_le_right _ _
  have hY : (th + told th tc p) / (tc + told th tc p) = max (p.g * (th + p.t) / (p.g * (tc + p.t))) (1 + 1e-10) := by
    rw [mul_div_mul_left _ _ hg.ne']
    have e : ∀ {s : ℝ}, 0 < tc + s → (th + s) / (tc + s) = 1 + (th - tc) / (tc + s) := by
      intro s h
      field_simp
      ring
    rw [e hs, e ht, max_add_add_left]
    congr 1
    unfold told
    rcases le_total p.t ((th - tc) * 1e10 - tc) with h | h
    · rw [min_eq_left h, max_eq_left]
      rw [le_div_iff₀ ht]
      norm_num at h ⊢
      linarith
    · rw [min_eq_right h, max_eq_right]
      · norm_num
        field_simp
      · rw [div_le_iff₀ ht]
        norm_num at h ⊢
        linarith
  have hY1 : (th + told th tc p) / (tc + told th tc p) - 1 = (th - tc) / (tc + told th tc p) := by
    field_simp
    ring
  have g1 : gam u (2 * 1 + 21) ≤ 24 * u := by
    have := gam_le h0 hu (n := 23) (by norm_num)
    norm_num at this ⊢
    exact this
  obtain ⟨t, e1, e2⟩ := noiseTemp_le A h0 u1 (hc.trans hT) hc h1 h2 (Rel.of_le h0 u1 hh) (Rel.of_le h0 u1 hpc) (mul_pos hg ht) hY
    (by norm_num at hu g1 ⊢; linarith) (by
      rw [hY1, ← mul_div_assoc, div_div, mul_comm (tc + _) 2, ← div_div, div_le_div_iff_of_pos_right hs]
      have a1 : th + told th tc p ≤ (th - tc) * 1e10 + (th - tc) := by linarith
      have a2 : gam u (2 * 1 + 21) * (th + told th tc p) ≤ 24 * 1e-12 * ((th - tc) * 1e10 + (th - tc)) := by
        have : gam u (2 * 1 + 21) ≤ 24 * 1e-12 := by linarith
        have : 0 < th + told th tc p := by linarith
        gcongr
      norm_num at a2 ⊢
      linarith)
  refine ⟨t, e1, ?_⟩
  have v : (th - tc * ((th + told th tc p) / (tc + told th tc p))) / ((th + told th tc p) / (tc + told th tc p) - 1) = told th tc p := by
    rw [hY1]
    field_simp
    ring
  rw [v, hY1] at e2
  refine e2.trans ?_
  have w : (th + tc * ((th + told th tc p) / (tc + told th tc p))) * ((th + told th tc p) / (tc + told th tc p))
      / ((th - tc) / (tc + told th tc p)) ^ 2
      = (th * (tc + told th tc p) + tc * (th + told th tc p)) * (th + told th tc p) / (th - tc) ^ 2 := by
    field_simp
  rw [w]
  unfold tnErr
  have hq : 0 ≤ (th * (tc + told th tc p) + tc * (th + told th tc p)) * (th + told th tc p) / (th - tc) ^ 2 := by
    have a1 : 0 < th + told th tc p := by linarith
    have a2 : 0 < th := hc.trans hT
    positivity
  refine mul_le_mul_of_nonneg_right ?_ hq
  linarith

/-- The gain of one point. -/
theorem point_gain {th tc th' tc' : ℝ} (hc : 0 < tc) (hT : tc < th) (hn : 40 * u * (th + tc) ≤ th - tc) (h1 : Rel u 17 th' th)
    (h2 : Rel u 17 tc' tc) {p : Point} (hp : Stored u th tc p) :
    ∃ g, gainOf A th' tc' p.ph p.pc = .ok g ∧ |g - p.g| ≤ gainErr u th tc p := by
  have u1 : u < 1 := hu.trans_lt (by norm_num)
  obtain ⟨hg, ht, hh, hpc⟩ := hp
  have g1 : gam u (1 + 18) ≤ 20 * u := by
    have := gam_le h0 hu (n := 19) (by norm_num)
    norm_num at this ⊢
    exact this
  have hth : 0 < th + p.t := by linarith
  obtain ⟨g, e1, e2⟩ := gainOf_le A h0 u1 hc hT h1 h2 (Rel.of_le h0 u1 hh) (Rel.of_le h0 u1 hpc) (mul_pos hg ht) (mul_pos hg hth)
    (by norm_num at hu g1 ⊢; linarith) (by
      have : gam u (1 + 18) * (th + tc) ≤ 20 * u * (th + tc) := mul_le_mul_of_nonneg_right g1 (by linarith)
      linarith)
  refine ⟨g, e1, ?_⟩
  have hd : th - tc ≠ 0 := by linarith
  rw [show (p.g * (th + p.t) - p.g * (tc + p.t)) / (th - tc) = p.g by field_simp; ring] at e2
  refine e2.trans ?_
  unfold gainErr
  rw [show p.g * (th + p.t) + p.g * (tc + p.t) = p.g * (th + tc + 2 * p.t) by ring]
  have hq : 0 ≤ p.g * (th + tc + 2 * p.t) * (th + tc) / (th - tc) ^ 2 := by
    have a1 : 0 < th + tc + 2 * p.t := by linarith
    have a2 : 0 < th := hc.trans hT
    positivity
  refine mul_le_mul_of_nonneg_right ?_ hq
  linarith

/-- C174. In floating-point arithmetic the analysis of a receiver returns, for any number of bias points and for either rule, with every
noise temperature and every gain right to a bound that grows with the square of the noise temperature over the difference of the loads. -/
theorem C174_recovers (o : TnOpts) (vgap th tc : ℝ) {f : ℝ} (hf : o.freq = some f) (hf0 : 0 < f) (hC : 0 < o.tCold) (hH : 0 < o.tHot)
    (ho : Loads o th tc) (hc : 0 < tc) (hT : tc < th) (hn : 40 * u * (th + tc) ≤ th - tc) {l : List Point} (hl : l ≠ [])
    (hS : ∀ p ∈ l, Stored u th tc p)
    (hr : o.vbest ≠ none ∨ MathFn.lower o.bestPt = "max gain".toList ∨ MathFn.lower o.bestPt = "min tn".toList) :
    ∃ tn gain idx, findTnGain A T o vgap (hotRows l) (coldRows l) = .ok (tn, gain, idx) ∧
      List.Forall₂ (fun p t => |t - told th tc p| ≤ tnErr u th tc (told th tc p)) l tn ∧
      List.Forall₂ (fun p g => |g - p.g| ≤ gainErr u th tc p) l gain ∧
      bestPoint A o vgap (l.map Point.v) tn gain = .ok idx := by
  have u1 : u < 1 := hu.trans_lt (by norm_num)
  obtain ⟨f', hf', e1, e2⟩ := ho
  rw [hf] at hf'
  obtain rfl := Option.some.inj hf'
  obtain ⟨th', e3, r1⟩ := tempCw_rel A T h0 u1 hf0 hH e1
  obtain ⟨tc', e4, r2⟩ := tempCw_rel A T h0 u1 hf0 hC e2
  obtain ⟨tn, t1, t2⟩ := mapM_forall₂ (l := l) fun p hp => point_tn A h0 hu hc hT r1 r2 (hS p hp)
  obtain ⟨gain, q1, q2⟩ := mapM_forall₂ (l := l) fun p hp => point_gain A h0 hu hc hT hn r1 r2 (hS p hp)
  have hz : (hotRows l).zip (coldRows l) = l.map fun p => ((p.v, p.ph), (p.v, p.pc)) := by
    unfold hotRows coldRows
    rw [List.zip_map']
  have hv : (hotRows l).map Prod.fst = l.map Point.v := by
    unfold hotRows
    rw [List.map_map]
    rfl
  have hv' : (coldRows l).map Prod.fst = l.map Point.v := by
    unfold coldRows
    rw [List.map_map]
    rfl
  have hgn : gain ≠ [] := by
    rintro rfl
    cases q2
    exact hl rfl
  have htn : tn ≠ [] := by
    rintro rfl
    cases t2
    exact hl rfl
  obtain ⟨idx, hi⟩ : ∃ i, bestPoint A o vgap (l.map Point.v) tn gain = .ok i := by
    unfold IfFp.bestPoint
    cases hvb : o.vbest with
    | some vb => exact argBest_ok (by simpa using hl)
    | none =>
      simp only
      by_cases hg : MathFn.lower o.bestPt = "max gain".toList
      · rw [if_pos hg]
        exact argBest_ok (by simpa using hgn)
      · rw [if_neg hg, if_pos (by tauto)]
        cases tn with
        | nil => exact absurd rfl htn
        | cons t tn =>
          unfold IfFp.amin
          rw [py_bind]
          exact argBest_ok (by simp)
  refine ⟨tn, gain, idx, ?_, t2, q2, hi⟩
  unfold IfFp.findTnGain
  rw [raiseIf_neg (by simp [hotRows, coldRows]), hf]
  simp only [getOpt, py_bind]
  rw [e3, py_bind, e4, py_bind, hv, hv', hz, List.mapM_map, List.mapM_map]
  simp only [pyAssert, if_true, py_bind]
  simp only [Function.comp_def]
  rw [t1, py_bind, q1, py_bind, hi, py_bind]
  rfl

end

theorem foldl_min_le (l : List ℝ) (x : ℝ) : l.foldl min x ≤ x ∧ (∀ y ∈ l, l.foldl min x ≤ y) ∧ (l.foldl min x = x ∨ l.foldl min x ∈ l) := by
  induction l generalizing x with
  | nil => simp
  | cons a l ih =>
    obtain ⟨h1, h2, h3⟩ := ih (min x a)
    rw [List.foldl_cons]
    refine ⟨h1.trans (min_le_left _ _), ?_, ?_⟩
    · intro y hy
      rcases List.mem_cons.1 hy with rfl | hy
      · exact h1.trans (min_le_right _ _)
      · exact h2 y hy
    · rcases h3 with h | h
      · rw [h]
        rcases min_choice x a with h | h <;> rw [h] <;> simp
      · exact Or.inr (List.mem_cons_of_mem _ h)

theorem num_not_mem (l : List ℝ) (f : ℝ → ℝ) : none ∉ l.map fun a => num (f a) := by
  intro h
  obtain ⟨a, -, h⟩ := List.mem_map.1 h
  exact num_ne_none _ h

theorem forall₂_get {α β : Type} {P : α → β → Prop} {l : List α} {r : List β} (h : List.Forall₂ P l r) {i : ℕ} {b : β} (hi : r[i]? = some b) :
    ∃ a, l[i]? = some a ∧ P a b := by
  induction h generalizing i with
  | nil => simp at hi
  | cons hP h ih =>
    cases i with
    | zero =>
      simp only [List.getElem?_cons_zero, Option.some.injEq] at hi
      exact ⟨_, rfl, hi ▸ hP⟩
    | succ i =>
      rw [List.getElem?_cons_succ] at hi
      simpa using ih hi

theorem forall₂_mem {α β : Type} {P : α → β → Prop} {l : List α} {r : List β} (h : List.Forall₂ P l r) {a : α} (ha : a ∈ l) : ∃ b ∈ r, P a b := by
  induction h with
  | nil => simp at ha
  | cons hP h ih =>
    rcases List.mem_cons.1 ha with rfl | ha
    · exact ⟨_, by simp, hP⟩
    · obtain ⟨b, hb, hP⟩ := ih ha
      exact ⟨b, by simp [hb], hP⟩

section
variable (A : Fp u) (T : Tanh u) (h0 : 0 ≤ u) (hu : u ≤ 1e-12)
include h0 hu

/-- C174. The bias point that is chosen for the lowest noise temperature has the lowest one up to these errors; -/
theorem C174_min_tn (o : TnOpts) (vgap th tc : ℝ) {f : ℝ} (hf : o.freq = some f) (hf0 : 0 < f) (hC : 0 < o.tCold) (hH : 0 < o.tHot)
    (ho : Loads o th tc) (hc : 0 < tc) (hT : tc < th) (hn : 40 * u * (th + tc) ≤ th - tc) {l : List Point} (hl : l ≠ [])
    (hS : ∀ p ∈ l, Stored u th tc p) (hv : o.vbest = none) (hb : MathFn.lower o.bestPt = "min tn".toList) :
    ∃ tn gain idx p, findTnGain A T o vgap (hotRows l) (coldRows l) = .ok (tn, gain, idx) ∧ l[idx]? = some p ∧
      ∀ q ∈ l, told th tc p ≤ told th tc q + tnErr u th tc (told th tc p) + tnErr u th tc (told th tc q) := by
  have u1 : u < 1 := hu.trans_lt (by norm_num)
  obtain ⟨tn, gain, idx, e, t2, -, hi⟩ := C174_recovers A T h0 hu o vgap th tc hf hf0 hC hH ho hc hT hn hl hS (Or.inr (Or.inr hb))
  unfold IfFp.bestPoint at hi
  rw [hv] at hi
  simp only at hi
  rw [if_neg (by rw [hb]; decide), if_pos hb] at hi
  cases tn with
  | nil =>
    cases t2
    exact absurd rfl hl
  | cons t tn =>
    unfold IfFp.amin at hi
    rw [py_bind] at hi
    obtain ⟨m1, m2, m3⟩ := foldl_min_le tn t
    generalize tn.foldl min t = b at hi m1 m2 m3
    obtain ⟨c, c1, c2⟩ := argminF_spec hi (num_not_mem _ _)
    rw [List.getElem?_map, Option.map_eq_some_iff] at c1
    obtain ⟨x, x1, rfl⟩ := c1
    have hmem : b ∈ t :: tn := by
      rcases m3 with h | h
      · rw [h]; simp
      · exact List.mem_cons_of_mem _ h
    have hz := c2 _ (List.mem_map_of_mem hmem)
    have r0 : A.rnd 0 = 0 := by simpa using A.rnd_le 0
    rw [sub_self, r0, abs_zero, flt_num, not_lt] at hz
    have hx : x = b := by
      have := A.rnd_le (x - b)
      rw [abs_eq_zero.1 (le_antisymm hz (abs_nonneg _)), zero_sub, abs_neg] at this
      have h : |x - b| ≤ 0 := by nlinarith [abs_nonneg (x - b)]
      exact sub_eq_zero.1 (abs_eq_zero.1 (le_antisymm h (abs_nonneg _)))
    obtain ⟨p, p1, p2⟩ := forall₂_get t2 x1
    refine ⟨_, _, _, p, e, p1, fun q hq => ?_⟩
    obtain ⟨y, y1, y2⟩ := forall₂_mem t2 hq
    have hy : b ≤ y := by
      rcases List.mem_cons.1 y1 with rfl | h
      · exact m1
      · exact m2 y h
    have k1 := (abs_le.1 p2).1
    have k2 := (abs_le.1 y2).2
    linarith

/-- that for the largest gain has the largest one up to these errors, -/
theorem C174_max_gain (o : TnOpts) (vgap th tc : ℝ) {f : ℝ} (hf : o.freq = some f) (hf0 : 0 < f) (hC : 0 < o.tCold) (hH : 0 < o.tHot)
    (ho : Loads o th tc) (hc : 0 < tc) (hT : tc < th) (hn : 40 * u * (th + tc) ≤ th - tc) {l : List Point} (hl : l ≠ [])
    (hS : ∀ p ∈ l, Stored u th tc p) (hv : o.vbest = none) (hb : MathFn.lower o.bestPt = "max gain".toList) :
    ∃ tn gain idx p, findTnGain A T o vgap (hotRows l) (coldRows l) = .ok (tn, gain, idx) ∧ l[idx]? = some p ∧
      ∀ q ∈ l, q.g ≤ p.g + gainErr u th tc p + gainErr u th tc q := by
  obtain ⟨tn, gain, idx, e, -, t2, hi⟩ := C174_recovers A T h0 hu o vgap th tc hf hf0 hC hH ho hc hT hn hl hS (Or.inr (Or.inl hb))
  unfold IfFp.bestPoint at hi
  rw [hv] at hi
  simp only at hi
  rw [if_pos hb] at hi
  obtain ⟨c, c1, c2⟩ := argmaxF_spec hi (num_not_mem _ fun a => a)
  rw [List.getElem?_map, Option.map_eq_some_iff] at c1
  obtain ⟨x, x1, rfl⟩ := c1
  obtain ⟨p, p1, p2⟩ := forall₂_get t2 x1
  refine ⟨_, _, _, p, e, p1, fun q hq => ?_⟩
  obtain ⟨y, y1, y2⟩ := forall₂_mem t2 hq
  have := c2 _ (List.mem_map_of_mem y1)
  rw [flt_num, not_lt] at this
  have k1 := (abs_le.1 p2).2
  have k2 := (abs_le.1 y2).1
  linarith

/-- and that for a given voltage is the closest one up to the rounding of the voltages. -/
theorem C174_vbest (o : TnOpts) (vgap th tc : ℝ) {f : ℝ} (hf : o.freq = some f) (hf0 : 0 < f) (hC : 0 < o.tCold) (hH : 0 < o.tHot)
    (ho : Loads o th tc) (hc : 0 < tc) (hT : tc < th) (hn : 40 * u * (th + tc) ≤ th - tc) {l : List Point} (hl : l ≠ [])
    (hS : ∀ p ∈ l, Stored u th tc p) {vb : ℝ} (hv : o.vbest = some vb) :
    ∃ tn gain idx p, findTnGain A T o vgap (hotRows l) (coldRows l) = .ok (tn, gain, idx) ∧ l[idx]? = some p ∧
      ∀ q ∈ l, |p.v * vgap - vb| ≤ |q.v * vgap - vb| + 3 * u * (|p.v * vgap| + |vb|) + 3 * u * (|q.v * vgap| + |vb|) := by
  have u1 : u < 1 := hu.trans_lt (by norm_num)
  obtain ⟨tn, gain, idx, e, -, -, hi⟩ := C174_recovers A T h0 hu o vgap th tc hf hf0 hC hH ho hc hT hn hl hS (Or.inl (by rw [hv]; simp))
  unfold IfFp.bestPoint at hi
  rw [hv] at hi
  simp only at hi
  obtain ⟨c, c1, c2⟩ := argminF_spec hi (num_not_mem _ _)
  rw [List.getElem?_map, Option.map_eq_some_iff] at c1
  obtain ⟨x, x1, rfl⟩ := c1
  rw [List.getElem?_map, Option.map_eq_some_iff] at x1
  obtain ⟨p, p1, rfl⟩ := x1
  refine ⟨_, _, _, p, e, p1, fun q hq => ?_⟩
  have := c2 _ (List.mem_map_of_mem (List.mem_map_of_mem hq))
  rw [flt_num, not_lt] at this
  have key : ∀ q : Point, |A.rnd (A.rnd (q.v * vgap) - vb) - (q.v * vgap - vb)| ≤ 3 * u * (|q.v * vgap| + |vb|) := fun q =>
    (diff_le A h0 u1 (rnd_rel A h0 u1 _) ((Rel.refl vb).mono h0 u1 (Nat.zero_le _)) (m := 2) le_rfl).trans
      (mul_le_mul_of_nonneg_right (by have := gam_le h0 hu (n := 2) (by norm_num); norm_num at this; exact this) (by positivity))
  have k1 := key p
  have k2 := key q
  have a1 := abs_sub_abs_le_abs_sub (p.v * vgap - vb) (A.rnd (A.rnd (p.v * vgap) - vb))
  have a2 := abs_sub_abs_le_abs_sub (A.rnd (A.rnd (q.v * vgap) - vb)) (q.v * vgap - vb)
  rw [abs_sub_comm (p.v * vgap - vb)] at a1
  linarith

end

/-! ## Double precision -/

/-- `np.tanh`, correctly rounded. -/
noncomputable def tanh64 : Tanh Spec.u64 where
  tanh x := Spec.fl (Real.tanh x)
  tanh_le _ := Spec.fl_le _

theorem u64_le : Spec.u64 ≤ 1e-12 := u64_small.trans (by norm_num)

/-- C174. In double precision the noise temperature of a receiver below 1000 K, measured with loads of at most 400 K that are at least 100 K
apart, is right to one part in a hundred million of a kelvin. -/
theorem C174_double (A : Fp Spec.u64) (T : Tanh Spec.u64) (o : TnOpts) (vgap th tc : ℝ) {f : ℝ} (hf : o.freq = some f) (hf0 : 0 < f)
    (hC : 0 < o.tCold) (hH : 0 < o.tHot) (ho : Loads o th tc) (hc : 0 < tc) (hT : 100 ≤ th - tc) (hth : th ≤ 400) {l : List Point}
    (hl : l ≠ []) (hS : ∀ p ∈ l, Stored Spec.u64 th tc p) (ht : ∀ p ∈ l, p.t ≤ 1000)
    (hr : o.vbest ≠ none ∨ MathFn.lower o.bestPt = "max gain".toList ∨ MathFn.lower o.bestPt = "min tn".toList) :
    ∃ tn gain idx, findTnGain A T o vgap (hotRows l) (coldRows l) = .ok (tn, gain, idx) ∧
      List.Forall₂ (fun p t => |t - p.t| ≤ 1e-8) l tn ∧ List.Forall₂ (fun p g => |g - p.g| ≤ 1e-11 * p.g) l gain := by
  have u0 := Spec.u64_pos
  have us : Spec.u64 ≤ 1.2e-16 := by unfold Spec.u64; norm_num
  have htc : tc ≤ 400 := by linarith
  obtain ⟨tn, gain, idx, e, t2, q2, -⟩ := C174_recovers A T u0.le u64_le o vgap th tc hf hf0 hC hH ho hc (by linarith)
    (by
      have : 40 * Spec.u64 * (th + tc) ≤ 40 * 1.2e-16 * (400 + 400) := by
        have : 0 ≤ th + tc := by linarith
        gcongr
      norm_num at this
      linarith) hl hS hr
  have hd : (100 : ℝ) ^ 2 ≤ (th - tc) ^ 2 := by gcongr
  have hth0 : 0 < th := by linarith
  refine ⟨tn, gain, idx, e, ?_, ?_⟩
  · rw [List.forall₂_iff_get] at t2 ⊢
    refine ⟨t2.1, fun i h1 h2 => ?_⟩
    have h := t2.2 i h1 h2
    have hm : l.get ⟨i, h1⟩ ∈ l := List.get_mem _ _
    have hp := hS _ hm
    have hp' := ht _ hm
    generalize l.get ⟨i, h1⟩ = p at h hp hp'
    have hs : told th tc p = p.t := by
      unfold told
      rw [min_eq_left]
      norm_num
      linarith
    rw [hs] at h
    refine h.trans ?_
    unfold tnErr
    have a1 : 0 < tc + p.t := hp.2.1
    have a2 : 0 < th + p.t := by linarith
    have a3 : (th * (tc + p.t) + tc * (th + p.t)) * (th + p.t) / (th - tc) ^ 2 ≤ (400 * (400 + 1000) + 400 * (400 + 1000)) * (400 + 1000) / 100 ^ 2 := by
      gcongr <;> linarith
    calc _ ≤ 120 * 1.2e-16 * ((400 * (400 + 1000) + 400 * (400 + 1000)) * (400 + 1000) / 100 ^ 2 : ℝ) := by gcongr
      _ ≤ 1e-8 := by norm_num
  · rw [List.forall₂_iff_get] at q2 ⊢
    refine ⟨q2.1, fun i h1 h2 => ?_⟩
    have h := q2.2 i h1 h2
    have hm : l.get ⟨i, h1⟩ ∈ l := List.get_mem _ _
    have hp := hS _ hm
    have hp' := ht _ hm
    generalize l.get ⟨i, h1⟩ = p at h hp hp'
    refine h.trans ?_
    unfold gainErr
    have hg := hp.1
    have a1 : 0 < tc + p.t := hp.2.1
    have a3 : p.g * (th + tc + 2 * p.t) * (th + tc) / (th - tc) ^ 2 ≤ p.g * (400 + 400 + 2 * 1000) * (400 + 400) / 100 ^ 2 := by
      have : 0 ≤ th + tc + 2 * p.t := by linarith
      have : 0 ≤ th + tc := by linarith
      gcongr <;> linarith
    have hq : 0 ≤ p.g * (th + tc + 2 * p.t) * (th + tc) / (th - tc) ^ 2 := by
      have : 0 ≤ th + tc + 2 * p.t := by linarith
      positivity
    calc _ ≤ 100 * 1.2e-16 * (p.g * (400 + 400 + 2 * 1000) * (400 + 400) / 100 ^ 2) := by gcongr
      _ ≤ 1e-11 * p.g := by norm_num; linarith

/-- A receiver with three bias points, measured at 230 GHz with loads at 293 K and 78.5 K. -/
example : ∃ th tc, Loads ⟨some 230, 293, 78.5, none, "Min Tn"⟩ th tc ∧ 0 < tc ∧ 100 ≤ th - tc ∧ th ≤ 400 ∧ ∃ l : List Point, l.length = 3 ∧
    (∀ p ∈ l, Stored Spec.u64 th tc p ∧ p.t ≤ 1000) := by
  have hf : (0 : ℝ) < 230 * 1e9 := by norm_num
  have hh : Spec.SI.h * (230 * 1e9) / (2 * Spec.SI.k) ≤ 6 := by unfold Spec.SI.h Spec.SI.k; norm_num
  obtain ⟨th, h1, h2, -, h3⟩ := C58_physical _ _ hf (show (0 : ℝ) < 293 by norm_num)
  obtain ⟨tc, k1, k2, -, k3⟩ := C58_physical _ _ hf (show (0 : ℝ) < 78.5 by norm_num)
  have k4 : tc < 90 := by
    refine k3.trans_le ?_
    norm_num at hh ⊢
    linarith
  norm_num at k2
  have key : ∀ v g t : ℝ, 0 < g → 0 < t → t ≤ 1000 →
      (fun p : Point => Stored Spec.u64 th tc p ∧ p.t ≤ 1000) ⟨v, g, t, Spec.fl (g * (th + t)), Spec.fl (g * (tc + t))⟩ :=
    fun v g t hg ht h => ⟨⟨hg, by simp only; linarith, Spec.fl_le _, Spec.fl_le _⟩, h⟩
  refine ⟨th, tc, ⟨230, rfl, h1, k1⟩, by linarith, by linarith, by linarith,
    [⟨0, 1, 50, Spec.fl (1 * (th + 50)), Spec.fl (1 * (tc + 50))⟩, ⟨1, 2, 40, Spec.fl (2 * (th + 40)), Spec.fl (2 * (tc + 40))⟩,
      ⟨2, 0.5, 60, Spec.fl (0.5 * (th + 60)), Spec.fl (0.5 * (tc + 60))⟩], rfl, ?_⟩
  intro p hp
  simp only [List.mem_cons, List.not_mem_nil, or_false] at hp
  rcases hp with rfl | rfl | rfl
  · exact key 0 1 50 (by norm_num) (by norm_num) (by norm_num)
  · exact key 1 2 40 (by norm_num) (by norm_num) (by norm_num)
  · exact key 2 0.5 60 (by norm_num) (by norm_num) (by norm_num)

end QMix.Props
