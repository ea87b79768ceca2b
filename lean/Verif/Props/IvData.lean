import Verif.Lemmas.IvPass
import Verif.Lemmas.IvFit
import Verif.Lemmas.Interp

/-!
# Properties of `qmix/exp/iv_data.py`: one pass of a sweep (C52), rotation (C53),
series resistance (C54), resistances and gap voltage (C55), offsets (C64)
-/

namespace QMix.IvData

open Np Fl Clean

/-- C52: for every sweep that is not empty, the result consists of measured points, voltage and current
stay together, and there is at least one point. An empty sweep raises `ValueError`. -/
theorem C52_points (v i : List Flt) (hl : v.length = i.length) :
    (v = [] → takeOnePass v i = .error .value) ∧
    (v ≠ [] → ∃ v' i', takeOnePass v i = .ok (v', i') ∧ v' ≠ [] ∧ v'.length = i'.length ∧
      ∀ p ∈ v'.zip i', p ∈ v.zip i) := by
  constructor
  · rintro rfl; rfl
  · intro hv
    have e1 : (v.zip i).map Prod.fst = v := List.map_fst_zip (by omega)
    have e2 : (v.zip i).map Prod.snd = i := List.map_snd_zip (by omega)
    have hz : v.zip i ≠ [] := fun h => hv (by rw [← e1, h]; rfl)
    obtain ⟨a, b, Q, h1, h2, h3, h4, l1, l2⟩ := takeOnePass_eq (v.zip i) hz
    rw [e1, e2] at h3
    refine ⟨_, _, h3, ?_, by simp, ?_⟩
    · have := h4.ends (p := (v.zip i)[a]) (Or.inl (List.getElem?_eq_getElem l1))
      intro h
      rw [List.map_eq_nil_iff.1 h] at this
      cases this
    · rw [zip_fst_snd]
      exact h4.mem

/-- C52: no voltage of the sweep lies outside the range of the result: the points with the lowest and
the highest voltage are kept. -/
theorem C52_range (v i v' i' : List Flt) (hl : v.length = i.length) (hn : none ∉ v)
    (h : takeOnePass v i = .ok (v', i')) :
    (∃ a ∈ v', ∀ b ∈ v, fle a b) ∧ ∃ a ∈ v', ∀ b ∈ v, fle b a := by
  have hv : v ≠ [] := by rintro rfl; cases h
  have e1 : (v.zip i).map Prod.fst = v := List.map_fst_zip (by omega)
  have e2 : (v.zip i).map Prod.snd = i := List.map_snd_zip (by omega)
  have hz : v.zip i ≠ [] := fun h => hv (by rw [← e1, h]; rfl)
  obtain ⟨a, b, Q, h1, h2, h3, h4, l1, l2⟩ := takeOnePass_eq (v.zip i) hz
  rw [e1, e2] at h3
  rw [h3] at h
  obtain ⟨rfl, rfl⟩ := Prod.mk.inj (Except.ok.inj h)
  rw [e1] at h1 h2
  have key : ∀ x ∈ v, ∀ y ∈ v, ¬ flt x y → fle y x := by
    intro x hx y hy hxy
    cases x with
    | none => exact absurd hx hn
    | some x =>
      cases y with
      | none => exact absurd hy hn
      | some y => exact not_lt.1 hxy
  constructor
  · obtain ⟨x, hx, hm⟩ := argminF_spec h1 hn
    refine ⟨x, ?_, fun c hc => key c hc x (List.mem_of_getElem? hx) (hm c hc)⟩
    have h5 := h4.ends (p := (v.zip i)[a]) (Or.inl (List.getElem?_eq_getElem l1))
    have : x = (v.zip i)[a].1 := by
      have := congrArg (fun l => l[a]?) e1
      simp only [List.getElem?_map] at this
      rw [hx, List.getElem?_eq_getElem l1] at this
      simpa using this.symm
    rw [this]
    exact List.mem_map.2 ⟨_, h5, rfl⟩
  · obtain ⟨x, hx, hm⟩ := argmaxF_spec h2 hn
    refine ⟨x, ?_, fun c hc => key x (List.mem_of_getElem? hx) c hc (hm c hc)⟩
    have h5 := h4.ends (p := (v.zip i)[b]) (Or.inr (List.getElem?_eq_getElem l2))
    have : x = (v.zip i)[b].1 := by
      have := congrArg (fun l => l[b]?) e1
      simp only [List.getElem?_map] at this
      rw [hx, List.getElem?_eq_getElem l2] at this
      simpa using this.symm
    rw [this]
    exact List.mem_map.2 ⟨_, h5, rfl⟩

/-- C52: a sweep with strictly increasing voltage is returned as it is. -/
theorem C52_upward (v i : List Flt) (hl : v.length = i.length) (hv : v ≠ []) (hn : none ∉ v)
    (h : v.Pairwise Below) : takeOnePass v i = .ok (v, i) := by
  obtain ⟨a, h1⟩ : ∃ a, argminF v = .ok a := argBest_ok hv
  obtain ⟨b, h2⟩ : ∃ b, argmaxF v = .ok b := argBest_ok hv
  have l0 : 0 < v.length := List.length_pos_iff.2 hv
  obtain ⟨x, hx, hxm⟩ := argminF_spec h1 hn
  obtain ⟨y, hy, hym⟩ := argmaxF_spec h2 hn
  obtain ⟨l1, rfl⟩ := List.getElem?_eq_some_iff.1 hx
  obtain ⟨l2, rfl⟩ := List.getElem?_eq_some_iff.1 hy
  have lt : ∀ j k (hj : j < v.length) (hk : k < v.length), j < k → flt v[j] v[k] := by
    intro j k hj hk hjk
    obtain ⟨p, q, e1, e2, e3⟩ := List.pairwise_iff_getElem.1 h j k hj hk hjk
    rw [e1, e2]; exact e3
  have a0 : a = 0 := by
    by_contra hc
    exact hxm _ (List.getElem_mem l0) (lt 0 a l0 l1 (by omega))
  have b0 : b + 1 = v.length := by
    by_contra hc
    have l3 : v.length - 1 < v.length := by omega
    exact hym _ (List.getElem_mem l3) (lt b (v.length - 1) l2 l3 (by omega))
  unfold takeOnePass
  rw [h1, py_bind, h2, py_bind, if_pos ⟨a0, by omega⟩]; rfl

/-- C52: a sweep with strictly decreasing voltage is only reversed. -/
theorem C52_downward (v i : List Flt) (hl : v.length = i.length) (hv : v ≠ []) (hn : none ∉ v)
    (h : v.Pairwise fun a b => Below b a) : takeOnePass v i = .ok (v.reverse, i.reverse) := by
  obtain ⟨a, h1⟩ : ∃ a, argminF v = .ok a := argBest_ok hv
  obtain ⟨b, h2⟩ : ∃ b, argmaxF v = .ok b := argBest_ok hv
  have l0 : 0 < v.length := List.length_pos_iff.2 hv
  obtain ⟨x, hx, hxm⟩ := argminF_spec h1 hn
  obtain ⟨y, hy, hym⟩ := argmaxF_spec h2 hn
  obtain ⟨l1, rfl⟩ := List.getElem?_eq_some_iff.1 hx
  obtain ⟨l2, rfl⟩ := List.getElem?_eq_some_iff.1 hy
  have lt : ∀ j k (hj : j < v.length) (hk : k < v.length), j < k → flt v[k] v[j] := by
    intro j k hj hk hjk
    obtain ⟨p, q, e1, e2, e3⟩ := List.pairwise_iff_getElem.1 h j k hj hk hjk
    rw [e1, e2]; exact e3
  have b0 : b = 0 := by
    by_contra hc
    exact hym _ (List.getElem_mem l0) (lt 0 b l0 l2 (by omega))
  have a0 : a + 1 = v.length := by
    by_contra hc
    have l3 : v.length - 1 < v.length := by omega
    exact hxm _ (List.getElem_mem l3) (lt a (v.length - 1) l1 l3 (by omega))
  unfold takeOnePass
  rw [h1, py_bind, h2, py_bind]
  by_cases c : a = 0 ∧ (b : ℤ) = (i.length : ℤ) - 1
  · rw [if_pos c]
    have e1 : v.length = 1 := by omega
    have e2 : i.length = 1 := by omega
    obtain ⟨x, rfl⟩ := List.length_eq_one_iff.1 e1
    obtain ⟨y, rfl⟩ := List.length_eq_one_iff.1 e2
    rfl
  · rw [if_neg c, if_pos ⟨b0, by omega⟩]; rfl

/-- C52: a sweep that starts in the middle, goes up to the highest voltage (point `m`) and then down to
the lowest (point `n`). The result is the part of the way down that lies below the first voltage,
reversed, followed by the way up: the voltages of the way down are above the first voltage before
point `s`, and below it after point `s`. -/
theorem C52_cycle (N m n : ℕ) (f : ℕ → ℝ × ℝ) (hmn : m < n) (hnN : n < N)
    (hmid : m ≠ 0 ∨ n + 1 ≠ N)
    (hdown : ∀ i j, m ≤ i → i < j → j ≤ n → (f j).1 < (f i).1)
    (hlo : ∀ i < N, i ≠ n → (f n).1 < (f i).1) (hhi : ∀ i < N, i ≠ m → (f i).1 < (f m).1) :
    ∃ s, m ≤ s ∧ s ≤ n ∧
      takeOnePass (volts N f) (amps N f) =
        .ok (volts (n + 1 - s) (fun j => f (n - j)) ++ volts (m + 1) f,
          amps (n + 1 - s) (fun j => f (n - j)) ++ amps (m + 1) f) ∧
      (∀ j, m ≤ j → j < s → (f 0).1 < (f j).1) ∧ ∀ j, s < j → j ≤ n → (f j).1 < (f 0).1 := by
  obtain ⟨a, b, Q, h1, h2, h3, h4, l1, l2⟩ := takeOnePass_eq (points N f) (points_ne hnN)
  rw [points_fst, points_snd] at h3
  rw [points_fst] at h1 h2
  obtain rfl := argminF_volts h1 hnN hlo
  obtain rfl := argmaxF_volts h2 (hmn.trans hnN) hhi
  rw [points_length] at l1 l2
  rcases h4 with ⟨h, -, -⟩ | ⟨h, h', -⟩ | ⟨-, k, v0, h0, hk, hks, rfl⟩ | ⟨h, -⟩
  · omega
  · rw [points_length] at h'; omega
  · refine ⟨k + m, by omega, hks, ?_, ?_⟩
    · rw [h3, points_take (by omega), points_drop, points_reverse, points_take (by omega)]
      simp only [List.map_append, points_fst, points_snd]
      rw [volts_congr (g := fun j => f (n - j)) (fun i hi => by congr 1; omega),
        amps_congr (g := fun j => f (n - j)) (fun i hi => by congr 1; omega)]
    · rw [points_take (by omega), points_drop] at hk
      have h00 : v0 = (num (f 0).1, num (f 0).2) := by
        unfold points at h0
        rw [tab_get?, if_pos (by omega)] at h0
        exact (Option.some.inj h0).symm
      have hmin := nearest hk h00
      constructor
      · intro j hj hjs
        by_contra hc
        have hd := hdown j (k + m) hj hjs hks
        have := hmin (j - m) (by omega)
        rw [show m + (j - m) = j by omega, show m + k = k + m by omega, abs_of_nonpos (by linarith),
          abs_of_nonpos (by linarith)] at this
        linarith
      · intro j hj hjn
        by_contra hc
        have hd := hdown (k + m) j (by omega) hj hjn
        have := hmin (j - m) (by omega)
        rw [show m + (j - m) = j by omega, show m + k = k + m by omega, abs_of_nonneg (by linarith),
          abs_of_nonneg (by linarith)] at this
        linarith
  · omega

/-- C52: a sweep that starts in the middle, goes down to the lowest voltage (point `n`) and then up to
the highest (point `m`). The result is the way down, reversed, followed by the part of the way up that
lies above the first voltage. -/
theorem C52_cycle_down (N m n : ℕ) (f : ℕ → ℝ × ℝ) (hmn : n < m) (hmN : m < N)
    (hmid : n ≠ 0 ∨ m + 1 ≠ N)
    (hup : ∀ i j, n ≤ i → i < j → j ≤ m → (f i).1 < (f j).1)
    (hlo : ∀ i < N, i ≠ n → (f n).1 < (f i).1) (hhi : ∀ i < N, i ≠ m → (f i).1 < (f m).1) :
    ∃ s, n ≤ s ∧ s ≤ m ∧
      takeOnePass (volts N f) (amps N f) =
        .ok (volts (n + 1) (fun j => f (n - j)) ++ volts (m + 1 - s) (fun j => f (s + j)),
          amps (n + 1) (fun j => f (n - j)) ++ amps (m + 1 - s) (fun j => f (s + j))) ∧
      (∀ j, n ≤ j → j < s → (f j).1 < (f 0).1) ∧ ∀ j, s < j → j ≤ m → (f 0).1 < (f j).1 := by
  obtain ⟨a, b, Q, h1, h2, h3, h4, l1, l2⟩ := takeOnePass_eq (points N f) (points_ne hmN)
  rw [points_fst, points_snd] at h3
  rw [points_fst] at h1 h2
  obtain rfl := argminF_volts h1 (hmn.trans hmN) hlo
  obtain rfl := argmaxF_volts h2 hmN hhi
  rw [points_length] at l1 l2
  rcases h4 with ⟨h, h', -⟩ | ⟨h, -, -⟩ | ⟨h, -⟩ | ⟨-, k, v0, h0, hk, hks, rfl⟩
  · rw [points_length] at h'; omega
  · omega
  · omega
  · refine ⟨k + n, by omega, hks, ?_, ?_⟩
    · rw [h3, points_take (by omega), points_take (by omega), points_drop, points_reverse]
      simp only [List.map_append, points_fst, points_snd]
      rw [volts_congr (g := fun j => f (n - j)) (fun i hi => by congr 1),
        amps_congr (g := fun j => f (n - j)) (fun i hi => by congr 1)]
    · rw [points_take (by omega), points_drop] at hk
      have h00 : v0 = (num (f 0).1, num (f 0).2) := by
        unfold points at h0
        rw [tab_get?, if_pos (by omega)] at h0
        exact (Option.some.inj h0).symm
      have hmin := nearest hk h00
      constructor
      · intro j hj hjs
        by_contra hc
        have hd := hup j (k + n) hj hjs hks
        have := hmin (j - n) (by omega)
        rw [show n + (j - n) = j by omega, show n + k = k + n by omega, abs_of_nonneg (by linarith),
          abs_of_nonneg (by linarith)] at this
        linarith
      · intro j hj hjn
        by_contra hc
        have hd := hup (k + n) j (by omega) hj hjn
        have := hmin (j - n) (by omega)
        rw [show n + (j - n) = j by omega, show n + k = k + n by omega, abs_of_nonpos (by linarith),
          abs_of_nonpos (by linarith)] at this
        linarith

/-- The claim of C52 about upward sweeps fails if the highest voltage is measured twice: the last point
is dropped, and the first one is returned twice. -/
theorem C52_false_flat (a b c : Flt) :
    takeOnePass [num 0, num 1, num 1] [a, b, c] = .ok ([num 0, num 0, num 1], [a, a, b]) := by
  have h1 : ¬ flt (num 1) (num 0) := by rw [flt_num]; norm_num
  have h2 : flt (num 0) (num 1) := by rw [flt_num]; norm_num
  have h3 : ¬ flt (num 1) (num 1) := flt_irrefl _
  have m1 : argminF [num 0, num 1, num 1] = .ok 0 := by
    simp [argminF, argBest, argFrom, h1, num_ne_none]
  have m2 : argmaxF [num 0, num 1, num 1] = .ok 1 := by
    simp [argmaxF, argBest, argFrom, h2, h3, num_ne_none]
  have m3 : argminF [num 0, num 1] = .ok 0 := by
    simp [argminF, argBest, argFrom, h1, num_ne_none]
  have e : (slice [num 0, num 1, num 1] (some 0) (some 2)).map (fun a => fabs (fsub a (num 0))) =
      [num 0, num 1] := by
    have : slice [num 0, num 1, num 1] (some 0) (some 2) = [num 0, num 1] := by
      unfold slice bound; simp
    rw [this]
    simp [fsub_num, fabs_num]
  unfold takeOnePass
  rw [m1, py_bind, m2, py_bind, if_neg (by simp), if_neg (by simp), if_neg (by omega)]
  have g : pyGet [num 0, num 1, num 1] 0 = .ok (num 0) := rfl
  rw [g, py_bind]
  push_cast
  rw [e, m3, py_bind]
  unfold slice bound
  simp
  rfl

/-! ## Rotation (C53) -/

/-- C53: rotating the data by `-θ` and then by `θ` gives the data. -/
theorem C53_undone (x y : List ℝ) (θ : ℝ) (hl : x.length = y.length) :
    ∃ p, rotate x y (-θ) = .ok p ∧ rotate p.1 p.2 θ = .ok (x, y) := by
  rw [eq_tab x 0, eq_tab y 0, ← hl]
  unfold rotate
  simp only [zip_tab, py_bind]
  refine ⟨_, rfl, ?_⟩
  simp only [zip_tab, py_bind, Real.cos_neg, Real.sin_neg]
  have h := Real.sin_sq_add_cos_sq θ
  congr 2
  · exact tab_ext rfl fun i _ => by linear_combination x.getD i 0 * h
  · exact tab_ext rfl fun i _ => by linear_combination y.getD i 0 * h

/-- C53: the distance of any two points is not changed by the rotation, and neither is the distance of a
point from the origin. -/
theorem C53_distance (x y x' y' : List ℝ) (θ : ℝ) (hl : x.length = y.length)
    (h : rotate x y θ = .ok (x', y')) (j k : ℕ) :
    x'.length = x.length ∧ y'.length = y.length ∧
    (x'.getD j 0 - x'.getD k 0) ^ 2 + (y'.getD j 0 - y'.getD k 0) ^ 2 =
      (x.getD j 0 - x.getD k 0) ^ 2 + (y.getD j 0 - y.getD k 0) ^ 2 ∧
    x'.getD j 0 ^ 2 + y'.getD j 0 ^ 2 = x.getD j 0 ^ 2 + y.getD j 0 ^ 2 := by
  rw [eq_tab x 0, eq_tab y 0, ← hl] at h
  unfold rotate at h
  simp only [zip_tab, py_bind] at h
  obtain ⟨rfl, rfl⟩ := Prod.mk.inj (Except.ok.inj h)
  have key : ∀ (f : ℕ → ℝ), (∀ i, x.length ≤ i → f i = 0) → ∀ i, (tab x.length f).getD i 0 = f i := by
    intro f hf i
    by_cases hi : i < x.length
    · exact tab_getD hi 0
    · rw [List.getD_eq_getElem?_getD, tab_get?, if_neg hi, hf i (not_lt.1 hi)]; rfl
  have hx : ∀ i, x.length ≤ i → x.getD i 0 = 0 := fun i hi => by
    rw [List.getD_eq_getElem?_getD, List.getElem?_eq_none hi]; rfl
  have hy : ∀ i, x.length ≤ i → y.getD i 0 = 0 := fun i hi => by
    rw [List.getD_eq_getElem?_getD, List.getElem?_eq_none (hl ▸ hi)]; rfl
  have h := Real.sin_sq_add_cos_sq θ
  refine ⟨by simp, by simp [hl], ?_, ?_⟩
  · rw [key _ (fun i hi => by rw [hx i hi, hy i hi]; ring), key _ (fun i hi => by rw [hx i hi, hy i hi]; ring),
      key _ (fun i hi => by rw [hx i hi, hy i hi]; ring), key _ (fun i hi => by rw [hx i hi, hy i hi]; ring)]
    linear_combination ((x.getD j 0 - x.getD k 0) ^ 2 + (y.getD j 0 - y.getD k 0) ^ 2) * h
  · rw [key _ (fun i hi => by rw [hx i hi, hy i hi]; ring), key _ (fun i hi => by rw [hx i hi, hy i hi]; ring)]
    linear_combination (x.getD j 0 ^ 2 + y.getD j 0 ^ 2) * h

/-- C53: the point `(1, 0)` is turned counter-clockwise. -/
example (θ : ℝ) : rotate [1] [0] θ = .ok ([Real.cos θ], [Real.sin θ]) := by
  simp [rotate, Np.zip, py_bind]

/-! ## Series resistance (C54) -/

/-- The corrected voltage of a measured point. -/
noncomputable def junction (r : ℝ) (p : ℝ × ℝ) : Flt :=
  if p.2 = 0 then (if 0 < p.1 then none else num 0)
  else if p.1 / p.2 < 0 then num (-p.2 * r) else num (p.1 - p.2 * r)

/-- C54: the points that are not at the origin keep their currents, in the same order, and get the
voltages of `junction`. -/
theorem C54_points (r : ℝ) (l : List (ℝ × ℝ)) :
    seriesResistance (some r) (l.map fun p => num p.1) (l.map fun p => num p.2) =
      .ok ((l.filter fun p => decide (p ≠ 0)).map (junction r),
        (l.filter fun p => decide (p ≠ 0)).map fun p => num p.2) := by
  have hz : ∀ {α β γ : Type} (f : α → β → γ) (g : ℝ × ℝ → α) (h : ℝ × ℝ → β) (l : List (ℝ × ℝ)),
      Np.zip f (l.map g) (l.map h) = .ok (l.map fun p => f (g p) (h p)) := by
    intro α β γ f g h l
    unfold Np.zip
    rw [if_pos (by simp)]
    congr 1
    induction l with
    | nil => rfl
    | cons a l ih => simp [ih]
  have hr : ∀ p : ℝ × ℝ, rstatic (num p.1) (num p.2) =
      if p.2 = 0 then (if p.1 = 0 then none else if 0 < p.1 then some ⊤ else num 0)
      else if p.1 / p.2 < 0 then num 0 else num (p.1 / p.2) := by
    rintro ⟨a, b⟩
    unfold rstatic
    dsimp only
    by_cases hb : b = 0
    · subst hb
      rw [if_pos rfl]
      rcases lt_trichotomy a 0 with ha | rfl | ha
      · rw [fdiv_zero_neg ha, if_pos (by simp [flt, num]), if_neg ha.ne, if_neg ha.not_gt]
      · rw [fdiv_zero_zero, if_neg (flt_none_left _), if_pos rfl]
      · rw [fdiv_zero_pos ha, if_neg (by simp [flt, num]), if_neg ha.ne', if_pos ha]
    · rw [fdiv_num _ hb, if_neg hb]
      by_cases hc : a / b < 0
      · rw [if_pos (flt_num.2 hc), if_pos hc]
      · rw [if_neg (fun h => hc (flt_num.1 h)), if_neg hc]
  have hm : ∀ p : ℝ × ℝ, notNan (rstatic (num p.1) (num p.2)) = decide (p ≠ 0) := by
    rintro ⟨a, b⟩
    rw [hr]
    dsimp only
    by_cases hb : b = 0
    · by_cases ha : a = 0
      · simp [ha, hb, notNan]
      · rw [if_pos hb, if_neg ha]
        simp only [ne_eq, Prod.mk_eq_zero, ha, hb, and_true, not_false_eq_true, decide_true]
        split_ifs <;> rfl
    · rw [if_neg hb]
      simp only [ne_eq, Prod.mk_eq_zero, hb, and_false, not_false_eq_true, decide_true]
      split_ifs <;> rfl
  unfold seriesResistance
  dsimp only
  rw [hz, py_bind, List.map_map, List.map_map]
  have e1 : (notNan ∘ fun p : ℝ × ℝ => rstatic (num p.1) (num p.2)) = fun p => decide (p ≠ 0) :=
    funext hm
  rw [e1, select_map, py_bind, select_map, py_bind, hz, py_bind]
  congr 2
  apply List.map_congr_left
  intro p hp
  have hp0 : p ≠ 0 := by simpa using (List.mem_filter.1 hp).2
  obtain ⟨a, b⟩ := p
  simp only [Function.comp_apply]
  rw [hr (a, b)]
  unfold junction
  dsimp only
  by_cases hb : b = 0
  · subst hb
    have ha : a ≠ 0 := fun h => hp0 (by rw [h]; rfl)
    rw [if_pos rfl, if_neg ha, if_pos rfl]
    by_cases hc : 0 < a
    · rw [if_pos hc, if_pos hc]
      have : fsub (some ⊤) (num r) = some ⊤ := by simp [fsub, num]
      rw [this]; simp [fmul, num]
    · rw [if_neg hc, if_neg hc, fsub_num, fmul_num, zero_mul]
  · rw [if_neg hb, if_neg hb]
    by_cases hc : a / b < 0
    · rw [if_pos hc, if_pos hc, fsub_num, fmul_num]; congr 1; ring
    · rw [if_neg hc, if_neg hc, fsub_num, fmul_num]; congr 1; field_simp

/-- C54: where the voltage and the current have the same sign (or only the voltage is zero), the
corrected voltage is `v - i R`, and every such point is kept. -/
theorem C54_corrected (r : ℝ) (l : List (ℝ × ℝ)) (h : ∀ p ∈ l, p.2 ≠ 0 ∧ 0 ≤ p.1 / p.2) :
    seriesResistance (some r) (l.map fun p => num p.1) (l.map fun p => num p.2) =
      .ok (l.map fun p => num (p.1 - p.2 * r), l.map fun p => num p.2) := by
  rw [C54_points, List.filter_eq_self.2]
  · congr 2
    apply List.map_congr_left
    intro p hp
    obtain ⟨h1, h2⟩ := h p hp
    unfold junction
    rw [if_neg h1, if_neg (not_lt.2 h2)]
  · intro p hp
    have := (h p hp).1
    simp only [ne_eq, decide_eq_true_eq]
    rintro rfl
    exact this rfl

/-- C54: no series resistance, no change. -/
theorem C54_none (v i : List Flt) : seriesResistance none v i = .ok (v, i) := rfl

/-- C54 is false for points without current: a positive voltage becomes NaN. -/
theorem C54_false_nan (r : ℝ) :
    seriesResistance (some r) [num 1, num 1] [num 0, num 1] = .ok ([none, num (1 - r)], [num 0, num 1]) := by
  have := C54_points r [(1, 0), (1, 1)]
  simp only [List.map_cons, List.map_nil] at this
  rw [this]
  simp [junction]

/-- C54: if the signs differ, the measured voltage is lost. -/
theorem C54_false_sign (r : ℝ) :
    seriesResistance (some r) [num (-2), num (-1)] [num 1, num 1] =
      .ok ([num (-r), num (-r)], [num 1, num 1]) := by
  have := C54_points r [(-2, 1), (-1, 1)]
  simp only [List.map_cons, List.map_nil] at this
  rw [this]
  simp [junction]

/-! ## Resistances and the gap voltage (C55) -/

/-- C55: if the points of the normal branch (two at least, at different voltages) lie on
`i = (v - v0) / r`, then `r` and `v0` are found. The other points do not matter. -/
theorem C55_normal (R : Routines) (o : Opts) (v i : List ℝ) (r v0 : ℝ) (hl : v.length = i.length)
    (hr : r ≠ 0)
    (hline : ∀ p ∈ v.zip i, o.vrn.1 < p.1 → p.1 < o.vrn.2 → p.2 = (p.1 - v0) / r)
    (h2 : ∃ a ∈ v, ∃ b ∈ v, a ≠ b ∧ o.vrn.1 < a ∧ a < o.vrn.2 ∧ o.vrn.1 < b ∧ b < o.vrn.2) :
    normalResistance R o v i = .ok (r, v0) := by
  obtain ⟨L, rfl, rfl⟩ := exists_points hl
  rw [zip_fst_snd] at hline
  unfold normalResistance
  rw [masked_points, py_bind]
  dsimp only
  rw [polyfit_line (r := (1 / r, -v0 / r)), py_bind]
  · dsimp only
    unfold Np.fdiv
    rw [if_neg (by positivity), py_bind, if_neg (by positivity), py_bind]
    simp only [pure, Except.pure]
    congr 2 <;> field_simp
  · intro q hq
    rw [List.mem_filter] at hq
    have := of_decide_eq_true hq.2
    rw [hline q hq.1 this.1 this.2]
    field_simp
    ring
  · obtain ⟨a, ha, b, hb, hab, h1, h2, h3, h4⟩ := h2
    obtain ⟨p, hp, rfl⟩ := List.mem_map.1 ha
    obtain ⟨q, hq, rfl⟩ := List.mem_map.1 hb
    exact ⟨p, List.mem_filter.2 ⟨hp, decide_eq_true ⟨h1, h2⟩⟩, q,
      List.mem_filter.2 ⟨hq, decide_eq_true ⟨h3, h4⟩⟩, hab⟩

/-- C55: the same for the subgap resistance. -/
theorem C55_subgap (R : Routines) (o : Opts) (v i : List ℝ) (r v0 : ℝ) (hl : v.length = i.length)
    (hr : r ≠ 0)
    (hline : ∀ p ∈ v.zip i, |p.1 - o.vrsg| < 1e-4 → p.2 = (p.1 - v0) / r)
    (h2 : ∃ a ∈ v, ∃ b ∈ v, a ≠ b ∧ |a - o.vrsg| < 1e-4 ∧ |b - o.vrsg| < 1e-4) :
    subgapResistance R o v i = .ok r := by
  obtain ⟨L, rfl, rfl⟩ := exists_points hl
  rw [zip_fst_snd] at hline
  unfold subgapResistance
  rw [masked_points, py_bind]
  dsimp only
  rw [polyfit_line (r := (1 / r, -v0 / r)), py_bind]
  · dsimp only
    unfold Np.fdiv
    rw [if_neg (by positivity)]
    congr 1; field_simp
  · intro q hq
    rw [List.mem_filter] at hq
    have := of_decide_eq_true hq.2
    rw [hline q hq.1 (abs_lt.2 ⟨by linarith [this.1], by linarith [this.2]⟩)]
    field_simp
    ring
  · obtain ⟨a, ha, b, hb, hab, h1, h2⟩ := h2
    obtain ⟨p, hp, rfl⟩ := List.mem_map.1 ha
    obtain ⟨q, hq, rfl⟩ := List.mem_map.1 hb
    rw [abs_lt] at h1 h2
    exact ⟨p, List.mem_filter.2 ⟨hp, decide_eq_true ⟨by linarith [h1.1], by linarith [h1.2]⟩⟩, q,
      List.mem_filter.2 ⟨hq, decide_eq_true ⟨by linarith [h2.1], by linarith [h2.2]⟩⟩, hab⟩

/-- A line fits points best (least squares). -/
def BestLine (L : List (ℝ × ℝ)) (p : ℝ × ℝ) : Prop :=
  ∀ q : ℝ × ℝ, (L.map fun t => (t.2 - (p.1 * t.1 + p.2)) ^ 2).sum ≤
    (L.map fun t => (t.2 - (q.1 * t.1 + q.2)) ^ 2).sum

/-- C55: the gap voltage is where the transition, a best line through the measured points within 10 µV
of some measured voltage above 2 mV, reaches half of the current at which it crosses the normal branch, a
best line through the points of the normal branch. -/
theorem C55_gap (R : Routines) (o : Opts) (v i : List ℝ) (g : ℝ) (hl : v.length = i.length)
    (h : gapVoltage R o v i = .ok g) :
    ∃ pn pt : ℝ × ℝ, ∃ vg vc : ℝ,
      BestLine ((v.zip i).filter fun p => decide (o.vrn.1 < p.1 ∧ p.1 < o.vrn.2)) pn ∧
      vg ∈ v ∧ 2e-3 < vg ∧
      BestLine ((v.zip i).filter fun p => decide (|p.1 - vg| < 1e-5)) pt ∧
      pn.1 * vc + pn.2 = pt.1 * vc + pt.2 ∧
      pt.1 * g + pt.2 = (pt.1 * vc + pt.2) / 2 := by
  obtain ⟨L, rfl, rfl⟩ := exists_points hl
  rw [zip_fst_snd]
  unfold gapVoltage at h
  rw [masked_points, py_bind] at h
  obtain ⟨pn, h1, h⟩ := bind_ok_iff.1 h
  obtain ⟨v1, -, h⟩ := bind_ok_iff.1 h
  obtain ⟨v0, -, h⟩ := bind_ok_iff.1 h
  rw [masked_points, py_bind] at h
  obtain ⟨der, -, h⟩ := bind_ok_iff.1 h
  obtain ⟨sg, -, h⟩ := bind_ok_iff.1 h
  obtain ⟨der', -, h⟩ := bind_ok_iff.1 h
  obtain ⟨k, -, h⟩ := bind_ok_iff.1 h
  obtain ⟨vg, h2, h⟩ := bind_ok_iff.1 h
  rw [masked_points, py_bind] at h
  obtain ⟨pt, h3, h⟩ := bind_ok_iff.1 h
  unfold gapFromLines at h
  obtain ⟨vc, h4, h⟩ := bind_ok_iff.1 h
  unfold Np.fdiv at h4 h
  split_ifs at h4 with c1
  dsimp only at h
  split_ifs at h with c2
  obtain rfl := Except.ok.inj h4
  obtain rfl := Except.ok.inj h
  have hm := pyGet_mem h2
  obtain ⟨q, hq, rfl⟩ := List.mem_map.1 hm
  obtain ⟨hq1, hq2⟩ := List.mem_filter.1 hq
  refine ⟨pn, pt, q.1, (pt.2 - pn.2) / (pn.1 - pt.1), polyfit_best h1, List.mem_map_of_mem hq1, of_decide_eq_true hq2, ?_, ?_, ?_⟩
  · have := polyfit_best h3
    intro p
    have e : (L.filter fun p => decide (|p.1 - q.1| < 1e-5)) =
        L.filter fun p => decide (q.1 - 0.1e-4 < p.1 ∧ p.1 < q.1 + 0.1e-4) := by
      apply List.filter_congr
      intro p _
      rw [decide_eq_decide, abs_lt]
      constructor
      · rintro ⟨h1, h2⟩; constructor <;> linarith
      · rintro ⟨h1, h2⟩; constructor <;> linarith
    rw [e]; exact this p
  · field_simp
    ring
  · field_simp
    ring

/-! ## Offsets (C64) -/

/-- C64: the corrected data plus the reported offset is the data. -/
theorem C64_offset (R : Routines) (o : Opts) (v i v' i' : List ℝ) (off : ℝ × ℝ)
    (h : correctOffset R o v i = .ok (v', i', off)) :
    v'.map (· + off.1) = v ∧ i'.map (· + off.2) = i := by
  have key : ∀ (l : List ℝ) (c : ℝ), (l.map (· - c)).map (· + c) = l := by
    intro l c; simp [Function.comp_def]
  unfold correctOffset at h
  dsimp only at h
  obtain ⟨lo, -, h⟩ := bind_ok_iff.1 h
  obtain ⟨hi, -, h⟩ := bind_ok_iff.1 h
  split_ifs at h with c
  · obtain ⟨red, -, h⟩ := bind_ok_iff.1 h
    obtain ⟨-, -, h⟩ := bind_ok_iff.1 h
    obtain ⟨rfl, h'⟩ := Prod.mk.inj (Except.ok.inj h)
    obtain ⟨rfl, rfl⟩ := Prod.mk.inj h'
    exact ⟨key _ _, key _ _⟩
  · obtain ⟨rfl, h'⟩ := Prod.mk.inj (Except.ok.inj h)
    obtain ⟨rfl, rfl⟩ := Prod.mk.inj h'
    exact ⟨key _ _, key _ _⟩

/-- C64: data that does not reach beyond the search range on both sides is shifted by the offsets given
by the user, and by nothing if there are none. -/
theorem C64_unipolar (R : Routines) (o : Opts) (v i : List ℝ) (hv : v ≠ [])
    (h : (∀ t ∈ v, o.voffsetRange.pair.1 ≤ t) ∨ ∀ t ∈ v, t ≤ o.voffsetRange.pair.2) :
    correctOffset R o v i = .ok (v.map (· - o.voffset.getD 0), i.map (· - o.ioffset.getD 0),
      (o.voffset.getD 0, o.ioffset.getD 0)) := by
  obtain ⟨hi, h1⟩ := amax_ok hv
  obtain ⟨lo, h2⟩ := amax_ok (l := v.map fun t => -t) (by simpa using hv)
  unfold correctOffset minimum
  dsimp only
  rw [h2, py_bind, pure_bind, h1, py_bind, if_pos]
  · rfl
  · rintro ⟨c1, c2⟩
    rcases h with h | h
    · obtain ⟨t, ht, e⟩ := List.mem_map.1 (amax_mem h2)
      have := h t ht
      linarith
    · have := h hi (amax_mem h1)
      linarith

/-- C64: if one of the offsets is not given, pumped data is shifted by both offsets of the dc data. -/
theorem C64_pumped (R : Routines) (o : Opts) (data : IfResp.Input) (dc : DCIV)
    (h : o.voffset = none ∨ o.ioffset = none) :
    ivCurve R o data dc =
      ivCurve R { o with voffset := some dc.offset.1, ioffset := some dc.offset.2 } data dc := by
  have e : pumpedOffset o dc =
      pumpedOffset { o with voffset := some dc.offset.1, ioffset := some dc.offset.2 } dc := by
    unfold pumpedOffset
    rcases h with h | h
    · rw [h]
    · rw [h]; cases o.voffset <;> rfl
  unfold ivCurve
  rw [e]
  rfl

/-- C64: if both are given, the offset of the dc data does not matter. -/
theorem C64_pumped_user (R : Routines) (o : Opts) (data : IfResp.Input) (dc : DCIV) (a b : ℝ)
    (off : ℝ × ℝ) (ha : o.voffset = some a) (hb : o.ioffset = some b) :
    ivCurve R o data { dc with offset := off } = ivCurve R o data dc := by
  have e : pumpedOffset o { dc with offset := off } = pumpedOffset o dc := by
    unfold pumpedOffset
    rw [ha, hb]
  unfold ivCurve
  rw [e]

/-- C64: the voltages and currents kept with the dc data (without filter), plus the reported offset, are
the measured ones times the multipliers. -/
theorem C64_dc (R : Routines) (o : Opts) (data : IfResp.Input) (v i : List ℝ) (dc : DCIV)
    (hf : o.filterData = false) (h : dcivCurve R o data = .ok (v, i, dc)) :
    ∃ raw vm im, loadIv R o data = .ok raw ∧ toReals raw.1 = .ok vm ∧ toReals raw.2 = .ok im ∧
      dc.vraw.map (· + dc.offset.1) = vm.map (· * o.vMult) ∧
      dc.iraw.map (· + dc.offset.2) = im.map (· * o.iMult) := by
  unfold dcivCurve at h
  obtain ⟨raw, h1, h⟩ := bind_ok_iff.1 h
  obtain ⟨vm, h2, h⟩ := bind_ok_iff.1 h
  obtain ⟨im, h3, h⟩ := bind_ok_iff.1 h
  obtain ⟨c, h4, h⟩ := bind_ok_iff.1 h
  unfold filterIv at h
  rw [if_pos hf, py_bind] at h
  obtain ⟨s, -, h⟩ := bind_ok_iff.1 h
  obtain ⟨_, -, h⟩ := bind_ok_iff.1 h
  obtain ⟨_, -, h⟩ := bind_ok_iff.1 h
  obtain ⟨_, -, h⟩ := bind_ok_iff.1 h
  obtain ⟨_, -, h⟩ := bind_ok_iff.1 h
  obtain ⟨_, -, h⟩ := bind_ok_iff.1 h
  obtain ⟨_, -, h⟩ := bind_ok_iff.1 h
  obtain ⟨_, -, h⟩ := bind_ok_iff.1 h
  obtain ⟨_, -, h⟩ := bind_ok_iff.1 h
  obtain ⟨_, -, h⟩ := bind_ok_iff.1 h
  obtain ⟨_, -, h⟩ := bind_ok_iff.1 h
  obtain ⟨_, -, h⟩ := bind_ok_iff.1 h
  obtain ⟨_, h'⟩ := Prod.mk.inj (Except.ok.inj h)
  obtain ⟨_, rfl⟩ := Prod.mk.inj h'
  obtain ⟨a, b, off⟩ := c
  exact ⟨raw, vm, im, h1, h2, h3, C64_offset R o _ _ _ _ _ h4⟩

/-- An exact minimiser: it finds a lowest value of a function that has one. -/
def Exact (R : Routines) : Prop :=
  ∀ (f : ℝ × ℝ → ℝ) (x0 : ℝ × ℝ), (∃ z, ∀ y, f z ≤ f y) → ∀ y, f (R.minimize f x0) ≤ f y

/-- The data and the options of the counterexample: a resistor, measured on both sides, and an offset
given by the user. -/
noncomputable def biased (o : Opts) : Opts :=
  { o with voffsetRange := .one 1, voffset := some (1 / 4), ioffset := some 0 }

theorem mismatch_nonneg (lo hi : ℝ) (v i : List ℝ) (off : ℝ × ℝ) : 0 ≤ mismatch lo hi v i off := by
  unfold mismatch
  apply List.sum_nonneg
  simp only [List.mem_map]
  rintro x ⟨q, -, rfl⟩
  positivity

theorem mismatch_two (a b : ℝ) (h : |a| ≤ 1 / 4) :
    mismatch (-1) 1 [-1, 1] [-1, 1] (a, b) = 101 * (2 * |a - b|) := by
  have hx : ∀ k ∈ List.range 101, |RespFn.npInterp [-1 - a, 1 - a] [-1 - b, 1 - b]
      (-1 / 2 + (k : ℝ) * ((1 / 2 - -1 / 2) / 100)) -
      RespFn.npInterp [-(1 - a), -(-1 - a)] [-(1 - b), -(-1 - b)]
      (-1 / 2 + (k : ℝ) * ((1 / 2 - -1 / 2) / 100))| = 2 * |a - b| := by
    intro k hk
    have hk : (k : ℝ) ≤ 100 := by exact_mod_cast Nat.lt_succ_iff.1 (List.mem_range.1 hk)
    have hk0 : (0 : ℝ) ≤ k := Nat.cast_nonneg k
    obtain ⟨h1, h2⟩ := abs_le.1 h
    have e1 := interpAt_line [(-1 - a, -1 - b), (1 - a, 1 - b)] (by simp [Incr])
      (-1 / 2 + (k : ℝ) * ((1 / 2 - -1 / 2) / 100)) 1 (a - b) (by simp)
      ⟨(-1 - a, -1 - b), by simp, by dsimp only; linarith⟩ ⟨(1 - a, 1 - b), by simp, by dsimp only; linarith⟩
    have e2 := interpAt_line [(-(1 - a), -(1 - b)), (-(-1 - a), -(-1 - b))]
      (by simp [Incr]; linarith)
      (-1 / 2 + (k : ℝ) * ((1 / 2 - -1 / 2) / 100)) 1 (b - a) (by simp; ring)
      ⟨(-(1 - a), -(1 - b)), by simp, by dsimp only; linarith⟩
      ⟨(-(-1 - a), -(-1 - b)), by simp, by dsimp only; linarith⟩
    simp only [interpAt, List.map_cons, List.map_nil] at e1 e2
    rw [e1, e2]
    rw [show ∀ x : ℝ, 1 * x + (a - b) - (1 * x + (b - a)) = 2 * (a - b) by intro x; ring, abs_mul]
    norm_num
  unfold mismatch
  simp only [List.map_cons, List.map_nil, List.reverse_cons, List.reverse_nil, List.nil_append,
    List.cons_append]
  unfold tab
  rw [List.map_map, List.map_congr_left (g := fun _ => 2 * |a - b|)]
  · rw [List.map_const', List.sum_replicate, List.length_range, nsmul_eq_mul]
    norm_num
  · intro k hk
    exact hx k hk

/-- C64: the offsets given by the user are only a first guess if the dc data reaches beyond the search
range on both sides: an exact minimiser never returns the user's offset `(1/4, 0)` for this data. -/
theorem C64_false_user (R : Routines) (o : Opts) (hR : Exact R) :
    ∃ v' i' off, correctOffset R (biased o) [-2, -1, 1, 2] [-2, -1, 1, 2] = .ok (v', i', off) ∧
      off ≠ (1 / 4, 0) := by
  have e : ∃ x0, correctOffset R (biased o) [-2, -1, 1, 2] [-2, -1, 1, 2] =
      .ok ([-2, -1, 1, 2].map (· - (R.minimize (mismatch (-1) 1 [-1, 1] [-1, 1]) x0).1),
        [-2, -1, 1, 2].map (· - (R.minimize (mismatch (-1) 1 [-1, 1] [-1, 1]) x0).2),
        R.minimize (mismatch (-1) 1 [-1, 1] [-1, 1]) x0) := by
    refine ⟨((biased o).voffset.getD 0, (biased o).ioffset.getD (([-1, 1] : List ℝ).sum / 2)), ?_⟩
    have m1 : minimum [-2, -1, 1, 2] = .ok (-2) := by
      unfold minimum amax
      norm_num [py_bind]
    have m2 : amax [(-2 : ℝ), -1, 1, 2] = .ok 2 := by unfold amax; norm_num
    have m3 : masked (([-2, -1, 1, 2] : List ℝ).map fun t => decide (-1 ≤ t ∧ t ≤ 1)) [(-2 : ℝ), -1, 1, 2]
        [(-2 : ℝ), -1, 1, 2] = .ok ([-1, 1], [-1, 1]) := by
      have := masked_points (fun t : ℝ => decide (-1 ≤ t ∧ t ≤ 1))
        [((-2 : ℝ), (-2 : ℝ)), (-1, -1), (1, 1), (2, 2)]
      simp only [List.map_cons, List.map_nil] at this
      simp only [List.map_cons, List.map_nil]
      rw [this]
      norm_num [List.filter_cons]
    have hp : (biased o).voffsetRange.pair = (-1, 1) := rfl
    unfold correctOffset
    rw [hp]
    dsimp only
    rw [m1, py_bind, m2, py_bind, if_neg (by norm_num), m3, py_bind, raiseIf_neg (by simp)]
    norm_num
    rfl
  obtain ⟨x0, e⟩ := e
  refine ⟨_, _, _, e, fun hc => ?_⟩
  have h0 : mismatch (-1) 1 [-1, 1] [-1, 1] (0, 0) = 0 := by
    rw [mismatch_two 0 0 (by norm_num)]; simp
  have h1 := hR (mismatch (-1) 1 [-1, 1] [-1, 1]) x0
    ⟨(0, 0), fun y => by rw [h0]; exact mismatch_nonneg _ _ _ _ _⟩ (0, 0)
  rw [hc, h0, mismatch_two _ _ (by norm_num [abs_le])] at h1
  norm_num at h1

end QMix.IvData
