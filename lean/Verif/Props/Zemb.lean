import Verif.Model.ZembRec
import Verif.Lemmas.NumPy
import Verif.Lemmas.Py

/-!
# Impedance recovery: the error function
-/

namespace QMix.Zemb

open Np Fl IvData

/-! ## Specification -/

/-- The mean squared mismatch between the measured junction voltages and those of an embedding circuit
with impedance `zs` and source voltage `w`: at junction impedance `z` the voltage divider leaves
`w |z / (zs + z)|` across the junction. -/
noncomputable def mismatch (zs : ℂ) (v z : List ℂ) (w : ℝ) : ℝ :=
  (List.zipWith (fun v z => (‖v‖ - w * ‖z / (zs + z)‖) ^ 2) v z).sum / v.length

/-! ## Lemmas -/

theorem mapM_some {α β : Type} (f : α → β) (l : List α) :
    ((l.map fun a => some (f a)).mapM id : Option (List β)) = some (l.map f) := by
  induction l with
  | nil => rfl
  | cons a l ih =>
    simp only [List.map_cons, List.mapM_cons, ih]
    rfl

theorem mapM_none {α : Type} {l : List (Option α)} (h : none ∈ l) :
    (l.mapM id : Option (List α)) = none := by
  induction l with
  | nil => simp at h
  | cons a l ih =>
    rw [List.mapM_cons]
    rcases List.mem_cons.1 h with h | h
    · rw [← h]; rfl
    · rw [ih h]
      cases a <;> rfl

theorem sumAbs_some {α : Type} (k : ℕ) (f : α → ℂ) (l : List α) :
    sumAbs k (l.map fun a => some (f a)) = some (l.map fun a => ‖f a‖ ^ k).sum := by
  unfold sumAbs
  rw [mapM_some]
  simp [Function.comp_def]

theorem sumAbs_none {k : ℕ} {l : List (Option ℂ)} (h : none ∈ l) : sumAbs k l = none := by
  unfold sumAbs
  rw [mapM_none h]
  rfl

theorem divider_some {zs z : ℂ} (h : zs + z ≠ 0) : divider zs (some z) = some (z / (zs + z)) := by
  simp [divider, cdiv, h]

theorem divider_zero {zs z : ℂ} (h : zs + z = 0) : divider zs (some z) = none := by
  simp [divider, cdiv, h]

theorem matched_some {zs v z : ℂ} (h : zs + z ≠ 0) :
    matched zs (some v) (some z) = some (v * z / (zs + z)) := by
  simp [matched, cmul, cdiv, h]

/-- Both sums, for finite data away from the poles. -/
theorem sums (zs : ℂ) (l : List (ℂ × ℂ)) (h : ∀ p ∈ l, zs + p.2 ≠ 0) :
    zip (matched zs) (l.map fun p => some p.1) (l.map fun p => some p.2)
        = .ok (l.map fun p => some (p.1 * p.2 / (zs + p.2))) ∧
      (l.map fun p => some p.2).map (divider zs) = l.map fun p => some (p.2 / (zs + p.2)) := by
  constructor
  · unfold zip
    rw [if_pos (by simp)]
    congr 1
    rw [List.zipWith_map, List.zipWith_self]
    exact List.map_congr_left fun p hp => matched_some (h p hp)
  · rw [List.map_map]
    exact List.map_congr_left fun p hp => divider_some (h p hp)

theorem square_sum (l : List (ℝ × ℝ)) (w : ℝ) :
    (l.map fun p => (p.1 - w * p.2) ^ 2).sum
      = (l.map fun p => p.1 ^ 2).sum - 2 * w * (l.map fun p => p.1 * p.2).sum
        + w ^ 2 * (l.map fun p => p.2 ^ 2).sum := by
  induction l with
  | nil => simp
  | cons a l ih => simp only [List.map_cons, List.sum_cons, ih]; ring

theorem sum_sq_pos {l : List (ℝ × ℝ)} (h : ∃ p ∈ l, p.2 ≠ 0) : 0 < (l.map fun p => p.2 ^ 2).sum := by
  induction l with
  | nil => simp at h
  | cons a l ih =>
    simp only [List.map_cons, List.sum_cons]
    have h0 : 0 ≤ (l.map fun p : ℝ × ℝ => p.2 ^ 2).sum :=
      List.sum_nonneg (by simp only [List.mem_map]; rintro _ ⟨p, _, rfl⟩; positivity)
    obtain ⟨p, hp, hne⟩ := h
    rcases List.mem_cons.1 hp with rfl | hp
    · have : 0 < p.2 ^ 2 := by positivity
      linarith
    · have := ih ⟨p, hp, hne⟩
      have : 0 ≤ a.2 ^ 2 := by positivity
      linarith

theorem sum_sq_zero {α : Type} {l : List α} {f : α → ℝ} (h : (l.map fun p => f p ^ 2).sum = 0) :
    ∀ p ∈ l, f p = 0 := by
  induction l with
  | nil => simp
  | cons a l ih =>
    simp only [List.map_cons, List.sum_cons] at h
    have h0 : 0 ≤ (l.map fun p => f p ^ 2).sum :=
      List.sum_nonneg (by simp only [List.mem_map]; rintro _ ⟨p, _, rfl⟩; positivity)
    have h1 : 0 ≤ f a ^ 2 := by positivity
    have e1 : f a ^ 2 = 0 := by linarith
    have e2 : (l.map fun p => f p ^ 2).sum = 0 := by linarith
    intro p hp
    rcases List.mem_cons.1 hp with rfl | hp
    · exact pow_eq_zero_iff (two_ne_zero) |>.1 e1
    · exact ih e2 p hp

/-- The lists of measured values as one list. -/
theorem paired {v z : List ℂ} (h : v.length = z.length) :
    ∃ l : List (ℂ × ℂ), v = l.map Prod.fst ∧ z = l.map Prod.snd :=
  ⟨v.zip z, by rw [List.map_fst_zip (by omega)], by rw [List.map_snd_zip (by omega)]⟩

/-! ## C60 -/

/-- C60. For finite data away from `zs + z = 0` the error is the smallest mean squared mismatch over
all source voltages, and the source voltage reported is the only one that attains it. -/
theorem C60_least_squares (v z : List ℂ) (zs : ℂ) (hlen : v.length = z.length)
    (hz : ∀ x ∈ z, zs + x ≠ 0) (hne : ∃ x ∈ z, x ≠ 0) :
    ∃ e w, errorFunction (v.map some) (z.map some) zs = .ok (some e) ∧
      sourceVoltage (v.map some) (z.map some) zs = .ok (some w) ∧
      e = mismatch zs v z w ∧ 0 ≤ e ∧ 0 ≤ w ∧ (∀ w', e ≤ mismatch zs v z w') ∧
      ∀ w', mismatch zs v z w' = e → w' = w := by
  obtain ⟨l, rfl, rfl⟩ := paired hlen
  have hz' : ∀ p ∈ l, zs + p.2 ≠ 0 := fun p hp => hz p.2 (List.mem_map_of_mem hp)
  obtain ⟨s1, s2⟩ := sums zs l hz'
  simp only [List.map_map, Function.comp_def] at *
  have n0 : (0 : ℝ) < l.length := by
    obtain ⟨x, hx, _⟩ := hne
    have : l ≠ [] := by rintro rfl; simp at hx
    exact_mod_cast List.length_pos_iff.2 this
  set r : List (ℝ × ℝ) := l.map fun p => (‖p.1‖, ‖p.2 / (zs + p.2)‖) with hr
  set A := (r.map fun p => p.1 ^ 2).sum with hA
  set B := (r.map fun p => p.1 * p.2).sum with hB
  set C := (r.map fun p => p.2 ^ 2).sum with hC
  have A' : sumAbs 2 (l.map fun p => some p.1) = some A := by
    rw [sumAbs_some, hA, hr]; simp [Function.comp_def]
  have B' : sumAbs 1 (l.map fun p => some (p.1 * p.2 / (zs + p.2))) = some B := by
    rw [sumAbs_some, hB, hr]; simp [Function.comp_def, mul_div_assoc]
  have C' : sumAbs 2 (l.map fun p => some (p.2 / (zs + p.2))) = some C := by
    rw [sumAbs_some, hC, hr]; simp [Function.comp_def]
  have C0 : 0 < C := by
    apply sum_sq_pos
    obtain ⟨x, hx, hx0⟩ := hne
    obtain ⟨p, hp, rfl⟩ := List.mem_map.1 hx
    exact ⟨_, List.mem_map_of_mem hp, by simpa using ⟨hx0, hz' p hp⟩⟩
  have B0 : 0 ≤ B := List.sum_nonneg (by
    simp only [hr, List.mem_map]; rintro _ ⟨_, ⟨p, _, rfl⟩, rfl⟩; positivity)
  have hm : ∀ w, mismatch zs (l.map Prod.fst) (l.map Prod.snd) w
      = (A - 2 * w * B + w ^ 2 * C) / l.length := by
    intro w
    unfold mismatch
    rw [List.zipWith_map, List.zipWith_self, List.length_map, ← square_sum, hr, List.map_map]
    rfl
  have key : ∀ w, A - 2 * w * B + w ^ 2 * C = (A - B ^ 2 / C) + C * (w - B / C) ^ 2 := by
    intro w; field_simp; ring
  refine ⟨(A - B ^ 2 / C) / l.length, B / C, ?_, ?_, ?_, ?_, by positivity, ?_, ?_⟩
  · unfold errorFunction
    rw [s1]
    have hl : l ≠ [] := by rintro rfl; simp at n0
    simp [Function.comp_def, s2, A', B', C', rdiv, C0.ne', hl]
  · unfold sourceVoltage
    rw [s1]
    simp [Function.comp_def, s2, B', C', rdiv, C0.ne']
  · rw [hm, key]; simp
  · have := hm (B / C)
    rw [key, sub_self] at this
    simp only [ne_eq, OfNat.ofNat_ne_zero, not_false_eq_true, zero_pow, mul_zero, add_zero] at this
    rw [← this]
    unfold mismatch
    apply div_nonneg _ (by positivity)
    apply List.sum_nonneg
    intro x hx
    rw [List.zipWith_map, List.zipWith_self, List.mem_map] at hx
    obtain ⟨p, _, rfl⟩ := hx
    positivity
  · intro w
    rw [hm, key, div_le_div_iff_of_pos_right n0]
    have : 0 ≤ C * (w - B / C) ^ 2 := by positivity
    linarith
  · intro w hw
    rw [hm, key, div_left_inj' n0.ne'] at hw
    have : C * (w - B / C) ^ 2 = 0 := by linarith
    rcases mul_eq_zero.1 this with h | h
    · exact absurd h C0.ne'
    · have := pow_eq_zero_iff (two_ne_zero) |>.1 h
      linarith

/-- C60. The error is zero exactly if one source voltage explains all the data. -/
theorem C60_zero_iff (v z : List ℂ) (zs : ℂ) (hlen : v.length = z.length)
    (hz : ∀ x ∈ z, zs + x ≠ 0) (hne : ∃ x ∈ z, x ≠ 0) :
    errorFunction (v.map some) (z.map some) zs = .ok (some 0) ↔
      ∃ w : ℝ, ∀ p ∈ v.zip z, ‖p.1‖ = w * ‖p.2 / (zs + p.2)‖ := by
  obtain ⟨e, w, he, -, hew, h0, -, hmin, -⟩ := C60_least_squares v z zs hlen hz hne
  rw [he]
  have hn : (v.length : ℝ) ≠ 0 := by
    obtain ⟨x, hx, _⟩ := hne
    have : z ≠ [] := by rintro rfl; simp at hx
    have := List.length_pos_iff.2 this
    rw [hlen]
    exact_mod_cast this.ne'
  have hm : ∀ w, mismatch zs v z w
      = ((v.zip z).map fun p => (‖p.1‖ - w * ‖p.2 / (zs + p.2)‖) ^ 2).sum / v.length := by
    intro w
    unfold mismatch
    rw [List.zip, List.map_zipWith]
  constructor
  · intro h
    have e0 : e = 0 := by simpa using h
    refine ⟨w, fun p hp => ?_⟩
    rw [e0, hm, eq_comm, div_eq_zero_iff, or_iff_left hn] at hew
    have := sum_sq_zero hew p hp
    linarith
  · rintro ⟨w', hw'⟩
    have : mismatch zs v z w' = 0 := by
      rw [hm, List.map_congr_left (g := fun _ => 0) (fun p hp => by rw [hw' p hp]; ring)]
      simp
    have := hmin w'
    congr 2
    linarith

/-- C60. Voltages generated by the embedding impedance itself, with any complex source, have error zero
and the source voltage is recovered. -/
theorem C60_recovers (z : List ℂ) (zs src : ℂ) (hz : ∀ x ∈ z, zs + x ≠ 0) (hne : ∃ x ∈ z, x ≠ 0) :
    errorFunction (z.map fun x => some (src * (x / (zs + x)))) (z.map some) zs = .ok (some 0) ∧
    sourceVoltage (z.map fun x => some (src * (x / (zs + x)))) (z.map some) zs = .ok (some ‖src‖) := by
  have hfit : ∀ p ∈ (z.map fun x => src * (x / (zs + x))).zip z, ‖p.1‖ = ‖src‖ * ‖p.2 / (zs + p.2)‖ := by
    intro p hp
    rw [show (z.map fun x => src * (x / (zs + x))).zip z = z.map fun x => (src * (x / (zs + x)), x) by
      rw [List.zip, List.zipWith_map_left, List.zipWith_self]] at hp
    obtain ⟨x, _, rfl⟩ := List.mem_map.1 hp
    exact norm_mul _ _
  have h1 := (C60_zero_iff (z.map fun x => src * (x / (zs + x))) z zs (by simp) hz hne).2 ⟨_, hfit⟩
  obtain ⟨e, w, he, hw, hew, h0, -, hmin, huniq⟩ :=
    C60_least_squares (z.map fun x => src * (x / (zs + x))) z zs (by simp) hz hne
  rw [h1] at he
  have e0 : e = 0 := by
    have := Except.ok.inj he
    exact (Option.some.inj this).symm
  simp only [List.map_map, Function.comp_def] at h1 hw
  refine ⟨h1, ?_⟩
  rw [hw, ← huniq ‖src‖]
  rw [e0]
  unfold mismatch
  rw [div_eq_zero_iff]
  left
  rw [show List.zipWith (fun v z => (‖v‖ - ‖src‖ * ‖z / (zs + z)‖) ^ 2)
      (z.map fun x => src * (x / (zs + x))) z = ((z.map fun x => src * (x / (zs + x))).zip z).map
      fun p => (‖p.1‖ - ‖src‖ * ‖p.2 / (zs + p.2)‖) ^ 2 by rw [List.zip, List.map_zipWith],
    List.map_congr_left (g := fun _ => 0) (fun p hp => by rw [hfit p hp]; ring)]
  simp

/-- C60. Otherwise the error is NaN: data that is not finite, a candidate impedance that cancels a
junction impedance, junction impedances that are all zero, or no data. -/
theorem C60_nan (v z : List (Option ℂ)) (zs : ℂ) (hlen : v.length = z.length)
    (h : none ∈ v ∨ none ∈ z ∨ some (-zs) ∈ z ∨ ∀ x ∈ z, x = some 0) :
    errorFunction v z zs = .ok none := by
  unfold errorFunction
  rw [show zip (matched zs) v z = .ok (List.zipWith (matched zs) v z) by
    unfold Np.zip; rw [if_pos hlen]]
  simp only [py_bind, pure_ok_iff]
  rcases h with h | h | h | h
  · rw [sumAbs_none h]; rfl
  · have : none ∈ z.map (divider zs) := List.mem_map.2 ⟨none, h, rfl⟩
    rw [sumAbs_none this]
    cases sumAbs 2 v <;> cases sumAbs 1 (List.zipWith (matched zs) v z) <;> rfl
  · have : none ∈ z.map (divider zs) :=
      List.mem_map.2 ⟨some (-zs), h, divider_zero (by ring)⟩
    rw [sumAbs_none this]
    cases sumAbs 2 v <;> cases sumAbs 1 (List.zipWith (matched zs) v z) <;> rfl
  · by_cases hm : none ∈ z.map (divider zs)
    · rw [sumAbs_none hm]
      cases sumAbs 2 v <;> cases sumAbs 1 (List.zipWith (matched zs) v z) <;> rfl
    · have : sumAbs 2 (z.map (divider zs)) = some 0 := by
        have hd : z.map (divider zs) = z.map fun _ => some 0 := by
          refine List.map_congr_left fun x hx => ?_
          rw [h x hx]
          by_cases h0 : zs + 0 = 0
          · exact absurd (List.mem_map.2 ⟨x, hx, by rw [h x hx, divider_zero h0]⟩) hm
          · rw [divider_some h0, zero_div]
        rw [hd, sumAbs_some 2 (fun _ => (0 : ℂ)) z]
        simp
      rw [this]
      have : rdiv ((sumAbs 1 (List.zipWith (matched zs) v z)).map (· ^ 2)) (some 0) = none := by
        cases sumAbs 1 (List.zipWith (matched zs) v z) <;> simp [rdiv]
      rw [this]
      cases sumAbs 2 v <;> rfl

/-- C60. A concrete case: two bias points, the impedance `1` and the source `3`. -/
example : errorFunction [some 1, some 2] [some (1 / 2), some 2] 1 = .ok (some 0) ∧
    sourceVoltage [some 1, some 2] [some (1 / 2), some 2] 1 = .ok (some 3) := by
  have h := C60_recovers [1 / 2, 2] 1 3
    (by intro x hx; simp at hx; rcases hx with rfl | rfl <;> norm_num) ⟨2, by simp, by norm_num⟩
  norm_num at h
  exact h

/-- A case in which no source voltage fits. -/
example : ∃ e w, errorFunction [some 1, some 1] [some (1 / 2), some 2] 1 = .ok (some e) ∧
    sourceVoltage [some 1, some 1] [some (1 / 2), some 2] 1 = .ok (some w) ∧ 0 < e := by
  obtain ⟨e, w, h1, h2, hew, h3, -⟩ := C60_least_squares [1, 1] [1 / 2, 2] 1 rfl
    (by intro x hx; simp at hx; rcases hx with rfl | rfl <;> norm_num) ⟨2, by simp, by norm_num⟩
  refine ⟨e, w, h1, h2, lt_of_le_of_ne h3 fun h0 => ?_⟩
  subst h0
  obtain ⟨w', h⟩ := (C60_zero_iff [1, 1] [1 / 2, 2] 1 rfl
    (by intro x hx; simp at hx; rcases hx with rfl | rfl <;> norm_num) ⟨2, by simp, by norm_num⟩).1 h1
  have a := h (1, 1 / 2) (by simp)
  have b := h (1, 2) (by simp)
  norm_num at a b
  have : ‖(3 : ℂ)‖ = 3 := by norm_num
  linarith

end QMix.Zemb
