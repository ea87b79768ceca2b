import Verif.Lemmas.Exact

/-! The full current of a resistor, and the power absorbed by a junction. -/

namespace QMix

open Complex Filter Topology Finset Spec

/-- What is used of the exact coefficients of a tone with harmonic voltages `v 1, ..., v P`. -/
structure Exact (P : ℕ) (v : ℕ → ℂ) (L : Tone) : Prop where
  small : Small fun k => ‖L.C k‖
  orth : ∀ a : ℤ, HasSum (fun k : ℤ => L.C k * (starRingEnd ℂ) (L.C (k + a))) (if a = 0 then 1 else 0)
  recur : ∀ k : ℤ, (k : ℂ) * L.w * L.C k
    = ∑ p ∈ Icc 1 P, ((starRingEnd ℂ) (v p) * L.C (k - p) + v p * L.C (k + p)) / 2

theorem exact_phaseCoeff (v : ℕ → ℂ) {w : ℝ} (hw : w ≠ 0) (P nb : ℕ) : Exact P v ⟨phaseCoeff v w P, nb, w⟩ :=
  ⟨small_phaseCoeff v w P, phaseCoeff_orth v w P, phaseCoeff_recurrence v hw P⟩

/-- Half the phasor of order `a`. -/
noncomputable def halfPhasor (v : ℕ → ℂ) (P : ℕ) (a : ℤ) : ℂ :=
  ∑ p ∈ Icc 1 P, ((starRingEnd ℂ) (v p) * (if a + p = 0 then 1 else 0) + v p * (if a - p = 0 then 1 else 0)) / 2

theorem halfPhasor_zero (v : ℕ → ℂ) (P : ℕ) : halfPhasor v P 0 = 0 := by
  unfold halfPhasor
  refine Finset.sum_eq_zero fun p hp => ?_
  have := (Finset.mem_Icc.1 hp).1
  rw [if_neg (by omega), if_neg (by omega)]
  simp

theorem halfPhasor_add (v : ℕ → ℂ) (P : ℕ) {a : ℤ} (h0 : a ≠ 0) (ha : |a| ≤ P) :
    halfPhasor v P a + (starRingEnd ℂ) (halfPhasor v P (-a))
      = if 0 < a then v a.natAbs else (starRingEnd ℂ) (v a.natAbs) := by
  unfold halfPhasor
  rw [map_sum, ← Finset.sum_add_distrib]
  have hm : a.natAbs ∈ Icc 1 P := by
    rw [Finset.mem_Icc]
    rw [Int.abs_eq_natAbs] at ha
    omega
  rw [Finset.sum_eq_single_of_mem a.natAbs hm]
  · split_ifs with h1 h2 h3 h4 h5 <;> first | omega | (simp [map_ofNat]; try ring)
  · intro p hp hne
    have := (Finset.mem_Icc.1 hp).1
    rw [if_neg (by omega), if_neg (by omega), if_neg (by omega), if_neg (by omega)]
    simp

theorem Exact.moment {P : ℕ} {v : ℕ → ℂ} {L : Tone} (h : Exact P v L) (a : ℤ) :
    HasSum (fun k : ℤ => (k : ℂ) * L.w * (L.C k * (starRingEnd ℂ) (L.C (k + a)))) (halfPhasor v P a) := by
  have e : (fun k : ℤ => (k : ℂ) * L.w * (L.C k * (starRingEnd ℂ) (L.C (k + a)))) = fun k : ℤ => ∑ p ∈ Icc 1 P,
      ((starRingEnd ℂ) (v p) * (L.C (k - p) * (starRingEnd ℂ) (L.C (k + a)))
        + v p * (L.C (k + p) * (starRingEnd ℂ) (L.C (k + a)))) / 2 := by
    funext k
    rw [← mul_assoc, h.recur k, Finset.sum_mul]
    exact Finset.sum_congr rfl fun p _ => by ring
  rw [e]
  refine hasSum_sum fun p _ => ?_
  have h1 := ((Equiv.subRight (p : ℤ)).hasSum_iff).2 (h.orth (a + p))
  have h2 := ((Equiv.addRight (p : ℤ)).hasSum_iff).2 (h.orth (a - p))
  have e1 : ((fun k : ℤ => L.C k * (starRingEnd ℂ) (L.C (k + (a + p)))) ∘ (Equiv.subRight (p : ℤ))) =
      fun k : ℤ => L.C (k - p) * (starRingEnd ℂ) (L.C (k + a)) := by
    funext k
    simp only [Function.comp_apply, Equiv.subRight_apply]
    rw [show k - (p : ℤ) + (a + p) = k + a by ring]
  have e2 : ((fun k : ℤ => L.C k * (starRingEnd ℂ) (L.C (k + (a - p)))) ∘ (Equiv.addRight (p : ℤ))) =
      fun k : ℤ => L.C (k + p) * (starRingEnd ℂ) (L.C (k + a)) := by
    funext k
    simp only [Function.comp_apply, Equiv.coe_addRight]
    rw [show k + (p : ℤ) + (a - p) = k + a by ring]
  rw [e1] at h1
  rw [e2] at h2
  exact ((h1.mul_left _).add (h2.mul_left _)).div_const 2

/-! ## A resistor -/

/-- Is every order of the list zero? -/
noncomputable def allZero (as : List ℤ) : ℂ := if ∀ a ∈ as, a = 0 then 1 else 0

theorem allZero_cons (a : ℤ) (as : List ℤ) : allZero (a :: as) = if a = 0 then allZero as else 0 := by
  unfold allZero
  by_cases h : a = 0
  · simp [h]
  · simp [h]

/-- The correlation of a resistor. -/
noncomputable def ohm (P : ℕ) : List (ℕ → ℂ) → List ℤ → ℝ → ℂ
  | _, [], x => x
  | [], _ :: _, x => x
  | v :: vs, a :: as, x => (if a = 0 then ohm P vs as x else 0) + halfPhasor v P a * allZero as

theorem ohm_add (P : ℕ) (vs : List (ℕ → ℂ)) (as : List ℤ) (hlen : as.length = vs.length) (x y : ℝ) :
    ohm P vs as (x + y) = ohm P vs as x + y * allZero as := by
  induction vs generalizing as with
  | nil =>
    cases as with
    | nil => simp [ohm, allZero]
    | cons => simp at hlen
  | cons v vs ih =>
    cases as with
    | nil => simp at hlen
    | cons a as =>
      simp only [ohm, allZero_cons]
      split_ifs
      · rw [ih as (by simpa using hlen)]
        ring
      · ring

theorem corrFull_ohm (P : ℕ) {vs : List (ℕ → ℂ)} {Ls : List Tone} (h : List.Forall₂ (Exact P) vs Ls) (as : List ℤ)
    (hlen : as.length = vs.length) (x : ℝ) :
    corrFull (fun y => I * y) (Ls.zip as) x = I * ohm P vs as x := by
  induction h generalizing as x with
  | nil =>
    cases as with
    | nil => rfl
    | cons => simp at hlen
  | @cons v L vs Ls h1 _ ih =>
    cases as with
    | nil => simp at hlen
    | cons a as =>
      have hl : as.length = vs.length := by simpa using hlen
      simp only [List.zip_cons_cons, corrFull, ohm]
      have hs : HasSum (fun k : ℤ => L.C k * (starRingEnd ℂ) (L.C (k + a)) * corrFull (fun y => I * y) (Ls.zip as) (x + k * L.w))
          (I * ((if a = 0 then 1 else 0) * ohm P vs as x + halfPhasor v P a * allZero as)) := by
        have := (((h1.orth a).mul_right (ohm P vs as x)).add ((h1.moment a).mul_right (allZero as))).mul_left I
        have e : (fun k : ℤ => L.C k * (starRingEnd ℂ) (L.C (k + a)) * corrFull (fun y => I * y) (Ls.zip as) (x + k * L.w)) =
            fun k : ℤ => I * (L.C k * (starRingEnd ℂ) (L.C (k + a)) * ohm P vs as x
              + (k : ℂ) * L.w * (L.C k * (starRingEnd ℂ) (L.C (k + a))) * allZero as) := by
          funext k
          rw [ih as hl, ohm_add P vs as hl]
          push_cast
          ring
        rw [e]
        exact this
      rw [hs.tsum_eq]
      congr 2
      split_ifs <;> simp

theorem ohm_dc (P : ℕ) (vs : List (ℕ → ℂ)) (as : List ℤ) (hlen : as.length = vs.length) (h0 : ∀ a ∈ as, a = 0) (x : ℝ) :
    ohm P vs as x = x := by
  induction vs generalizing as with
  | nil =>
    cases as with
    | nil => rfl
    | cons => simp at hlen
  | cons v vs ih =>
    cases as with
    | nil => simp at hlen
    | cons a as =>
      obtain ⟨rfl, h⟩ := List.forall_mem_cons.1 h0
      simp only [ohm]
      rw [if_pos trivial, ih as (by simpa using hlen) h, halfPhasor_zero]
      simp

/-- The applied phasor of the orders `as`: that of the only tone with a non-zero order; none when
two tones or more take part. -/
noncomputable def applied : List (ℕ → ℂ) → List ℤ → ℂ
  | v :: vs, a :: as => if a = 0 then applied vs as else
      if ∀ b ∈ as, b = 0 then (if 0 < a then v a.natAbs else (starRingEnd ℂ) (v a.natAbs)) else 0
  | _, _ => 0

theorem allZero_neg (as : List ℤ) : allZero (as.map fun a => -a) = allZero as := by
  have : (∀ a ∈ as.map (fun a => -a), a = 0) ↔ ∀ a ∈ as, a = 0 := by
    rw [List.forall_mem_map]
    simp only [neg_eq_zero]
  unfold allZero
  simp only [this]

theorem ohm_ac (P : ℕ) (vs : List (ℕ → ℂ)) (as : List ℤ) (hlen : as.length = vs.length) (hP : ∀ a ∈ as, |a| ≤ P)
    (h0 : ¬ ∀ a ∈ as, a = 0) (x : ℝ) :
    ohm P vs as x + (starRingEnd ℂ) (ohm P vs (as.map fun a => -a) x) = applied vs as := by
  induction vs generalizing as with
  | nil =>
    cases as with
    | nil => simp at h0
    | cons => simp at hlen
  | cons v vs ih =>
    cases as with
    | nil => simp at hlen
    | cons a as =>
      obtain ⟨hp1, hp2⟩ := List.forall_mem_cons.1 hP
      simp only [ohm, List.map_cons, allZero_neg, applied, neg_eq_zero]
      by_cases ha : a = 0
      · subst ha
        simp only [if_true, neg_zero, halfPhasor_zero, zero_mul, add_zero]
        exact ih as (by simpa using hlen) hp2 (by simpa using h0)
      · simp only [if_neg ha, zero_add]
        have := halfPhasor_add v P ha hp1
        by_cases hz : ∀ b ∈ as, b = 0
        · rw [if_pos hz, ← this]
          simp [allZero, if_pos hz]
        · rw [if_neg hz]
          simp [allZero, if_neg hz]

theorem mixFull_ohm (P : ℕ) {vs : List (ℕ → ℂ)} {Ls : List Tone} (h : List.Forall₂ (Exact P) vs Ls) (as : List ℤ)
    (hlen : as.length = vs.length) (hP : ∀ a ∈ as, |a| ≤ P) (x : ℝ) :
    mixFull (fun y => I * y) (Ls.zip as) x = if ∀ a ∈ as, a = 0 then (x : ℂ) else applied vs as := by
  unfold mixFull
  rw [zip_neg, corrFull_ohm P h as hlen, corrFull_ohm P h _ (by simpa using hlen)]
  have hz : (∀ y ∈ Ls.zip as, y.2 = 0) ↔ ∀ a ∈ as, a = 0 := zip_zero_iff (by rw [hlen, h.length_eq])
  simp only [hz]
  split_ifs with h0
  · rw [ohm_dc P vs as hlen h0]
    simp
  · rw [← ohm_ac P vs as hlen hP h0 x, map_mul, conj_I]
    linear_combination (-(ohm P vs as x + (starRingEnd ℂ) (ohm P vs (as.map fun a => -a) x))) * I_sq

end QMix
