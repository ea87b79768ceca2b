import Verif.Lemmas.Mtsda

/-! # Conjugated voltages -/

namespace QMix.Spec

open Complex Finset

theorem jacobiAnger_conj (v : ℂ) (w : ℝ) (p nb : ℕ) (n : ℤ) :
    jacobiAnger ((starRingEnd ℂ) v) w p nb n = (starRingEnd ℂ) (jacobiAnger v w p nb n) := by
  unfold jacobiAnger
  split_ifs
  · rw [norm_conj, map_mul, conj_ofReal, ← exp_conj]
    congr 1
    simp only [map_mul, map_neg, conj_I, conj_ofReal, map_intCast, neg_neg]
    rw [arg_conj]
    split_ifs with h
    · rw [h, exp_eq_exp_iff_exists_int]
      exact ⟨-n, by push_cast; ring⟩
    · push_cast
      congr 1
      ring
  · rw [map_zero]

theorem harmonicConv_conj (M : ℕ) (A : ℕ → ℤ → ℂ) (P : ℕ) (k : ℤ) :
    harmonicConv M (fun p l => (starRingEnd ℂ) (A p l)) P k = (starRingEnd ℂ) (harmonicConv M A P k) := by
  induction P generalizing k with
  | zero =>
    simp only [harmonicConv]
    split_ifs <;> simp
  | succ P ih =>
    simp only [harmonicConv]
    rw [map_sum]
    refine sum_congr rfl fun l _ => ?_
    split_ifs
    · rw [ih, map_mul]
    · rw [map_zero]

theorem toneCoeff_conj (v : ℕ → ℂ) (w : ℝ) (P nb M : ℕ) (k : ℤ) :
    toneCoeff (fun p => (starRingEnd ℂ) (v p)) w P nb M k = (starRingEnd ℂ) (toneCoeff v w P nb M k) := by
  unfold toneCoeff
  rw [← harmonicConv_conj]
  congr 1
  funext p l
  exact jacobiAnger_conj _ _ _ _ _

/-- The tone with conjugated coefficients. -/
noncomputable def Tone.conj (t : Tone) : Tone := ⟨fun k => (starRingEnd ℂ) (t.C k), t.nb, t.w⟩

theorem tonesFrom_conj (v : ℕ → ℕ → ℂ) (freq : ℕ → ℝ) (P M f : ℕ) (nbs : List ℕ) :
    tonesFrom (fun f p => (starRingEnd ℂ) (v f p)) freq P M f nbs = (tonesFrom v freq P M f nbs).map Tone.conj := by
  induction nbs generalizing f with
  | nil => rfl
  | cons nb nbs ih =>
    simp only [tonesFrom, List.map_cons, ih]
    congr 1
    unfold Tone.conj
    congr 1
    funext k
    exact toneCoeff_conj _ _ _ _ _ _

theorem corr_conj (resp : ℝ → ℂ) (l : List (Tone × ℤ)) (v : ℝ) :
    corr (fun x => -(starRingEnd ℂ) (resp x)) (l.map fun x => (x.1.conj, x.2)) v = -(starRingEnd ℂ) (corr resp l v) := by
  induction l generalizing v with
  | nil => rfl
  | cons x l ih =>
    simp only [List.map_cons, corr]
    rw [map_sum, ← sum_neg_distrib]
    refine sum_congr rfl fun k _ => ?_
    rw [ih]
    by_cases h : |k + x.2| ≤ (x.1.nb : ℤ)
    · rw [if_pos h, if_pos (by exact h)]
      simp only [Tone.conj, map_mul, conj_conj]
      ring
    · rw [if_neg h, if_neg (by exact h), map_zero, neg_zero]

theorem mixProduct_conj (resp : ℝ → ℂ) (l : List (Tone × ℤ)) (v : ℝ) :
    mixProduct (fun x => -(starRingEnd ℂ) (resp x)) (l.map fun x => (x.1.conj, x.2)) v = (starRingEnd ℂ) (mixProduct resp l v) := by
  unfold mixProduct
  have h2 := corr_conj resp (l.map fun x => (x.1, -x.2)) v
  simp only [List.map_map, Function.comp_def] at h2 ⊢
  simp only [List.mem_map, forall_exists_index, and_imp, forall_apply_eq_imp_iff₂]
  rw [corr_conj]
  split_ifs
  · simp
  · rw [h2]
    simp only [map_mul, map_neg, conj_I, map_sub, conj_conj]
    ring

theorem boxSum_map (P : ℕ) (φ : Tone → Tone) (ts : List Tone) (g : List (Tone × ℤ) → ℂ) :
    boxSum P (ts.map φ) g = boxSum P ts fun l => g (l.map fun x => (φ x.1, x.2)) := by
  induction ts generalizing g with
  | nil => rfl
  | cons t ts ih =>
    simp only [List.map_cons, boxSum]
    exact sum_congr rfl fun a _ => ih _

/-- Conjugated voltages and a response function with the opposite reactive part give the conjugated currents. -/
theorem qt_conj (resp : ℝ → ℂ) (v : ℕ → ℕ → ℂ) (freq : ℕ → ℝ) (numF P : ℕ) (tup : List ℕ) (vb f : ℝ) :
    qt (fun x => -(starRingEnd ℂ) (resp x)) (fun f p => (starRingEnd ℂ) (v f p)) freq numF P tup vb f
      = (starRingEnd ℂ) (qt resp v freq numF P tup vb f) := by
  unfold qt current
  rw [tonesFrom_conj, boxSum_map, ← boxSum_conj]
  refine boxSum_congr P _ fun l _ => ?_
  have e : mixFreq (l.map fun x => (x.1.conj, x.2)) = mixFreq l := by
    unfold mixFreq
    rw [List.map_map]
    rfl
  rw [e, mixProduct_conj]
  split_ifs
  · rfl
  · rw [map_zero]

end QMix.Spec
