import Verif.Lemmas.Reversal
import Verif.Lemmas.Limit2

/-! # Multiplying voltages, frequencies and currents by constants -/

namespace QMix.Spec
open Complex Finset

theorem jacobiAnger_scale {s : ℝ} (hs : 0 < s) (v : ℂ) (w : ℝ) (p nb : ℕ) (n : ℤ) :
    jacobiAnger (s * v) (s * w) p nb n = jacobiAnger v w p nb n := by
  unfold jacobiAnger
  rw [arg_real_mul v hs, norm_mul, norm_real, Real.norm_of_nonneg hs.le, show (p : ℝ) * (s * w) = s * (p * w) by ring,
    mul_div_mul_left _ _ hs.ne']

/-- The tone with the frequency multiplied by `s`. -/
noncomputable def Tone.scale (s : ℝ) (t : Tone) : Tone := ⟨t.C, t.nb, s * t.w⟩

theorem tonesFrom_scale {s : ℝ} (hs : 0 < s) (v : ℕ → ℕ → ℂ) (freq : ℕ → ℝ) (P M f : ℕ) (nbs : List ℕ) :
    tonesFrom (fun f p => s * v f p) (fun f => s * freq f) P M f nbs = (tonesFrom v freq P M f nbs).map (Tone.scale s) := by
  induction nbs generalizing f with
  | nil => rfl
  | cons nb nbs ih =>
    simp only [tonesFrom, List.map_cons, ih]
    congr 1
    unfold Tone.scale toneCoeff
    congr 2
    funext p n
    exact jacobiAnger_scale hs _ _ _ _ _

theorem corr_scale {s : ℝ} (hs : 0 < s) (c : ℝ) (resp : ℝ → ℂ) (l : List (Tone × ℤ)) (v : ℝ) :
    corr (fun x => c * resp (x / s)) (l.map fun x => (x.1.scale s, x.2)) (s * v) = c * corr resp l v := by
  induction l generalizing v with
  | nil =>
    simp only [List.map_nil, corr]
    rw [mul_div_cancel_left₀ _ hs.ne']
  | cons x l ih =>
    simp only [List.map_cons, corr]
    rw [mul_sum]
    refine sum_congr rfl fun k _ => ?_
    by_cases h : |k + x.2| ≤ (x.1.nb : ℤ)
    · rw [if_pos h, if_pos (by exact h)]
      rw [show s * v + k * (x.1.scale s).w = s * (v + k * x.1.w) by simp only [Tone.scale]; ring, ih]
      simp only [Tone.scale]
      ring
    · rw [if_neg h, if_neg (by exact h), mul_zero]

theorem mixProduct_scale {s : ℝ} (hs : 0 < s) (c : ℝ) (resp : ℝ → ℂ) (l : List (Tone × ℤ)) (v : ℝ) :
    mixProduct (fun x => c * resp (x / s)) (l.map fun x => (x.1.scale s, x.2)) (s * v) = c * mixProduct resp l v := by
  unfold mixProduct
  have h2 := corr_scale hs c resp (l.map fun x => (x.1, -x.2)) v
  simp only [List.map_map, Function.comp_def] at h2 ⊢
  simp only [List.mem_map, forall_exists_index, and_imp, forall_apply_eq_imp_iff₂]
  rw [corr_scale hs]
  split_ifs
  · rw [im_ofReal_mul]
    push_cast
    rfl
  · rw [h2]
    simp only [map_mul, conj_ofReal]
    ring

theorem photonShift_scale (s : ℝ) (freq : ℕ → ℝ) (f : ℕ) (ks : List ℤ) :
    photonShift (fun g => s * freq g) f ks = s * photonShift freq f ks := by
  induction ks generalizing f with
  | nil => simp [photonShift]
  | cons k ks ih =>
    simp only [photonShift, ih]
    ring

theorem qt_scale {s : ℝ} (hs : 0 < s) (c : ℝ) (resp : ℝ → ℂ) (v : ℕ → ℕ → ℂ) (freq : ℕ → ℝ) (numF P : ℕ) (tup : List ℕ) (vb x : ℝ)
    (hlen : numF ≤ tup.length)
    (hm : ∀ ks : List ℤ, ks.length = numF → (∀ k ∈ ks, |k| ≤ (P : ℤ)) →
      (round4 (s * photonShift freq 1 ks) = round4 (s * x) ↔ round4 (photonShift freq 1 ks) = round4 x)) :
    qt (fun u => c * resp (u / s)) (fun f p => s * v f p) (fun f => s * freq f) numF P tup (s * vb) (s * x)
      = c * qt resp v freq numF P tup vb x := by
  unfold qt current
  rw [tonesFrom_scale hs, boxSum_map, ← boxSum_mul]
  refine boxSum_congr' fun as h1 h2 => ?_
  have hl : (tup.take numF).length = numF := by rw [List.length_take]; omega
  rw [length_tonesFrom, hl] at h1
  have e1 : mixFreq ((tonesFrom v freq P (tup.foldr max 0) 1 (tup.take numF)).zip as) = photonShift freq 1 as :=
    mixFreq_zip _ _ _ _ _ _ _ (by omega)
  have e : mixFreq (((tonesFrom v freq P (tup.foldr max 0) 1 (tup.take numF)).zip as).map fun y => (y.1.scale s, y.2))
      = s * photonShift freq 1 as := by
    rw [← e1]
    unfold mixFreq
    rw [List.map_map, ← List.sum_map_mul_left]
    congr 1
    refine List.map_congr_left fun y _ => ?_
    simp only [Function.comp, Tone.scale]
    ring
  rw [e, e1, mixProduct_scale hs]
  simp only [hm as h1 h2]
  split_ifs
  · rfl
  · rw [mul_zero]

end QMix.Spec
