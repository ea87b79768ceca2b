import Verif.Lemmas.Phase
import Mathlib.Analysis.SpecialFunctions.Trigonometric.Bounds

/-! The tunnelling current is a bounded Lipschitz function of the junction voltages. -/

namespace QMix

open Complex Finset Spec

/-! ## Bounded Lipschitz functions -/

/-- A bounded Lipschitz function. -/
def BL {X : Type} [PseudoMetricSpace X] (f : X → ℂ) : Prop :=
  ∃ B K : ℝ, 0 ≤ B ∧ 0 ≤ K ∧ (∀ x, ‖f x‖ ≤ B) ∧ ∀ x y, ‖f x - f y‖ ≤ K * dist x y

section

variable {X : Type} [PseudoMetricSpace X]

theorem BL.const (c : ℂ) : BL fun _ : X => c :=
  ⟨‖c‖, 0, norm_nonneg _, le_rfl, fun _ => le_rfl, fun _ _ => by simp⟩

theorem BL.add {f g : X → ℂ} (hf : BL f) (hg : BL g) : BL fun x => f x + g x := by
  obtain ⟨B, K, hB, hK, h1, h2⟩ := hf
  obtain ⟨B', K', hB', hK', h1', h2'⟩ := hg
  refine ⟨B + B', K + K', by positivity, by positivity, fun x => ?_, fun x y => ?_⟩
  · exact (norm_add_le _ _).trans (add_le_add (h1 x) (h1' x))
  · rw [add_sub_add_comm, add_mul]
    exact (norm_add_le _ _).trans (add_le_add (h2 x y) (h2' x y))

theorem BL.mul {f g : X → ℂ} (hf : BL f) (hg : BL g) : BL fun x => f x * g x := by
  obtain ⟨B, K, hB, hK, h1, h2⟩ := hf
  obtain ⟨B', K', hB', hK', h1', h2'⟩ := hg
  refine ⟨B * B', B * K' + K * B', by positivity, by positivity, fun x => ?_, fun x y => ?_⟩
  · rw [norm_mul]
    exact mul_le_mul (h1 x) (h1' x) (norm_nonneg _) hB
  · rw [show f x * g x - f y * g y = f x * (g x - g y) + (f x - f y) * g y by ring]
    refine (norm_add_le _ _).trans ?_
    rw [norm_mul, norm_mul, add_mul, mul_assoc, mul_right_comm]
    exact add_le_add (mul_le_mul (h1 x) (h2' x y) (norm_nonneg _) hB)
      (mul_le_mul (h2 x y) (h1' y) (norm_nonneg _) (by positivity))

theorem BL.conj {f : X → ℂ} (hf : BL f) : BL fun x => (starRingEnd ℂ) (f x) := by
  obtain ⟨B, K, hB, hK, h1, h2⟩ := hf
  refine ⟨B, K, hB, hK, fun x => by rw [norm_conj]; exact h1 x, fun x y => ?_⟩
  rw [← map_sub, norm_conj]
  exact h2 x y

theorem BL.im {f : X → ℂ} (hf : BL f) : BL fun x => ((f x).im : ℂ) := by
  obtain ⟨B, K, hB, hK, h1, h2⟩ := hf
  refine ⟨B, K, hB, hK, fun x => ?_, fun x y => ?_⟩
  · rw [norm_real]
    exact (abs_im_le_norm _).trans (h1 x)
  · rw [← ofReal_sub, norm_real, ← sub_im]
    exact (abs_im_le_norm _).trans (h2 x y)

theorem BL.sum {κ : Type} (s : Finset κ) {f : κ → X → ℂ} (hf : ∀ k ∈ s, BL (f k)) : BL fun x => ∑ k ∈ s, f k x := by
  classical
  induction s using Finset.induction_on with
  | empty => simpa using BL.const 0
  | insert a s ha ih =>
    simp only [sum_insert ha]
    exact (hf a (mem_insert_self a s)).add (ih fun k hk => hf k (mem_insert_of_mem hk))

theorem BL.ite {f : X → ℂ} (p : Prop) [Decidable p] (hf : BL f) : BL fun x => if p then f x else 0 := by
  split_ifs
  · exact hf
  · exact BL.const 0

end

/-! ## One harmonic -/

theorem norm_exp_sub_le (a b : ℝ) : ‖exp (I * a) - exp (I * b)‖ ≤ |a - b| := by
  have e : exp (I * a) - exp (I * b) = exp (I * b) * (exp (I * (a - b : ℝ)) - 1) := by
    rw [mul_sub, ← exp_add, mul_one]
    congr 2
    push_cast
    ring
  have h1 : ‖exp (I * b)‖ = 1 := by rw [norm_exp]; simp
  rw [e, norm_mul, h1, one_mul]
  exact Real.norm_exp_I_mul_ofReal_sub_one_le

theorem norm_fcoef_sub_le {F G : ℝ → ℂ} (hF : Continuous F) (hG : Continuous G) {c : ℝ} (h : ∀ t, ‖F t - G t‖ ≤ c)
    (k : ℤ) : ‖fcoef F k - fcoef G k‖ ≤ c := by
  unfold fcoef
  have hp := Real.pi_pos
  rw [← mul_sub, ← intervalIntegral.integral_sub (Continuous.intervalIntegrable (by fun_prop) _ _)
    (Continuous.intervalIntegrable (by fun_prop) _ _), norm_mul, norm_real, Real.norm_of_nonneg (by positivity)]
  have hb := intervalIntegral.norm_integral_le_of_norm_le_const (a := -Real.pi) (b := Real.pi) (C := c)
    (f := fun t : ℝ => exp (-(I * k * t)) * F t - exp (-(I * k * t)) * G t) (by
      intro t _
      rw [← mul_sub, norm_mul, show -(I * (k : ℂ) * t) = I * ((-k : ℤ) : ℂ) * t by push_cast; ring,
        norm_exp_I_mul, one_mul]
      exact h t)
  calc _ ≤ 1 / (2 * Real.pi) * (c * |Real.pi - -Real.pi|) := mul_le_mul_of_nonneg_left hb (by positivity)
    _ = c := by
      rw [abs_of_pos (by linarith)]
      field_simp
      ring

theorem norm_mul_sin (v : ℂ) (s : ℝ) : ‖v‖ * Real.sin (s - arg v) = ((starRingEnd ℂ) v * exp (I * s)).im := by
  conv_rhs => rw [← norm_mul_exp_arg_mul_I v]
  rw [map_mul, conj_ofReal, ← exp_conj, mul_assoc, ← exp_add, im_ofReal_mul]
  congr 1
  have : (starRingEnd ℂ) (arg v * I) + I * s = ((s - arg v : ℝ) : ℂ) * I := by
    simp only [map_mul, conj_ofReal, conj_I]
    push_cast
    ring
  rw [this, exp_ofReal_mul_I_im]

/-- The Jacobi-Anger coefficients are Lipschitz functions of the phasor. -/
theorem norm_jaFull_sub_le (v v' : ℂ) (w : ℝ) (p : ℕ) (n : ℤ) :
    ‖jaFull v w p n - jaFull v' w p n‖ ≤ |1 / (p * w)| * ‖v - v'‖ := by
  have h : ∀ u : ℂ, jaFull u w p n
      = fcoef (fun s => exp (I * (‖u‖ / (p * w) : ℝ) * Real.sin (s - arg u))) n := fun u =>
    (fcoef_of_hasSum ((small_jaFull u w p).2 0 |> fun h => by simpa using h) (hasSum_jaFull u w p) n).symm
  rw [h v, h v']
  refine norm_fcoef_sub_le (by fun_prop) (by fun_prop) (fun t => ?_) n
  have e : ∀ u : ℂ, I * ((‖u‖ / (p * w) : ℝ) : ℂ) * (Real.sin (t - arg u) : ℂ)
      = I * ((1 / (p * w) * ((starRingEnd ℂ) u * exp (I * t)).im : ℝ) : ℂ) := by
    intro u
    rw [← norm_mul_sin u t]
    push_cast
    ring
  rw [e v, e v']
  refine (norm_exp_sub_le _ _).trans ?_
  rw [← mul_sub, abs_mul, ← sub_im, ← sub_mul, ← map_sub]
  refine mul_le_mul_of_nonneg_left ((abs_im_le_norm _).trans ?_) (abs_nonneg _)
  have h1 : ‖exp (I * t)‖ = 1 := by rw [norm_exp]; simp
  rw [norm_mul, norm_conj, h1, mul_one]

section

variable {X : Type} [PseudoMetricSpace X]

/-- A 1-Lipschitz phasor. -/
def Lip1 (v : X → ℂ) : Prop := ∀ x y, ‖v x - v y‖ ≤ dist x y

theorem bl_jacobiAnger {v : X → ℂ} (hv : Lip1 v) (w : ℝ) (p nb : ℕ) (n : ℤ) :
    BL fun x => jacobiAnger (v x) w p nb n := by
  unfold jacobiAnger
  refine BL.ite _ ⟨1, |1 / (p * w)|, zero_le_one, abs_nonneg _, fun x => ?_, fun x y => ?_⟩
  · exact (norm_jaFull (v x) w p n).le.trans (abs_besselJ_le_one _ _)
  · exact (norm_jaFull_sub_le (v x) (v y) w p n).trans (mul_le_mul_of_nonneg_left (hv x y) (abs_nonneg _))

theorem bl_harmonicConv (M : ℕ) {A : X → ℕ → ℤ → ℂ} (hA : ∀ p l, BL fun x => A x p l) (P : ℕ) (k : ℤ) :
    BL fun x => harmonicConv M (A x) P k := by
  induction P generalizing k with
  | zero => exact BL.const _
  | succ P ih =>
    simp only [harmonicConv]
    exact BL.sum _ fun l _ => BL.ite _ ((ih _).mul (hA _ _))

/-! ## The multi-tone sum -/

/-- A tone whose coefficients depend on a parameter. -/
structure PTone (X : Type) where
  C : X → ℤ → ℂ
  nb : ℕ
  w : ℝ

/-- The tone at a value of the parameter. -/
def PTone.at (x : X) (t : PTone X) : Tone := ⟨t.C x, t.nb, t.w⟩

/-- All coefficients are bounded Lipschitz functions. -/
def PTone.Good (t : PTone X) : Prop := ∀ k, BL fun x => t.C x k

theorem bl_corr (resp : ℝ → ℂ) (l : List (PTone X × ℤ)) (hl : ∀ y ∈ l, y.1.Good) (v : ℝ) :
    BL fun x => corr resp (l.map fun y => (y.1.at x, y.2)) v := by
  induction l generalizing v with
  | nil => exact BL.const _
  | cons y l ih =>
    simp only [List.map_cons, corr]
    have hy := hl y (.head _)
    refine BL.sum (Icc (-(y.1.nb : ℤ)) y.1.nb) fun k _ => ?_
    have h := ((hy k).mul (hy (k + y.2)).conj).mul (ih (fun z hz => hl z (.tail _ hz)) (v + k * y.1.w))
    exact BL.ite (|k + y.2| ≤ (y.1.nb : ℤ)) h

theorem bl_mixProduct (resp : ℝ → ℂ) (l : List (PTone X × ℤ)) (hl : ∀ y ∈ l, y.1.Good) (v : ℝ) :
    BL fun x => mixProduct resp (l.map fun y => (y.1.at x, y.2)) v := by
  unfold mixProduct
  have hc : ∀ x : X, (∀ z ∈ l.map (fun y => (y.1.at x, y.2)), z.2 = 0) ↔ ∀ y ∈ l, y.2 = 0 := by
    intro x
    simp only [List.mem_map, forall_exists_index, and_imp, forall_apply_eq_imp_iff₂]
  simp only [hc]
  by_cases h : ∀ y ∈ l, y.2 = 0
  · simp only [if_pos h]
    exact (bl_corr resp l hl v).im
  · simp only [if_neg h, List.map_map]
    have h2 := bl_corr resp (l.map fun y => (y.1, -y.2)) (by
      intro z hz
      obtain ⟨y, hy, rfl⟩ := List.mem_map.1 hz
      exact hl y hy) v
    simp only [List.map_map] at h2
    have h3 := (BL.const (X := X) (-1)).mul h2.conj
    simp only [neg_one_mul] at h3
    simp only [sub_eq_add_neg]
    exact (BL.const _).mul ((bl_corr resp l hl v).add h3)

theorem bl_boxSum (P : ℕ) (ts : List (PTone X)) (hts : ∀ t ∈ ts, t.Good) (g : List (Tone × ℤ) → ℂ)
    (hg : ∀ l : List (PTone X × ℤ), (∀ y ∈ l, y.1.Good) → BL fun x => g (l.map fun y => (y.1.at x, y.2)))
    (pre : List (PTone X × ℤ)) (hpre : ∀ y ∈ pre, y.1.Good) :
    BL fun x => boxSum P (ts.map (PTone.at x)) fun l => g ((pre.map fun y => (y.1.at x, y.2)) ++ l) := by
  induction ts generalizing pre with
  | nil => simpa [boxSum] using hg pre hpre
  | cons t ts ih =>
    simp only [List.map_cons, boxSum]
    refine BL.sum _ fun a _ => ?_
    have := ih (fun s hs => hts s (.tail _ hs)) (pre ++ [(t, a)]) (by
      intro y hy
      rcases List.mem_append.1 hy with hy | hy
      · exact hpre y hy
      · rw [List.mem_singleton.1 hy]
        exact hts t (.head _))
    simpa [List.map_append, List.append_assoc] using this

omit [PseudoMetricSpace X] in
theorem mixFreq_at (x : X) (l : List (PTone X × ℤ)) :
    mixFreq (l.map fun y => (y.1.at x, y.2)) = (l.map fun y => (y.2 : ℝ) * y.1.w).sum := by
  unfold mixFreq
  rw [List.map_map]
  rfl

theorem bl_current (resp : ℝ → ℂ) (P : ℕ) (ts : List (PTone X)) (hts : ∀ t ∈ ts, t.Good) (v f : ℝ) :
    BL fun x => current resp P (ts.map (PTone.at x)) v f := by
  have := bl_boxSum P ts hts (fun l => if round4 (mixFreq l) = round4 f then mixProduct resp l v else 0)
    (fun l hl => by
      simp only [mixFreq_at]
      exact BL.ite _ (bl_mixProduct resp l hl v)) [] (by simp)
  unfold current
  simpa using this

/-- The tones of `tonesFrom` as functions of a parameter. -/
noncomputable def ptones (v : X → ℕ → ℕ → ℂ) (freq : ℕ → ℝ) (P M : ℕ) : ℕ → List ℕ → List (PTone X)
  | _, [] => []
  | f, nb :: nbs => ⟨fun x => toneCoeff (v x f) (freq f) P nb M, nb, freq f⟩ :: ptones v freq P M (f + 1) nbs

omit [PseudoMetricSpace X] in
theorem ptones_at (v : X → ℕ → ℕ → ℂ) (freq : ℕ → ℝ) (P M f : ℕ) (nbs : List ℕ) (x : X) :
    (ptones v freq P M f nbs).map (PTone.at x) = tonesFrom (v x) freq P M f nbs := by
  induction nbs generalizing f with
  | nil => rfl
  | cons nb nbs ih =>
    simp only [ptones, tonesFrom, List.map_cons, ih]
    rfl

theorem ptones_good {v : X → ℕ → ℕ → ℂ} (hv : ∀ f p, Lip1 fun x => v x f p) (freq : ℕ → ℝ) (P M f : ℕ)
    (nbs : List ℕ) : ∀ t ∈ ptones v freq P M f nbs, t.Good := by
  induction nbs generalizing f with
  | nil => intro t ht; cases ht
  | cons nb nbs ih =>
    intro t ht
    rcases List.mem_cons.1 ht with rfl | ht
    · intro k
      exact bl_harmonicConv M (fun p l => bl_jacobiAnger (hv f p) _ p nb l) P k
    · exact ih (f + 1) t ht

/-- The tunnelling current is a bounded Lipschitz function of the junction voltages. -/
theorem bl_qt (resp : ℝ → ℂ) {v : X → ℕ → ℕ → ℂ} (hv : ∀ f p, Lip1 fun x => v x f p) (freq : ℕ → ℝ) (numF P : ℕ)
    (tup : List ℕ) (vb f : ℝ) : BL fun x => qt resp (v x) freq numF P tup vb f := by
  unfold qt
  simp only [← ptones_at]
  exact bl_current resp P _ (ptones_good hv freq P _ 1 _) vb f

end

end QMix
