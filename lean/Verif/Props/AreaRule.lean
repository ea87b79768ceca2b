import Verif.Props.Asym
import Mathlib.Analysis.SpecialFunctions.Gaussian.GaussianIntegral
import Mathlib.MeasureTheory.Integral.Bochner.Basic
import Mathlib.MeasureTheory.Group.Integral
import Mathlib.MeasureTheory.Measure.Lebesgue.Basic

/-! # The drive moves the dc I-V curve along the bias voltage but keeps its area (C166) -/

namespace QMix.Props

open Complex Finset Filter Topology MeasureTheory QMix.Qt QMix.Zemb

variable {ι : Type}

/-- The correlation of orders 0 is a weighted sum of translates; the weight is its value for a response function that is `i`
everywhere. -/
theorem corr_zero_area (ts : List Spec.Tone) : ∃ W : ℝ, 0 ≤ W ∧
    (∀ x, (Spec.corr (fun _ => I) (ts.zip (List.replicate ts.length 0)) x).im = W) ∧
    ∀ r₁ r₂ : ℝ → ℂ, Integrable (fun x => (r₁ x).im - (r₂ x).im) →
      Integrable (fun x => (Spec.corr r₁ (ts.zip (List.replicate ts.length 0)) x).im
        - (Spec.corr r₂ (ts.zip (List.replicate ts.length 0)) x).im) ∧
      ∫ x, ((Spec.corr r₁ (ts.zip (List.replicate ts.length 0)) x).im - (Spec.corr r₂ (ts.zip (List.replicate ts.length 0)) x).im)
        = W * ∫ x, ((r₁ x).im - (r₂ x).im) := by
  induction ts with
  | nil => exact ⟨1, zero_le_one, fun x => by simp [Spec.corr], fun r₁ r₂ h => ⟨by simpa [Spec.corr] using h, by simp [Spec.corr]⟩⟩
  | cons t ts ih =>
    obtain ⟨W, h0, h1, h2⟩ := ih
    have key : ∀ (r : ℝ → ℂ) (x : ℝ), (Spec.corr r ((t :: ts).zip (List.replicate (t :: ts).length 0)) x).im
        = ∑ k ∈ Icc (-(t.nb : ℤ)) t.nb, normSq (t.C k) * (Spec.corr r (ts.zip (List.replicate ts.length 0)) (x + k * t.w)).im := by
      intro r x
      simp only [List.length_cons, List.replicate_succ, List.zip_cons_cons, Spec.corr, add_zero]
      rw [im_sum]
      refine sum_congr rfl fun k hk => ?_
      rw [mem_Icc, ← abs_le] at hk
      rw [if_pos hk, mul_conj, im_ofReal_mul]
    refine ⟨(∑ k ∈ Icc (-(t.nb : ℤ)) t.nb, normSq (t.C k)) * W,
      mul_nonneg (sum_nonneg fun k _ => normSq_nonneg _) h0, fun x => ?_, fun r₁ r₂ hr => ?_⟩
    · rw [key, sum_mul]
      exact sum_congr rfl fun k _ => by rw [h1]
    · obtain ⟨hi, he⟩ := h2 r₁ r₂ hr
      have hk : ∀ k ∈ Icc (-(t.nb : ℤ)) t.nb, Integrable fun x =>
          normSq (t.C k) * ((Spec.corr r₁ (ts.zip (List.replicate ts.length 0)) (x + k * t.w)).im
            - (Spec.corr r₂ (ts.zip (List.replicate ts.length 0)) (x + k * t.w)).im) :=
        fun k _ => (hi.comp_add_right (k * t.w)).const_mul _
      have e : (fun x => (Spec.corr r₁ ((t :: ts).zip (List.replicate (t :: ts).length 0)) x).im
          - (Spec.corr r₂ ((t :: ts).zip (List.replicate (t :: ts).length 0)) x).im)
          = fun x => ∑ k ∈ Icc (-(t.nb : ℤ)) t.nb,
          normSq (t.C k) * ((Spec.corr r₁ (ts.zip (List.replicate ts.length 0)) (x + k * t.w)).im
            - (Spec.corr r₂ (ts.zip (List.replicate ts.length 0)) (x + k * t.w)).im) := by
        funext x
        rw [key, key, ← sum_sub_distrib]
        exact sum_congr rfl fun k _ => by ring
      rw [e]
      refine ⟨integrable_finsetSum _ hk, ?_⟩
      rw [integral_finset_sum _ hk, sum_mul, sum_mul]
      refine sum_congr rfl fun k _ => ?_
      rw [integral_const_mul, integral_add_right_eq_self (μ := volume)
        (fun x => (Spec.corr r₁ (ts.zip (List.replicate ts.length 0)) x).im
            - (Spec.corr r₂ (ts.zip (List.replicate ts.length 0)) x).im) (k * t.w), he, mul_assoc]

/-- C166: two junctions are driven by the same ac voltages. The area between their pumped dc I-V curves is the area between their
unpumped curves times a number `W`, the same for all junctions: the dc current of a response function that is `i` everywhere. This
holds for any number of tones and harmonics, any drive and any `num_b`. -/
theorem C166_between (v : ℕ → ℕ → ℂ) (cct : Cct ι) {nb : NumB} (h : Valid cct nb) (hd : DcAlone cct) : ∃ W : ℝ, 0 ≤ W ∧
    (∀ (κ : Type) (vb : κ → ℝ), qtcurrentList (fun f p _ => v f p) ⟨cct.numF, cct.numP, cct.freq, vb⟩ (fun _ => I) [0] nb none
      = .ok [fun _ => (W : ℂ)]) ∧
    ∀ r₁ r₂ : ℝ → ℂ, Integrable (fun x => (r₁ x).im - (r₂ x).im) → ∃ J₁ J₂ : ℝ → ℝ,
      (∀ (κ : Type) (vb : κ → ℝ), qtcurrentList (fun f p _ => v f p) ⟨cct.numF, cct.numP, cct.freq, vb⟩ r₁ [0] nb none
        = .ok [fun i => (J₁ (vb i) : ℂ)]) ∧
      (∀ (κ : Type) (vb : κ → ℝ), qtcurrentList (fun f p _ => v f p) ⟨cct.numF, cct.numP, cct.freq, vb⟩ r₂ [0] nb none
        = .ok [fun i => (J₂ (vb i) : ℂ)]) ∧
      Integrable (fun x => J₁ x - J₂ x) ∧ ∫ x, (J₁ x - J₂ x) = W * ∫ x, ((r₁ x).im - (r₂ x).im) := by
  set ts := Spec.tonesFrom v cct.freq cct.numP ((nb.toTup cct.numF).foldr max 0) 1 ((nb.toTup cct.numF).take cct.numF) with hts
  have hl : ts.length = cct.numF := by
    rw [hts, Spec.length_tonesFrom, List.length_take, min_eq_left h.limits]
  have key : ∀ (r : ℝ → ℂ) (κ : Type) (vb : κ → ℝ),
      qtcurrentList (fun f p _ => v f p) ⟨cct.numF, cct.numP, cct.freq, vb⟩ r [0] nb none
        = .ok [fun i => ((Spec.corr r (ts.zip (List.replicate ts.length 0)) (vb i)).im : ℂ)] := by
    intro r κ vb
    have hv : Valid (⟨cct.numF, cct.numP, cct.freq, vb⟩ : Cct κ) nb := ⟨h.1, h.2, h.3, h.4, h.5⟩
    rw [C14_mtsda _ _ r [0] nb hv, List.map_singleton]
    congr 2
    funext i
    rw [qt_dc _ r hv hd, hl]
  obtain ⟨W, h0, h1, h2⟩ := corr_zero_area ts
  refine ⟨W, h0, fun κ vb => ?_, fun r₁ r₂ hr => ⟨_, _, key r₁, key r₂, h2 r₁ r₂ hr⟩⟩
  rw [key]
  simp only [h1]

/-- C166, with enough Bessel functions: for any two junctions the drive keeps the area between their dc I-V curves, to any accuracy
if every entry of `num_b` is large enough. -/
theorem C166_kept (v : ℕ → ℕ → ℂ) (cct : Cct ι) (hF : 1 ≤ cct.numF) (hf : ∀ f, 1 ≤ f → f ≤ cct.numF → cct.freq f ≠ 0)
    (hd : DcAlone cct) {r₁ r₂ : ℝ → ℂ} (hr : Integrable (fun x => (r₁ x).im - (r₂ x).im)) {ε : ℝ} (hε : 0 < ε) :
    ∃ N, ∀ nb, Valid cct nb → AtLeast cct nb N → ∃ J₁ J₂ : ℝ → ℝ,
      (∀ (κ : Type) (vb : κ → ℝ), qtcurrentList (fun f p _ => v f p) ⟨cct.numF, cct.numP, cct.freq, vb⟩ r₁ [0] nb none
        = .ok [fun i => (J₁ (vb i) : ℂ)]) ∧
      (∀ (κ : Type) (vb : κ → ℝ), qtcurrentList (fun f p _ => v f p) ⟨cct.numF, cct.numP, cct.freq, vb⟩ r₂ [0] nb none
        = .ok [fun i => (J₂ (vb i) : ℂ)]) ∧
      Integrable (fun x => J₁ x - J₂ x) ∧ |(∫ x, (J₁ x - J₂ x)) - ∫ x, ((r₁ x).im - (r₂ x).im)| < ε := by
  set A := ∫ x, ((r₁ x).im - (r₂ x).im) with hA
  have hg : Growth 0 fun _ : ℝ => I := ⟨1, zero_le_one, fun x => by simp⟩
  let c : Cct Unit := ⟨cct.numF, cct.numP, cct.freq, fun _ => 0⟩
  obtain ⟨N, hN⟩ := C99_converges (fun f p _ => v f p) c hg hF [0] (div_pos hε (by positivity : 0 < |A| + 1))
  refine ⟨N, fun nb hv hl => ?_⟩
  obtain ⟨W, h0, h1, h2⟩ := C166_between v cct hv hd
  obtain ⟨J₁, J₂, e1, e2, hi, he⟩ := h2 r₁ r₂ hr
  refine ⟨J₁, J₂, e1, e2, hi, ?_⟩
  obtain ⟨cur, ec, hc⟩ := hN nb ⟨hv.1, hv.2, hv.3, hv.4, hv.5⟩ hl
  have hw := hc 0 (by simp) ()
  have ec' := (h1 Unit fun _ => 0).symm.trans ec
  simp only [List.map_cons, List.map_nil, Except.ok.injEq, List.cons.injEq, and_true] at ec'
  rw [← ec', qtFull_dc (fun f p => v f p) c hg hd] at hw
  simp only [I_im] at hw
  rw [avg_const 1 (tonesFull_exact v cct.freq cct.numP 1 cct.numF fun g h1 h2 => hf g h1 (by omega)), ← ofReal_sub, norm_real,
    Real.norm_eq_abs, lt_div_iff₀ (by positivity)] at hw
  rw [he, show W * A - A = (W - 1) * A by ring, abs_mul]
  refine lt_of_le_of_lt ?_ hw
  exact mul_le_mul_of_nonneg_left (by linarith) (abs_nonneg _)

/-- The hypotheses can be met: two tones, and two junctions that differ by a bump of area `√π`. -/
example (v : ℕ → ℕ → ℂ) (r : ℝ → ℂ) {ε : ℝ} (hε : 0 < ε) :
    ∃ n : ℕ, ∃ J₁ J₂ : ℝ → ℝ,
      qtcurrentList (fun f p _ => v f p) ⟨2, 1, fun f => if f = 1 then 0.3 else 0.31, ![0.5, 0.9, 1.3]⟩
        (fun x => r x + I * (Real.exp (-1 * x ^ 2) : ℝ)) [0] (.int n) none = .ok [fun i => (J₁ (![0.5, 0.9, 1.3] i) : ℂ)] ∧
      qtcurrentList (fun f p _ => v f p) ⟨2, 1, fun f => if f = 1 then 0.3 else 0.31, ![0.5, 0.9, 1.3]⟩ r [0] (.int n) none
        = .ok [fun i => (J₂ (![0.5, 0.9, 1.3] i) : ℂ)] ∧
      |(∫ x, (J₁ x - J₂ x)) - √Real.pi| < ε := by
  have hd : DcAlone (⟨2, 1, fun f => if f = 1 then 0.3 else 0.31, ![0.5, 0.9, 1.3]⟩ : Cct (Fin 3)) := by
    rintro as h1 h2 h3
    obtain ⟨a, b, rfl⟩ : ∃ a b, as = [a, b] := by
      match as, h1 with
      | [a, b], _ => exact ⟨a, b, rfl⟩
    have ha := abs_le.1 (h2 a (by simp))
    have hb := abs_le.1 (h2 b (by simp))
    have := round4_close h3
    simp only [Spec.photonShift] at this
    have ha' : a = -1 ∨ a = 0 ∨ a = 1 := by push_cast at ha; omega
    have hb' : b = -1 ∨ b = 0 ∨ b = 1 := by push_cast at hb; omega
    rcases ha' with rfl | rfl | rfl <;> rcases hb' with rfl | rfl | rfl <;> first | rfl | norm_num [abs_le] at this
  have e : (fun x : ℝ => ((r x + I * (Real.exp (-1 * x ^ 2) : ℝ)).im - (r x).im)) = fun x => Real.exp (-1 * x ^ 2) := by
    funext x
    rw [add_im, add_sub_cancel_left, mul_comm, im_ofReal_mul, I_im, mul_one]
  obtain ⟨N, hN⟩ := C166_kept v ⟨2, 1, fun f => if f = 1 then 0.3 else 0.31, ![0.5, 0.9, 1.3]⟩ (by norm_num)
    (fun f _ _ => by dsimp only; split_ifs <;> norm_num) hd (r₁ := fun x => r x + I * (Real.exp (-1 * x ^ 2) : ℝ)) (r₂ := r)
    (by rw [e]; exact integrable_exp_neg_mul_sq one_pos) hε
  obtain ⟨J₁, J₂, h1, h2, -, h3⟩ := hN (.int N)
    ⟨by norm_num, by norm_num, le_rfl, fun f _ _ => by dsimp only; split_ifs <;> norm_num, by simp [NumB.toTup]⟩
    (fun n hn => by
      simp only [NumB.toTup]
      interval_cases n <;> simp)
  rw [e, integral_gaussian, div_one] at h3
  exact ⟨N, J₁, J₂, h1 _ _, h2 _ _, h3⟩

end QMix.Props
