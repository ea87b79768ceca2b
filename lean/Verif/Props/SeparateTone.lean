import Verif.Lemmas.PhaseMean
import Verif.Props.Asym

/-!
# A harmonic entered as a separate tone (C148)

A signal at `(P + 1) f` can be entered as harmonic `P + 1` of the tone at `f` or as a second tone. The second choice loses the
phase between the two.
-/

namespace QMix.Props

open Complex Finset Filter Topology QMix.Qt

variable {ι : Type}

theorem round4_int_mul {w : ℝ} (hw : 1 / 20000 < w) {n : ℤ} (h : round4 (n * w) = round4 0) : n = 0 := by
  by_contra hn
  have h1 := abs_round4_sub_le (n * w)
  rw [h, round4_zero, zero_sub, abs_neg, abs_mul, abs_of_pos (by linarith : 0 < w)] at h1
  have h2 : (1 : ℝ) ≤ |(n : ℝ)| := by exact_mod_cast Int.one_le_abs hn
  nlinarith

/-- One tone with `P` harmonics. -/
def oneTone (w : ℝ) (P : ℕ) (vb : ι → ℝ) : Cct ι := ⟨1, P, fun _ => w, vb⟩

/-- Two tones, at `w` and `(P + 1) w`, with `P` harmonics each. -/
noncomputable def twoTones (w : ℝ) (P : ℕ) (vb : ι → ℝ) : Cct ι := ⟨2, P, fun f => if f = 1 then w else (P + 1 : ℕ) * w, vb⟩

/-- The voltages `v 1, ..., v P` at `w` and its harmonics, and `v (P + 1)` as the fundamental of the second tone. -/
def split (v : ℕ → Arr ι) (P : ℕ) : ℕ → ℕ → Arr ι := fun f p i => if f = 1 then v p i else if p = 1 then v (P + 1) i else 0

theorem oneTone_dcAlone {w : ℝ} (hw : 1 / 20000 < w) (P : ℕ) (vb : ι → ℝ) : DcAlone (oneTone w P vb) := by
  intro as h1 _ h3
  match as, h1 with
  | [a], _ =>
    simp only [Spec.photonShift, oneTone, add_zero] at h3
    rw [round4_int_mul hw h3]
    rfl

theorem twoTones_dcAlone {w : ℝ} (hw : 1 / 20000 < w) (P : ℕ) (vb : ι → ℝ) : DcAlone (twoTones w P vb) := by
  intro as h1 h2 h3
  match as, h1 with
  | [a, b], _ =>
    have ha := abs_le.1 (h2 a (by simp))
    have hb := abs_le.1 (h2 b (by simp))
    simp only [Spec.photonShift, twoTones, add_zero, if_true] at h3 ha hb
    rw [if_neg (by norm_num), show (a : ℝ) * w + b * ((P + 1 : ℕ) * w) = ((a + b * (P + 1 : ℕ) : ℤ) : ℝ) * w by push_cast; ring] at h3
    have h := round4_int_mul hw h3
    push_cast at h
    have hb0 : b = 0 := by
      rcases lt_trichotomy b 0 with hb' | hb' | hb'
      · nlinarith
      · exact hb'
      · nlinarith
    subst hb0
    have ha0 : a = 0 := by linarith
    subst ha0
    rfl

theorem tonesFull_two (v : ℕ → ℕ → ℂ) (freq : ℕ → ℝ) (P : ℕ) : Spec.tonesFull v freq P 1 2
    = [⟨Spec.phaseCoeff (v 1) (freq 1) P, 0, freq 1⟩, ⟨Spec.phaseCoeff (v 2) (freq 2) P, 0, freq 2⟩] := by
  rw [Spec.tonesFull, Spec.tonesFull, Spec.tonesFull]

theorem tonesFull_split (v : ℕ → Arr ι) (w : ℝ) {P : ℕ} (hP : 1 ≤ P) (vb : ι → ℝ) (i : ι) :
    Spec.tonesFull (fun f p => split v P f p i) (twoTones w P vb).freq (twoTones w P vb).numP 1 (twoTones w P vb).numF
      = [⟨Spec.phaseCoeff (fun p => v p i) w P, 0, w⟩, ⟨jaFull (v (P + 1) i) w (P + 1), 0, (P + 1 : ℕ) * w⟩] := by
  have e1 : (fun p => split v P 1 p i) = fun p => v p i := by funext p; simp [split]
  have e2 : Spec.phaseCoeff (fun p => split v P 2 p i) ((P + 1 : ℕ) * w) P = jaFull (v (P + 1) i) w (P + 1) := by
    rw [phaseCoeff_single hP (fun p h _ => by unfold split; rw [if_neg (by norm_num), if_neg (by omega)])]
    funext k
    rw [phaseCoeff_one]
    simp [jaFull, split]
  unfold twoTones
  rw [tonesFull_two]
  simp only [if_true, show ¬ (2 = 1) by norm_num, if_false]
  rw [e1, e2]

/-- C148. Enter the voltage at `(P + 1) w` as a second tone instead of the last harmonic. When the summation limits grow, the
simulated dc currents tend to limits, and the limit with two tones is the mean, over the phase of the last harmonic, of the limits
with one tone. -/
theorem C148_mean [Finite ι] (v : ℕ → Arr ι) {w : ℝ} (hw : 1 / 20000 < w) {P : ℕ} (hP : 1 ≤ P) (vb : ι → ℝ) {resp : ℝ → ℂ} {m : ℕ}
    (hr : Growth m resp) :
    ∃ (one : ℝ → ι → ℝ) (two : ι → ℝ),
      (∀ φ, ∀ ε > 0, ∃ N, ∀ nb, Valid (oneTone w (P + 1) vb) nb → AtLeast (oneTone w (P + 1) vb) nb N → ∃ cur : Arr ι,
        qtcurrentList (fun _ p i => Spec.advance (fun p => v p i) (P + 1) φ p) (oneTone w (P + 1) vb) resp [0] nb none = .ok [cur] ∧
        ∀ i, ‖cur i - one φ i‖ < ε) ∧
      (∀ ε > 0, ∃ N, ∀ nb, Valid (twoTones w P vb) nb → AtLeast (twoTones w P vb) nb N → ∃ cur : Arr ι,
        qtcurrentList (split v P) (twoTones w P vb) resp [0] nb none = .ok [cur] ∧ ∀ i, ‖cur i - two i‖ < ε) ∧
      ∀ i, (Continuous fun φ => one φ i) ∧ Spec.phaseMean (fun φ => one φ i) = two i := by
  refine ⟨fun φ i => Spec.photonAverage (fun v => (resp v).im)
      [⟨Spec.phaseCoeff (Spec.advance (fun p => v p i) (P + 1) φ) w (P + 1), 0, w⟩] (vb i),
    fun i => Spec.photonAverage (fun v => (resp v).im)
      [⟨Spec.phaseCoeff (fun p => v p i) w P, 0, w⟩, ⟨jaFull (v (P + 1) i) w (P + 1), 0, (P + 1 : ℕ) * w⟩] (vb i), ?_, ?_, ?_⟩
  · intro φ ε hε
    obtain ⟨N, hN⟩ := C99_converges (fun _ p i => Spec.advance (fun p => v p i) (P + 1) φ p) (oneTone w (P + 1) vb) hr le_rfl [0] hε
    refine ⟨N, fun nb hv ha => ?_⟩
    obtain ⟨cur, h1, h2⟩ := hN nb hv ha
    refine ⟨cur 0, h1, fun i => ?_⟩
    have h3 := h2 0 (by simp) i
    rw [qtFull_dc _ _ hr (oneTone_dcAlone hw _ vb)] at h3
    exact h3
  · intro ε hε
    obtain ⟨N, hN⟩ := C99_converges (split v P) (twoTones w P vb) hr (by simp [twoTones]) [0] hε
    refine ⟨N, fun nb hv ha => ?_⟩
    obtain ⟨cur, h1, h2⟩ := hN nb hv ha
    refine ⟨cur 0, h1, fun i => ?_⟩
    have h3 := h2 0 (by simp) i
    rw [qtFull_dc _ _ hr (twoTones_dcAlone hw _ vb)] at h3
    rw [tonesFull_split v w hP vb i] at h3
    exact h3
  · intro i
    exact mean_photonAverage hr.im (fun p => v p i) w P (vb i)

/-! ## The phase matters -/

/-- A response function with a step at the gap. -/
noncomputable def stepResp (v : ℝ) : ℂ := I * (if 1 ≤ v then 1 else 0 : ℝ)

theorem stepResp_im (v : ℝ) : (stepResp v).im = if 1 ≤ v then 1 else 0 := by
  rw [stepResp, I_mul_im, ofReal_re]

theorem stepResp_growth : Growth 0 stepResp := by
  refine ⟨1, zero_le_one, fun v => ?_⟩
  rw [stepResp, norm_mul, norm_I, norm_real, pow_zero, one_mul, one_mul]
  split_ifs <;> simp

/-- The hypotheses of `C148_mean` can be met: a junction with a step, pumped at 0.3 and at the second harmonic. -/
example (v : ℕ → Arr (Fin 2)) : ∃ (one : ℝ → Fin 2 → ℝ) (two : Fin 2 → ℝ),
    (∀ φ, ∀ ε > 0, ∃ N, ∀ nb, Valid (oneTone 0.3 2 ![0.5, 0.9]) nb → AtLeast (oneTone 0.3 2 ![0.5, 0.9]) nb N →
      ∃ cur : Arr (Fin 2), qtcurrentList (fun _ p i => Spec.advance (fun p => v p i) 2 φ p) (oneTone 0.3 2 ![0.5, 0.9])
        stepResp [0] nb none = .ok [cur] ∧ ∀ i, ‖cur i - one φ i‖ < ε) ∧
    (∀ ε > 0, ∃ N, ∀ nb, Valid (twoTones 0.3 1 ![0.5, 0.9]) nb → AtLeast (twoTones 0.3 1 ![0.5, 0.9]) nb N →
      ∃ cur : Arr (Fin 2), qtcurrentList (split v 1) (twoTones 0.3 1 ![0.5, 0.9]) stepResp [0] nb none = .ok [cur] ∧
        ∀ i, ‖cur i - two i‖ < ε) ∧
    ∀ i, (Continuous fun φ => one φ i) ∧ Spec.phaseMean (fun φ => one φ i) = two i :=
  C148_mean v (by norm_num) le_rfl _ stepResp_growth

example : Valid (twoTones 0.3 1 ![0.5, 0.9] : Cct (Fin 2)) (.int 7) ∧ AtLeast (twoTones 0.3 1 ![0.5, 0.9] : Cct (Fin 2)) (.int 7) 7 := by
  refine ⟨⟨by simp [twoTones], by simp [twoTones], by simp [twoTones], fun f _ _ => by simp only [twoTones]; split_ifs <;> norm_num,
    by simp [twoTones, NumB.toTup]⟩, fun f hf => ?_⟩
  have : f = 0 ∨ f = 1 := by simp only [twoTones] at hf; omega
  rcases this with rfl | rfl <;> simp [NumB.toTup, twoTones]

/-- A voltage of 1 at the fundamental and of `± 1` at the second harmonic. -/
def pair (s : ℂ) : ℕ → Arr Unit := fun p _ => if p = 1 then 1 else s

theorem pair_coeff (s : ℂ) :
    Spec.toneCoeff (fun p => pair s p ()) 1 2 1 1 1
      = (besselJ 1 1 : ℂ) * ((besselJ 0 (‖s‖ / 2) : ℂ) - (besselJ 1 (‖s‖ / 2) : ℂ) * exp (-I * arg s)) := by
  unfold Spec.toneCoeff
  rw [Spec.harmonicConv, show Icc (-((1 : ℕ) : ℤ)) ((1 : ℕ) : ℤ) = {-1, 0, 1} by decide, sum_insert (by decide), sum_insert (by decide),
    sum_singleton, if_neg (by norm_num), if_pos (by norm_num), if_pos (by norm_num)]
  norm_num
  rw [Spec.harmonicConv_one _ _ _ _ le_rfl, Spec.harmonicConv_one _ _ _ _ le_rfl]
  have hn : besselJ (-1) 1 = -besselJ 1 1 := by
    rw [besselJ_neg]
    norm_num
  simp [Spec.jacobiAnger, pair, hn]
  ring

/-- The dc current depends only on the magnitudes of the coefficients. -/
theorem corr_zero_norms (resp : ℝ → ℂ) {ts ts' : List Spec.Tone}
    (h : List.Forall₂ (fun t t' => t.nb = t'.nb ∧ t.w = t'.w ∧ ∀ k, ‖t.C k‖ = ‖t'.C k‖) ts ts') (v : ℝ) :
    (Spec.corr resp (ts.zip (List.replicate ts.length 0)) v).im = (Spec.corr resp (ts'.zip (List.replicate ts'.length 0)) v).im := by
  induction h generalizing v with
  | nil => rfl
  | cons h1 _ ih =>
    obtain ⟨h1, h2, h3⟩ := h1
    simp only [List.length_cons, List.replicate_succ, List.zip_cons_cons, Spec.corr, add_zero]
    rw [im_sum, im_sum, h1]
    refine sum_congr rfl fun k hk => ?_
    rw [mem_Icc, ← abs_le] at hk
    rw [if_pos hk, if_pos hk, mul_conj, mul_conj, im_ofReal_mul, im_ofReal_mul, normSq_eq_norm_sq, normSq_eq_norm_sq, h3, h2, ih]

theorem norm_jacobiAnger_congr {z z' : ℂ} (h : ‖z‖ = ‖z'‖) (w : ℝ) (p n : ℕ) (k : ℤ) :
    ‖Spec.jacobiAnger z w p n k‖ = ‖Spec.jacobiAnger z' w p n k‖ := by
  have e : ∀ x : ℝ, ‖exp (-I * (k : ℂ) * (x : ℂ))‖ = 1 := fun x => by
    rw [norm_exp]
    simp
  unfold Spec.jacobiAnger
  split_ifs
  · rw [norm_mul, norm_mul, e, e, h]
  · rfl

theorem two_same (x : ℝ) :
    Spec.qt stepResp (fun f p => split (pair 1) 1 f p ()) (twoTones 1 1 fun _ : Unit => 0).freq 2 1 [1, 1] x 0
      = Spec.qt stepResp (fun f p => split (pair (-1)) 1 f p ()) (twoTones 1 1 fun _ : Unit => 0).freq 2 1 [1, 1] x 0 := by
  have hv2 : Valid (twoTones 1 1 fun _ : Unit => 0) (.int 1) := ⟨by simp [twoTones], by simp [twoTones], by simp [twoTones],
    fun f _ _ => by simp only [twoTones]; split_ifs <;> norm_num, by simp [twoTones, NumB.toTup]⟩
  have hq := fun v : ℕ → ℕ → ℂ => qt_dc _ stepResp hv2 (twoTones_dcAlone (by norm_num) 1 _) v x
  have e := hq fun f p => split (pair 1) 1 f p ()
  have e' := hq fun f p => split (pair (-1)) 1 f p ()
  simp only [show (twoTones 1 1 fun _ : Unit => (0 : ℝ)).numF = 2 from rfl, show (twoTones 1 1 fun _ : Unit => (0 : ℝ)).numP = 1 from rfl,
    show NumB.toTup (.int 1) 2 = [1, 1] from rfl] at e e'
  rw [e, e']
  refine congrArg (fun x : ℝ => (x : ℂ)) ?_
  simp only [show ([1, 1] : List ℕ).foldr max 0 = 1 from rfl, show ([1, 1] : List ℕ).take 2 = [1, 1] from rfl]
  have key : List.Forall₂ (fun t t' : Spec.Tone => t.nb = t'.nb ∧ t.w = t'.w ∧ ∀ k, ‖t.C k‖ = ‖t'.C k‖)
      (Spec.tonesFrom (fun f p => split (pair 1) 1 f p ()) (twoTones 1 1 fun _ : Unit => 0).freq 1 1 1 [1, 1])
      (Spec.tonesFrom (fun f p => split (pair (-1)) 1 f p ()) (twoTones 1 1 fun _ : Unit => 0).freq 1 1 1 [1, 1]) := by
    simp only [Spec.tonesFrom]
    refine .cons ⟨rfl, rfl, fun k => ?_⟩ (.cons ⟨rfl, rfl, fun k => ?_⟩ .nil) <;>
    · unfold Spec.toneCoeff
      dsimp only
      rw [Spec.harmonicConv_one _ _ _ _ le_rfl, Spec.harmonicConv_one _ _ _ _ le_rfl]
      exact norm_jacobiAnger_congr (by simp [split, pair]) _ _ _ _
  have := corr_zero_norms stepResp key x
  rw [Spec.length_tonesFrom, Spec.length_tonesFrom] at this
  exact this

/-- C148, the phase that is lost matters: with the voltages at `f` and `2 f` in one tone, the dc current depends on the sign of the
second one; with two tones it does not. Both arguments of `qtcurrent` describe the same voltage across the junction, so the
results with two tones cannot be right for both signs. -/
theorem C148_phase_matters : ∃ plus minus two : Arr Unit,
    qtcurrentList (fun _ => pair 1) (oneTone 1 2 fun _ => 0) stepResp [0] (.int 1) none = .ok [plus] ∧
    qtcurrentList (fun _ => pair (-1)) (oneTone 1 2 fun _ => 0) stepResp [0] (.int 1) none = .ok [minus] ∧
    qtcurrentList (split (pair 1) 1) (twoTones 1 1 fun _ => 0) stepResp [0] (.int 1) none = .ok [two] ∧
    qtcurrentList (split (pair (-1)) 1) (twoTones 1 1 fun _ => 0) stepResp [0] (.int 1) none = .ok [two] ∧
    plus () ≠ minus () := by
  have hv1 : Valid (oneTone 1 2 fun _ : Unit => 0) (.int 1) := ⟨by simp [oneTone], by simp [oneTone], by simp [oneTone],
    fun _ _ _ => by simp [oneTone], by simp [oneTone, NumB.toTup]⟩
  have hv2 : Valid (twoTones 1 1 fun _ : Unit => 0) (.int 1) := ⟨by simp [twoTones], by simp [twoTones], by simp [twoTones],
    fun f _ _ => by simp only [twoTones]; split_ifs <;> norm_num, by simp [twoTones, NumB.toTup]⟩
  have one : ∀ s : ℂ, Spec.qt stepResp (fun _ p => pair s p ()) (fun _ => 1) 1 2 (NumB.toTup (.int 1) 1) 0 0
      = ((‖(besselJ 1 1 : ℂ) * ((besselJ 0 (‖s‖ / 2) : ℂ) - (besselJ 1 (‖s‖ / 2) : ℂ) * exp (-I * arg s))‖ ^ 2 : ℝ) : ℂ) := by
    intro s
    rw [← pair_coeff]
    unfold Spec.qt
    rw [show Spec.tonesFrom (fun _ p => pair s p ()) (fun _ => (1 : ℝ)) 2 ((NumB.toTup (.int 1) 1).foldr max 0) 1
      ((NumB.toTup (.int 1) 1).take 1) = [⟨Spec.toneCoeff (fun p => pair s p ()) 1 2 1 1, 1, 1⟩] from rfl,
      Spec.current_single_dc _ _ _ (by norm_num)]
    simp only
    rw [show Icc (-((1 : ℕ) : ℤ)) ((1 : ℕ) : ℤ) = {-1, 0, 1} by decide, sum_insert (by decide), sum_insert (by decide), sum_singleton]
    simp only [stepResp_im]
    norm_num
  refine ⟨_, _, _, qtcurrentList_eq _ _ _ _ _ hv1, qtcurrentList_eq _ _ _ _ _ hv1, qtcurrentList_eq _ _ _ _ _ hv2, ?_, ?_⟩
  · rw [qtcurrentList_eq _ _ _ _ _ hv2]
    exact congrArg (fun c : Arr Unit => (Except.ok [c] : Py (List (Arr Unit)))) (funext fun _ => (two_same 0).symm)
  · intro h
    have h' : Spec.qt stepResp (fun _ p => pair 1 p ()) (fun _ => 1) 1 2 (NumB.toTup (.int 1) 1) 0 0
      = Spec.qt stepResp (fun _ p => pair (-1) p ()) (fun _ => 1) 1 2 (NumB.toTup (.int 1) 1) 0 0 := h
    rw [one, one, arg_neg_one, arg_one, norm_neg, norm_one, ofReal_inj, norm_mul, norm_mul, mul_pow, mul_pow] at h'
    have j1 := besselJ_one_pos one_pos (by linarith [Real.pi_gt_three])
    have j2 := besselJ_one_pos (x := 1 / 2) (by norm_num) (by linarith [Real.pi_gt_three])
    have j3 := (besselJ_zero_bounds (1 / 2)).1
    have h'' := mul_left_cancel₀ (pow_ne_zero 2 (norm_ne_zero_iff.2 (ofReal_ne_zero.2 j1.ne'))) h'
    rw [show -I * (Real.pi : ℂ) = -(Real.pi * I) by ring, exp_neg, exp_pi_mul_I] at h''
    norm_num at h''
    rw [← ofReal_sub, ← ofReal_add, norm_real, norm_real, Real.norm_eq_abs, Real.norm_eq_abs, abs_eq_abs] at h''
    rcases h'' with h | h <;> linarith

end QMix.Props
