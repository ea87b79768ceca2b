import Verif.Props.Steps
import Verif.Props.Limit
import Verif.Lemmas.Bessel5
import Verif.Lemmas.HarmonicBalance2

/-!
# C133, C134: the pumped junction is passive

C133: pumping a junction whose I-V curve does not fall gives an I-V curve that does not fall. C134: such a junction
absorbs power from a tone.
-/

namespace QMix.Props

open Complex Finset QMix.Qt QMix.Zemb MathFn RespFn

variable {ι : Type}

/-! ## C133 -/

/-- The only mixing product (with orders up to the number of harmonics) at frequency 0 is the dc current. -/
def DcAlone (cct : Cct ι) : Prop :=
  ∀ as : List ℤ, as.length = cct.numF → (∀ a ∈ as, |a| ≤ (cct.numP : ℤ)) →
    round4 (Spec.photonShift cct.freq 1 as) = round4 0 → as = List.replicate cct.numF 0

theorem corr_zero_mono {resp : ℝ → ℂ} (hm : Monotone fun v => (resp v).im) (ts : List Spec.Tone) :
    Monotone fun v => (Spec.corr resp (ts.zip (List.replicate ts.length 0)) v).im := by
  induction ts with
  | nil => exact hm
  | cons t ts ih =>
    intro a b hab
    simp only [List.length_cons, List.replicate_succ, List.zip_cons_cons, Spec.corr, add_zero]
    rw [im_sum, im_sum]
    refine sum_le_sum fun k hk => ?_
    rw [mem_Icc, ← abs_le] at hk
    rw [if_pos hk, if_pos hk, mul_conj, im_ofReal_mul, im_ofReal_mul]
    exact mul_le_mul_of_nonneg_left (ih (by linarith : a + k * t.w ≤ b + k * t.w)) (normSq_nonneg _)

/-- The dc current is the imaginary part of the correlation of orders 0. -/
theorem qt_dc (cct : Cct ι) (resp : ℝ → ℂ) {nb : NumB} (h : Valid cct nb) (hd : DcAlone cct) (v : ℕ → ℕ → ℂ) (x : ℝ) :
    Spec.qt resp v cct.freq cct.numF cct.numP (nb.toTup cct.numF) x 0
      = ((Spec.corr resp ((Spec.tonesFrom v cct.freq cct.numP ((nb.toTup cct.numF).foldr max 0) 1 ((nb.toTup cct.numF).take cct.numF)).zip
          (List.replicate cct.numF 0)) x).im : ℂ) := by
  have hl : (Spec.tonesFrom v cct.freq cct.numP ((nb.toTup cct.numF).foldr max 0) 1 ((nb.toTup cct.numF).take cct.numF)).length
      = cct.numF := by
    rw [Spec.length_tonesFrom, List.length_take, min_eq_left h.limits]
  unfold Spec.qt Spec.current
  rw [boxSum_single (bs := List.replicate cct.numF 0) (by rw [hl, List.length_replicate])
    (fun b hb => by rw [List.eq_of_mem_replicate hb]; simp)]
  · rw [if_pos]
    · unfold Spec.mixProduct
      rw [if_pos]
      rw [zip_zero_iff (by simp [hl])]
      exact fun a ha => List.eq_of_mem_replicate ha
    · congr 1
      unfold Spec.mixFreq
      apply List.sum_eq_zero
      intro y hy
      obtain ⟨q, hq, rfl⟩ := List.mem_map.1 hy
      rw [List.eq_of_mem_replicate (List.of_mem_zip hq).2]
      simp
  · intro as h1 h2 h3
    rw [hl] at h1
    rw [if_neg]
    intro e
    refine h3 (hd as h1 h2 ?_)
    rw [Spec.mixFreq_zip _ _ _ _ _ _ _ (by rw [h1, List.length_take, min_eq_left h.limits])] at e
    exact e

/-- C133: if the dc I-V curve does not fall and nothing but the dc current is at frequency 0, then at equal ac voltages the dc current
does not fall with the bias voltage, for any number of tones and harmonics, any drive and any `num_b`. -/
theorem C133_monotone (vj : ℕ → ℕ → Arr ι) (cct : Cct ι) {resp : ℝ → ℂ} (hm : Monotone fun v => (resp v).im) {nb : NumB}
    (h : Valid cct nb) (hd : DcAlone cct) : ∃ r : Arr ι, qtcurrentList vj cct resp [0] nb none = .ok [r] ∧
      (∀ i, (r i).im = 0) ∧ ∀ i j, (∀ f p, 1 ≤ f → f ≤ cct.numF → 1 ≤ p → p ≤ cct.numP → vj f p i = vj f p j) →
        cct.vb i ≤ cct.vb j → (r i).re ≤ (r j).re := by
  refine ⟨_, C14_mtsda vj cct resp [0] nb h, fun i => ?_, fun i j hv hb => ?_⟩
  · dsimp only
    rw [qt_dc cct resp h hd, ofReal_im]
  · dsimp only
    rw [qt_dc cct resp h hd, qt_dc cct resp h hd, ofReal_re, ofReal_re]
    have e : Spec.tonesFrom (fun f p => vj f p i) cct.freq cct.numP ((nb.toTup cct.numF).foldr max 0) 1 ((nb.toTup cct.numF).take cct.numF)
        = Spec.tonesFrom (fun f p => vj f p j) cct.freq cct.numP ((nb.toTup cct.numF).foldr max 0) 1
          ((nb.toTup cct.numF).take cct.numF) := by
      apply HB.tonesFrom_congr_range
      intro f p h1 h2 h3 h4
      rw [List.length_take, min_eq_left h.limits] at h2
      exact hv f p h1 (by omega) h3 h4
    rw [e]
    have := corr_zero_mono hm (Spec.tonesFrom (fun f p => vj f p j) cct.freq cct.numP ((nb.toTup cct.numF).foldr max 0) 1
      ((nb.toTup cct.numF).take cct.numF)) hb
    rw [Spec.length_tonesFrom, List.length_take, min_eq_left h.limits] at this
    exact this

theorem perfect_mono : Monotone perfectElem := by
  have pin : ∀ y : ℝ, |y| < 1 → perfectElem y = 0 := by
    intro y h
    unfold perfectElem
    simp only [if_pos h]
  have p1 : ∀ y : ℝ, 1 ≤ y → (y = 1 ∧ perfectElem y = 1 / 2) ∨ (1 < y ∧ perfectElem y = y) := by
    intro y h
    rcases h.eq_or_lt with rfl | h
    · left
      unfold perfectElem
      norm_num
    · right
      refine ⟨h, ?_⟩
      unfold perfectElem
      simp only [if_neg h.ne', if_neg (show y ≠ -1 by linarith), if_neg (show ¬ |y| < 1 by rw [abs_of_pos (by linarith)]; linarith)]
  have p2 : ∀ y : ℝ, y ≤ -1 → (y = -1 ∧ perfectElem y = -(1 / 2)) ∨ (y < -1 ∧ perfectElem y = y) := by
    intro y h
    rcases h.eq_or_lt with rfl | h
    · left
      unfold perfectElem
      norm_num
    · right
      refine ⟨h, ?_⟩
      unfold perfectElem
      simp only [if_neg h.ne, if_neg (show y ≠ 1 by linarith), if_neg (show ¬ |y| < 1 by rw [abs_of_neg (by linarith)]; linarith)]
  intro a b hab
  have cl : ∀ y : ℝ, y ≤ -1 ∨ |y| < 1 ∨ 1 ≤ y := by
    intro y
    rw [abs_lt]
    by_cases h : y ≤ -1
    · exact .inl h
    · by_cases h' : 1 ≤ y
      · exact .inr (.inr h')
      · exact .inr (.inl ⟨by linarith, by linarith⟩)
  rcases cl a with ha | ha | ha <;> rcases cl b with hb | hb | hb
  · rcases p2 a ha with ⟨a1, a2⟩ | ⟨a1, a2⟩ <;> rcases p2 b hb with ⟨b1, b2⟩ | ⟨b1, b2⟩ <;> linarith
  · rw [pin b hb]
    rcases p2 a ha with ⟨a1, a2⟩ | ⟨a1, a2⟩ <;> linarith
  · rcases p2 a ha with ⟨a1, a2⟩ | ⟨a1, a2⟩ <;> rcases p1 b hb with ⟨b1, b2⟩ | ⟨b1, b2⟩ <;> linarith
  · linarith [(abs_lt.1 ha).1]
  · rw [pin a ha, pin b hb]
  · rw [pin a ha]
    rcases p1 b hb with ⟨b1, b2⟩ | ⟨b1, b2⟩ <;> linarith
  · linarith
  · linarith [(abs_lt.1 hb).2]
  · rcases p1 a ha with ⟨a1, a2⟩ | ⟨a1, a2⟩ <;> rcases p1 b hb with ⟨b1, b2⟩ | ⟨b1, b2⟩ <;> linarith

/-- The I-V curve of the ideal junction does not fall. -/
theorem perfect_resp_mono {S : Splines} {p : Params} (hs : p.vSmear = none) {r : Obj} (hr : respPerfect S p = .ok r) :
    Monotone fun v => (r.resp v).im := by
  unfold respPerfect at hr
  rw [hs] at hr
  have e : r.fIdc = perfectElem := by rw [← Except.ok.inj hr]
  have : (fun v => (r.resp v).im) = perfectElem := by
    funext v
    unfold Obj.resp
    rw [e]
    simp
  rw [this]
  exact perfect_mono

/-- The hypotheses can be met: the ideal junction in a circuit with two tones. -/
example (S : Splines) (vj : ℕ → ℕ → Arr (Fin 2)) : ∃ o r, respPerfect S {} = .ok o ∧
    qtcurrentList vj ⟨2, 1, fun f => if f = 1 then 0.3 else 0.31, ![0.5, 0.9]⟩ o.resp [0] (.int 9) none = .ok [r] ∧
    ((∀ f p, vj f p 0 = vj f p 1) → (r 0).re ≤ (r 1).re) := by
  obtain ⟨o, hr⟩ : ∃ o, respPerfect S {} = .ok o := ⟨_, rfl⟩
  have hd : DcAlone (⟨2, 1, fun f => if f = 1 then 0.3 else 0.31, ![0.5, 0.9]⟩ : Cct (Fin 2)) := by
    rintro as h1 h2 h3
    obtain ⟨a, b, rfl⟩ : ∃ a b, as = [a, b] := by
      match as, h1 with
      | [a, b], _ => exact ⟨a, b, rfl⟩
    have ha := abs_le.1 (h2 a (by simp))
    have hb := abs_le.1 (h2 b (by simp))
    have := round4_close h3
    simp only [Spec.photonShift] at this
    have ha' : a = -1 ∨ a = 0 ∨ a = 1 := by push_cast at ha; omega
    have hb' : b = -1 ∨ b = 0 ∨ b = 1 := by push_cast at hb; omega
    rcases ha' with rfl | rfl | rfl <;> rcases hb' with rfl | rfl | rfl <;> first | rfl | norm_num [abs_le] at this
  obtain ⟨r, h1, -, h3⟩ := C133_monotone vj ⟨2, 1, fun f => if f = 1 then 0.3 else 0.31, ![0.5, 0.9]⟩
    (perfect_resp_mono (p := {}) rfl hr) (nb := .int 9)
    ⟨by norm_num, by norm_num, le_rfl, fun f _ _ => by dsimp only; split_ifs <;> norm_num, by simp [NumB.toTup]⟩ hd
  exact ⟨o, r, hr, h1, fun h => h3 0 1 (fun f p _ _ _ _ => h f p) (by norm_num)⟩

/-! ## C134 -/

theorem sum_sym (f : ℤ → ℝ) (n : ℕ) : ∑ k ∈ Icc (-(n : ℤ)) n, f k = f 0 + ∑ k ∈ Icc 1 n, (f k + f (-(k : ℤ))) := by
  induction n with
  | zero => simp
  | succ n ih =>
    have e : Icc (-((n + 1 : ℕ) : ℤ)) ((n + 1 : ℕ) : ℤ) = insert (-((n + 1 : ℕ) : ℤ)) (insert ((n + 1 : ℕ) : ℤ) (Icc (-(n : ℤ)) n)) := by
      ext k
      simp only [mem_Icc, mem_insert]
      omega
    rw [e, sum_insert (by simp only [mem_insert, mem_Icc]; omega), sum_insert (by simp only [mem_Icc]; omega), ih,
      sum_Icc_succ_top (by omega)]
    ring

/-- The current that the junction draws at a voltage `k` photons above the bias, less that at `k` photons below. -/
noncomputable def lift (resp : ℝ → ℂ) (vb w : ℝ) (k : ℕ) : ℝ := (resp (vb + k * w)).im - (resp (vb - k * w)).im

/-- C134, the power `Re(V* I) / 2` that the simulated junction takes from its only tone: `k` photons are absorbed with the rate
`J_k(α)²`, and the last term is changed by the truncation. -/
theorem C134_power (vj : ℕ → ℕ → Arr ι) (cct : Cct ι) (resp : ℝ → ℂ) (n : ℕ) (α : ι → ℝ) (hF : cct.numF = 1) (hP : cct.numP = 1)
    (hw : 1 / 20000 < cct.freq 1) (hv : ∀ i, ‖vj 1 1 i‖ = α i * cct.freq 1) :
    ∃ r : Arr ι, qtcurrentList vj cct resp [cct.freq 1] (.int (n + 1)) none = .ok [r] ∧ ∀ i,
      ((starRingEnd ℂ) (vj 1 1 i) * r i).re / 2
        = cct.freq 1 * (∑ k ∈ Icc 1 n, k * besselJ k (α i) ^ 2 * lift resp (cct.vb i) (cct.freq 1) k
          + α i / 2 * (besselJ n (α i) * besselJ (n + 1) (α i)) * lift resp (cct.vb i) (cct.freq 1) (n + 1)) := by
  have hV : Valid cct (.int (n + 1)) := ⟨by omega, by omega, by omega, by
    intro f h1 h2; rw [show f = 1 by omega]; linarith, by simp [NumB.toTup]⟩
  refine ⟨_, C26_ac vj cct resp (.int (n + 1)) (n + 1) α hV hF hP (by simp [NumB.toTup]) hw hv, fun i => ?_⟩
  have hc : (starRingEnd ℂ) (vj 1 1 i) * exp (I * arg (vj 1 1 i)) = (‖vj 1 1 i‖ : ℂ) := by
    have e := norm_mul_exp_arg_mul_I (vj 1 1 i)
    have e2 : (starRingEnd ℂ) (vj 1 1 i) = ‖vj 1 1 i‖ * exp (-(I * arg (vj 1 1 i))) := by
      conv_lhs => rw [← e]
      rw [map_mul, conj_ofReal, ← exp_conj, map_mul, conj_I, conj_ofReal]
      congr 2
      ring
    rw [e2, mul_assoc, ← exp_add, neg_add_cancel, exp_zero, mul_one]
  rw [← mul_assoc, hc, re_ofReal_mul, hv, acCurrent_eq, add_re, re_sum]
  have t1 : ∀ k : ℤ, (((besselJ k (α i) * (besselJ (k - 1) (α i) + besselJ (k + 1) (α i)) * (resp (cct.vb i + k * cct.freq 1)).im : ℝ) : ℂ)
      + I * ((besselJ k (α i) * (besselJ (k - 1) (α i) - besselJ (k + 1) (α i)) * (resp (cct.vb i + k * cct.freq 1)).re : ℝ) : ℂ)).re
      = besselJ k (α i) * (besselJ (k - 1) (α i) + besselJ (k + 1) (α i)) * (resp (cct.vb i + k * cct.freq 1)).im := by
    intro k
    rw [add_re, ofReal_re, mul_comm I, re_ofReal_mul, I_re, mul_zero, add_zero]
  simp only [t1]
  have t2 : (I * ((besselJ (n + 1 : ℕ) (α i) * besselJ ((n + 1 : ℕ) + 1) (α i) : ℝ) : ℂ) *
      (resp (cct.vb i + (n + 1 : ℕ) * cct.freq 1) + (starRingEnd ℂ) (resp (cct.vb i - (n + 1 : ℕ) * cct.freq 1)))).re
      = -(besselJ (n + 1 : ℕ) (α i) * besselJ ((n + 1 : ℕ) + 1) (α i) * lift resp (cct.vb i) (cct.freq 1) (n + 1)) := by
    rw [mul_comm I, mul_assoc, re_ofReal_mul, I_mul_re, add_im, conj_im]
    unfold lift
    ring
  rw [t2]
  have t3 : α i * ∑ k ∈ Icc (-((n + 1 : ℕ) : ℤ)) (n + 1 : ℕ), besselJ k (α i) * (besselJ (k - 1) (α i) + besselJ (k + 1) (α i)) *
      (resp (cct.vb i + k * cct.freq 1)).im
      = ∑ k ∈ Icc 1 (n + 1), 2 * k * besselJ k (α i) ^ 2 * lift resp (cct.vb i) (cct.freq 1) k := by
    have e : ∀ k : ℤ, α i * (besselJ k (α i) * (besselJ (k - 1) (α i) + besselJ (k + 1) (α i)) * (resp (cct.vb i + k * cct.freq 1)).im)
        = 2 * k * besselJ k (α i) ^ 2 * (resp (cct.vb i + k * cct.freq 1)).im := by
      intro k
      have := besselJ_recurrence k (α i)
      linear_combination (besselJ k (α i) * (resp (cct.vb i + k * cct.freq 1)).im) * this
    rw [mul_sum]
    simp only [e]
    rw [sum_sym]
    simp only [Int.cast_zero, mul_zero, zero_mul, zero_add]
    refine sum_congr rfl fun k _ => ?_
    have s := besselJ_neg k (α i)
    have sq : besselJ (-(k : ℤ)) (α i) ^ 2 = besselJ k (α i) ^ 2 := by
      rw [s, mul_pow, ← zpow_natCast, ← zpow_mul, mul_comm (k : ℤ), zpow_mul]
      norm_num
    rw [sq]
    unfold lift
    push_cast
    rw [neg_mul, ← sub_eq_add_neg]
    ring
  rw [sum_Icc_succ_top (by omega)] at t3
  have hrec := besselJ_recurrence (n + 1 : ℕ) (α i)
  rw [show ((n + 1 : ℕ) : ℤ) - 1 = n by push_cast; ring] at hrec
  have fin : ∑ k ∈ Icc 1 n, (k : ℝ) * besselJ k (α i) ^ 2 * lift resp (cct.vb i) (cct.freq 1) k
      = (∑ k ∈ Icc 1 n, 2 * k * besselJ k (α i) ^ 2 * lift resp (cct.vb i) (cct.freq 1) k) / 2 := by
    rw [sum_div]
    exact sum_congr rfl fun k _ => by ring
  rw [fin]
  push_cast at t3 hrec ⊢
  linear_combination (cct.freq 1 / 2) * t3 - (cct.freq 1 / 2) * besselJ (n + 1) (α i) * lift resp (cct.vb i) (cct.freq 1) (n + 1) * hrec

/-- C134: if the dc I-V curve does not fall, the simulated junction takes power from its only tone, or none, as long as the square of
the drive level is at most four times `num_b` (with the default 15 up to a drive level of 7.7). -/
theorem C134_absorbs (vj : ℕ → ℕ → Arr ι) (cct : Cct ι) {resp : ℝ → ℂ} (hm : Monotone fun v => (resp v).im) {nb : ℕ} {α : ι → ℝ}
    (h1 : 1 ≤ nb) (hF : cct.numF = 1) (hP : cct.numP = 1) (hw : 1 / 20000 < cct.freq 1)
    (hv : ∀ i, ‖vj 1 1 i‖ = α i * cct.freq 1) (ha : ∀ i, α i ^ 2 ≤ 4 * nb) :
    ∃ r : Arr ι, qtcurrentList vj cct resp [cct.freq 1] (.int nb) none = .ok [r] ∧
      ∀ i, 0 ≤ ((starRingEnd ℂ) (vj 1 1 i) * r i).re / 2 := by
  obtain ⟨n, rfl⟩ : ∃ n, nb = n + 1 := ⟨nb - 1, by omega⟩
  obtain ⟨r, hr, h⟩ := C134_power vj cct resp n α hF hP hw hv
  refine ⟨r, hr, fun i => ?_⟩
  rw [h]
  have hw0 : 0 < cct.freq 1 := by linarith
  have a0 : 0 ≤ α i := by
    have := norm_nonneg (vj 1 1 i)
    rw [hv] at this
    exact nonneg_of_mul_nonneg_left this hw0
  have hl : ∀ k : ℕ, 0 ≤ lift resp (cct.vb i) (cct.freq 1) k := by
    intro k
    have : (0 : ℝ) ≤ k * cct.freq 1 := by positivity
    exact sub_nonneg.2 (hm (by linarith))
  have ha := ha i
  push_cast at ha
  have j1 : 0 ≤ besselJ n (α i) := besselJ_nonneg a0 ha
  have j2 : 0 ≤ besselJ (n + 1) (α i) := by
    have := besselJ_nonneg (n := n + 1) a0 (by push_cast; linarith)
    exact_mod_cast this
  have := hl (n + 1)
  refine mul_nonneg hw0.le (add_nonneg (sum_nonneg fun k _ => ?_) (by positivity))
  have := hl k
  positivity

/-- C134 needs a large enough `num_b`: with `num_b = 1` and a drive level of 3, every junction whose current a photon above the bias is
larger than a photon below gives power to the tone. -/
theorem C134_false_small (vj : ℕ → ℕ → Arr ι) (cct : Cct ι) {resp : ℝ → ℂ} (hF : cct.numF = 1) (hP : cct.numP = 1)
    (hw : 1 / 20000 < cct.freq 1) (hv : ∀ i, ‖vj 1 1 i‖ = 3 * cct.freq 1)
    (hl : ∀ i, (resp (cct.vb i - cct.freq 1)).im < (resp (cct.vb i + cct.freq 1)).im) :
    ∃ r : Arr ι, qtcurrentList vj cct resp [cct.freq 1] (.int 1) none = .ok [r] ∧
      ∀ i, ((starRingEnd ℂ) (vj 1 1 i) * r i).re / 2 < 0 := by
  obtain ⟨r, hr, h⟩ := C134_power vj cct resp 0 (fun _ => 3) hF hP hw hv
  refine ⟨r, hr, fun i => ?_⟩
  rw [h]
  have l : 0 < lift resp (cct.vb i) (cct.freq 1) (0 + 1) := by
    unfold lift
    have := hl i
    push_cast
    rw [one_mul]
    linarith
  have j1 : 0 < besselJ (((0 : ℕ) : ℤ) + 1) 3 := besselJ_one_pos (by norm_num) (by linarith [Real.pi_gt_three])
  have j0 : besselJ ((0 : ℕ) : ℤ) 3 < 0 := besselJ_zero_three
  have w0 : 0 < cct.freq 1 := by linarith
  rw [Icc_eq_empty (by norm_num), sum_empty, zero_add]
  have : besselJ ((0 : ℕ) : ℤ) 3 * besselJ (((0 : ℕ) : ℤ) + 1) 3 < 0 := mul_neg_of_neg_of_pos j0 j1
  exact mul_neg_of_pos_of_neg w0 (mul_neg_of_neg_of_pos (mul_neg_of_pos_of_neg (by norm_num) this) l)

/-- The hypotheses can be met: the ideal junction, biased half a photon below the gap. -/
example (S : Splines) : ∃ o r, respPerfect S {} = .ok o ∧
    qtcurrentList (fun _ _ _ => 0.3) (⟨1, 1, fun _ => 0.1, fun _ => 0.95⟩ : Cct Unit) o.resp [0.1] (.int 1) none = .ok [r] ∧
    ((starRingEnd ℂ) 0.3 * r ()).re / 2 < 0 := by
  obtain ⟨o, hr⟩ : ∃ o, respPerfect S {} = .ok o := ⟨_, rfl⟩
  have hi : ∀ x, (o.resp x).im = perfectElem x := by
    intro x
    have e : o.fIdc = perfectElem := by rw [← Except.ok.inj hr]
    unfold Obj.resp
    rw [e]
    simp
  obtain ⟨r, h1, h2⟩ := C134_false_small (fun _ _ _ => 0.3) (⟨1, 1, fun _ => 0.1, fun _ => 0.95⟩ : Cct Unit) (resp := o.resp)
    rfl rfl (by norm_num) (fun i => by norm_num) (fun i => by
      rw [hi, hi]
      unfold perfectElem
      norm_num [abs_lt])
  exact ⟨o, r, hr, h1, h2 ()⟩

/-- The same junction with `num_b = 15` takes power, by `C134_absorbs`. -/
example (S : Splines) : ∃ o r, respPerfect S {} = .ok o ∧
    qtcurrentList (fun _ _ _ => 0.3) (⟨1, 1, fun _ => 0.1, fun _ => 0.95⟩ : Cct Unit) o.resp [0.1] (.int 15) none = .ok [r] ∧
    0 ≤ ((starRingEnd ℂ) 0.3 * r ()).re / 2 := by
  obtain ⟨o, hr⟩ : ∃ o, respPerfect S {} = .ok o := ⟨_, rfl⟩
  obtain ⟨r, h1, h2⟩ := C134_absorbs (fun _ _ _ => 0.3) (⟨1, 1, fun _ => 0.1, fun _ => 0.95⟩ : Cct Unit)
    (perfect_resp_mono (p := {}) rfl hr) (nb := 15) (α := fun _ => 3) (by norm_num)
    rfl rfl (by norm_num) (fun i => by norm_num) (fun i => by norm_num)
  exact ⟨o, r, hr, h1, h2 ()⟩

end QMix.Props
