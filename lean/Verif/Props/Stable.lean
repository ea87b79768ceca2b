import Verif.Lemmas.Section
import Verif.Props.DcOnly

/-! # An error of the response function is not amplified (C140) -/

namespace QMix.Props

open Complex Finset QMix.Qt QMix.Spec

variable {ι : Type}

theorem mem_tonesFrom {v : ℕ → ℕ → ℂ} {freq : ℕ → ℝ} {P M f : ℕ} {nbs : List ℕ} {t : Tone} (h : t ∈ tonesFrom v freq P M f nbs) :
    ∃ g, ∃ nb ∈ nbs, t = ⟨toneCoeff (v g) (freq g) P nb M, nb, freq g⟩ := by
  induction nbs generalizing f with
  | nil => simp [tonesFrom] at h
  | cons nb nbs ih =>
    rcases List.mem_cons.1 h with rfl | h
    · exact ⟨f, nb, List.mem_cons_self, rfl⟩
    · obtain ⟨g, n, hn, e⟩ := ih h
      exact ⟨g, n, List.mem_cons_of_mem _ hn, e⟩

/-- The products of coefficients in a correlation add up to at most 1. -/
theorem pair_sum_le {t : Tone} (h : ∑ k ∈ Icc (-(t.nb : ℤ)) t.nb, ‖t.C k‖ ^ 2 ≤ 1) (a : ℤ) :
    ∑ k ∈ Icc (-(t.nb : ℤ)) t.nb, (if |k + a| ≤ (t.nb : ℤ) then ‖t.C k‖ * ‖t.C (k + a)‖ else 0) ≤ 1 := by
  have h1 : ∑ k ∈ Icc (-(t.nb : ℤ)) t.nb, (if |k + a| ≤ (t.nb : ℤ) then ‖t.C (k + a)‖ ^ 2 else 0) ≤ 1 := by
    refine le_trans ?_ h
    rw [← sum_filter]
    have : ∑ k ∈ (Icc (-(t.nb : ℤ)) t.nb).filter (fun k => |k + a| ≤ (t.nb : ℤ)), ‖t.C (k + a)‖ ^ 2
        = ∑ k ∈ ((Icc (-(t.nb : ℤ)) t.nb).filter (fun k => |k + a| ≤ (t.nb : ℤ))).map (addRightEmbedding a), ‖t.C k‖ ^ 2 := by
      rw [sum_map]
      rfl
    rw [this]
    refine sum_le_sum_of_subset_of_nonneg ?_ fun _ _ _ => by positivity
    intro k hk
    obtain ⟨j, hj, rfl⟩ := Finset.mem_map.1 hk
    exact mem_Icc.2 (abs_le.1 (mem_filter.1 hj).2)
  have h2 : ∑ k ∈ Icc (-(t.nb : ℤ)) t.nb, (if |k + a| ≤ (t.nb : ℤ) then ‖t.C k‖ * ‖t.C (k + a)‖ else 0)
      ≤ ∑ k ∈ Icc (-(t.nb : ℤ)) t.nb, (‖t.C k‖ ^ 2 / 2 + (if |k + a| ≤ (t.nb : ℤ) then ‖t.C (k + a)‖ ^ 2 else 0) / 2) := by
    refine sum_le_sum fun k _ => ?_
    split_ifs
    · nlinarith [sq_nonneg (‖t.C k‖ - ‖t.C (k + a)‖)]
    · positivity
  rw [sum_add_distrib, ← sum_div, ← sum_div] at h2
  linarith

theorem corr_le {r : ℝ → ℂ} {B : ℝ} (hB : ∀ v, ‖r v‖ ≤ B) (l : List (Tone × ℤ))
    (h : ∀ x ∈ l, ∑ k ∈ Icc (-(x.1.nb : ℤ)) x.1.nb, ‖x.1.C k‖ ^ 2 ≤ 1) (v : ℝ) : ‖corr r l v‖ ≤ B := by
  have B0 : 0 ≤ B := (norm_nonneg _).trans (hB 0)
  induction l generalizing v with
  | nil => exact hB v
  | cons x l ih =>
    obtain ⟨t, a⟩ := x
    obtain ⟨h1, h2⟩ := List.forall_mem_cons.1 h
    simp only [corr]
    refine (norm_sum_le _ _).trans ?_
    refine le_trans (sum_le_sum (g := fun k => (if |k + a| ≤ (t.nb : ℤ) then ‖t.C k‖ * ‖t.C (k + a)‖ else 0) * B) fun k _ => ?_) ?_
    · split_ifs
      · rw [norm_mul, norm_mul, Complex.norm_conj]
        exact mul_le_mul_of_nonneg_left (ih h2 _) (by positivity)
      · simp
    · rw [← sum_mul]
      exact mul_le_of_le_one_left B0 (pair_sum_le h1 a)

theorem corr_zero_diff {r r' : ℝ → ℂ} {ε : ℝ} (hr : ∀ v, |(r v).im - (r' v).im| ≤ ε) (ts : List Tone)
    (h : ∀ t ∈ ts, ∑ k ∈ Icc (-(t.nb : ℤ)) t.nb, ‖t.C k‖ ^ 2 ≤ 1) (v : ℝ) :
    |(corr r (ts.zip (List.replicate ts.length 0)) v).im - (corr r' (ts.zip (List.replicate ts.length 0)) v).im| ≤ ε := by
  have e0 : 0 ≤ ε := (abs_nonneg _).trans (hr 0)
  induction ts generalizing v with
  | nil => exact hr v
  | cons t ts ih =>
    obtain ⟨h1, h2⟩ := List.forall_mem_cons.1 h
    simp only [List.length_cons, List.replicate_succ, List.zip_cons_cons, corr, add_zero]
    rw [im_sum, im_sum, ← sum_sub_distrib]
    refine (abs_sum_le_sum_abs _ _).trans ?_
    refine le_trans (sum_le_sum (g := fun k => ‖t.C k‖ ^ 2 * ε) fun k hk => ?_) ?_
    · rw [mem_Icc, ← abs_le] at hk
      rw [if_pos hk, if_pos hk, mul_conj, im_ofReal_mul, im_ofReal_mul, ← mul_sub, abs_mul, normSq_eq_norm_sq,
        abs_of_nonneg (by positivity : (0 : ℝ) ≤ ‖t.C k‖ ^ 2)]
      exact mul_le_mul_of_nonneg_left (ih h2 _) (by positivity)
    · rw [← sum_mul]
      exact mul_le_of_le_one_left e0 h1

/-- The limits of the tones are equal, or there are at most two harmonics. An integer `num_b` gives equal limits. -/
def Balanced (cct : Cct ι) (nb : NumB) : Prop :=
  cct.numP ≤ 2 ∨ ∀ m ∈ nb.toTup cct.numF, ∀ n ∈ nb.toTup cct.numF, m = n

theorem balanced_int (cct : Cct ι) (n : ℕ) : Balanced cct (.int n) :=
  .inr fun a ha b hb => by
    rw [List.eq_of_mem_replicate ha, List.eq_of_mem_replicate hb]

theorem balanced_sq {cct : Cct ι} {nb : NumB} (hb : Balanced cct nb) (v : ℕ → ℕ → ℂ) {t : Tone}
    (ht : t ∈ tonesFrom v cct.freq cct.numP ((nb.toTup cct.numF).foldr max 0) 1 ((nb.toTup cct.numF).take cct.numF)) :
    ∑ k ∈ Icc (-(t.nb : ℤ)) t.nb, ‖t.C k‖ ^ 2 ≤ 1 := by
  obtain ⟨g, n, hn, rfl⟩ := mem_tonesFrom ht
  have hn' := List.mem_of_mem_take hn
  refine toneCoeff_sq_le _ _ (le_foldr_max hn') (hb.imp_right fun h => ?_)
  have : ∀ l : List ℕ, l ≠ [] → (∀ m ∈ l, n = m) → n = l.foldr max 0 := by
    intro l hl
    induction l with
    | nil => exact absurd rfl hl
    | cons x l ih =>
      intro h
      obtain ⟨rfl, h2⟩ := List.forall_mem_cons.1 h
      rcases eq_or_ne l [] with rfl | hl
      · simp
      · rw [List.foldr_cons, ← ih hl h2, max_self]
  exact this _ (List.ne_nil_of_mem hn') fun m hm => h n hn' m hm

/-- C140: if the dc I-V curves of two response functions differ by at most `ε` everywhere, the dc currents differ by at most `ε`:
for any number of tones and harmonics, any voltages, and any `num_b`, large or small, with equal limits (or at most two harmonics). -/
theorem C140_dc (vj : ℕ → ℕ → Arr ι) (cct : Cct ι) {r r' : ℝ → ℂ} {ε : ℝ} (hr : ∀ v, |(r v).im - (r' v).im| ≤ ε) {nb : NumB}
    (h : Valid cct nb) (hb : Balanced cct nb) (hd : DcAlone cct) : ∃ cur cur' : Arr ι, qtcurrentList vj cct r [0] nb none = .ok [cur] ∧
      qtcurrentList vj cct r' [0] nb none = .ok [cur'] ∧ ∀ i, ‖cur i - cur' i‖ ≤ ε := by
  refine ⟨_, _, C14_mtsda vj cct r [0] nb h, C14_mtsda vj cct r' [0] nb h, fun i => ?_⟩
  beta_reduce
  rw [qt_dc cct r h hd, qt_dc cct r' h hd, ← ofReal_sub, norm_real]
  have := corr_zero_diff hr (tonesFrom (fun f p => vj f p i) cct.freq cct.numP ((nb.toTup cct.numF).foldr max 0) 1
    ((nb.toTup cct.numF).take cct.numF)) (fun t ht => balanced_sq hb _ ht) (cct.vb i)
  rwa [Spec.length_tonesFrom, List.length_take, min_eq_left h.limits] at this

/-- C140, ac: if two response functions differ by at most `ε` everywhere, the currents at a frequency with one mixing product differ by
at most `2 ε`. (An ac current is a peak value and has two terms.) -/
theorem C140_ac (vj : ℕ → ℕ → Arr ι) (cct : Cct ι) {r r' : ℝ → ℂ} {ε : ℝ} (hr : ∀ v, ‖r v - r' v‖ ≤ ε) {nb : NumB}
    (h : Valid cct nb) (hb : Balanced cct nb) {bs : List ℤ} (hl : bs.length = cct.numF) (hP : ∀ b ∈ bs, |b| ≤ (cct.numP : ℤ)) {f : ℝ}
    (hf : ∀ as : List ℤ, as.length = cct.numF → (∀ a ∈ as, |a| ≤ (cct.numP : ℤ)) →
      round4 (photonShift cct.freq 1 as) = round4 f → as = bs) :
    ∃ cur cur' : Arr ι, qtcurrentList vj cct r [f] nb none = .ok [cur] ∧
      qtcurrentList vj cct r' [f] nb none = .ok [cur'] ∧ ∀ i, ‖cur i - cur' i‖ ≤ 2 * ε := by
  have e0 : 0 ≤ ε := (norm_nonneg _).trans (hr 0)
  refine ⟨_, _, C14_mtsda vj cct r [f] nb h, C14_mtsda vj cct r' [f] nb h, fun i => ?_⟩
  set v : ℕ → ℕ → ℂ := fun f p => vj f p i
  set ts := tonesFrom v cct.freq cct.numP ((nb.toTup cct.numF).foldr max 0) 1 ((nb.toTup cct.numF).take cct.numF) with hts
  have hlen : ts.length = cct.numF := by rw [hts, Spec.length_tonesFrom, List.length_take, min_eq_left h.limits]
  have e1 : qt r v cct.freq cct.numF cct.numP (nb.toTup cct.numF) (cct.vb i) f - qt r' v cct.freq cct.numF cct.numP (nb.toTup cct.numF) (cct.vb i) f
      = qt (fun x => r x + ((-1 : ℝ) : ℂ) * r' x) v cct.freq cct.numF cct.numP (nb.toTup cct.numF) (cct.vb i) f := by
    unfold qt
    rw [current_linear]
    push_cast
    ring
  rw [e1]
  have hd : ∀ x, ‖r x + ((-1 : ℝ) : ℂ) * r' x‖ ≤ ε := fun x => by
    have := hr x
    rwa [show r x + ((-1 : ℝ) : ℂ) * r' x = r x - r' x by push_cast; ring]
  unfold qt current
  rw [boxSum_single (bs := bs) (hl.trans hlen.symm) hP]
  · split_ifs with hc
    · have hz : ∀ as : List ℤ, ∀ x ∈ ts.zip as, ∑ k ∈ Icc (-(x.1.nb : ℤ)) x.1.nb, ‖x.1.C k‖ ^ 2 ≤ 1 :=
        fun as x hx => balanced_sq hb v (List.of_mem_zip hx).1
      unfold mixProduct
      split_ifs with h0
      · rw [norm_real]
        have := (abs_im_le_norm _).trans (corr_le hd _ (hz bs) (cct.vb i))
        rw [Real.norm_eq_abs]
        linarith
      · rw [norm_mul, norm_neg, norm_I, one_mul]
        refine (norm_sub_le _ _).trans ?_
        rw [Complex.norm_conj, zip_neg]
        have h1 := corr_le hd _ (hz bs) (cct.vb i)
        have h2 := corr_le hd _ (hz (bs.map fun a => -a)) (cct.vb i)
        linarith
    · rw [norm_zero]
      positivity
  · intro as h1 h2 h3
    rw [if_neg]
    rw [hlen] at h1
    rw [Spec.mixFreq_zip _ _ _ _ _ _ _ (by rw [h1, List.length_take, min_eq_left h.limits])]
    exact fun e => h3 (hf as h1 h2 e)

/-- The hypotheses of `C140_dc` and `C140_ac` can be met: two tones with two harmonics each, limits 3 and 2; the first harmonic of
the second tone. -/
example (vj : ℕ → ℕ → Arr (Fin 2)) (r : ℝ → ℂ) :
    (∃ cur cur' : Arr (Fin 2), qtcurrentList vj demo r [0] (.tup [3, 2]) none = .ok [cur] ∧
      qtcurrentList vj demo (fun v => r v + 0.01 * I) [0] (.tup [3, 2]) none = .ok [cur'] ∧ ∀ i, ‖cur i - cur' i‖ ≤ 0.01) ∧
    ∃ cur cur' : Arr (Fin 2), qtcurrentList vj demo r [0.32] (.tup [3, 2]) none = .ok [cur] ∧
      qtcurrentList vj demo (fun v => r v + 0.01 * I) [0.32] (.tup [3, 2]) none = .ok [cur'] ∧ ∀ i, ‖cur i - cur' i‖ ≤ 2 * 0.01 := by
  have hb : Balanced demo (.tup [3, 2]) := .inl (by simp [demo])
  refine ⟨C140_dc vj demo (fun v => ?_) demo_valid hb demo_noCoincidence.2, C140_ac vj demo (fun v => ?_) demo_valid hb (bs := [0, 1]) (by simp [demo])
    (by simp [demo]) fun as h1 h2 h3 => ?_⟩
  · norm_num [abs_le]
  · norm_num
  · have := demo_noCoincidence.1 2 1 (by norm_num) (by simp [demo]) le_rfl (by simp [demo]) as h1 h2 (by
      rw [h3]
      simp [demo])
    rw [this]
    simp [demo]

end QMix.Props
