import Verif.Props.WeakDrive

/-!
# Property C120: a mixer is linear in a weak signal

Two tones, one harmonic. Tone 1 is the local oscillator, of any strength; tone 2 is the signal, weak
compared with its photon voltage. The current at the intermediate frequency is then the signal phasor
(conjugated, for a signal below the local oscillator) times a coefficient that depends on the junction
and the local oscillator only.
-/

namespace QMix.Props

open Complex Finset QMix.Qt QMix.Zemb

variable {ι : Type}

/-- The conversion coefficient of quantum mixer theory: local oscillator of frequency `w₁` and level
`α`, signal of frequency `w₂`, photon steps up to `n`. The terms of the first sum absorb a signal
photon, those of the second emit one. -/
noncomputable def conversion (resp : ℝ → ℂ) (α w₁ w₂ : ℝ) (n : ℕ) (vb : ℝ) : ℂ :=
  ∑ k ∈ Icc (-(n : ℤ)) (n - 1), (besselJ k α * besselJ (k + 1) α : ℝ) *
      (resp (vb + k * w₁ + w₂) - resp (vb + k * w₁))
    - ∑ k ∈ Icc (1 - (n : ℤ)) n, (besselJ k α * besselJ (k - 1) α : ℝ) *
      (starRingEnd ℂ) (resp (vb + k * w₁) - resp (vb + k * w₁ - w₂))

/-! ## Lemmas -/

theorem two_tones (resp : ℝ → ℂ) (v : ℕ → ℕ → ℂ) (freq : ℕ → ℝ) {tup : List ℕ} {n₁ n₂ : ℕ}
    (hn : tup.take 2 = [n₁, n₂]) (vb f : ℝ) :
    Spec.qt resp v freq 2 1 tup vb f
      = Spec.current resp 1 [⟨Spec.jacobiAnger (v 1 1) (freq 1) 1 n₁, n₁, freq 1⟩,
          ⟨Spec.jacobiAnger (v 2 1) (freq 2) 1 n₂, n₂, freq 2⟩] vb f := by
  have hm : ∀ n ∈ [n₁, n₂], n ≤ tup.foldr max 0 := by
    intro n h
    rw [← hn] at h
    exact le_foldr_max (List.mem_of_mem_take h)
  unfold Spec.qt
  rw [hn]
  simp only [Spec.tonesFrom]
  congr 2
  · congr 1
    funext k
    exact Spec.harmonicConv_one (v 1) (freq 1) n₁ _ (hm _ (.head _)) k
  · congr 2
    funext k
    exact Spec.harmonicConv_one (v 2) (freq 2) n₂ _ (hm _ (.tail _ (.head _))) k

/-- The current at a frequency that only one mixing product has. -/
theorem current_two (resp : ℝ → ℂ) (s t : Spec.Tone) (vb f : ℝ) (a b : ℤ) (ha : |a| ≤ 1) (hb : |b| ≤ 1)
    (hf : ∀ c d : ℤ, |c| ≤ 1 → |d| ≤ 1 → (round4 (c * s.w + d * t.w) = round4 f ↔ c = a ∧ d = b)) :
    Spec.current resp 1 [s, t] vb f = Spec.mixProduct resp [(s, a), (t, b)] vb := by
  unfold Spec.current
  simp only [Spec.boxSum]
  have hfr : ∀ c d : ℤ, Spec.mixFreq [(s, c), (t, d)] = c * s.w + d * t.w := by
    intro c d
    simp [Spec.mixFreq]
  simp only [hfr]
  rw [sum_eq_single a]
  · rw [sum_eq_single b]
    · rw [if_pos ((hf a b ha hb).2 ⟨rfl, rfl⟩)]
    · intro d hd hne
      rw [mem_Icc, ← abs_le] at hd
      rw [if_neg]
      intro h
      exact hne ((hf a d ha (by exact_mod_cast hd)).1 h).2
    · intro h
      rw [mem_Icc, ← abs_le] at h
      exact absurd (by exact_mod_cast hb) h
  · intro c hc hne
    rw [mem_Icc, ← abs_le] at hc
    apply sum_eq_zero
    intro d hd
    rw [mem_Icc, ← abs_le] at hd
    rw [if_neg]
    intro h
    exact hne ((hf c d (by exact_mod_cast hc) (by exact_mod_cast hd)).1 h).1
  · intro h
    rw [mem_Icc, ← abs_le] at h
    exact absurd (by exact_mod_cast ha) h

theorem sum_approx {s : Finset ℤ} {c x y : ℤ → ℂ} {e : ℤ → ℝ} (hc : ∀ k ∈ s, ‖c k‖ ≤ 1)
    (h : ∀ k ∈ s, ‖x k - y k‖ ≤ e k) : ‖∑ k ∈ s, c k * x k - ∑ k ∈ s, c k * y k‖ ≤ ∑ k ∈ s, e k := by
  rw [← sum_sub_distrib]
  refine (norm_sum_le _ _).trans (sum_le_sum fun k hk => ?_)
  rw [← mul_sub, norm_mul]
  calc _ ≤ 1 * ‖x k - y k‖ := mul_le_mul_of_nonneg_right (hc k hk) (norm_nonneg _)
    _ ≤ _ := by rw [one_mul]; exact h k hk

/-- The correlation of the first tone, order `a = ±1`. -/
theorem corr_first (resp : ℝ → ℂ) (v : ℂ) {w α : ℝ} (hw : 0 < w) (hv : ‖v‖ = α * w) (n : ℕ) (a : ℤ)
    (ts : List (Spec.Tone × ℤ)) (vb : ℝ) :
    Spec.corr resp ((⟨Spec.jacobiAnger v w 1 n, n, w⟩, a) :: ts) vb
      = exp (I * a * arg v) * ∑ k ∈ (Icc (-(n : ℤ)) n).filter (fun k : ℤ => |k + a| ≤ (n : ℤ)),
          ((besselJ k α * besselJ (k + a) α : ℝ) : ℂ) * Spec.corr resp ts (vb + k * w) := by
  rw [mul_sum, sum_filter]
  simp only [Spec.corr]
  refine sum_congr rfl fun k hk => ?_
  rw [mem_Icc, ← abs_le] at hk
  split_ifs with h
  · rw [jacobiAnger_prod hw hv hk h]
    ring
  · rfl

theorem filter_up (n : ℕ) : (Icc (-(n : ℤ)) n).filter (fun k : ℤ => |k + 1| ≤ (n : ℤ)) = Icc (-(n : ℤ)) (n - 1) := by
  apply Finset.ext
  intro k
  simp only [mem_filter, mem_Icc, abs_le]
  omega

theorem filter_down (n : ℕ) : (Icc (-(n : ℤ)) n).filter (fun k : ℤ => |k + -1| ≤ (n : ℤ)) = Icc (1 - (n : ℤ)) n := by
  apply Finset.ext
  intro k
  simp only [mem_filter, mem_Icc, abs_le]
  omega

theorem abs_besselJ_mul_le_one (k l : ℤ) (x : ℝ) : |besselJ k x * besselJ l x| ≤ 1 := by
  rw [abs_mul]
  exact mul_le_one₀ (abs_besselJ_le_one _ _) (abs_nonneg _) (abs_besselJ_le_one _ _)

/-- The sum of the magnitudes of the response function over all photon steps of both tones. -/
noncomputable def stepSum₂ (resp : ℝ → ℂ) (vb w₁ w₂ : ℝ) (n₁ n₂ : ℕ) : ℝ :=
  ∑ k ∈ Icc (-(n₁ : ℤ)) n₁, stepSum (fun x => ‖resp x‖) (vb + k * w₁) w₂ n₂

/-- The mixing product of orders `(1, -1)` for a weak second tone. -/
theorem weak_mixing (resp : ℝ → ℂ) (v₁ v₂ : ℂ) {w₁ w₂ α β : ℝ} (hw1 : 0 < w₁) (hw2 : 0 < w₂)
    (hv₁ : ‖v₁‖ = α * w₁) (hv₂ : ‖v₂‖ = β * w₂) (hβ : β ≤ 1) (n₁ n₂ : ℕ) (hn2 : 1 ≤ n₂) (vb : ℝ) :
    ‖Spec.mixProduct resp [(⟨Spec.jacobiAnger v₁ w₁ 1 n₁, n₁, w₁⟩, 1),
        (⟨Spec.jacobiAnger v₂ w₂ 1 n₂, n₂, w₂⟩, -1)] vb
      - -I * exp (I * arg v₁) * ((starRingEnd ℂ) v₂ / (2 * w₂)) * conversion resp α w₁ w₂ n₁ vb‖
        ≤ 5 / 4 * β ^ 3 * stepSum₂ resp vb w₁ w₂ n₁ n₂ := by
  have hb0 : 0 ≤ β := by
    have := norm_nonneg v₂
    rw [hv₂] at this
    exact nonneg_of_mul_nonneg_left this hw2
  set E := exp (I * arg v₁) with hE
  set S := exp (-(I * arg v₂)) with hS
  set t₁ : Spec.Tone := ⟨Spec.jacobiAnger v₁ w₁ 1 n₁, n₁, w₁⟩
  set t₂ : Spec.Tone := ⟨Spec.jacobiAnger v₂ w₂ 1 n₂, n₂, w₂⟩ with ht₂
  set e : ℤ → ℝ := fun k => 5 / 8 * β ^ 3 * stepSum (fun x => ‖resp x‖) (vb + k * w₁) w₂ n₂ with he
  have he0 : ∀ k, 0 ≤ e k := by
    intro k
    have : 0 ≤ stepSum (fun x => ‖resp x‖) (vb + k * w₁) w₂ n₂ := sum_nonneg fun _ _ => norm_nonneg _
    positivity
  have hm : Spec.mixProduct resp [(t₁, 1), (t₂, -1)] vb
      = -I * (Spec.corr resp [(t₁, 1), (t₂, -1)] vb
        - (starRingEnd ℂ) (Spec.corr resp [(t₁, -1), (t₂, 1)] vb)) := by
    unfold Spec.mixProduct
    rw [if_neg (by simp)]
    simp
  have h1 := sum_approx (s := Icc (-(n₁ : ℤ)) (n₁ - 1))
    (c := fun k => ((besselJ k α * besselJ (k + 1) α : ℝ) : ℂ))
    (x := fun k => Spec.corr resp [(t₂, -1)] (vb + k * w₁))
    (y := fun k => S * ((β / 2 : ℝ) * (resp (vb + k * w₁ + w₂) - resp (vb + k * w₁)))) (e := e)
    (fun k _ => by rw [norm_real]; exact abs_besselJ_mul_le_one _ _ _)
    (fun k _ => weak_corr_neg resp v₂ hw2 (hv₂) (hβ) n₂ hn2 (vb + k * w₁))
  have h2 := sum_approx (s := Icc (1 - (n₁ : ℤ)) n₁)
    (c := fun k => ((besselJ k α * besselJ (k + -1) α : ℝ) : ℂ))
    (x := fun k => Spec.corr resp [(t₂, 1)] (vb + k * w₁))
    (y := fun k => exp (I * arg v₂) * ((β / 2 : ℝ) * (resp (vb + k * w₁) - resp (vb + k * w₁ - w₂))))
    (e := e)
    (fun k _ => by rw [norm_real]; exact abs_besselJ_mul_le_one _ _ _)
    (fun k _ => weak_corr resp v₂ hw2 (hv₂) (hβ) n₂ hn2 (vb + k * w₁))
  have c1 := corr_first resp v₁ hw1 (hv₁) n₁ 1 [(t₂, -1)] vb
  have c2 := corr_first resp v₁ hw1 (hv₁) n₁ (-1) [(t₂, 1)] vb
  rw [filter_up] at c1
  rw [filter_down] at c2
  have b1 : ∑ k ∈ Icc (-(n₁ : ℤ)) (n₁ - 1), e k ≤ ∑ k ∈ Icc (-(n₁ : ℤ)) n₁, e k :=
    sum_le_sum_of_subset_of_nonneg (Icc_subset_Icc le_rfl (by omega)) (fun k _ _ => he0 k)
  have b2 : ∑ k ∈ Icc (1 - (n₁ : ℤ)) n₁, e k ≤ ∑ k ∈ Icc (-(n₁ : ℤ)) n₁, e k :=
    sum_le_sum_of_subset_of_nonneg (Icc_subset_Icc (by omega) le_rfl) (fun k _ _ => he0 k)
  have be : ∑ k ∈ Icc (-(n₁ : ℤ)) n₁, e k = 5 / 8 * β ^ 3 * stepSum₂ resp vb w₁ w₂ n₁ n₂ := by
    rw [stepSum₂, mul_sum]
  have hE1 : ‖E‖ = 1 := by rw [hE, norm_exp]; simp
  -- the leading term
  have hvv : (starRingEnd ℂ) v₂ = ((β * w₂ : ℝ) : ℂ) * S := by
    have h := congrArg (starRingEnd ℂ) (norm_mul_exp_arg_mul_I v₂)
    rw [← h, hv₂, map_mul, conj_ofReal, ← exp_conj]
    congr 2
    simp [mul_comm]
  have hw2' : (w₂ : ℂ) ≠ 0 := ofReal_ne_zero.2 hw2.ne'
  have hconj : ∀ z : ℂ, (starRingEnd ℂ) (exp (I * ((-1 : ℤ) : ℂ) * arg v₁) * z)
      = E * (starRingEnd ℂ) z := by
    intro z
    rw [map_mul, ← exp_conj]
    congr 2
    simp
  have hlead : -I * E * ((starRingEnd ℂ) v₂ / (2 * w₂)) * conversion resp α w₁ w₂ n₁ vb
      = -I * (E * ∑ k ∈ Icc (-(n₁ : ℤ)) (n₁ - 1), ((besselJ k α * besselJ (k + 1) α : ℝ) : ℂ) *
            (S * ((β / 2 : ℝ) * (resp (vb + k * w₁ + w₂) - resp (vb + k * w₁))))
        - E * (starRingEnd ℂ) (∑ k ∈ Icc (1 - (n₁ : ℤ)) n₁, ((besselJ k α * besselJ (k + -1) α : ℝ) : ℂ) *
            (exp (I * arg v₂) * ((β / 2 : ℝ) * (resp (vb + k * w₁) - resp (vb + k * w₁ - w₂)))))) := by
    rw [hvv, ← mul_sub, map_sum]
    have hs : (starRingEnd ℂ) (exp (I * arg v₂)) = S := by
      rw [← exp_conj]
      simp [hS]
    simp only [map_mul, conj_ofReal, hs]
    have m1 : ∑ k ∈ Icc (-(n₁ : ℤ)) (n₁ - 1), ((besselJ k α * besselJ (k + 1) α : ℝ) : ℂ) *
            (S * ((β / 2 : ℝ) * (resp (vb + k * w₁ + w₂) - resp (vb + k * w₁))))
        = S * (β / 2 : ℝ) * ∑ k ∈ Icc (-(n₁ : ℤ)) (n₁ - 1), ((besselJ k α * besselJ (k + 1) α : ℝ) : ℂ) *
            (resp (vb + k * w₁ + w₂) - resp (vb + k * w₁)) := by
      rw [mul_sum]
      exact sum_congr rfl fun k _ => by ring
    have m2 : ∑ k ∈ Icc (1 - (n₁ : ℤ)) n₁, ((besselJ k α * besselJ (k + -1) α : ℝ) : ℂ) *
            (S * ((β / 2 : ℝ) * (starRingEnd ℂ) (resp (vb + k * w₁) - resp (vb + k * w₁ - w₂))))
        = S * (β / 2 : ℝ) * ∑ k ∈ Icc (1 - (n₁ : ℤ)) n₁, ((besselJ k α * besselJ (k - 1) α : ℝ) : ℂ) *
            (starRingEnd ℂ) (resp (vb + k * w₁) - resp (vb + k * w₁ - w₂)) := by
      rw [mul_sum]
      exact sum_congr rfl fun k _ => by rw [← sub_eq_add_neg]; ring
    have hX : ∀ X Y : ℂ, -I * E * (((β * w₂ : ℝ) : ℂ) * S / (2 * w₂)) * (X - Y)
        = -I * (E * (S * ((β / 2 : ℝ) : ℂ) * (X - Y))) := by
      intro X Y
      push_cast
      field_simp
    rw [m1, m2, ← mul_sub]
    exact hX _ _
  rw [hm, hlead, c1, c2, hconj, Int.cast_one, mul_one, ← hE, ← mul_sub, norm_mul, norm_neg, norm_I, one_mul,
    sub_sub_sub_comm, ← mul_sub, ← mul_sub, ← map_sub]
  refine (norm_sub_le _ _).trans ?_
  rw [norm_mul, norm_mul, hE1, one_mul, one_mul, norm_conj]
  rw [be] at b1 b2
  linarith [h1.trans b1, h2.trans b2]

/-! ## C120 -/

/-- C120. With a local oscillator of any strength (tone 1) and a weak signal (tone 2), the current at
the difference frequency is the conjugate phasor of the signal times the conversion coefficient of the
pumped junction, turned by the phase of the local oscillator, up to the third power of the signal. -/
theorem C120_if (vj : ℕ → ℕ → Arr ι) (cct : Cct ι) (resp : ℝ → ℂ) (nb : NumB) (n₁ n₂ : ℕ) (α β : ι → ℝ) (f : ℝ)
    (h : Valid cct nb) (hF : cct.numF = 2) (hP : cct.numP = 1) (hn : (nb.toTup 2).take 2 = [n₁, n₂])
    (hn2 : 1 ≤ n₂) (hv₁ : ∀ i, ‖vj 1 1 i‖ = α i * cct.freq 1) (hv₂ : ∀ i, ‖vj 2 1 i‖ = β i * cct.freq 2)
    (hβ : ∀ i, β i ≤ 1)
    (hf : ∀ c d : ℤ, |c| ≤ 1 → |d| ≤ 1 →
      (round4 (c * cct.freq 1 + d * cct.freq 2) = round4 f ↔ c = 1 ∧ d = -1)) :
    ∃ r, qtcurrentList vj cct resp [f] nb none = .ok [r] ∧ ∀ i,
      ‖r i - -I * exp (I * arg (vj 1 1 i)) * ((starRingEnd ℂ) (vj 2 1 i) / (2 * cct.freq 2)) *
          conversion resp (α i) (cct.freq 1) (cct.freq 2) n₁ (cct.vb i)‖
        ≤ 5 / 4 * β i ^ 3 * stepSum₂ resp (cct.vb i) (cct.freq 1) (cct.freq 2) n₁ n₂ := by
  refine ⟨_, C14_mtsda vj cct resp [f] nb h, fun i => ?_⟩
  have hw1 : 0 < cct.freq 1 := h.freq_pos 1 le_rfl (by omega)
  have hw2 : 0 < cct.freq 2 := h.freq_pos 2 (by norm_num) (by omega)
  simp only [hF, hP]
  have hc := current_two resp ⟨Spec.jacobiAnger (vj 1 1 i) (cct.freq 1) 1 n₁, n₁, cct.freq 1⟩
    ⟨Spec.jacobiAnger (vj 2 1 i) (cct.freq 2) 1 n₂, n₂, cct.freq 2⟩ (cct.vb i) f 1 (-1) (by norm_num)
    (by norm_num) hf
  rw [two_tones resp _ cct.freq hn, hc]
  exact weak_mixing resp _ _ hw1 hw2 (hv₁ i) (hv₂ i) (hβ i) n₁ n₂ hn2 _

/-- A mixing product and the one of the opposite orders are conjugate. -/
theorem mixProduct_opposite (resp : ℝ → ℂ) (s t : Spec.Tone) (vb : ℝ) :
    Spec.mixProduct resp [(s, -1), (t, 1)] vb = (starRingEnd ℂ) (Spec.mixProduct resp [(s, 1), (t, -1)] vb) := by
  unfold Spec.mixProduct
  rw [if_neg (by simp), if_neg (by simp)]
  simp only [List.map_cons, List.map_nil, neg_neg, map_mul, map_sub, map_neg, conj_I, conj_conj]
  ring

/-- C120. The same for a signal above the local oscillator: the current at the difference frequency is
the phasor of the signal times the conjugate conversion coefficient. -/
theorem C120_if_above (vj : ℕ → ℕ → Arr ι) (cct : Cct ι) (resp : ℝ → ℂ) (nb : NumB) (n₁ n₂ : ℕ) (α β : ι → ℝ)
    (f : ℝ) (h : Valid cct nb) (hF : cct.numF = 2) (hP : cct.numP = 1) (hn : (nb.toTup 2).take 2 = [n₁, n₂])
    (hn2 : 1 ≤ n₂) (hv₁ : ∀ i, ‖vj 1 1 i‖ = α i * cct.freq 1) (hv₂ : ∀ i, ‖vj 2 1 i‖ = β i * cct.freq 2)
    (hβ : ∀ i, β i ≤ 1)
    (hf : ∀ c d : ℤ, |c| ≤ 1 → |d| ≤ 1 →
      (round4 (c * cct.freq 1 + d * cct.freq 2) = round4 f ↔ c = -1 ∧ d = 1)) :
    ∃ r, qtcurrentList vj cct resp [f] nb none = .ok [r] ∧ ∀ i,
      ‖r i - I * exp (-(I * arg (vj 1 1 i))) * (vj 2 1 i / (2 * cct.freq 2)) *
          (starRingEnd ℂ) (conversion resp (α i) (cct.freq 1) (cct.freq 2) n₁ (cct.vb i))‖
        ≤ 5 / 4 * β i ^ 3 * stepSum₂ resp (cct.vb i) (cct.freq 1) (cct.freq 2) n₁ n₂ := by
  refine ⟨_, C14_mtsda vj cct resp [f] nb h, fun i => ?_⟩
  have hw1 : 0 < cct.freq 1 := h.freq_pos 1 le_rfl (by omega)
  have hw2 : 0 < cct.freq 2 := h.freq_pos 2 (by norm_num) (by omega)
  simp only [hF, hP]
  have hc := current_two resp ⟨Spec.jacobiAnger (vj 1 1 i) (cct.freq 1) 1 n₁, n₁, cct.freq 1⟩
    ⟨Spec.jacobiAnger (vj 2 1 i) (cct.freq 2) 1 n₂, n₂, cct.freq 2⟩ (cct.vb i) f (-1) 1 (by norm_num)
    (by norm_num) hf
  have hm := weak_mixing resp (vj 1 1 i) (vj 2 1 i) hw1 hw2 (hv₁ i) (hv₂ i) (hβ i) n₁ n₂ hn2 (cct.vb i)
  rw [two_tones resp _ cct.freq hn, hc, mixProduct_opposite]
  rw [← norm_conj] at hm
  have e : (starRingEnd ℂ) (-I * exp (I * arg (vj 1 1 i)) * ((starRingEnd ℂ) (vj 2 1 i) / (2 * cct.freq 2)) *
        conversion resp (α i) (cct.freq 1) (cct.freq 2) n₁ (cct.vb i))
      = I * exp (-(I * arg (vj 1 1 i))) * (vj 2 1 i / (2 * cct.freq 2)) *
          (starRingEnd ℂ) (conversion resp (α i) (cct.freq 1) (cct.freq 2) n₁ (cct.vb i)) := by
    simp only [map_mul, map_div₀, map_neg, conj_I, conj_conj, conj_ofReal, ← exp_conj, map_ofNat, neg_neg]
    congr 4
    ring
  rw [map_sub, e] at hm
  exact hm

/-- C120. So the current at the intermediate frequency, divided by the strength of the signal, tends to
the conversion coefficient as the signal is turned down: the conversion gain of a simulation does not
depend on the strength of a weak signal. -/
theorem C120_gain (cct : Cct ι) (resp : ℝ → ℂ) (nb : NumB) (n₁ n₂ : ℕ) (v₁ v₂ : Arr ι) (f : ℝ)
    (h : Valid cct nb) (hF : cct.numF = 2) (hP : cct.numP = 1) (hn : (nb.toTup 2).take 2 = [n₁, n₂])
    (hn2 : 1 ≤ n₂)
    (hf : ∀ c d : ℤ, |c| ≤ 1 → |d| ≤ 1 →
      (round4 (c * cct.freq 1 + d * cct.freq 2) = round4 f ↔ c = 1 ∧ d = -1)) (i : ι) :
    ∃ r : ℝ → Arr ι, (∀ ε : ℝ, qtcurrentList (fun k _ => if k = 1 then v₁ else fun i => ε * v₂ i) cct resp [f] nb none
        = .ok [r ε]) ∧
      Filter.Tendsto (fun ε : ℝ => r ε i / ε) (nhdsWithin 0 (Set.Ioi 0))
        (nhds (-I * exp (I * arg (v₁ i)) * ((starRingEnd ℂ) (v₂ i) / (2 * cct.freq 2)) *
          conversion resp (‖v₁ i‖ / cct.freq 1) (cct.freq 1) (cct.freq 2) n₁ (cct.vb i))) := by
  have hw1 : 0 < cct.freq 1 := h.freq_pos 1 le_rfl (by omega)
  have hw2 : 0 < cct.freq 2 := h.freq_pos 2 (by norm_num) (by omega)
  refine ⟨fun ε => _, fun ε : ℝ => C14_mtsda _ cct resp [f] nb h, ?_⟩
  set L := -I * exp (I * arg (v₁ i)) * ((starRingEnd ℂ) (v₂ i) / (2 * cct.freq 2)) *
          conversion resp (‖v₁ i‖ / cct.freq 1) (cct.freq 1) (cct.freq 2) n₁ (cct.vb i) with hL
  set B := ‖v₂ i‖ / cct.freq 2 with hB
  have hB0 : 0 ≤ B := by positivity
  set K := 5 / 4 * B ^ 3 * stepSum₂ resp (cct.vb i) (cct.freq 1) (cct.freq 2) n₁ n₂ with hK
  rw [tendsto_iff_norm_sub_tendsto_zero]
  have hsq : Filter.Tendsto (fun ε : ℝ => K * ε ^ 2) (nhdsWithin 0 (Set.Ioi 0)) (nhds 0) := by
    have : Filter.Tendsto (fun ε : ℝ => K * ε ^ 2) (nhds 0) (nhds (K * 0 ^ 2)) :=
      (Continuous.tendsto (by fun_prop) 0)
    rw [zero_pow two_ne_zero, mul_zero] at this
    exact this.mono_left nhdsWithin_le_nhds
  refine squeeze_zero' (Filter.Eventually.of_forall fun _ => norm_nonneg _) ?_ hsq
  have hsmall : ∀ᶠ ε : ℝ in nhdsWithin 0 (Set.Ioi 0), ε * B ≤ 1 := by
    have : Filter.Tendsto (fun ε : ℝ => ε * B) (nhds 0) (nhds (0 * B)) := Continuous.tendsto (by fun_prop) 0
    rw [zero_mul] at this
    exact (this.mono_left nhdsWithin_le_nhds).eventually (ge_mem_nhds one_pos)
  filter_upwards [hsmall, self_mem_nhdsWithin] with ε hε hpos
  have hpos : 0 < ε := hpos
  have hε' : (ε : ℂ) ≠ 0 := ofReal_ne_zero.2 hpos.ne'
  simp only [hF, hP]
  have hc := current_two resp ⟨Spec.jacobiAnger (v₁ i) (cct.freq 1) 1 n₁, n₁, cct.freq 1⟩
    ⟨Spec.jacobiAnger (ε * v₂ i) (cct.freq 2) 1 n₂, n₂, cct.freq 2⟩ (cct.vb i) f 1 (-1) (by norm_num)
    (by norm_num) hf
  have hm := weak_mixing resp (v₁ i) (ε * v₂ i) hw1 hw2 (div_mul_cancel₀ _ hw1.ne').symm (β := ε * B)
    (by rw [norm_mul, norm_real, Real.norm_of_nonneg hpos.le, mul_assoc, hB, div_mul_cancel₀ _ hw2.ne'])
    hε n₁ n₂ hn2 (cct.vb i)
  rw [two_tones resp _ cct.freq hn]
  simp only [if_true, show ¬ (2 = 1) by norm_num, if_false]
  rw [hc]
  have e : -I * exp (I * arg (v₁ i)) * ((starRingEnd ℂ) (ε * v₂ i) / (2 * cct.freq 2)) *
        conversion resp (‖v₁ i‖ / cct.freq 1) (cct.freq 1) (cct.freq 2) n₁ (cct.vb i) = ε * L := by
    rw [hL, map_mul, conj_ofReal]
    ring
  rw [e] at hm
  have e2 : ∀ x : ℂ, x / ε - L = (x - ε * L) / ε := by
    intro x
    field_simp
  rw [e2, norm_div, norm_real, Real.norm_of_nonneg hpos.le, div_le_iff₀ hpos]
  refine hm.trans (le_of_eq ?_)
  rw [hK]
  ring

/-- Local oscillator at 0.32, signal at 0.3, difference frequency 0.02. -/
noncomputable def mixer : Cct (Fin 2) :=
  { numF := 2, numP := 1, freq := fun f => if f = 1 then 0.32 else 0.3, vb := fun i => 0.5 * i }

theorem mixer_valid : Valid mixer (.tup [5, 2]) where
  tones_pos := by simp [mixer]
  tones_le := by simp [mixer]
  harmonics := by simp [mixer]
  freq_pos := by intro f _ _; simp only [mixer]; split_ifs <;> norm_num
  limits := by simp [mixer, NumB.toTup]

theorem mixer_if (c d : ℤ) (hc : |c| ≤ 1) (hd : |d| ≤ 1) :
    round4 (c * mixer.freq 1 + d * mixer.freq 2) = round4 0.02 ↔ c = 1 ∧ d = -1 := by
  have h1 : mixer.freq 1 = 0.32 := by simp [mixer]
  have h2 : mixer.freq 2 = 0.3 := by simp [mixer]
  rw [h1, h2]
  have far : ∀ x y : ℝ, 1 / 1000 < |x - y| → round4 x ≠ round4 y := by
    intro x y h he
    have a := abs_le.1 (abs_round4_sub_le x)
    have b := abs_le.1 (abs_round4_sub_le y)
    rw [he] at a
    rw [lt_abs] at h
    rcases h with h | h <;> linarith [a.1, a.2, b.1, b.2]
  have hc' := abs_le.1 hc
  have hd' := abs_le.1 hd
  obtain rfl | rfl | rfl : c = -1 ∨ c = 0 ∨ c = 1 := by omega
  all_goals obtain rfl | rfl | rfl : d = -1 ∨ d = 0 ∨ d = 1 := by omega
  all_goals first
    | (refine iff_of_true ?_ (by norm_num); norm_num; done)
    | (refine iff_of_false (far _ _ ?_) (by norm_num); norm_num [abs_of_pos, abs_of_neg])

/-- A strong local oscillator, a weak signal. -/
example (resp : ℝ → ℂ) : ∃ r,
    qtcurrentList (fun k _ _ => if k = 1 then ((1.2 * 0.32 : ℝ) : ℂ) else ((0.01 * 0.3 : ℝ) : ℂ)) mixer resp [0.02]
      (.tup [5, 2]) none = .ok [r] ∧ ∀ i,
      ‖r i - -I * exp (I * arg ((1.2 * 0.32 : ℝ) : ℂ)) * ((starRingEnd ℂ) ((0.01 * 0.3 : ℝ) : ℂ) / (2 * mixer.freq 2)) *
          conversion resp 1.2 (mixer.freq 1) (mixer.freq 2) 5 (mixer.vb i)‖
        ≤ 5 / 4 * 0.01 ^ 3 * stepSum₂ resp (mixer.vb i) (mixer.freq 1) (mixer.freq 2) 5 2 :=
  C120_if (fun k _ _ => if k = 1 then ((1.2 * 0.32 : ℝ) : ℂ) else ((0.01 * 0.3 : ℝ) : ℂ)) mixer resp (.tup [5, 2])
    5 2 (fun _ => 1.2) (fun _ => 0.01) 0.02 mixer_valid rfl rfl rfl (by norm_num)
    (fun i => by simp only [if_true]; rw [norm_real, Real.norm_of_nonneg (by norm_num)]; simp [mixer])
    (fun i => by
      simp only [show ¬ (2 = 1) by norm_num, if_false]
      rw [norm_real, Real.norm_of_nonneg (by norm_num)]; simp [mixer])
    (fun _ => by norm_num) mixer_if

end QMix.Props
