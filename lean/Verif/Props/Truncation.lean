import Verif.Lemmas.Truncation2
import Verif.Spec.Truncation
import Verif.Props.Limit

/-!
# Property C123: how large num_b has to be

`num_b` truncates the Bessel sums. C99 says that the truncated currents tend to the exact ones; here
is a bound for a given `num_b`, for circuits whose tones have one harmonic each.
-/

namespace QMix.Props

open Complex Finset QMix.Qt

variable {ι : Type}

/-! ## C123 -/

/-- C123. The error of `qtcurrent` for a given `num_b`, for any number of tones with one harmonic: if the drive level
of every tone is at most `num_b + 1` and the response function grows at most linearly, every returned current is
within `2 · 3^F K Σ_f leftOut(f) (1 + |vb| + Σ_g |v_g| + (num_b_f + 1) freq_f)` of the exact one. -/
theorem C123_error (vj : ℕ → ℕ → Arr ι) (cct : Cct ι) {resp : ℝ → ℂ} {K : ℝ} (hK : 0 ≤ K) (hr : ∀ v, ‖resp v‖ ≤ K * (1 + |v|))
    (hP : cct.numP = 1) (nb : NumB) (hv : Valid cct nb)
    (hd : ∀ f, 1 ≤ f → f ≤ cct.numF → ∀ i, ‖vj f 1 i‖ ≤ ((nb.toTup cct.numF).getD (f - 1) 0 + 1) * cct.freq f) (fl : List ℝ) :
    ∃ cur : ℝ → Arr ι, qtcurrentList vj cct resp fl nb none = .ok (fl.map cur) ∧
      ∀ x i, ‖cur x i - Spec.qtFull resp (fun f p => vj f p i) cct.freq cct.numF cct.numP (cct.vb i) x‖
        ≤ 2 * 3 ^ cct.numF * K * ∑ f ∈ Icc 1 cct.numF,
          Spec.leftOut (‖vj f 1 i‖ / cct.freq f) ((nb.toTup cct.numF).getD (f - 1) 0)
            * (1 + |cct.vb i| + ∑ g ∈ Icc 1 cct.numF, ‖vj g 1 i‖ + ((nb.toTup cct.numF).getD (f - 1) 0 + 1) * cct.freq f) := by
  refine ⟨_, C14_mtsda vj cct resp fl nb hv, fun x i => ?_⟩
  set tup := nb.toTup cct.numF with htup
  have hlen : (tup.take cct.numF).length = cct.numF := by
    rw [List.length_take]
    exact min_eq_left hv.limits
  have hget : ∀ j, j < cct.numF → (tup.take cct.numF).getD j 0 = tup.getD j 0 := by
    intro j hj
    simp [List.getD_eq_getElem?_getD, List.getElem?_take, hj]
  have hM : ∀ n ∈ tup.take cct.numF, n ≤ tup.foldr max 0 := by
    intro n hn
    have hn' := List.mem_of_mem_take hn
    clear_value tup
    clear hn hlen hget htup hd
    induction tup with
    | nil => simp at hn'
    | cons a l ih =>
      rcases List.mem_cons.1 hn' with rfl | h
      · exact le_max_left _ _
      · exact (ih h).trans (le_max_right _ _)
  have hok := cuts_ok (fun f p => vj f p i) cct.freq (tup.foldr max 0) 1 (tup.take cct.numF) hM fun j hj => by
    rw [hlen] at hj
    rw [hget j hj]
    have := hd (1 + j) (by omega) (by omega) i
    rw [show 1 + j - 1 = j by omega] at this
    exact ⟨hv.freq_pos _ (by omega) (by omega), this⟩
  have key := current_error hK hr _ hok (cct.vb i) x
  rw [cuts_t, cuts_L, cuts_length, hlen] at key
  unfold Spec.qt Spec.qtFull
  rw [hP]
  refine key.trans_eq ?_
  unfold cutBound
  have h1 := cuts_sum (fun f p => vj f p i) cct.freq (tup.foldr max 0) 1 (tup.take cct.numF) fun τ _ _ => τ
  have h2 := cuts_sum (fun f p => vj f p i) cct.freq (tup.foldr max 0) 1 (tup.take cct.numF) fun _ U _ => U
  have h3 := cuts_sum (fun f p => vj f p i) cct.freq (tup.foldr max 0) 1 (tup.take cct.numF) fun τ _ s => τ * s
  rw [show (fun x : Cut => x.τ) = Cut.τ from rfl] at h1
  rw [show (fun x : Cut => x.U) = Cut.U from rfl] at h2
  rw [h1, h2, h3, hlen]
  have e2 : ∑ j ∈ range cct.numF, ‖vj (1 + j) 1 i‖ = ∑ g ∈ Icc 1 cct.numF, ‖vj g 1 i‖ :=
    sum_range_Icc cct.numF fun g => ‖vj g 1 i‖
  rw [e2, Finset.sum_mul, ← Finset.sum_add_distrib]
  rw [← sum_range_Icc cct.numF fun f => Spec.leftOut (‖vj f 1 i‖ / cct.freq f) (tup.getD (f - 1) 0)
            * (1 + |cct.vb i| + ∑ g ∈ Icc 1 cct.numF, ‖vj g 1 i‖ + (tup.getD (f - 1) 0 + 1) * cct.freq f)]
  have e3 : ∀ j ∈ range cct.numF,
      5 * (powFac (‖vj (1 + j) 1 i‖ / cct.freq (1 + j)) ((tup.take cct.numF).getD j 0)
          * powFac (‖vj (1 + j) 1 i‖ / cct.freq (1 + j)) ((tup.take cct.numF).getD j 0 + 1))
          * (1 + |cct.vb i| + ∑ g ∈ Icc 1 cct.numF, ‖vj g 1 i‖)
        + 5 * (powFac (‖vj (1 + j) 1 i‖ / cct.freq (1 + j)) ((tup.take cct.numF).getD j 0)
          * powFac (‖vj (1 + j) 1 i‖ / cct.freq (1 + j)) ((tup.take cct.numF).getD j 0 + 1))
          * ((((tup.take cct.numF).getD j 0 : ℕ) + 1) * cct.freq (1 + j))
      = Spec.leftOut (‖vj (1 + j) 1 i‖ / cct.freq (1 + j)) (tup.getD (1 + j - 1) 0)
            * (1 + |cct.vb i| + ∑ g ∈ Icc 1 cct.numF, ‖vj g 1 i‖ + (tup.getD (1 + j - 1) 0 + 1) * cct.freq (1 + j)) := by
    intro j hj
    rw [Finset.mem_range] at hj
    rw [hget j hj, show 1 + j - 1 = j by omega]
    unfold Spec.leftOut powFac
    ring
  rw [Finset.sum_congr rfl e3]
  push_cast
  ring

/-- C123, the default `num_b = 15` with one tone at a drive level up to 4: what is left out is below the precision of
double-precision numbers. -/
theorem C123_default (vj : ℕ → ℕ → Arr ι) (cct : Cct ι) {resp : ℝ → ℂ} {K : ℝ} (hK : 0 ≤ K) (hr : ∀ v, ‖resp v‖ ≤ K * (1 + |v|))
    (hF : cct.numF = 1) (hP : cct.numP = 1) (hw : 0 < cct.freq 1) (hd : ∀ i, ‖vj 1 1 i‖ ≤ 4 * cct.freq 1) (fl : List ℝ) :
    ∃ cur : ℝ → Arr ι, qtcurrentList vj cct resp fl (.int 15) none = .ok (fl.map cur) ∧
      ∀ x i, ‖cur x i - Spec.qtFull resp (fun f p => vj f p i) cct.freq 1 1 (cct.vb i) x‖
        ≤ 3 / 10 ^ 15 * K * (1 + |cct.vb i| + 20 * cct.freq 1) := by
  have hv : Valid cct (.int 15) := by
    refine ⟨by omega, by omega, by omega, fun f h1 h2 => ?_, by simp [NumB.toTup]⟩
    obtain rfl : f = 1 := by omega
    exact hw
  obtain ⟨cur, h1, h2⟩ := C123_error vj cct hK hr hP (.int 15) hv (fun f h1 h2 i => by
    obtain rfl : f = 1 := by omega
    refine (hd i).trans (mul_le_mul_of_nonneg_right ?_ hw.le)
    simp only [hF, NumB.toTup]
    norm_num) fl
  refine ⟨cur, h1, fun x i => ?_⟩
  have h3 := h2 x i
  simp only [hF, hP, NumB.toTup, Icc_self, Finset.sum_singleton] at h3
  refine h3.trans ?_
  rw [show (List.replicate 1 15).getD (1 - 1) 0 = 15 from rfl]
  have hx0 : 0 ≤ ‖vj 1 1 i‖ / cct.freq 1 := by positivity
  have hx4 : ‖vj 1 1 i‖ / cct.freq 1 / 2 ≤ 2 := by
    rw [div_div, div_le_iff₀ (by positivity)]
    linarith [hd i]
  have hl : Spec.leftOut (‖vj 1 1 i‖ / cct.freq 1) 15 ≤ 5 * (2 ^ 15 / Nat.factorial 15 * (2 ^ 16 / Nat.factorial 16)) := by
    unfold Spec.leftOut
    gcongr
  have hl' : Spec.leftOut (‖vj 1 1 i‖ / cct.freq 1) 15 ≤ 1 / (2 * 10 ^ 15) := by
    refine hl.trans ?_
    norm_num [Nat.factorial]
  have hl0 : 0 ≤ Spec.leftOut (‖vj 1 1 i‖ / cct.freq 1) 15 := by
    unfold Spec.leftOut
    positivity
  have hb : 1 + |cct.vb i| + ‖vj 1 1 i‖ + ((15 : ℕ) + 1) * cct.freq 1 ≤ 1 + |cct.vb i| + 20 * cct.freq 1 := by
    have := hd i
    push_cast
    linarith
  have hb0 : 0 ≤ 1 + |cct.vb i| + 20 * cct.freq 1 := by positivity
  calc 2 * 3 ^ 1 * K * (Spec.leftOut (‖vj 1 1 i‖ / cct.freq 1) 15 * (1 + |cct.vb i| + ‖vj 1 1 i‖ + ((15 : ℕ) + 1) * cct.freq 1))
      ≤ 2 * 3 ^ 1 * K * (1 / (2 * 10 ^ 15) * (1 + |cct.vb i| + 20 * cct.freq 1)) := by
        refine mul_le_mul_of_nonneg_left (mul_le_mul hl' hb (by positivity) (by norm_num)) (by positivity)
    _ = _ := by ring

/-- A circuit with one tone and one harmonic, biased at 0.8 and driven at 1.5 times the photon energy. -/
noncomputable def demoOne : Cct (Fin 1) := { numF := 1, numP := 1, freq := fun _ => 0.3, vb := fun _ => 0.8 }

example : ∃ cur : ℝ → Arr (Fin 1), qtcurrentList (fun _ _ _ => (0.45 : ℂ)) demoOne (fun v => I * v) [0, 0.3] (.int 15) none
      = .ok [cur 0, cur 0.3] ∧
    ∀ x i, ‖cur x i - Spec.qtFull (fun v => I * v) (fun _ _ => 0.45) demoOne.freq 1 1 (demoOne.vb i) x‖ ≤ 3 / 10 ^ 15 * 1 * (1 + |0.8| + 20 * 0.3) :=
  C123_default (fun _ _ _ => (0.45 : ℂ)) demoOne zero_le_one (fun v => by
    rw [norm_mul, norm_I, norm_real, Real.norm_eq_abs]
    linarith) rfl rfl (by norm_num [demoOne]) (fun i => by norm_num [demoOne]) [0, 0.3]

/-- Two tones with the limits 4 and 3 meet the hypotheses of `C123_error`. -/
example : let cct : Cct (Fin 1) := { numF := 2, numP := 1, freq := fun f => if f = 1 then 0.3 else 0.32, vb := fun _ => 0.8 }
    Valid cct (.tup [4, 3]) ∧ ∀ f, 1 ≤ f → f ≤ cct.numF → ∀ _ : Fin 1, ‖(0.3 : ℂ)‖
      ≤ (((NumB.tup [4, 3]).toTup cct.numF).getD (f - 1) 0 + 1) * cct.freq f := by
  refine ⟨⟨by simp, by simp, by simp, fun f _ _ => by dsimp only; split_ifs <;> norm_num, by simp [NumB.toTup]⟩, fun f h1 h2 _ => ?_⟩
  simp only at h2
  interval_cases f <;> norm_num [NumB.toTup]

/-! ### The condition on the drive level cannot be dropped -/

theorem norm_corr_one_le (resp : ℝ → ℂ) {n M : ℕ} (h : n ≤ M) (u : ℕ → ℂ) (w : ℝ) (a : ℤ) (v : ℝ) {B : ℝ} (hB : 0 ≤ B)
    (hr : ∀ k : ℤ, |k| ≤ (n : ℤ) → ‖resp (v + k * w)‖ ≤ B) :
    ‖Spec.corr resp [(⟨Spec.toneCoeff u w 1 n M, n, w⟩, a)] v‖ ≤ (2 * n + 1) * B := by
  have hC : ∀ k : ℤ, |k| ≤ (n : ℤ) → ‖Spec.toneCoeff u w 1 n M k‖ ≤ 1 := by
    intro k hk
    rw [toneCoeff_one u w h k hk, phaseCoeff_one, norm_jaFull]
    exact abs_besselJ_le_one _ _
  simp only [Spec.corr]
  refine (norm_sum_le_of_le (f := fun k : ℤ => if |k + a| ≤ (n : ℤ) then Spec.toneCoeff u w 1 n M k
    * (starRingEnd ℂ) (Spec.toneCoeff u w 1 n M (k + a)) * resp (v + k * w) else 0) _ (n := fun _ => B) fun k hk => ?_).trans ?_
  · have hk' : |k| ≤ (n : ℤ) := abs_le.2 (Finset.mem_Icc.1 hk)
    split_ifs with hc
    · rw [norm_mul, norm_mul, RCLike.norm_conj]
      calc ‖Spec.toneCoeff u w 1 n M k‖ * ‖Spec.toneCoeff u w 1 n M (k + a)‖ * ‖resp (v + k * w)‖ ≤ 1 * 1 * B := by
            gcongr
            · exact hC k hk'
            · exact hC _ hc
            · exact hr k hk'
        _ = B := by ring
    · simpa using hB
  · rw [Finset.sum_const, Int.card_Icc, nsmul_eq_mul, show ((n : ℤ) + 1 - -n).toNat = 2 * n + 1 by omega]
    push_cast
    exact le_rfl

/-- C123. No `num_b` is enough for all drive levels: for every `num_b` and every `E` there is a drive level at which
the current of a unit resistor is wrong by more than `E`. -/
theorem C123_no_limit_suffices (n : ℕ) (E : ℝ) : ∃ V : ℝ, ∃ cur : Arr (Fin 1),
    qtcurrentList (fun _ _ _ => (V : ℂ)) demoOne (fun v => I * v) [0.3] (.int n) none = .ok [cur] ∧
    Spec.qtFull (fun v => I * v) (fun _ _ => (V : ℂ)) demoOne.freq 1 1 0.8 0.3 = V ∧ E < ‖cur 0 - V‖ := by
  have hv : Valid demoOne (.int n) :=
    ⟨by simp [demoOne], by simp [demoOne], by simp [demoOne], fun f _ _ => by norm_num [demoOne], by simp [demoOne, NumB.toTup]⟩
  set B : ℝ := (2 * n + 1) * (0.8 + n * 0.3) with hBdef
  have hB : 0 ≤ B := by positivity
  refine ⟨6 * B + |E| + 1, _, C14_mtsda _ demoOne _ [0.3] (.int n) hv, ?_, ?_⟩
  · rw [qtFull_resistor _ _ _ _ (fun f _ _ => by norm_num [demoOne])]
    have h1 : ¬ round4 0 = round4 0.3 := fun h => by
      have := round4_close h
      norm_num [abs_of_neg] at this
    have h2 : ¬ round4 (-(0.3)) = round4 0.3 := fun h => by
      have := round4_close h
      norm_num [abs_of_neg] at this
    simp [demoOne, h1, h2]
  · set V : ℝ := 6 * B + |E| + 1 with hV
    have hq : ‖Spec.qt (fun v => I * v) (fun _ _ => (V : ℂ)) demoOne.freq demoOne.numF demoOne.numP
        ((NumB.int n).toTup demoOne.numF) (demoOne.vb 0) 0.3‖ ≤ 6 * B := by
      have hc : ∀ a : ℤ, ‖Spec.corr (fun v => I * v) [(⟨Spec.toneCoeff (fun _ => (V : ℂ)) 0.3 1 n n, n, 0.3⟩, a)] 0.8‖ ≤ B := by
        intro a
        refine norm_corr_one_le _ le_rfl _ _ _ _ (by positivity) fun k hk => ?_
        rw [norm_mul, norm_I, one_mul, norm_real, Real.norm_eq_abs]
        have hk' : |(k : ℝ)| ≤ n := by exact_mod_cast hk
        have := abs_add_le (0.8 : ℝ) (k * 0.3)
        rw [abs_mul, abs_of_pos (show (0 : ℝ) < 0.8 by norm_num), abs_of_pos (show (0 : ℝ) < 0.3 by norm_num)] at this
        refine this.trans ?_
        linarith
      have e : Spec.qt (fun v => I * v) (fun _ _ => (V : ℂ)) demoOne.freq demoOne.numF demoOne.numP
          ((NumB.int n).toTup demoOne.numF) (demoOne.vb 0) 0.3
          = Spec.current (fun v => I * v) 1 [⟨Spec.toneCoeff (fun _ => (V : ℂ)) 0.3 1 n n, n, 0.3⟩] 0.8 0.3 := by
        simp [Spec.qt, demoOne, NumB.toTup, Spec.tonesFrom]
      rw [e]
      unfold Spec.current
      simp only [Spec.boxSum]
      refine (norm_sum_le_of_le _ (n := fun _ => 2 * B) fun a _ => ?_).trans ?_
      · split_ifs
        · unfold Spec.mixProduct
          split_ifs
          · rw [norm_real]
            exact (abs_im_le_norm _).trans ((hc a).trans (by linarith))
          · rw [norm_mul, norm_neg, norm_I, one_mul]
            refine (norm_sub_le _ _).trans ?_
            rw [RCLike.norm_conj]
            have h1 := hc a
            have h2 := hc (-a)
            simp only [List.map_cons, List.map_nil]
            linarith
        · rw [norm_zero]; linarith
      · rw [Finset.sum_const, nsmul_eq_mul, show (Finset.Icc (-((1 : ℕ) : ℤ)) ((1 : ℕ) : ℤ)).card = 3 from rfl]
        push_cast
        linarith
    have h3 := norm_sub_norm_le (V : ℂ) (Spec.qt (fun v => I * v) (fun _ _ => (V : ℂ)) demoOne.freq demoOne.numF demoOne.numP
        ((NumB.int n).toTup demoOne.numF) (demoOne.vb 0) 0.3)
    rw [norm_real, Real.norm_eq_abs, abs_of_nonneg (by positivity : 0 ≤ V)] at h3
    rw [norm_sub_rev]
    have := le_abs_self E
    refine lt_of_lt_of_le ?_ h3
    linarith

end QMix.Props
