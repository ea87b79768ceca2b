import Verif.Lemmas.Truncation3
import Verif.Spec.Truncation
import Mathlib.Analysis.Complex.ExponentialBounds
import Verif.Props.Limit

/-!
# Property C164: how large num_b has to be when the tones have harmonics

C123 bounds the error for one harmonic. With several harmonics the coefficients themselves are approximate: the
Jacobi-Anger coefficients of every harmonic are cut at `num_b`, and the arrays in which they are convolved at the largest
summation limit.
-/

namespace QMix.Props

open Complex Finset Filter Topology QMix.Qt

variable {ι : Type}

/-! ## C164 -/

/-- C164. The error of `qtcurrent` for a given `num_b`, for any number of tones and harmonics. For every `ρ ≥ 2` with
all frequencies at most `ρ - 1`, let `ε_f = coeffLeftOut` of tone `f`; if every `ε_f ≤ 1` and the response function grows
at most linearly, every returned current is within
`2 (2P+1)^F K (1 + |vb|) (Π_f (m_f + (3 + P freq_f) ε_f) - Π_f m_f)`, `m_f = 1 + Σ_p |v_fp|`, of the exact one. -/
theorem C164_error (vj : ℕ → ℕ → Arr ι) (cct : Cct ι) {resp : ℝ → ℂ} {K : ℝ} (hK : 0 ≤ K) (hr : ∀ v, ‖resp v‖ ≤ K * (1 + |v|))
    (nb : NumB) (hv : Valid cct nb) (fl : List ℝ) :
    ∃ cur : ℝ → Arr ι, qtcurrentList vj cct resp fl nb none = .ok (fl.map cur) ∧
      ∀ x i, ∀ ρ : ℝ, 2 ≤ ρ → (∀ f, 1 ≤ f → f ≤ cct.numF → cct.freq f ≤ ρ - 1 ∧
          Spec.coeffLeftOut (fun p => vj f p i) (cct.freq f) cct.numP ((nb.toTup cct.numF).getD (f - 1) 0) ρ ≤ 1) →
        ‖cur x i - Spec.qtFull resp (fun f p => vj f p i) cct.freq cct.numF cct.numP (cct.vb i) x‖
          ≤ 2 * (2 * cct.numP + 1) ^ cct.numF * (K * (1 + |cct.vb i|))
            * (∏ f ∈ Icc 1 cct.numF, (1 + ∑ p ∈ Icc 1 cct.numP, ‖vj f p i‖ + (3 + cct.numP * cct.freq f)
                * Spec.coeffLeftOut (fun p => vj f p i) (cct.freq f) cct.numP ((nb.toTup cct.numF).getD (f - 1) 0) ρ)
              - ∏ f ∈ Icc 1 cct.numF, (1 + ∑ p ∈ Icc 1 cct.numP, ‖vj f p i‖)) := by
  refine ⟨_, C14_mtsda vj cct resp fl nb hv, fun x i ρ hρ hd => ?_⟩
  set tup := nb.toTup cct.numF with htup
  have hlen : (tup.take cct.numF).length = cct.numF := by
    rw [List.length_take]
    exact min_eq_left hv.limits
  have hget : ∀ j, j < cct.numF → (tup.take cct.numF).getD j 0 = tup.getD j 0 := by
    intro j hj
    simp [List.getD_eq_getElem?_getD, List.getElem?_take, hj]
  have hM : ∀ n ∈ tup.take cct.numF, n ≤ tup.foldr max 0 := by
    intro n hn
    have hn' := List.mem_of_mem_take hn
    clear_value tup
    clear hn hlen hget htup hd
    induction tup with
    | nil => simp at hn'
    | cons a l ih =>
      rcases List.mem_cons.1 hn' with rfl | h
      · exact le_max_left _ _
      · exact (ih h).trans (le_max_right _ _)
  set e := fun (f n : ℕ) => Spec.coeffLeftOut (fun p => vj f p i) (cct.freq f) cct.numP n ρ with he
  have hok := pairs_ok (fun f p => vj f p i) cct.freq cct.numP (tup.foldr max 0) e hρ 1 (tup.take cct.numF) hM fun j hj => by
    rw [hlen] at hj
    rw [hget j hj]
    obtain ⟨h1, h2⟩ := hd (1 + j) (by omega) (by omega)
    rw [show 1 + j - 1 = j by omega] at h2
    exact ⟨hv.freq_pos _ (by omega) (by omega), h1, le_rfl, h2⟩
  have key := current_pair_error hK hr _ hok (cct.vb i) x
  rw [pairs_t, pairs_L, pairs_length, hlen] at key
  unfold Spec.qt Spec.qtFull
  refine key.trans_eq ?_
  unfold pairBound
  have h1 := pairs_prod (fun f p => vj f p i) cct.freq cct.numP (tup.foldr max 0) e 1 (tup.take cct.numF) fun m d => m + d
  have h2 := pairs_prod (fun f p => vj f p i) cct.freq cct.numP (tup.foldr max 0) e 1 (tup.take cct.numF) fun m _ => m
  rw [show (fun x : Pair => x.m) = Pair.m from rfl] at h2
  rw [h1, h2, hlen]
  have prod_range_Icc : ∀ g : ℕ → ℝ, ∏ j ∈ range cct.numF, g (1 + j) = ∏ f ∈ Icc 1 cct.numF, g f := fun g => by
    rw [← Finset.prod_image (s := range cct.numF) (g := fun j => 1 + j) (f := g) (by intro a _ b _ h; simpa using h)]
    refine Finset.prod_congr ?_ fun _ _ => rfl
    ext f
    simp only [Finset.mem_image, Finset.mem_range, Finset.mem_Icc]
    constructor
    · rintro ⟨j, h1, rfl⟩
      omega
    · exact fun h => ⟨f - 1, by omega, by omega⟩
  rw [← prod_range_Icc fun f => 1 + ∑ p ∈ Icc 1 cct.numP, ‖vj f p i‖ + (3 + cct.numP * cct.freq f) * e f (tup.getD (f - 1) 0),
    ← prod_range_Icc fun f => 1 + ∑ p ∈ Icc 1 cct.numP, ‖vj f p i‖]
  rw [Finset.prod_congr rfl (g := fun j => 1 + ∑ p ∈ Icc 1 cct.numP, ‖vj (1 + j) p i‖
    + (3 + cct.numP * cct.freq (1 + j)) * e (1 + j) (tup.getD (1 + j - 1) 0)) fun j hj => by
      rw [hget j (Finset.mem_range.1 hj), show 1 + j - 1 = j by omega]]
  push_cast
  ring

/-- Products that approach a product as fast as their factors do. -/
theorem prod_rate {α : Type} (s : Finset α) (m : α → ℝ) (d : α → ℕ → ℝ) {c : ℝ} (hc : 1 ≤ c)
    (h0 : ∀ f ∈ s, ∀ n, 0 ≤ d f n) (h : ∀ f ∈ s, Tendsto (fun n => c ^ n * d f n) atTop (𝓝 0)) :
    Tendsto (fun n => ∏ f ∈ s, (m f + d f n)) atTop (𝓝 (∏ f ∈ s, m f)) ∧
    Tendsto (fun n => c ^ n * (∏ f ∈ s, (m f + d f n) - ∏ f ∈ s, m f)) atTop (𝓝 0) := by
  classical
  have hd : ∀ f ∈ s, Tendsto (d f) atTop (𝓝 0) := fun f hf =>
    squeeze_zero (h0 f hf) (fun n => le_mul_of_one_le_left (h0 f hf n) (one_le_pow₀ hc)) (h f hf)
  have hp : ∀ t ⊆ s, Tendsto (fun n => ∏ f ∈ t, (m f + d f n)) atTop (𝓝 (∏ f ∈ t, m f)) := fun t ht =>
    tendsto_finset_prod _ fun f hf => by simpa using (tendsto_const_nhds (x := m f)).add (hd f (ht hf))
  refine ⟨hp s subset_rfl, ?_⟩
  suffices ∀ t ⊆ s, Tendsto (fun n => c ^ n * (∏ f ∈ t, (m f + d f n) - ∏ f ∈ t, m f)) atTop (𝓝 0) from this s subset_rfl
  intro t
  induction t using Finset.induction_on with
  | empty => simp
  | insert a t ha ih =>
    intro hts
    have hat : a ∈ s := hts (Finset.mem_insert_self _ _)
    have ht : t ⊆ s := fun x hx => hts (Finset.mem_insert_of_mem hx)
    have h1 := ((h a hat).mul (hp t ht)).add ((ih ht).const_mul (m a))
    simp only [zero_mul, mul_zero, add_zero] at h1
    refine h1.congr fun n => ?_
    rw [Finset.prod_insert ha, Finset.prod_insert ha]
    ring

theorem tendsto_coeffLeftOut (v : ℕ → ℂ) (w : ℝ) (P : ℕ) {c ρ : ℝ} (hc : 0 ≤ c) (hρ : c < ρ) :
    Tendsto (fun n => c ^ n * Spec.coeffLeftOut v w P n ρ) atTop (𝓝 0) := by
  have hρ0 : 0 < ρ := hc.trans_lt hρ
  set Q := ∏ p ∈ Finset.Icc 1 P, (2 * Real.exp (‖v p‖ / (p * w) / 2 * ρ ^ p)) with hQ
  have hq : ‖c / ρ‖ < 1 := by
    rw [Real.norm_of_nonneg (by positivity)]
    exact (div_lt_one hρ0).2 hρ
  have h0 : Tendsto (fun n : ℕ => (c / ρ) ^ n) atTop (𝓝 0) := tendsto_pow_atTop_nhds_zero_of_norm_lt_one hq
  have h1 : Tendsto (fun n : ℕ => (n : ℝ) * (c / ρ) ^ n) atTop (𝓝 0) := by
    simpa using tendsto_pow_const_mul_const_pow_of_abs_lt_one 1 hq
  have h2 := ((h0.mul_const (1 + w)).add (h1.mul_const w)).mul_const ((2 * P + 1) * Q / ρ)
  simp only [zero_mul, add_zero] at h2
  refine h2.congr fun n => ?_
  unfold Spec.coeffLeftOut
  rw [← hQ, div_pow, pow_succ]
  field_simp
  ring

theorem coeffLeftOut_nonneg (v : ℕ → ℂ) {w : ℝ} (hw : 0 ≤ w) (P n : ℕ) {ρ : ℝ} (hρ : 0 ≤ ρ) : 0 ≤ Spec.coeffLeftOut v w P n ρ := by
  unfold Spec.coeffLeftOut
  have : 0 ≤ ∏ p ∈ Finset.Icc 1 P, (2 * Real.exp (‖v p‖ / (p * w) / 2 * ρ ^ p)) := Finset.prod_nonneg fun _ _ => by positivity
  positivity

/-- C164. The error falls faster than any geometric sequence: whatever `c`, `c^num_b` times the error tends to zero. -/
theorem C164_rate (vj : ℕ → ℕ → Arr ι) (cct : Cct ι) {resp : ℝ → ℂ} {K : ℝ} (hK : 0 ≤ K) (hr : ∀ v, ‖resp v‖ ≤ K * (1 + |v|))
    (hv : ∀ n, Valid cct (.int n)) (fl : List ℝ) :
    ∃ cur : ℕ → ℝ → Arr ι, (∀ n, qtcurrentList vj cct resp fl (.int n) none = .ok (fl.map (cur n))) ∧
      ∀ x i, ∀ c : ℝ, Tendsto (fun n : ℕ => c ^ n * ‖cur n x i
        - Spec.qtFull resp (fun f p => vj f p i) cct.freq cct.numF cct.numP (cct.vb i) x‖) atTop (𝓝 0) := by
  choose cur h1 h2 using fun n => C164_error vj cct hK hr (.int n) (hv n) fl
  refine ⟨cur, h1, fun x i c => ?_⟩
  set F := cct.numF with hF
  set err := fun n : ℕ => ‖cur n x i - Spec.qtFull resp (fun f p => vj f p i) cct.freq F cct.numP (cct.vb i) x‖ with herr
  set b := |c| + 1 with hb
  have hb1 : 1 ≤ b := by have := abs_nonneg c; linarith
  set ρ := b + 2 + ∑ f ∈ Icc 1 F, cct.freq f with hρd
  have hpos : ∀ f ∈ Icc 1 F, 0 < cct.freq f := fun f hf => (hv 0).freq_pos f (Finset.mem_Icc.1 hf).1 (Finset.mem_Icc.1 hf).2
  have hsum : 0 ≤ ∑ f ∈ Icc 1 F, cct.freq f := Finset.sum_nonneg fun f hf => (hpos f hf).le
  have hle : ∀ f ∈ Icc 1 F, cct.freq f ≤ ∑ f ∈ Icc 1 F, cct.freq f := fun f hf =>
    Finset.single_le_sum (f := cct.freq) (fun g hg => (hpos g hg).le) hf
  have hget : ∀ n f, f ∈ Icc 1 F → ((NumB.int n).toTup F).getD (f - 1) 0 = n := fun n f hf => by
    have := Finset.mem_Icc.1 hf
    simp only [NumB.toTup]
    rw [List.getD_eq_getElem?_getD, List.getElem?_replicate, if_pos (by omega)]
    rfl
  set ε := fun (f n : ℕ) => Spec.coeffLeftOut (fun p => vj f p i) (cct.freq f) cct.numP n ρ with hε
  have hε0 : ∀ f ∈ Icc 1 F, ∀ n, 0 ≤ ε f n := fun f hf n => coeffLeftOut_nonneg _ (hpos f hf).le _ _ (by linarith)
  have hεt : ∀ f, Tendsto (fun n => b ^ n * ε f n) atTop (𝓝 0) := fun f =>
    tendsto_coeffLeftOut _ _ _ (by linarith) (by linarith)
  have hε1 : ∀ᶠ n in atTop, ∀ f ∈ Icc 1 F, ε f n ≤ 1 := by
    rw [eventually_all_finset]
    intro f hf
    filter_upwards [(hεt f).eventually (gt_mem_nhds zero_lt_one)] with n hn
    exact (le_mul_of_one_le_left (hε0 f hf n) (one_le_pow₀ hb1)).trans hn.le
  have hrate := (prod_rate (Icc 1 F) (fun f => 1 + ∑ p ∈ Icc 1 cct.numP, ‖vj f p i‖)
    (fun f n => (3 + cct.numP * cct.freq f) * ε f n) hb1
    (fun f hf n => mul_nonneg (by have := hpos f hf; positivity) (hε0 f hf n))
    (fun f _ => by
      have := (hεt f).const_mul (3 + cct.numP * cct.freq f)
      rw [mul_zero] at this
      exact this.congr fun n => by ring)).2
  have hbound : Tendsto (fun n => b ^ n * err n) atTop (𝓝 0) := by
    have h3 := hrate.const_mul (2 * (2 * cct.numP + 1) ^ F * (K * (1 + |cct.vb i|)))
    rw [mul_zero] at h3
    refine squeeze_zero' (Eventually.of_forall fun n => by positivity) ?_ h3
    filter_upwards [hε1] with n hn
    have h4 := h2 n x i ρ (by linarith) fun f f1 f2 => by
      have hf := Finset.mem_Icc.2 ⟨f1, f2⟩
      rw [hget n f hf]
      exact ⟨by linarith [hle f hf], hn f hf⟩
    rw [Finset.prod_congr rfl (g := fun f => 1 + ∑ p ∈ Icc 1 cct.numP, ‖vj f p i‖ + (3 + cct.numP * cct.freq f) * ε f n)
      fun f hf => by rw [hget n f hf]] at h4
    refine (mul_le_mul_of_nonneg_left h4 (by positivity)).trans_eq ?_
    ring
  refine squeeze_zero_norm (fun n => ?_) hbound
  rw [norm_mul, norm_pow, Real.norm_eq_abs, Real.norm_of_nonneg (by positivity)]
  refine mul_le_mul_of_nonneg_right (pow_le_pow_left₀ (abs_nonneg c) ?_ n) (by positivity)
  linarith

/-- C164, the default `num_b = 15` with one tone and two harmonics: drive levels up to 1 and 0.2, photon energies up to
the gap. -/
theorem C164_default (vj : ℕ → ℕ → Arr ι) (cct : Cct ι) {resp : ℝ → ℂ} {K : ℝ} (hK : 0 ≤ K) (hr : ∀ v, ‖resp v‖ ≤ K * (1 + |v|))
    (hF : cct.numF = 1) (hP : cct.numP = 2) (hw : 0 < cct.freq 1) (hw1 : cct.freq 1 ≤ 1)
    (hd1 : ∀ i, ‖vj 1 1 i‖ ≤ cct.freq 1) (hd2 : ∀ i, ‖vj 1 2 i‖ ≤ 0.4 * cct.freq 1) (fl : List ℝ) :
    ∃ cur : ℝ → Arr ι, qtcurrentList vj cct resp fl (.int 15) none = .ok (fl.map cur) ∧
      ∀ x i, ‖cur x i - Spec.qtFull resp (fun f p => vj f p i) cct.freq 1 2 (cct.vb i) x‖ ≤ 4 / 10 ^ 6 * K * (1 + |cct.vb i|) := by
  have hv : Valid cct (.int 15) := by
    refine ⟨by omega, by omega, by omega, fun f h1 h2 => ?_, by simp [NumB.toTup]⟩
    obtain rfl : f = 1 := by omega
    exact hw
  obtain ⟨cur, h1, h2⟩ := C164_error vj cct hK hr (.int 15) hv fl
  refine ⟨cur, h1, fun x i => ?_⟩
  have hε : Spec.coeffLeftOut (fun p => vj 1 p i) (cct.freq 1) 2 15 8 ≤ 73 / 10 ^ 9 := by
    unfold Spec.coeffLeftOut
    rw [show Icc 1 2 = {1, 2} by decide, Finset.prod_insert (by simp), Finset.prod_singleton]
    have x1 : ‖vj 1 1 i‖ / ((1 : ℕ) * cct.freq 1) / 2 * 8 ^ 1 ≤ 4 := by
      have : ‖vj 1 1 i‖ / ((1 : ℕ) * cct.freq 1) ≤ 1 := by
        rw [div_le_one (by positivity)]
        simpa using hd1 i
      linarith
    have x2 : ‖vj 1 2 i‖ / ((2 : ℕ) * cct.freq 1) / 2 * 8 ^ 2 ≤ 7 := by
      have : ‖vj 1 2 i‖ / ((2 : ℕ) * cct.freq 1) ≤ 0.2 := by
        rw [div_le_iff₀ (by positivity)]
        have := hd2 i
        push_cast
        linarith
      linarith
    have e1 : (2 * Real.exp (‖vj 1 1 i‖ / ((1 : ℕ) * cct.freq 1) / 2 * 8 ^ 1)) * (2 * Real.exp (‖vj 1 2 i‖ / ((2 : ℕ) * cct.freq 1) / 2 * 8 ^ 2))
        ≤ 4 * 2.7182818286 ^ 11 := by
      have t1 := Real.exp_le_exp.2 x1
      have t2 := Real.exp_le_exp.2 x2
      have t3 : Real.exp 4 * Real.exp 7 ≤ 2.7182818286 ^ 11 := by
        rw [← Real.exp_add, show (4 + 7 : ℝ) = ((11 : ℕ) : ℝ) * 1 by norm_num, Real.exp_nat_mul]
        exact pow_le_pow_left₀ (Real.exp_pos _).le Real.exp_one_lt_d9.le 11
      have t4 := mul_le_mul t1 t2 (Real.exp_pos _).le (Real.exp_pos _).le
      linarith
    have e2 : ((2 : ℕ) : ℝ) * 2 + 1 = 5 := by norm_num
    have e3 : (1 + ((15 : ℕ) + 1) * cct.freq 1) / 8 ^ (15 + 1) ≤ 17 / 8 ^ 16 := by
      rw [show 15 + 1 = 16 from rfl]
      gcongr
      push_cast
      linarith
    calc (2 * ((2 : ℕ) : ℝ) + 1) * ((1 + ((15 : ℕ) + 1) * cct.freq 1) / 8 ^ (15 + 1))
          * ((2 * Real.exp (‖vj 1 1 i‖ / ((1 : ℕ) * cct.freq 1) / 2 * 8 ^ 1)) * (2 * Real.exp (‖vj 1 2 i‖ / ((2 : ℕ) * cct.freq 1) / 2 * 8 ^ 2)))
        ≤ (2 * ((2 : ℕ) : ℝ) + 1) * (17 / 8 ^ 16) * (4 * 2.7182818286 ^ 11) := by gcongr
      _ ≤ _ := by norm_num
  have hε0 := coeffLeftOut_nonneg (fun p => vj 1 p i) hw.le 2 15 (show (0 : ℝ) ≤ 8 by norm_num)
  have h3 := h2 x i 8 (by norm_num) fun f f1 f2 => by
    obtain rfl : f = 1 := by omega
    simp only [hF, hP, NumB.toTup]
    exact ⟨by linarith, hε.trans (by norm_num)⟩
  simp only [hF, hP, NumB.toTup, Icc_self, Finset.prod_singleton] at h3
  refine h3.trans ?_
  rw [show (List.replicate 1 15).getD (1 - 1) 0 = 15 from rfl, add_sub_cancel_left]
  have h4 : (3 + ((2 : ℕ) : ℝ) * cct.freq 1) * Spec.coeffLeftOut (fun p => vj 1 p i) (cct.freq 1) 2 15 8 ≤ 5 * (73 / 10 ^ 9) :=
    mul_le_mul (by push_cast; linarith) hε hε0 (by norm_num)
  refine (mul_le_mul_of_nonneg_left h4 (by positivity)).trans ?_
  have : 0 ≤ K * (1 + |cct.vb i|) := by positivity
  push_cast
  nlinarith

/-- A circuit with one tone and two harmonics, biased at 0.8: driven at the photon energy, with a tenth of that at the
second harmonic. -/
noncomputable def demoTwo : Cct (Fin 1) := { numF := 1, numP := 2, freq := fun _ => 0.3, vb := fun _ => 0.8 }

example : ∃ cur : ℝ → Arr (Fin 1), qtcurrentList (fun _ p _ => if p = 1 then (0.3 : ℂ) else 0.03 * I) demoTwo (fun v => I * v)
      [0, 0.3, 0.6] (.int 15) none = .ok [cur 0, cur 0.3, cur 0.6] ∧
    ∀ x i, ‖cur x i - Spec.qtFull (fun v => I * v) (fun _ p => if p = 1 then (0.3 : ℂ) else 0.03 * I) demoTwo.freq 1 2 (demoTwo.vb i) x‖
      ≤ 4 / 10 ^ 6 * 1 * (1 + |0.8|) :=
  C164_default (fun _ p _ => if p = 1 then (0.3 : ℂ) else 0.03 * I) demoTwo zero_le_one (fun v => by
    rw [norm_mul, norm_I, norm_real, Real.norm_eq_abs]
    linarith) rfl rfl (by norm_num [demoTwo]) (by norm_num [demoTwo]) (fun i => by norm_num [demoTwo])
    (fun i => by norm_num [demoTwo]) [0, 0.3, 0.6]

/-- Two tones with three harmonics meet the hypotheses of `C164_rate`. -/
example : ∀ n, Valid ({ numF := 2, numP := 3, freq := fun f => if f = 1 then 0.3 else 0.32, vb := fun _ => 0.8 } : Cct (Fin 1)) (.int n) :=
  fun n => ⟨by simp, by simp, by simp, fun f _ _ => by dsimp only; split_ifs <;> norm_num, by simp [NumB.toTup]⟩

end QMix.Props
