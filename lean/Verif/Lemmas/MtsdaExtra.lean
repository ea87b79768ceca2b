import Verif.Lemmas.QtApi
import Mathlib.Tactic.NormNum
import Mathlib.Tactic.Linarith

/-! Further facts about the specification: an extra harmonic, the single-tone dc current, and the
effect of the array size on a tone with three harmonics. -/

namespace QMix.Spec

open Complex Finset

/-- The coefficients inside the summation limit do not see an undriven extra harmonic. -/
theorem toneCoeff_extra_harmonic {v : ℕ → ℂ} {w : ℝ} {P n M : ℕ} (hn : n ≤ M) (hv : v (P + 1) = 0)
    {k : ℤ} (hk : |k| ≤ n) : toneCoeff v w (P + 1) n M k = toneCoeff v w P n M k := by
  unfold toneCoeff
  rw [harmonicConv_undriven, if_pos]
  · have : (n : ℤ) ≤ M := by exact_mod_cast hn
    omega
  · intro m
    rw [hv, jacobiAnger_zero]

theorem corr_extra_harmonic (resp : ℝ → ℂ) (v : ℕ → ℕ → ℂ) (freq : ℕ → ℝ) (P M : ℕ) (as : List ℤ)
    (f0 : ℕ) (nbs : List ℕ) (hM : ∀ n ∈ nbs, n ≤ M)
    (hv : ∀ f, f0 ≤ f → f < f0 + nbs.length → v f (P + 1) = 0) (vb : ℝ) :
    corr resp ((tonesFrom v freq (P + 1) M f0 nbs).zip as) vb
      = corr resp ((tonesFrom v freq P M f0 nbs).zip as) vb := by
  induction as generalizing f0 nbs vb with
  | nil => simp
  | cons a as ih =>
    cases nbs with
    | nil => rfl
    | cons n nbs =>
      simp only [tonesFrom, List.zip_cons_cons, corr]
      have hn := hM n (by simp)
      have h0 := hv f0 le_rfl (by simp)
      refine sum_congr rfl fun k hk => ?_
      rw [mem_Icc, ← abs_le] at hk
      split_ifs with hka
      · rw [toneCoeff_extra_harmonic hn h0 hk, toneCoeff_extra_harmonic hn h0 hka,
          ih (f0 + 1) nbs (fun m hm => hM m (by simp [hm]))
            (fun f h1 h2 => hv f (by omega) (by simp only [List.length_cons]; omega))]
      · rfl

theorem zip_neg (ts : List Tone) (as : List ℤ) :
    (ts.zip as).map (fun x => (x.1, -x.2)) = ts.zip (as.map fun a => -a) := by
  induction ts generalizing as with
  | nil => simp
  | cons t ts ih =>
    cases as with
    | nil => simp
    | cons a as => simp [ih]

theorem zip_all_zero {ts : List Tone} {as : List ℤ} (hl : ts.length = as.length) :
    (∀ x ∈ ts.zip as, x.2 = 0) ↔ ∀ a ∈ as, a = 0 := by
  have : (ts.zip as).map Prod.snd = as := List.map_snd_zip (by omega)
  constructor
  · intro h a ha
    rw [← this] at ha
    obtain ⟨x, hx, rfl⟩ := List.mem_map.1 ha
    exact h x hx
  · intro h x hx
    exact h _ (by rw [← this]; exact List.mem_map.2 ⟨x, hx, rfl⟩)

theorem mixProduct_extra_harmonic (resp : ℝ → ℂ) (v : ℕ → ℕ → ℂ) (freq : ℕ → ℝ) (P M : ℕ)
    (f0 : ℕ) (nbs : List ℕ) (hM : ∀ n ∈ nbs, n ≤ M)
    (hv : ∀ f, f0 ≤ f → f < f0 + nbs.length → v f (P + 1) = 0)
    (as : List ℤ) (hlen : as.length = nbs.length) (vb : ℝ) :
    mixProduct resp ((tonesFrom v freq (P + 1) M f0 nbs).zip as) vb
      = mixProduct resp ((tonesFrom v freq P M f0 nbs).zip as) vb := by
  unfold mixProduct
  rw [zip_neg, zip_neg, corr_extra_harmonic _ _ _ _ _ as f0 nbs hM hv,
    corr_extra_harmonic _ _ _ _ _ _ f0 nbs hM hv]
  have e1 := zip_all_zero (ts := tonesFrom v freq (P + 1) M f0 nbs) (as := as)
    (by rw [length_tonesFrom, hlen])
  have e2 := zip_all_zero (ts := tonesFrom v freq P M f0 nbs) (as := as)
    (by rw [length_tonesFrom, hlen])
  by_cases ha : ∀ a ∈ as, a = 0
  · rw [if_pos (e1.2 ha), if_pos (e2.2 ha)]
  · rw [if_neg (fun h => ha (e1.1 h)), if_neg (fun h => ha (e2.1 h))]

theorem boxSum_eq_zero (P : ℕ) (ts : List Tone) (g : List (Tone × ℤ) → ℂ)
    (h : ∀ as : List ℤ, as.length = ts.length → (∀ a ∈ as, |a| ≤ (P : ℤ)) → g (ts.zip as) = 0) :
    boxSum P ts g = 0 := by
  induction ts generalizing g with
  | nil => simpa [boxSum] using h [] rfl (by simp)
  | cons t ts ih =>
    simp only [boxSum]
    refine sum_eq_zero fun b hb => ?_
    rw [mem_Icc, ← abs_le] at hb
    refine ih _ fun as h1 h2 => h (b :: as) (by simp [h1]) fun c hc => ?_
    rcases List.mem_cons.1 hc with rfl | hc
    · exact hb
    · exact h2 c hc

/-- Comparing a box sum over orders up to `P + 1` with one over orders up to `P`, when the terms
containing an order `P + 1` vanish. -/
theorem boxSum_extend (P : ℕ) (ts ts' : List Tone) (hl : ts'.length = ts.length)
    (g g' : List (Tone × ℤ) → ℂ)
    (h : ∀ as : List ℤ, as.length = ts.length → (∀ a ∈ as, |a| ≤ (P : ℤ)) →
      g' (ts'.zip as) = g (ts.zip as))
    (h0 : ∀ as : List ℤ, as.length = ts.length → (∀ a ∈ as, |a| ≤ ((P + 1 : ℕ) : ℤ)) →
      (∃ a ∈ as, |a| = ((P + 1 : ℕ) : ℤ)) → g' (ts'.zip as) = 0) :
    boxSum (P + 1) ts' g' = boxSum P ts g := by
  induction ts generalizing ts' g g' with
  | nil =>
    obtain rfl : ts' = [] := List.length_eq_zero_iff.1 (by simpa using hl)
    have := h [] rfl (by simp)
    simpa [boxSum] using this
  | cons t ts ih =>
    cases ts' with
    | nil => simp at hl
    | cons t' ts' =>
      simp only [boxSum]
      have hl' : ts'.length = ts.length := by simpa using hl
      have hsub : Icc (-(P : ℤ)) P ⊆ Icc (-((P + 1 : ℕ) : ℤ)) ((P + 1 : ℕ) : ℤ) := by
        intro a ha
        rw [mem_Icc] at *
        push_cast
        omega
      rw [← sum_subset hsub]
      · refine sum_congr rfl fun a ha => ?_
        rw [mem_Icc, ← abs_le] at ha
        refine ih ts' hl' _ _ (fun as h1 h2 => ?_) (fun as h1 h2 h3 => ?_)
        · refine h (a :: as) (by simp [h1]) (fun b hb => ?_)
          rcases List.mem_cons.1 hb with rfl | hb
          · exact ha
          · exact h2 b hb
        · refine h0 (a :: as) (by simp [h1]) (fun b hb => ?_) ?_
          · rcases List.mem_cons.1 hb with rfl | hb
            · push_cast; omega
            · exact h2 b hb
          · obtain ⟨b, hb, e⟩ := h3
            exact ⟨b, by simp [hb], e⟩
      · intro a ha hna
        rw [mem_Icc, ← abs_le] at ha hna
        refine boxSum_eq_zero _ _ _ fun as h1 h2 => ?_
        refine h0 (a :: as) (by simp [h1, hl']) (fun b hb => ?_) ⟨a, by simp, ?_⟩
        · rcases List.mem_cons.1 hb with rfl | hb
          · exact ha
          · exact h2 b hb
        · push_cast at *; omega

/-- Frequency of a mixing product of tones `f, f + 1, ...`, in terms of the orders. -/
theorem mixFreq_zip (v : ℕ → ℕ → ℂ) (freq : ℕ → ℝ) (P M f : ℕ) (nbs : List ℕ) (as : List ℤ)
    (h : as.length = nbs.length) :
    mixFreq ((tonesFrom v freq P M f nbs).zip as) = photonShift freq f as := by
  rw [mixFreq_tonesFrom v freq P M f nbs _ (by
    rw [List.map_fst_zip (by rw [length_tonesFrom, h])])]
  rw [List.map_snd_zip (by rw [length_tonesFrom, h])]

/-- With an undriven extra harmonic the current changes only by the mixing products of order
`P + 1`; if none of them falls on `f`, it does not change. -/
theorem current_extra_harmonic (resp : ℝ → ℂ) (v : ℕ → ℕ → ℂ) (freq : ℕ → ℝ) (P M : ℕ)
    (f0 : ℕ) (nbs : List ℕ) (hM : ∀ n ∈ nbs, n ≤ M)
    (hv : ∀ f, f0 ≤ f → f < f0 + nbs.length → v f (P + 1) = 0) (vb f : ℝ)
    (hf : ∀ ks : List ℤ, ks.length = nbs.length → (∃ k ∈ ks, |k| = ((P + 1 : ℕ) : ℤ)) →
      (∀ k ∈ ks, |k| ≤ ((P + 1 : ℕ) : ℤ)) → round4 (photonShift freq f0 ks) ≠ round4 f) :
    current resp (P + 1) (tonesFrom v freq (P + 1) M f0 nbs) vb f
      = current resp P (tonesFrom v freq P M f0 nbs) vb f := by
  unfold current
  apply boxSum_extend
  · rw [length_tonesFrom, length_tonesFrom]
  · intro as h1 _
    rw [length_tonesFrom] at h1
    rw [mixFreq_zip _ _ _ _ _ _ _ h1, mixFreq_zip _ _ _ _ _ _ _ h1,
      mixProduct_extra_harmonic resp v freq P M f0 nbs hM hv as h1]
  · intro as h1 h2 h3
    rw [length_tonesFrom] at h1
    rw [mixFreq_zip _ _ _ _ _ _ _ h1, if_neg (hf as h1 h3 h2)]

/-- dc current of a single tone: the photon-assisted sum of shifted dc currents. -/
theorem current_single_dc (resp : ℝ → ℂ) (P : ℕ) (t : Tone) (ht : 1 / 20000 < t.w) (vb : ℝ) :
    current resp P [t] vb 0
      = ∑ k ∈ Icc (-(t.nb : ℤ)) t.nb, ((‖t.C k‖ ^ 2 * (resp (vb + k * t.w)).im : ℝ) : ℂ) := by
  unfold current
  simp only [boxSum]
  rw [sum_eq_single 0]
  · simp only [mixFreq, List.map_cons, List.map_nil, List.sum_cons, List.sum_nil, Int.cast_zero,
      zero_mul, add_zero, if_true, mixProduct, List.mem_singleton, forall_eq, corr]
    rw [im_sum]
    push_cast
    refine sum_congr rfl fun k hk => ?_
    rw [mem_Icc, ← abs_le] at hk
    rw [if_pos hk, mul_conj, Complex.normSq_eq_norm_sq, im_ofReal_mul]
    push_cast
    rfl
  · intro a _ ha
    rw [if_neg]
    intro he
    simp only [mixFreq, List.map_cons, List.map_nil, List.sum_cons, List.sum_nil, add_zero,
      round4_zero] at he
    have hb := abs_round4_sub_le (a * t.w)
    rw [he, zero_sub, abs_neg, abs_mul] at hb
    have h1 : (1 : ℝ) ≤ |(a : ℝ)| := by
      rw [← Int.cast_abs]; exact_mod_cast Int.one_le_abs ha
    have h2 : |t.w| = t.w := abs_of_pos (by linarith)
    rw [h2] at hb
    nlinarith
  · intro h
    exact absurd (by simp) h

/-- Three harmonics, the first one silent: with arrays of size 2 the coefficient `C_1` collects
second harmonic order -1 and third harmonic order 1 ... -/
theorem harmonicConv_three_two (A : ℕ → ℤ → ℂ) (h1 : ∀ k, A 1 k = if k = 0 then 1 else 0) :
    harmonicConv 2 A 3 1 = A 2 (-1) * A 3 1 := by
  have hI : Icc (-((2 : ℕ) : ℤ)) ((2 : ℕ) : ℤ) = {-2, -1, 0, 1, 2} := by decide
  simp only [harmonicConv, hI, h1]
  simp [abs]

theorem harmonicConv_two_two (A : ℕ → ℤ → ℂ) (h1 : ∀ k, A 1 k = if k = 0 then 1 else 0) :
    harmonicConv 2 A 2 (-2) = A 2 (-1) := by
  have hI : Icc (-((2 : ℕ) : ℤ)) ((2 : ℕ) : ℤ) = {-2, -1, 0, 1, 2} := by decide
  simp only [harmonicConv, hI, h1]
  simp [abs]

/-- ... and with arrays of size 1 it is zero. -/
theorem harmonicConv_three_one (A : ℕ → ℤ → ℂ) (h1 : ∀ k, A 1 k = if k = 0 then 1 else 0) :
    harmonicConv 1 A 3 1 = 0 := by
  have hI : Icc (-((1 : ℕ) : ℤ)) ((1 : ℕ) : ℤ) = {-1, 0, 1} := by decide
  simp only [harmonicConv, hI, h1]
  simp [abs]

end QMix.Spec
