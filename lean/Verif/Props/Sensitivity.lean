import Verif.Lemmas.Sensitivity
import Verif.Props.Stable
import Verif.Props.Convergence

/-! # How strongly the current reacts to the applied voltages and to the bias (C175) -/

namespace QMix.Props

open Complex Finset QMix.Qt QMix.Spec QMix.HB

variable {ι : Type}

/-- How far from the bias voltage the response function is evaluated: the summation limits times the frequencies. -/
noncomputable def reach (freq : ℕ → ℝ) (f : ℕ) (nbs : List ℕ) : ℝ := photonShift freq f (nbs.map fun n => (n : ℤ))

/-- The change of the junction phase of a tone, at most. -/
noncomputable def phaseChange (v v' : ℕ → ℕ → ℂ) (freq : ℕ → ℝ) (P f : ℕ) : ℝ := ∑ p ∈ Icc 1 P, ‖v f p - v' f p‖ / (p * freq f)

theorem reach_cons (freq : ℕ → ℝ) (f n : ℕ) (nbs : List ℕ) : reach freq f (n :: nbs) = n * freq f + reach freq (f + 1) nbs := by
  simp [reach, photonShift]

theorem reach_step {freq : ℕ → ℝ} {f n : ℕ} {nbs : List ℕ} (hf : 0 < freq f) {v x : ℝ} {k : ℤ} (hk : k ∈ Icc (-(n : ℤ)) n)
    (h : |x - (v + k * freq f)| ≤ reach freq (f + 1) nbs) : |x - v| ≤ reach freq f (n :: nbs) := by
  rw [reach_cons]
  have h1 : |(k : ℝ)| ≤ n := by
    have := abs_le.2 (mem_Icc.1 hk)
    exact_mod_cast this
  have h2 : |(k : ℝ) * freq f| ≤ n * freq f := by
    rw [abs_mul, abs_of_pos hf]
    exact mul_le_mul_of_nonneg_right h1 hf.le
  have h3 : x - v = (x - (v + k * freq f)) + k * freq f := by ring
  rw [h3]
  exact (abs_add_le _ _).trans (by linarith)

theorem corr_tones_le {r : ℝ → ℂ} {R : ℝ} (v : ℕ → ℕ → ℂ) {freq : ℕ → ℝ} {P M : ℕ} (nbs : List ℕ) (f : ℕ)
    (hn : ∀ n ∈ nbs, n ≤ M ∧ (P ≤ 2 ∨ n = M)) (hf : ∀ g, f ≤ g → g < f + nbs.length → 0 < freq g) (as : List ℤ) (hl : as.length = nbs.length)
    (x : ℝ) (hR : ∀ y, |y - x| ≤ reach freq f nbs → ‖r y‖ ≤ R) :
    ‖corr r ((tonesFrom v freq P M f nbs).zip as) x‖ ≤ R := by
  induction nbs generalizing f as x with
  | nil => exact hR x (by simp [reach, photonShift])
  | cons n nbs ih =>
    obtain ⟨a, as, rfl⟩ : ∃ a bs, as = a :: bs := List.exists_cons_of_length_eq_add_one hl
    obtain ⟨⟨hn1, hn2⟩, hn'⟩ := List.forall_mem_cons.1 hn
    have hf0 : 0 < freq f := hf f le_rfl (by simp)
    have R0 : 0 ≤ R := (norm_nonneg _).trans (hR x (by
      rw [sub_self, abs_zero]
      have : ∀ (l : List ℕ) (g : ℕ), f ≤ g → g + l.length ≤ f + (n :: nbs).length → 0 ≤ reach freq g l := by
        intro l
        induction l with
        | nil => intro g _ _; simp [reach, photonShift]
        | cons m l ihl =>
          intro g h1 h2
          rw [reach_cons]
          simp only [List.length_cons] at h2
          have := hf g h1 (by simp only [List.length_cons]; omega)
          have := ihl (g + 1) (by omega) (by simp only [List.length_cons]; omega)
          positivity
      exact this _ f le_rfl le_rfl))
    have hX : ∀ k ∈ Icc (-(n : ℤ)) n, ‖corr r ((tonesFrom v freq P M (f + 1) nbs).zip as) (x + k * freq f)‖ ≤ R := fun k hk =>
      ih (f + 1) hn' (fun g h1 h2 => hf g (by omega) (by simp only [List.length_cons]; omega)) as (by simpa using hl) _
        fun y hy => hR y (reach_step hf0 hk hy)
    simp only [tonesFrom, List.zip_cons_cons, corr]
    refine (norm_sum_le _ _).trans ?_
    refine le_trans (sum_le_sum (g := fun k => (if |k + a| ≤ (n : ℤ) then ‖toneCoeff (v f) (freq f) P n M k‖ *
      ‖toneCoeff (v f) (freq f) P n M (k + a)‖ else 0) * R) fun k hk => ?_) ?_
    · split_ifs
      · rw [norm_mul, norm_mul, Complex.norm_conj]
        exact mul_le_mul_of_nonneg_left (hX k hk) (by positivity)
      · simp
    · rw [← sum_mul]
      exact mul_le_of_le_one_left R0 (pair_sum_le (t := ⟨toneCoeff (v f) (freq f) P n M, n, freq f⟩) (toneCoeff_sq_le _ _ hn1 hn2) a)

theorem corr_tones_sub {r : ℝ → ℂ} {R : ℝ} (v v' : ℕ → ℕ → ℂ) {freq : ℕ → ℝ} {P M : ℕ} (nbs : List ℕ) (f : ℕ)
    (hn : ∀ n ∈ nbs, n ≤ M ∧ (P ≤ 2 ∨ n = M)) (hf : ∀ g, f ≤ g → g < f + nbs.length → 0 < freq g) (as : List ℤ) (hl : as.length = nbs.length)
    (x : ℝ) (R0 : 0 ≤ R) (hR : ∀ y, |y - x| ≤ reach freq f nbs → ‖r y‖ ≤ R) :
    ‖corr r ((tonesFrom v freq P M f nbs).zip as) x - corr r ((tonesFrom v' freq P M f nbs).zip as) x‖
      ≤ 2 * R * ∑ g ∈ range nbs.length, phaseChange v v' freq P (f + g) := by
  induction nbs generalizing f as x with
  | nil => simp [tonesFrom]
  | cons n nbs ih =>
    obtain ⟨a, as, rfl⟩ : ∃ a bs, as = a :: bs := List.exists_cons_of_length_eq_add_one hl
    obtain ⟨⟨hn1, hn2⟩, hn'⟩ := List.forall_mem_cons.1 hn
    have hf0 : 0 < freq f := hf f le_rfl (by simp)
    have hf' : ∀ g, f + 1 ≤ g → g < f + 1 + nbs.length → 0 < freq g :=
      fun g h1 h2 => hf g (by omega) (by simp only [List.length_cons]; omega)
    have hl' : as.length = nbs.length := by simpa using hl
    set D := ∑ g ∈ range nbs.length, phaseChange v v' freq P (f + 1 + g) with hD
    set C := toneCoeff (v f) (freq f) P n M with hC
    set C' := toneCoeff (v' f) (freq f) P n M with hC'
    set S := Icc (-(n : ℤ)) n with hS
    set X : ℤ → ℂ := fun k => corr r ((tonesFrom v freq P M (f + 1) nbs).zip as) (x + k * freq f) with hXd
    set X' : ℤ → ℂ := fun k => corr r ((tonesFrom v' freq P M (f + 1) nbs).zip as) (x + k * freq f) with hXd'
    have hX' : ∀ k ∈ S, ‖X' k‖ ≤ R := fun k hk =>
      corr_tones_le v' nbs (f + 1) hn' hf' as hl' _ fun y hy => hR y (reach_step hf0 hk hy)
    have hXX : ∀ k ∈ S, ‖X k - X' k‖ ≤ 2 * R * D := fun k hk =>
      ih (f + 1) hn' hf' as hl' _ fun y hy => hR y (reach_step hf0 hk hy)
    have hd : l2 S (fun k => C k - C' k) ≤ phaseChange v v' freq P f := toneCoeff_sub_le (v f) (v' f) hf0 hn1 hn2
    have h1 : l2 S C ≤ 1 := l2_le zero_le_one (by rw [one_pow]; exact toneCoeff_sq_le _ _ hn1 hn2)
    have h1' : l2 S C' ≤ 1 := l2_le zero_le_one (by rw [one_pow]; exact toneCoeff_sq_le _ _ hn1 hn2)
    have p0 : 0 ≤ phaseChange v v' freq P f := (l2_nonneg _ _).trans hd
    have hD0 : 0 ≤ D := sum_nonneg fun g hg => sum_nonneg fun p _ => by
      have := hf' (f + 1 + g) (by omega) (by have := mem_range.1 hg; omega)
      positivity
    have key : ∀ k ∈ S, ‖(if |k + a| ≤ (n : ℤ) then C k * (starRingEnd ℂ) (C (k + a)) * X k else 0)
          - (if |k + a| ≤ (n : ℤ) then C' k * (starRingEnd ℂ) (C' (k + a)) * X' k else 0)‖
        ≤ (if |k + a| ≤ (n : ℤ) then ‖C k‖ * ‖C (k + a)‖ else 0) * (2 * R * D)
          + (if |k + a| ≤ (n : ℤ) then ‖C k - C' k‖ * ‖C (k + a)‖ else 0) * R
          + (if |k + a| ≤ (n : ℤ) then ‖C' k‖ * ‖C (k + a) - C' (k + a)‖ else 0) * R := by
      intro k hk
      split_ifs
      · have e : C k * (starRingEnd ℂ) (C (k + a)) * X k - C' k * (starRingEnd ℂ) (C' (k + a)) * X' k
            = C k * (starRingEnd ℂ) (C (k + a)) * (X k - X' k) + (C k - C' k) * (starRingEnd ℂ) (C (k + a)) * X' k
              + C' k * (starRingEnd ℂ) (C (k + a) - C' (k + a)) * X' k := by
          rw [map_sub]
          ring
        rw [e]
        refine (norm_add₃_le).trans ?_
        simp only [norm_mul, Complex.norm_conj]
        have := hX' k hk
        have := hXX k hk
        gcongr
      · simp
    simp only [tonesFrom, List.zip_cons_cons, corr]
    rw [← sum_sub_distrib]
    refine (norm_sum_le _ _).trans ((sum_le_sum key).trans ?_)
    rw [sum_add_distrib, sum_add_distrib, ← sum_mul, ← sum_mul, ← sum_mul]
    have b1 := (pair_l2 n C C a).trans (mul_le_mul h1 h1 (l2_nonneg _ _) zero_le_one)
    have b2 := (pair_l2 n (fun k => C k - C' k) C a).trans (mul_le_mul hd h1 (l2_nonneg _ _) p0)
    have b3 := (pair_l2 n C' (fun k => C k - C' k) a).trans (mul_le_mul h1' hd (l2_nonneg _ _) zero_le_one)
    have c1 := mul_le_mul_of_nonneg_right b1 (show 0 ≤ 2 * R * D by positivity)
    have c2 := mul_le_mul_of_nonneg_right b2 R0
    have c3 := mul_le_mul_of_nonneg_right b3 R0
    rw [List.length_cons, sum_range_succ']
    simp only [add_zero]
    have e : ∑ g ∈ range nbs.length, phaseChange v v' freq P (f + (g + 1)) = D :=
      sum_congr rfl fun g _ => by rw [show f + (g + 1) = f + 1 + g by ring]
    rw [e]
    linarith

theorem balanced_limits {cct : Cct ι} {nb : NumB} (hb : Balanced cct nb) {n : ℕ} (hn : n ∈ (nb.toTup cct.numF).take cct.numF) :
    n ≤ (nb.toTup cct.numF).foldr max 0 ∧ (cct.numP ≤ 2 ∨ n = (nb.toTup cct.numF).foldr max 0) := by
  have hn' := List.mem_of_mem_take hn
  refine ⟨le_foldr_max hn', hb.imp_right fun h => ?_⟩
  have : ∀ l : List ℕ, l ≠ [] → (∀ m ∈ l, n = m) → n = l.foldr max 0 := by
    intro l hl
    induction l with
    | nil => exact absurd rfl hl
    | cons x l ih =>
      intro h
      obtain ⟨rfl, h2⟩ := List.forall_mem_cons.1 h
      rcases eq_or_ne l [] with rfl | hl
      · simp
      · rw [List.foldr_cons, ← ih hl h2, max_self]
  exact this _ (List.ne_nil_of_mem hn') fun m hm => h n hn' m hm

/-- The imaginary part of a correlation of order zero only contains the dc I-V curve. -/
theorem corr_zero_curve (r : ℝ → ℂ) (ts : List Tone) (v : ℝ) :
    ((corr r (ts.zip (List.replicate ts.length 0)) v).im : ℂ) = corr (fun x => ((r x).im : ℂ)) (ts.zip (List.replicate ts.length 0)) v := by
  induction ts generalizing v with
  | nil => rfl
  | cons t ts ih =>
    simp only [List.length_cons, List.replicate_succ, List.zip_cons_cons, corr, add_zero]
    rw [im_sum, ofReal_sum]
    refine sum_congr rfl fun k hk => ?_
    rw [mem_Icc, ← abs_le] at hk
    rw [if_pos hk, if_pos hk, mul_conj, im_ofReal_mul, ← ih]
    push_cast
    rfl

/-- The range of voltages around a bias voltage in which the response function is used: the sum of limit times frequency. -/
noncomputable def usedRange (cct : Cct ι) (nb : NumB) : ℝ := reach cct.freq 1 ((nb.toTup cct.numF).take cct.numF)

/-- The sum over all signals of `|v - v'| / (p ν)`, the change of the voltage in photon voltages. -/
noncomputable def drive (cct : Cct ι) (v v' : ℕ → ℕ → ℂ) : ℝ :=
  ∑ f ∈ Icc 1 cct.numF, ∑ p ∈ Icc 1 cct.numP, ‖v f p - v' f p‖ / (p * cct.freq f)

theorem drive_eq (cct : Cct ι) (v v' : ℕ → ℕ → ℂ) : ∑ g ∈ range cct.numF, phaseChange v v' cct.freq cct.numP (1 + g) = drive cct v v' := by
  unfold drive
  rw [show Icc 1 cct.numF = Ico 1 (cct.numF + 1) from rfl, sum_Ico_eq_sum_range]
  rfl

theorem usedRange_nonneg {cct : Cct ι} {nb : NumB} (h : Valid cct nb) : 0 ≤ usedRange cct nb := by
  have : ∀ (l : List ℕ) (g : ℕ), 1 ≤ g → g + l.length ≤ 1 + cct.numF → 0 ≤ reach cct.freq g l := by
    intro l
    induction l with
    | nil => intro g _ _; simp [reach, photonShift]
    | cons m l ihl =>
      intro g h1 h2
      rw [reach_cons]
      simp only [List.length_cons] at h2
      have := h.freq_pos g h1 (by omega)
      have := ihl (g + 1) (by omega) (by omega)
      positivity
  exact this _ 1 le_rfl (by rw [List.length_take, min_eq_left h.limits])

/-- The dc current as a correlation of the dc I-V curve. -/
theorem qt_dc_im (cct : Cct ι) (r : ℝ → ℂ) {nb : NumB} (h : Valid cct nb) (hd : DcAlone cct) (v : ℕ → ℕ → ℂ) (x : ℝ) :
    qt r v cct.freq cct.numF cct.numP (nb.toTup cct.numF) x 0
      = corr (fun y => ((r y).im : ℂ)) ((tonesFrom v cct.freq cct.numP ((nb.toTup cct.numF).foldr max 0) 1
        ((nb.toTup cct.numF).take cct.numF)).zip (List.replicate cct.numF 0)) x := by
  rw [qt_dc cct r h hd]
  have := corr_zero_curve r (tonesFrom v cct.freq cct.numP ((nb.toTup cct.numF).foldr max 0) 1 ((nb.toTup cct.numF).take cct.numF)) x
  rwa [Spec.length_tonesFrom, List.length_take, min_eq_left h.limits] at this

/-- A current at a frequency with one mixing product. -/
theorem qt_single (cct : Cct ι) (r : ℝ → ℂ) {nb : NumB} (h : Valid cct nb) {bs : List ℤ} (hl : bs.length = cct.numF)
    (hP : ∀ b ∈ bs, |b| ≤ (cct.numP : ℤ)) {f : ℝ}
    (hf : ∀ as : List ℤ, as.length = cct.numF → (∀ a ∈ as, |a| ≤ (cct.numP : ℤ)) →
      round4 (photonShift cct.freq 1 as) = round4 f → as = bs) (v : ℕ → ℕ → ℂ) (x : ℝ) :
    qt r v cct.freq cct.numF cct.numP (nb.toTup cct.numF) x f =
      if round4 (photonShift cct.freq 1 bs) = round4 f then mixProduct r ((tonesFrom v cct.freq cct.numP ((nb.toTup cct.numF).foldr max 0) 1
        ((nb.toTup cct.numF).take cct.numF)).zip bs) x else 0 := by
  have hlen : ((nb.toTup cct.numF).take cct.numF).length = cct.numF := by rw [List.length_take, min_eq_left h.limits]
  unfold qt current
  rw [boxSum_single (bs := bs) (by rw [hl, Spec.length_tonesFrom, hlen]) hP]
  · rw [Spec.mixFreq_zip _ _ _ _ _ _ _ (by rw [hl, hlen])]
  · intro as h1 h2 h3
    rw [if_neg]
    rw [Spec.length_tonesFrom, hlen] at h1
    rw [Spec.mixFreq_zip _ _ _ _ _ _ _ (by rw [h1, hlen])]
    exact fun e => h3 (hf as h1 h2 e)

theorem mixProduct_le {r : ℝ → ℂ} {B : ℝ} (ts : List Tone) (bs : List ℤ) (v : ℝ) (B0 : 0 ≤ B)
    (h : ∀ as : List ℤ, as.length = bs.length → ‖corr r (ts.zip as) v‖ ≤ B) : ‖mixProduct r (ts.zip bs) v‖ ≤ 2 * B := by
  unfold mixProduct
  split_ifs with h0
  · rw [norm_real, Real.norm_eq_abs]
    have := (abs_im_le_norm _).trans (h bs rfl)
    linarith
  · rw [norm_mul, norm_neg, norm_I, one_mul]
    refine (norm_sub_le _ _).trans ?_
    rw [Complex.norm_conj, zip_neg]
    have h1 := h bs rfl
    have h2 := h (bs.map fun a => -a) (by simp)
    linarith

theorem zip_all_zero {ts : List Tone} {bs : List ℤ} (h : bs.length = ts.length) : (∀ x ∈ ts.zip bs, x.2 = 0) ↔ ∀ b ∈ bs, b = 0 := by
  constructor
  · intro h0 b hb
    obtain ⟨n, hn, rfl⟩ := List.mem_iff_getElem.1 hb
    have : (ts[n]'(by omega), bs[n]) ∈ ts.zip bs := by
      rw [List.mem_iff_getElem]
      exact ⟨n, by simp; omega, by simp⟩
    exact h0 _ this
  · intro h0 x hx
    exact h0 _ (List.of_mem_zip hx).2

theorem mixProduct_sub_le {r : ℝ → ℂ} {B : ℝ} (ts ts' : List Tone) (bs : List ℤ) (v : ℝ) (hl : bs.length = ts.length) (hl' : bs.length = ts'.length)
    (h : ∀ as : List ℤ, as.length = bs.length → ‖corr r (ts.zip as) v - corr r (ts'.zip as) v‖ ≤ B) :
    ‖mixProduct r (ts.zip bs) v - mixProduct r (ts'.zip bs) v‖ ≤ 2 * B := by
  have B0 : 0 ≤ B := (norm_nonneg _).trans (h bs rfl)
  unfold mixProduct
  simp only [zip_all_zero hl, zip_all_zero hl']
  split_ifs with h0
  · rw [← ofReal_sub, norm_real, Real.norm_eq_abs, ← sub_im]
    have := (abs_im_le_norm _).trans (h bs rfl)
    linarith
  · rw [← mul_sub, norm_mul, norm_neg, norm_I, one_mul, zip_neg, zip_neg, sub_sub_sub_comm]
    refine (norm_sub_le _ _).trans ?_
    rw [← map_sub, Complex.norm_conj]
    have h1 := h bs rfl
    have h2 := h (bs.map fun a => -a) (by simp)
    linarith

/-- C175, dc. If the dc I-V curve is at most `R` in the range that is used, a change of the applied voltages changes the dc current by
at most `2 R` times the change in photon voltages. No constants other than these. -/
theorem C175_dc (vj vj' : ℕ → ℕ → Arr ι) (cct : Cct ι) (r : ℝ → ℂ) {nb : NumB} (h : Valid cct nb) (hb : Balanced cct nb) (hd : DcAlone cct) :
    ∃ cur cur' : Arr ι, qtcurrentList vj cct r [0] nb none = .ok [cur] ∧ qtcurrentList vj' cct r [0] nb none = .ok [cur'] ∧
      ∀ i R, (∀ x, |x - cct.vb i| ≤ usedRange cct nb → |(r x).im| ≤ R) →
        ‖cur i‖ ≤ R ∧ ‖cur i - cur' i‖ ≤ 2 * R * ∑ f ∈ Icc 1 cct.numF, ∑ p ∈ Icc 1 cct.numP, ‖vj f p i - vj' f p i‖ / (p * cct.freq f) := by
  refine ⟨_, _, C14_mtsda vj cct r [0] nb h, C14_mtsda vj' cct r [0] nb h, fun i R hR => ?_⟩
  have hlen : ((nb.toTup cct.numF).take cct.numF).length = cct.numF := by rw [List.length_take, min_eq_left h.limits]
  have R0 : 0 ≤ R := (abs_nonneg _).trans (hR (cct.vb i) (by rw [sub_self, abs_zero]; exact usedRange_nonneg h))
  have hfr : ∀ g, 1 ≤ g → g < 1 + ((nb.toTup cct.numF).take cct.numF).length → 0 < cct.freq g := fun g h1 h2 =>
    h.freq_pos g h1 (by omega)
  have hR' : ∀ y, |y - cct.vb i| ≤ usedRange cct nb → ‖(((r y).im : ℝ) : ℂ)‖ ≤ R := fun y hy => by
    rw [norm_real]
    exact hR y hy
  beta_reduce
  rw [qt_dc_im cct r h hd, qt_dc_im cct r h hd]
  refine ⟨corr_tones_le _ _ 1 (fun n hn => balanced_limits hb hn) hfr _ (by rw [List.length_replicate, hlen]) _ hR', ?_⟩
  have := corr_tones_sub (fun f p => vj f p i) (fun f p => vj' f p i) _ 1 (fun n hn => balanced_limits hb hn) hfr (List.replicate cct.numF 0)
    (by rw [List.length_replicate, hlen]) (cct.vb i) R0 hR'
  rwa [hlen, drive_eq] at this

/-- C175, ac, in terms of the specification. -/
theorem qt_ac_sub (cct : Cct ι) (r : ℝ → ℂ) {nb : NumB} (h : Valid cct nb) (hb : Balanced cct nb) {bs : List ℤ} (hl : bs.length = cct.numF)
    (hP : ∀ b ∈ bs, |b| ≤ (cct.numP : ℤ)) {f : ℝ}
    (hf : ∀ as : List ℤ, as.length = cct.numF → (∀ a ∈ as, |a| ≤ (cct.numP : ℤ)) →
      round4 (photonShift cct.freq 1 as) = round4 f → as = bs) (v v' : ℕ → ℕ → ℂ) (u R : ℝ)
    (hR : ∀ x, |x - u| ≤ usedRange cct nb → ‖r x‖ ≤ R) :
    ‖qt r v cct.freq cct.numF cct.numP (nb.toTup cct.numF) u f‖ ≤ 2 * R ∧
    ‖qt r v cct.freq cct.numF cct.numP (nb.toTup cct.numF) u f - qt r v' cct.freq cct.numF cct.numP (nb.toTup cct.numF) u f‖
      ≤ 4 * R * drive cct v v' := by
  have hlen : ((nb.toTup cct.numF).take cct.numF).length = cct.numF := by rw [List.length_take, min_eq_left h.limits]
  have R0 : 0 ≤ R := (norm_nonneg _).trans (hR u (by rw [sub_self, abs_zero]; exact usedRange_nonneg h))
  have hfr : ∀ g, 1 ≤ g → g < 1 + ((nb.toTup cct.numF).take cct.numF).length → 0 < cct.freq g := fun g h1 h2 =>
    h.freq_pos g h1 (by omega)
  have d0 : 0 ≤ drive cct v v' := sum_nonneg fun g hg => sum_nonneg fun p _ => by
    have := h.freq_pos g (mem_Icc.1 hg).1 (mem_Icc.1 hg).2
    positivity
  rw [qt_single cct r h hl hP hf, qt_single cct r h hl hP hf]
  split_ifs with hc
  · constructor
    · exact mixProduct_le _ _ _ R0 fun as ha => corr_tones_le _ _ 1 (fun n hn => balanced_limits hb hn) hfr _ (by rw [ha, hl, hlen]) _ hR
    · have := mixProduct_sub_le (r := r) _ _ bs u (B := 2 * R * drive cct v v')
        (show bs.length = (tonesFrom v cct.freq cct.numP ((nb.toTup cct.numF).foldr max 0) 1 ((nb.toTup cct.numF).take cct.numF)).length by
          rw [hl, Spec.length_tonesFrom, hlen])
        (show bs.length = (tonesFrom v' cct.freq cct.numP ((nb.toTup cct.numF).foldr max 0) 1 ((nb.toTup cct.numF).take cct.numF)).length by
          rw [hl, Spec.length_tonesFrom, hlen]) fun as ha => by
        have := corr_tones_sub v v' _ 1 (fun n hn => balanced_limits hb hn) hfr as (by rw [ha, hl, hlen]) u R0 hR
        rwa [hlen, drive_eq] at this
      linarith
  · rw [sub_self, norm_zero]
    exact ⟨by positivity, by positivity⟩

/-- C175, ac. If the response function is at most `R` in the range that is used, a current at a frequency with one mixing product is at
most `2 R`, and a change of the applied voltages changes it by at most `4 R` times the change in photon voltages. -/
theorem C175_ac (vj vj' : ℕ → ℕ → Arr ι) (cct : Cct ι) (r : ℝ → ℂ) {nb : NumB} (h : Valid cct nb) (hb : Balanced cct nb)
    {bs : List ℤ} (hl : bs.length = cct.numF) (hP : ∀ b ∈ bs, |b| ≤ (cct.numP : ℤ)) {f : ℝ}
    (hf : ∀ as : List ℤ, as.length = cct.numF → (∀ a ∈ as, |a| ≤ (cct.numP : ℤ)) →
      round4 (photonShift cct.freq 1 as) = round4 f → as = bs) :
    ∃ cur cur' : Arr ι, qtcurrentList vj cct r [f] nb none = .ok [cur] ∧ qtcurrentList vj' cct r [f] nb none = .ok [cur'] ∧
      ∀ i R, (∀ x, |x - cct.vb i| ≤ usedRange cct nb → ‖r x‖ ≤ R) →
        ‖cur i‖ ≤ 2 * R ∧ ‖cur i - cur' i‖ ≤ 4 * R * ∑ f ∈ Icc 1 cct.numF, ∑ p ∈ Icc 1 cct.numP, ‖vj f p i - vj' f p i‖ / (p * cct.freq f) :=
  ⟨_, _, C14_mtsda vj cct r [f] nb h, C14_mtsda vj' cct r [f] nb h, fun i R hR =>
    qt_ac_sub cct r h hb hl hP hf (fun f p => vj f p i) (fun f p => vj' f p i) (cct.vb i) R hR⟩

theorem corr_shift_bias (r : ℝ → ℂ) (l : List (Tone × ℤ)) (d v : ℝ) : corr r l (v + d) = corr (fun x => r (x + d)) l v := by
  induction l generalizing v with
  | nil => rfl
  | cons x l ih =>
    obtain ⟨t, a⟩ := x
    simp only [corr]
    refine sum_congr rfl fun k _ => ?_
    rw [← ih, add_right_comm]

/-- C175, bias. If the dc I-V curve has a slope of at most `G` everywhere, the pumped curve has a slope of at most `G` everywhere:
between any two bias points with the same applied voltages. -/
theorem C175_bias (vj : ℕ → ℕ → Arr ι) (cct : Cct ι) (r : ℝ → ℂ) {nb : NumB} (h : Valid cct nb) (hb : Balanced cct nb) (hd : DcAlone cct)
    {G : ℝ} (hG : ∀ x y, |(r x).im - (r y).im| ≤ G * |x - y|) :
    ∃ cur : Arr ι, qtcurrentList vj cct r [0] nb none = .ok [cur] ∧
      ∀ i j, (∀ f p, 1 ≤ f → f ≤ cct.numF → 1 ≤ p → p ≤ cct.numP → vj f p i = vj f p j) → ‖cur i - cur j‖ ≤ G * |cct.vb i - cct.vb j| := by
  refine ⟨_, C14_mtsda vj cct r [0] nb h, fun i j hij => ?_⟩
  have e : ∀ x, qt r (fun f p => vj f p j) cct.freq cct.numF cct.numP (nb.toTup cct.numF) x 0
      = qt r (fun f p => vj f p i) cct.freq cct.numF cct.numP (nb.toTup cct.numF) x 0 := fun x =>
    HB.qt_congr r cct.freq cct.numF cct.numP _ x 0 fun f p h1 h2 h3 h4 => (hij f p h1 h2 h3 h4).symm
  beta_reduce
  rw [e, qt_dc cct r h hd, qt_dc cct r h hd, ← ofReal_sub, norm_real]
  have e2 := corr_shift_bias r ((tonesFrom (fun f p => vj f p i) cct.freq cct.numP ((nb.toTup cct.numF).foldr max 0) 1
    ((nb.toTup cct.numF).take cct.numF)).zip (List.replicate cct.numF 0)) (cct.vb i - cct.vb j) (cct.vb j)
  rw [add_sub_cancel] at e2
  rw [e2]
  have := corr_zero_diff (r := fun x => r (x + (cct.vb i - cct.vb j))) (r' := r) (ε := G * |cct.vb i - cct.vb j|) (fun v => by
    have := hG (v + (cct.vb i - cct.vb j)) v
    rwa [add_sub_cancel_left] at this)
    (tonesFrom (fun f p => vj f p i) cct.freq cct.numP ((nb.toTup cct.numF).foldr max 0) 1
    ((nb.toTup cct.numF).take cct.numF)) (fun t ht => balanced_sq hb _ ht) (cct.vb j)
  rwa [Spec.length_tonesFrom, List.length_take, min_eq_left h.limits] at this

/-! ## The circuit equations -/

theorem noCoincidence_single {cct : Cct ι} (hn : NoCoincidence cct) {f p : ℕ} (h1 : 1 ≤ f) (h2 : f ≤ cct.numF) (h3 : 1 ≤ p) (h4 : p ≤ cct.numP)
    (r : ℝ → ℂ) {nb : NumB} (h : Valid cct nb) (hb : Balanced cct nb) (v v' : ℕ → ℕ → ℂ) (u R : ℝ)
    (hR : ∀ x, |x - u| ≤ usedRange cct nb → ‖r x‖ ≤ R) :
    ‖qt r v cct.freq cct.numF cct.numP (nb.toTup cct.numF) u (cct.freq f * p)‖ ≤ 2 * R ∧
    ‖qt r v cct.freq cct.numF cct.numP (nb.toTup cct.numF) u (cct.freq f * p)
      - qt r v' cct.freq cct.numF cct.numP (nb.toTup cct.numF) u (cct.freq f * p)‖ ≤ 4 * R * drive cct v v' := by
  refine qt_ac_sub cct r h hb (bs := (List.replicate cct.numF 0).set (f - 1) (p : ℤ)) (by simp) (fun b hb => ?_) (fun as ha1 ha2 ha3 => ?_) v v' u R hR
  · rcases List.mem_or_eq_of_mem_set hb with hb | rfl
    · rw [List.eq_of_mem_replicate hb]
      simp
    · rw [abs_of_nonneg (by positivity)]
      exact_mod_cast h4
  · exact hn.1 f p h1 h2 h3 h4 as ha1 ha2 (by rw [ha3, mul_comm])

/-- The voltages `v` of all signals solve the circuit equations at a bias voltage `u`. -/
def Solves (cct : Cct ι) (r : ℝ → ℂ) (nb : NumB) (u : ℝ) (vt zt v : ℕ → ℕ → ℂ) : Prop :=
  ∀ f p, 1 ≤ f → f ≤ cct.numF → 1 ≤ p → p ≤ cct.numP → Spec.residual r cct.freq cct.numF cct.numP (nb.toTup cct.numF) u vt zt v f p = 0

/-- C175, uniqueness. The circuit equations have at most one solution at a bias point if
`4 R Σ |zt f p| / (p ν f) < 1`, where `R` bounds the response function in the range that is used: whatever the sources are. -/
theorem C175_unique (cct : Cct ι) (r : ℝ → ℂ) {nb : NumB} (h : Valid cct nb) (hb : Balanced cct nb) (hn : NoCoincidence cct)
    {vt zt v v' : ℕ → ℕ → ℂ} {u R : ℝ} (hR : ∀ x, |x - u| ≤ usedRange cct nb → ‖r x‖ ≤ R)
    (hz : 4 * R * ∑ f ∈ Icc 1 cct.numF, ∑ p ∈ Icc 1 cct.numP, ‖zt f p‖ / (p * cct.freq f) < 1)
    (hv : Solves cct r nb u vt zt v) (hv' : Solves cct r nb u vt zt v') {f p : ℕ} (h1 : 1 ≤ f) (h2 : f ≤ cct.numF) (h3 : 1 ≤ p)
    (h4 : p ≤ cct.numP) : v f p = v' f p := by
  have hpos : ∀ g ∈ Icc 1 cct.numF, ∀ q ∈ Icc 1 cct.numP, (0 : ℝ) < q * cct.freq g := fun g hg q hq => by
    have h5 := h.freq_pos g (mem_Icc.1 hg).1 (mem_Icc.1 hg).2
    have h6 : (0 : ℝ) < q := by exact_mod_cast (mem_Icc.1 hq).1
    positivity
  have d0 : 0 ≤ drive cct v v' := sum_nonneg fun g hg => sum_nonneg fun q hq => div_nonneg (norm_nonneg _) (hpos g hg q hq).le
  have key : drive cct v v' ≤ (4 * R * ∑ f ∈ Icc 1 cct.numF, ∑ p ∈ Icc 1 cct.numP, ‖zt f p‖ / (p * cct.freq f)) * drive cct v v' := by
    rw [mul_sum, sum_mul]
    refine sum_le_sum fun g hg => ?_
    rw [mul_sum, sum_mul]
    refine sum_le_sum fun q hq => ?_
    obtain ⟨hg1, hg2⟩ := mem_Icc.1 hg
    obtain ⟨hq1, hq2⟩ := mem_Icc.1 hq
    have e1 := hv g q hg1 hg2 hq1 hq2
    have e2 := hv' g q hg1 hg2 hq1 hq2
    unfold Spec.residual at e1 e2
    have e3 : v g q - v' g q = -(zt g q * (qt r v cct.freq cct.numF cct.numP (nb.toTup cct.numF) u (cct.freq g * q)
        - qt r v' cct.freq cct.numF cct.numP (nb.toTup cct.numF) u (cct.freq g * q))) := by
      linear_combination e2 - e1
    have h5 := (noCoincidence_single hn hg1 hg2 hq1 hq2 r h hb v v' u R hR).2
    rw [e3, norm_neg, norm_mul]
    rw [show 4 * R * (‖zt g q‖ / (q * cct.freq g)) * drive cct v v' = ‖zt g q‖ * (4 * R * drive cct v v') / (q * cct.freq g) by ring]
    exact div_le_div_of_nonneg_right (mul_le_mul_of_nonneg_left h5 (norm_nonneg _)) (hpos g hg q hq).le
  have hd : drive cct v v' = 0 := by nlinarith
  have h5 := (sum_eq_zero_iff_of_nonneg fun g hg => sum_nonneg fun q hq => div_nonneg (norm_nonneg _) (hpos g hg q hq).le).1 hd f (mem_Icc.2 ⟨h1, h2⟩)
  have h6 := (sum_eq_zero_iff_of_nonneg fun q hq => div_nonneg (norm_nonneg _) (hpos f (mem_Icc.2 ⟨h1, h2⟩) q hq).le).1 h5 p (mem_Icc.2 ⟨h3, h4⟩)
  rcases div_eq_zero_iff.1 h6 with h7 | h7
  · exact sub_eq_zero.1 (norm_eq_zero.1 h7)
  · exact absurd h7 (hpos f (mem_Icc.2 ⟨h1, h2⟩) p (mem_Icc.2 ⟨h3, h4⟩)).ne'

/-- The circuit equations are nearly linear, with one solution, if the impedances are small compared with a bound on the slope of the
currents. -/
theorem near_of_bounds {N : ℕ} (cct : HCct N) (resp : ℝ → ℂ) (nb : NumB) {Z K B : ℝ} (hZ : 0 ≤ Z) (hK : 0 ≤ K)
    (hc : ∀ i (k : Fin (cct.numF * cct.numP)), (∀ x : Fin (cct.numF * cct.numP) → ℂ, ‖curPt cct resp nb i x k‖ ≤ B) ∧
      ∀ x y : Fin (cct.numF * cct.numP) → ℂ, ‖curPt cct resp nb i x k - curPt cct resp nb i y k‖ ≤ K * ‖x - y‖)
    (hzt : ∀ f p, 1 ≤ f → f ≤ cct.numF → 1 ≤ p → p ≤ cct.numP → ‖cct.zt f p‖ ≤ Z ∧ ‖cct.zt f p‖ * B < ‖Spec.source cct.vt f p‖)
    (hs : Z * K * (6 * (cct.numF * cct.numP : ℕ) + 2) ≤ 1) :
    ∃ xs : Fin N → Fin (cct.numF * cct.numP) → ℂ, (∀ i x, equations cct resp nb i x = 0 ↔ x = xs i) ∧ (∀ i k, xs i k ≠ 0) ∧
      ∀ ρ i, Spec.NearLinear (equations cct resp nb i) (xs i) ρ (-LinearMap.id) 1 (Z * K) := by
  set n := cct.numF * cct.numP with hn
  have hn0 : (0 : ℝ) ≤ n := Nat.cast_nonneg _
  have hzk : ∀ k : Fin n, ‖cct.zt (k / cct.numP + 1) (k % cct.numP + 1)‖ ≤ Z ∧ ‖cct.zt (k / cct.numP + 1) (k % cct.numP + 1)‖ * B
      < ‖Spec.source cct.vt (k / cct.numP + 1) (k % cct.numP + 1)‖ := by
    intro k
    obtain ⟨hk1, hk2⟩ := signal_range k
    exact hzt _ _ (Nat.le_add_left _ _) hk1 (Nat.le_add_left _ _) hk2
  have happ : ∀ i x k, equations cct resp nb i x k = Spec.source cct.vt (k / cct.numP + 1) (k % cct.numP + 1)
      - cct.zt (k / cct.numP + 1) (k % cct.numP + 1) * curPt cct resp nb i x k - x k := fun i x k => equations_apply cct resp nb i x k
  have hlip : ∀ i (x y : Fin n → ℂ), ‖equations cct resp nb i x - equations cct resp nb i y + (x - y)‖ ≤ Z * K * ‖x - y‖ := by
    intro i x y
    refine (pi_norm_le_iff_of_nonneg (by positivity)).2 fun k => ?_
    have e : (equations cct resp nb i x - equations cct resp nb i y + (x - y)) k
        = -(cct.zt (k / cct.numP + 1) (k % cct.numP + 1) * (curPt cct resp nb i x k - curPt cct resp nb i y k)) := by
      simp only [Pi.add_apply, Pi.sub_apply]
      rw [happ, happ]
      ring
    rw [e, norm_neg, norm_mul, mul_assoc]
    exact mul_le_mul (hzk k).1 ((hc i k).2 x y) (norm_nonneg _) hZ
  have hhalf : Z * K ≤ 1 / 2 := by nlinarith [mul_nonneg hZ hK]
  have hcon : ∀ i, ContractingWith (1 / 2) fun x : Fin n → ℂ => equations cct resp nb i x + x := by
    intro i
    refine ⟨by rw [← NNReal.coe_lt_coe]; norm_num, LipschitzWith.of_dist_le_mul fun x y => ?_⟩
    rw [dist_eq_norm, dist_eq_norm]
    have e : equations cct resp nb i x + x - (equations cct resp nb i y + y) = equations cct resp nb i x - equations cct resp nb i y + (x - y) := by
      abel
    rw [e]
    refine (hlip i x y).trans (mul_le_mul_of_nonneg_right ?_ (norm_nonneg _))
    simpa using hhalf
  have hfix : ∀ i, ∃ xs : Fin n → ℂ, ∀ x, equations cct resp nb i x = 0 ↔ x = xs := by
    intro i
    refine ⟨ContractingWith.fixedPoint _ (hcon i), fun x => ⟨fun hx => ?_, fun hx => ?_⟩⟩
    · refine (hcon i).fixedPoint_unique ?_
      show equations cct resp nb i x + x = x
      rw [hx, zero_add]
    · have h1 : equations cct resp nb i x + x = x := by
        rw [hx]
        exact (hcon i).fixedPoint_isFixedPt
      simpa using h1
  choose xs hxs using hfix
  refine ⟨xs, hxs, fun i k hk => ?_, fun ρ i => ?_⟩
  · have h1 := congrFun ((hxs i (xs i)).2 rfl) k
    have h2 := happ i (xs i) k
    rw [h1, hk, Pi.zero_apply, sub_zero, eq_comm, sub_eq_zero] at h2
    have h3 := (hzk k).2
    rw [h2, norm_mul] at h3
    have h4 := mul_le_mul_of_nonneg_left ((hc i k).1 (xs i)) (norm_nonneg (cct.zt (k / cct.numP + 1) (k % cct.numP + 1)))
    linarith
  · refine ⟨(hxs i _).2 rfl, by positivity, zero_le_one, fun u => ?_, fun x y _ _ => ?_, by rw [one_mul]; exact hs⟩
    · rw [LinearMap.neg_apply, LinearMap.id_apply, norm_neg, one_mul]
    · rw [LinearMap.neg_apply, LinearMap.id_apply, sub_neg_eq_add]
      exact hlip i x y

/-- C175, convergence. Let `R` bound the response function in the range that is used, at all bias points, let `Z` bound the embedding
impedances, and let `S` be the sum of `1 / (p ν f)` over the `n` signals. If `4 R S Z (6 n + 2) ≤ 1`, and no impedance is so large that the
junction could take the whole source voltage (`2 R |zt| < |vt|`), then the circuit equations have exactly one solution at every bias
point, and harmonic balance converges to it from everywhere. -/
theorem C175_converges {N : ℕ} (hN : 0 < N) (cct : HCct N) (resp : ℝ → ℂ) (nb : NumB) (h : Valid cct.toCct nb)
    (hb : Balanced cct.toCct nb) (hn : NoCoincidence cct.toCct) {R Z : ℝ} (hR : ∀ i x, |x - cct.vb i| ≤ usedRange cct.toCct nb → ‖resp x‖ ≤ R)
    (hzt : ∀ f p, 1 ≤ f → f ≤ cct.numF → 1 ≤ p → p ≤ cct.numP → ‖cct.zt f p‖ ≤ Z ∧ ‖cct.zt f p‖ * (2 * R) < ‖Spec.source cct.vt f p‖)
    (hs : 4 * R * (∑ f ∈ Icc 1 cct.numF, ∑ p ∈ Icc 1 cct.numP, 1 / (p * cct.freq f)) * Z * (6 * (cct.numF * cct.numP : ℕ) + 2) ≤ 1) :
    ∃ xs : Fin N → Fin (cct.numF * cct.numP) → ℂ, (∀ i x, equations cct resp nb i x = 0 ↔ x = xs i) ∧
      ∀ ρ, 0 ≤ ρ → ∀ stop damp : ℝ, 0 < stop → 0 < damp → damp ≤ 1 → ¬ ztZero cct →
      ∃ m : ℕ, ∀ (maxIt : ℤ) (vjInit : Option (ℕ → ℕ → Arr (Fin N))) (mode : Mode) (zj : ℂ)
        (start : ℕ → ℕ → Arr (Fin N)), (m : ℤ) ≤ maxIt → startVj cct vjInit zj = .ok start →
        (∀ i f p, 1 ≤ f → f ≤ cct.numF → 1 ≤ p → p ≤ cct.numP → ‖start f p i - Spec.signal (xs i) f p‖ ≤ ρ) →
        ∃ run s, harmonicBalance cct resp nb maxIt stop vjInit damp mode zj = .ok run ∧
          run.stopped = some s ∧ s.exit = .target ∧ s.updates ≤ m ∧
          ∀ v, voltage run.res = some v → ∀ i f p, 1 ≤ f → f ≤ cct.numF → 1 ≤ p → p ≤ cct.numP →
            ‖v f p i - Spec.signal (xs i) f p‖ ≤ (1 - damp / 2) ^ s.updates * ρ := by
  set S := ∑ f ∈ Icc 1 cct.numF, ∑ p ∈ Icc 1 cct.numP, 1 / ((p : ℝ) * cct.freq f) with hS
  have R0 : 0 ≤ R := (norm_nonneg _).trans (hR ⟨0, hN⟩ (cct.vb ⟨0, hN⟩) (by rw [sub_self, abs_zero]; exact usedRange_nonneg h))
  have Z0 : 0 ≤ Z := (norm_nonneg _).trans (hzt 1 1 le_rfl h.tones_pos le_rfl h.harmonics).1
  have hpos : ∀ g ∈ Icc 1 cct.numF, ∀ q ∈ Icc 1 cct.numP, (0 : ℝ) < q * cct.freq g := fun g hg q hq => by
    have h5 := h.freq_pos g (mem_Icc.1 hg).1 (mem_Icc.1 hg).2
    have h6 : (0 : ℝ) < q := by exact_mod_cast (mem_Icc.1 hq).1
    positivity
  have S0 : 0 ≤ S := sum_nonneg fun g hg => sum_nonneg fun q hq => div_nonneg zero_le_one (hpos g hg q hq).le
  have hdr : ∀ x y : Fin (cct.numF * cct.numP) → ℂ, drive cct.toCct (Spec.signal x) (Spec.signal y) ≤ S * ‖x - y‖ := by
    intro x y
    unfold drive
    rw [hS, sum_mul]
    refine sum_le_sum fun g hg => ?_
    rw [sum_mul]
    refine sum_le_sum fun q hq => ?_
    rw [div_mul_eq_mul_div, one_mul]
    refine div_le_div_of_nonneg_right ?_ (hpos g hg q hq).le
    rw [← dist_eq_norm x y]
    exact lip_signal g q x y
  obtain ⟨xs, h1, h2, h3⟩ := near_of_bounds cct resp nb Z0 (show 0 ≤ 4 * R * S by positivity) (B := 2 * R) (fun i k => by
    obtain ⟨hk1, hk2⟩ := signal_range k
    have hb := fun v v' => noCoincidence_single hn (Nat.le_add_left 1 (k / cct.numP)) hk1 (Nat.le_add_left 1 (k % cct.numP)) hk2 resp h hb v v'
      (cct.vb i) R (hR i)
    refine ⟨fun x => (hb (Spec.signal x) (Spec.signal x)).1, fun x y => (hb (Spec.signal x) (Spec.signal y)).2.trans ?_⟩
    rw [mul_assoc (4 * R)]
    exact mul_le_mul_of_nonneg_left (hdr x y) (by positivity)) hzt (by
      rw [show Z * (4 * R * S) = 4 * R * S * Z by ring]
      exact hs)
  exact ⟨xs, h1, fun ρ hρ stop damp hstop hd0 hd1 hz => C122_local hN cct resp nb h hz xs ρ hρ (fun _ => -LinearMap.id) (fun _ => 1) (fun _ => _)
    (h3 ρ) h2 stop damp hstop hd0 hd1⟩

/-! ## The hypotheses can be met -/

/-- Two tones with two harmonics, limits 3 and 2, a response function that is bounded by 1. -/
example (vj : ℕ → ℕ → Arr (Fin 2)) (r : ℝ → ℂ) (hr : ∀ x, ‖r x‖ ≤ 1) (hs : ∀ x y, |(r x).im - (r y).im| ≤ 20 * |x - y|) :
    (∃ cur cur' : Arr (Fin 2), qtcurrentList vj demo r [0] (.tup [3, 2]) none = .ok [cur] ∧
      qtcurrentList (fun f p i => vj f p i + 0.01) demo r [0] (.tup [3, 2]) none = .ok [cur'] ∧ ∀ i, ‖cur i - cur' i‖ ≤ 0.2) ∧
    (∃ cur : Arr (Fin 2), qtcurrentList (fun _ _ _ => 0.1) demo r [0] (.tup [3, 2]) none = .ok [cur] ∧
      ‖cur 0 - cur 1‖ ≤ 20 * |demo.vb 0 - demo.vb 1|) ∧
    ∀ v v' : ℕ → ℕ → ℂ, Solves demo r (.tup [3, 2]) 0.8 (fun _ _ => 0.2) (fun _ _ => 0.01 * I) v →
      Solves demo r (.tup [3, 2]) 0.8 (fun _ _ => 0.2) (fun _ _ => 0.01 * I) v' → v 2 1 = v' 2 1 := by
  have hb : Balanced demo (.tup [3, 2]) := .inl (by simp [demo])
  refine ⟨?_, ?_, fun v v' hv hv' => ?_⟩
  · obtain ⟨cur, cur', h1, h2, h3⟩ := C175_dc vj (fun f p i => vj f p i + 0.01) demo r demo_valid hb demo_noCoincidence.2
    refine ⟨cur, cur', h1, h2, fun i => ((h3 i 1 fun x _ => (abs_im_le_norm _).trans (hr x)).2).trans ?_⟩
    have : ∀ f p, ‖vj f p i - (vj f p i + 0.01)‖ = 0.01 := fun f p => by
      rw [sub_add_cancel_left]
      norm_num
    simp only [this]
    norm_num [demo, sum_Icc_succ_top]
  · obtain ⟨cur, h1, h2⟩ := C175_bias (fun _ _ _ => 0.1) demo r demo_valid hb demo_noCoincidence.2 hs
    exact ⟨cur, h1, h2 0 1 fun _ _ _ _ _ _ => rfl⟩
  · refine C175_unique demo r demo_valid hb demo_noCoincidence (R := 1) (fun x _ => hr x) ?_ hv hv' (by norm_num) (by simp [demo]) le_rfl (by simp [demo])
    norm_num [demo, sum_Icc_succ_top]

/-- The same junction behind small impedances. -/
example (r : ℝ → ℂ) (hr : ∀ x, ‖r x‖ ≤ 1) : ∃ xs : Fin 2 → Fin 4 → ℂ, ∀ i x,
    equations (embed demo (fun _ _ => 0.2) (fun _ _ => 0.0009 * I)) r (.tup [3, 2]) i x = 0 ↔ x = xs i := by
  have hb : Balanced demo (.tup [3, 2]) := .inl (by simp [demo])
  obtain ⟨xs, h1, -⟩ := C175_converges (by norm_num) (embed demo (fun _ _ => 0.2) (fun _ _ => 0.0009 * I)) r (.tup [3, 2]) demo_valid hb demo_noCoincidence
    (R := 1) (Z := 0.0009) (fun _ x _ => hr x) (fun f p _ _ _ _ => by
      unfold Spec.source
      rw [if_neg (by norm_num [embed])]
      norm_num [embed]) (by norm_num [embed, demo, sum_Icc_succ_top])
  exact ⟨xs, h1⟩

end QMix.Props
