import Verif.Props.AreaRule
import Verif.Props.Stable
import Verif.Lemmas.TuckerLip
import Verif.Lemmas.IvModels

/-! # With one harmonic the dc current is a symmetric average of the I-V curve (C185) -/

namespace QMix.Props

open Complex Finset QMix.Qt QMix.Zemb MathFn RespFn

variable {ι : Type}

/-- The correlation of orders 0 for one more tone. -/
theorem corr_zero_cons (r : ℝ → ℂ) (t : Spec.Tone) (ts : List Spec.Tone) (x : ℝ) :
    (Spec.corr r ((t :: ts).zip (List.replicate (t :: ts).length 0)) x).im
      = ∑ k ∈ Icc (-(t.nb : ℤ)) t.nb, normSq (t.C k) * (Spec.corr r (ts.zip (List.replicate ts.length 0)) (x + k * t.w)).im := by
  simp only [List.length_cons, List.replicate_succ, List.zip_cons_cons, Spec.corr, add_zero]
  rw [im_sum]
  refine sum_congr rfl fun k hk => ?_
  rw [mem_Icc, ← abs_le] at hk
  rw [if_pos hk, mul_conj, im_ofReal_mul]

theorem corr_zero_le {r₁ r₂ : ℝ → ℂ} (h : ∀ x, (r₁ x).im ≤ (r₂ x).im) (ts : List Spec.Tone) : ∀ x,
    (Spec.corr r₁ (ts.zip (List.replicate ts.length 0)) x).im ≤ (Spec.corr r₂ (ts.zip (List.replicate ts.length 0)) x).im := by
  induction ts with
  | nil => exact h
  | cons t ts ih =>
    intro x
    rw [corr_zero_cons, corr_zero_cons]
    exact sum_le_sum fun k _ => mul_le_mul_of_nonneg_left (ih _) (normSq_nonneg _)

theorem corr_zero_lin (r₁ r₂ : ℝ → ℂ) (c : ℝ) (ts : List Spec.Tone) : ∀ x,
    (Spec.corr (fun y => r₁ y + c * r₂ y) (ts.zip (List.replicate ts.length 0)) x).im
      = (Spec.corr r₁ (ts.zip (List.replicate ts.length 0)) x).im + c * (Spec.corr r₂ (ts.zip (List.replicate ts.length 0)) x).im := by
  induction ts with
  | nil => intro x; simp [Spec.corr]
  | cons t ts ih =>
    intro x
    rw [corr_zero_cons, corr_zero_cons, corr_zero_cons, mul_sum, ← sum_add_distrib]
    refine sum_congr rfl fun k _ => ?_
    rw [ih]
    ring

/-- If every tone weighs absorption and emission of the same number of photons alike, the correlation of orders 0 of the mirrored
curve is the mirrored correlation. -/
theorem corr_zero_mirror (r : ℝ → ℂ) (c : ℝ) (ts : List Spec.Tone) (hs : ∀ t ∈ ts, ∀ k, normSq (t.C (-k)) = normSq (t.C k)) : ∀ x,
    (Spec.corr (fun y => r (2 * c - y)) (ts.zip (List.replicate ts.length 0)) x).im
      = (Spec.corr r (ts.zip (List.replicate ts.length 0)) (2 * c - x)).im := by
  induction ts with
  | nil => intro x; simp [Spec.corr]
  | cons t ts ih =>
    intro x
    rw [corr_zero_cons, corr_zero_cons]
    refine sum_bij' (fun k _ => -k) (fun k _ => -k) ?_ ?_ ?_ ?_ ?_
    · intro k hk
      rw [mem_Icc] at hk ⊢
      omega
    · intro k hk
      rw [mem_Icc] at hk ⊢
      omega
    · intro k _
      exact neg_neg k
    · intro k _
      exact neg_neg k
    · intro k _
      rw [ih (fun t' h' => hs t' (List.mem_cons_of_mem _ h')), hs t List.mem_cons_self k]
      congr 3
      push_cast
      ring

theorem normSq_toneCoeff_neg (v : ℕ → ℂ) (w : ℝ) {nb M : ℕ} (h : nb ≤ M) (k : ℤ) :
    normSq (Spec.toneCoeff v w 1 nb M (-k)) = normSq (Spec.toneCoeff v w 1 nb M k) := by
  unfold Spec.toneCoeff
  rw [Spec.harmonicConv_one _ _ _ _ h, Spec.harmonicConv_one _ _ _ _ h]
  unfold Spec.jacobiAnger
  rw [abs_neg]
  split_ifs
  · have e : ∀ n : ℤ, normSq (exp (-I * n * arg (v 1))) = 1 := by
      intro n
      rw [normSq_eq_norm_sq, norm_exp]
      simp
    rw [map_mul, map_mul, e, e, normSq_ofReal, normSq_ofReal, ← abs_mul_abs_self (besselJ (-k) _), abs_besselJ_neg,
      abs_mul_abs_self]
  · rfl

theorem tones_symmetric {v : ℕ → ℕ → ℂ} {freq : ℕ → ℝ} {M f : ℕ} {nbs : List ℕ} (h : ∀ n ∈ nbs, n ≤ M) :
    ∀ t ∈ Spec.tonesFrom v freq 1 M f nbs, ∀ k, normSq (t.C (-k)) = normSq (t.C k) := by
  induction nbs generalizing f with
  | nil => intro t ht; simp [Spec.tonesFrom] at ht
  | cons n nbs ih =>
    intro t ht k
    rw [Spec.tonesFrom, List.mem_cons] at ht
    rcases ht with rfl | ht
    · exact normSq_toneCoeff_neg _ _ (h n List.mem_cons_self) k
    · exact ih (fun m hm => h m (List.mem_cons_of_mem _ hm)) t ht k

theorem le_foldr_max {l : List ℕ} {n : ℕ} (h : n ∈ l) : n ≤ l.foldr max 0 := by
  induction l with
  | nil => simp at h
  | cons m l ih =>
    rw [List.foldr_cons]
    rcases List.mem_cons.1 h with rfl | h
    · exact le_max_left _ _
    · exact (ih h).trans (le_max_right _ _)

/-- The dc current as the imaginary part of the correlation of orders 0 at every point. -/
theorem qt_dc_points (vj : ℕ → ℕ → Arr ι) (cct : Cct ι) (resp : ℝ → ℂ) {nb : NumB} (h : Valid cct nb) (hd : DcAlone cct) :
    ∃ ts : ι → List Spec.Tone, (∀ i, ts i = Spec.tonesFrom (fun f p => vj f p i) cct.freq cct.numP ((nb.toTup cct.numF).foldr max 0) 1
        ((nb.toTup cct.numF).take cct.numF)) ∧
      qtcurrentList vj cct resp [0] nb none
        = .ok [fun i => ((Spec.corr resp ((ts i).zip (List.replicate (ts i).length 0)) (cct.vb i)).im : ℂ)] := by
  refine ⟨_, fun i => rfl, ?_⟩
  rw [C14_mtsda vj cct resp [0] nb h, List.map_singleton]
  congr 2
  funext i
  rw [qt_dc cct resp h hd, Spec.length_tonesFrom, List.length_take, min_eq_left h.limits]

/-- C185, comparison: a junction whose unpumped current is nowhere below that of another carries at least the same dc current at
every point of the sweep, for any number of tones and harmonics, any drive and any `num_b`. -/
theorem C185_compare (vj : ℕ → ℕ → Arr ι) (cct : Cct ι) {r₁ r₂ : ℝ → ℂ} (hr : ∀ x, (r₁ x).im ≤ (r₂ x).im) {nb : NumB}
    (h : Valid cct nb) (hd : DcAlone cct) : ∃ a b : ι → ℝ, qtcurrentList vj cct r₁ [0] nb none = .ok [fun i => (a i : ℂ)] ∧
      qtcurrentList vj cct r₂ [0] nb none = .ok [fun i => (b i : ℂ)] ∧ ∀ i, a i ≤ b i := by
  obtain ⟨t1, e1, h1⟩ := qt_dc_points vj cct r₁ h hd
  obtain ⟨t2, e2, h2⟩ := qt_dc_points vj cct r₂ h hd
  obtain rfl : t1 = t2 := funext fun i => (e1 i).trans (e2 i).symm
  exact ⟨_, _, h1, h2, fun i => corr_zero_le hr _ _⟩

/-- With one harmonic, a curve and its mirror image about the bias voltage have the same dc current. -/
theorem dc_symmetric (vj : ℕ → ℕ → Arr ι) (cct : Cct ι) (hP : cct.numP = 1) {nb : NumB} (h : Valid cct nb) (hd : DcAlone cct) (i : ι)
    {ts : List Spec.Tone} (hts : ts = Spec.tonesFrom (fun f p => vj f p i) cct.freq cct.numP ((nb.toTup cct.numF).foldr max 0) 1
        ((nb.toTup cct.numF).take cct.numF)) (r : ℝ → ℂ) (c : ℝ) :
    (Spec.corr (fun y => r (2 * c - y)) (ts.zip (List.replicate ts.length 0)) c).im
      = (Spec.corr r (ts.zip (List.replicate ts.length 0)) c).im := by
  rw [corr_zero_mirror r c ts _ c]
  · congr 2
    ring
  · rw [hts, hP]
    exact tones_symmetric fun n hn => le_foldr_max (List.mem_of_mem_take hn)

/-- C185, one harmonic per tone: if at the bias voltage the unpumped I-V curve lies below the middle of all its chords centred there,
the dc current is at least `W` times the unpumped current; if it lies above them, at most. `W` is the dc current of a response
function that is `i` everywhere, between 0 and 1. Any number of tones, any drive, any `num_b`. -/
theorem C185_average (vj : ℕ → ℕ → Arr ι) (cct : Cct ι) (resp : ℝ → ℂ) (hP : cct.numP = 1) {nb : NumB} (h : Valid cct nb)
    (hd : DcAlone cct) : ∃ W cur : ι → ℝ, qtcurrentList vj cct (fun _ => I) [0] nb none = .ok [fun i => (W i : ℂ)] ∧
      qtcurrentList vj cct resp [0] nb none = .ok [fun i => (cur i : ℂ)] ∧ ∀ i, 0 ≤ W i ∧ W i ≤ 1 ∧
      ((∀ s, 2 * (resp (cct.vb i)).im ≤ (resp (cct.vb i + s)).im + (resp (cct.vb i - s)).im) → W i * (resp (cct.vb i)).im ≤ cur i) ∧
      ((∀ s, (resp (cct.vb i + s)).im + (resp (cct.vb i - s)).im ≤ 2 * (resp (cct.vb i)).im) → cur i ≤ W i * (resp (cct.vb i)).im) := by
  obtain ⟨ts, et, h1⟩ := qt_dc_points vj cct (fun _ => I) h hd
  obtain ⟨t2, e2, h2⟩ := qt_dc_points vj cct resp h hd
  obtain rfl : ts = t2 := funext fun i => (et i).trans (e2 i).symm
  refine ⟨_, _, h1, h2, fun i => ?_⟩
  have hc : ∀ c : ℝ, (Spec.corr (fun _ => (c : ℂ) * I) ((ts i).zip (List.replicate (ts i).length 0)) (cct.vb i)).im
      = c * (Spec.corr (fun _ => I) ((ts i).zip (List.replicate (ts i).length 0)) (cct.vb i)).im := by
    intro c
    have a := corr_zero_lin (fun _ => 0) (fun _ => I) c (ts i) (cct.vb i)
    have b := corr_zero_lin (fun _ => 0) (fun _ => 0) 1 (ts i) (cct.vb i)
    simp only [zero_add, mul_zero] at a b
    rw [a]
    linarith
  have hm := dc_symmetric vj cct hP h hd i (et i) resp (cct.vb i)
  have hl := corr_zero_lin resp (fun y => resp (2 * cct.vb i - y)) 1 (ts i) (cct.vb i)
  rw [hm] at hl
  refine ⟨?_, ?_, fun hs => ?_, fun hs => ?_⟩
  · have a := hc 0
    have b := corr_zero_le (r₁ := fun _ => ((0 : ℝ) : ℂ) * I) (r₂ := fun _ => I) (fun x => by simp) (ts i) (cct.vb i)
    linarith
  · have hb : ∀ l : List Spec.Tone, (∀ t ∈ l, ∑ k ∈ Icc (-(t.nb : ℤ)) t.nb, normSq (t.C k) ≤ 1) → ∀ x,
        0 ≤ (Spec.corr (fun _ => I) (l.zip (List.replicate l.length 0)) x).im ∧
        (Spec.corr (fun _ => I) (l.zip (List.replicate l.length 0)) x).im ≤ 1 := by
      intro l
      induction l with
      | nil => intro _ x; simp [Spec.corr]
      | cons t l ih =>
        intro hl x
        have ih' := ih fun t ht => hl t (List.mem_cons_of_mem _ ht)
        rw [corr_zero_cons]
        refine ⟨sum_nonneg fun k _ => mul_nonneg (normSq_nonneg _) (ih' _).1, le_trans (sum_le_sum fun k _ =>
          mul_le_mul_of_nonneg_left (ih' _).2 (normSq_nonneg _)) ?_⟩
        simpa using hl t List.mem_cons_self
    refine (hb (ts i) ?_ _).2
    rw [et i, hP]
    intro t ht
    obtain ⟨f, n, hn, rfl⟩ := mem_tonesFrom ht
    have := Spec.toneCoeff_sq_le (fun p => vj f p i) (cct.freq f) (P := 1) (le_foldr_max (List.mem_of_mem_take hn)) (Or.inl (by norm_num))
    simpa only [normSq_eq_norm_sq] using this
  · have a := corr_zero_le (r₁ := fun _ => ((2 * (resp (cct.vb i)).im : ℝ) : ℂ) * I)
      (r₂ := fun y => resp y + ((1 : ℝ) : ℂ) * resp (2 * cct.vb i - y)) (fun x => by
        have := hs (x - cct.vb i)
        rw [show cct.vb i + (x - cct.vb i) = x by ring, show cct.vb i - (x - cct.vb i) = 2 * cct.vb i - x by ring] at this
        simpa using this) (ts i) (cct.vb i)
    rw [hc, hl] at a
    linarith
  · have a := corr_zero_le (r₂ := fun _ => ((2 * (resp (cct.vb i)).im : ℝ) : ℂ) * I)
      (r₁ := fun y => resp y + ((1 : ℝ) : ℂ) * resp (2 * cct.vb i - y)) (fun x => by
        have := hs (x - cct.vb i)
        rw [show cct.vb i + (x - cct.vb i) = x by ring, show cct.vb i - (x - cct.vb i) = 2 * cct.vb i - x by ring] at this
        simpa using this) (ts i) (cct.vb i)
    rw [hc, hl] at a
    linarith

/-- C185, one harmonic per tone: a junction with an odd I-V curve that does not fall never delivers dc power, however it is driven:
the dc current has the sign of the bias voltage (and vanishes without bias). -/
theorem C185_passive_partial (vj : ℕ → ℕ → Arr ι) (cct : Cct ι) {resp : ℝ → ℂ} (hm : Monotone fun v => (resp v).im)
    (ho : ∀ v, (resp (-v)).im = -(resp v).im) (hP : cct.numP = 1) {nb : NumB} (h : Valid cct nb) (hd : DcAlone cct) :
    ∃ cur : ι → ℝ, qtcurrentList vj cct resp [0] nb none = .ok [fun i => (cur i : ℂ)] ∧
      ∀ i, (0 ≤ cct.vb i → 0 ≤ cur i) ∧ (cct.vb i ≤ 0 → cur i ≤ 0) := by
  obtain ⟨ts, et, h1⟩ := qt_dc_points vj cct resp h hd
  refine ⟨_, h1, fun i => ?_⟩
  have hz : (Spec.corr (fun _ => 0) ((ts i).zip (List.replicate (ts i).length 0)) (cct.vb i)).im = 0 := by
    have b := corr_zero_lin (fun _ => 0) (fun _ => 0) 1 (ts i) (cct.vb i)
    simp only [zero_add, mul_zero] at b
    linarith
  have hs := dc_symmetric vj cct hP h hd i (et i) resp (cct.vb i)
  have hl := corr_zero_lin resp (fun y => resp (2 * cct.vb i - y)) 1 (ts i) (cct.vb i)
  rw [hs] at hl
  constructor
  · intro hv
    have a := corr_zero_le (r₁ := fun _ => 0) (r₂ := fun y => resp y + ((1 : ℝ) : ℂ) * resp (2 * cct.vb i - y)) (fun x => by
      have h1 : (resp (-x)).im ≤ (resp (2 * cct.vb i - x)).im := hm (by linarith)
      rw [ho] at h1
      simp
      linarith) (ts i) (cct.vb i)
    rw [hl, hz] at a
    linarith
  · intro hv
    have a := corr_zero_le (r₂ := fun _ => 0) (r₁ := fun y => resp y + ((1 : ℝ) : ℂ) * resp (2 * cct.vb i - y)) (fun x => by
      have h1 : (resp (2 * cct.vb i - x)).im ≤ (resp (-x)).im := hm (by linarith)
      rw [ho] at h1
      simp
      linarith) (ts i) (cct.vb i)
    rw [hl, hz] at a
    linarith

theorem perfect_resp_odd {S : Splines} {p : Params} (hs : p.vSmear = none) {r : Obj} (hr : respPerfect S p = .ok r) (v : ℝ) :
    (r.resp v).im = perfectElem v := by
  unfold respPerfect at hr
  rw [hs] at hr
  have e : r.fIdc = perfectElem := by rw [← Except.ok.inj hr]
  unfold Obj.resp
  rw [e]
  simp

theorem dcAlone_one {P : ℕ} {freq : ℕ → ℝ} (vb : ι → ℝ) (hf : 1 ≤ freq 1) : DcAlone (⟨1, P, freq, vb⟩ : Cct ι) := by
  rintro as h1 h2 h3
  obtain ⟨a, rfl⟩ : ∃ a, as = [a] := by
    match as, h1 with
    | [a], _ => exact ⟨a, rfl⟩
  have := round4_close h3
  simp only [Spec.photonShift, add_zero, sub_zero] at this
  by_cases ha : a = 0
  · rw [ha]
    rfl
  · exfalso
    have h4 : (1 : ℝ) ≤ |(a : ℝ)| := by
      rw [← Int.cast_abs]
      exact_mod_cast Int.one_le_abs ha
    rw [abs_mul, abs_of_nonneg (by linarith : 0 ≤ freq 1)] at this
    nlinarith [this, h4, hf]

/-- The hypotheses can be met: the ideal junction, biased on both sides of zero and driven by one tone. -/
example (S : Splines) (vj : ℕ → ℕ → Arr (Fin 2)) : ∃ (o : Obj) (cur : Fin 2 → ℝ), respPerfect S {} = .ok o ∧
    qtcurrentList vj ⟨1, 1, fun _ => 1.5, ![-0.5, 0.5]⟩ o.resp [0] (.int 9) none = .ok [fun i => (cur i : ℂ)] ∧
    cur 0 ≤ 0 ∧ 0 ≤ cur 1 := by
  obtain ⟨o, hr⟩ : ∃ o, respPerfect S {} = .ok o := ⟨_, rfl⟩
  obtain ⟨cur, h1, h2⟩ := C185_passive_partial vj ⟨1, 1, fun _ => 1.5, ![-0.5, 0.5]⟩ (perfect_resp_mono (p := {}) rfl hr)
    (fun v => by rw [perfect_resp_odd rfl hr, perfect_resp_odd rfl hr, perfectElem_neg]) rfl (nb := .int 9)
    ⟨by norm_num, by norm_num, le_rfl, fun f _ _ => by norm_num, by simp [NumB.toTup]⟩ (dcAlone_one _ (by norm_num))
  exact ⟨o, cur, hr, h1, (h2 0).2 (by norm_num), (h2 1).1 (by norm_num)⟩

/-- The hypotheses of the average can be met: a convex I-V curve. -/
example (vj : ℕ → ℕ → Arr Unit) : ∃ W cur : Unit → ℝ,
    qtcurrentList vj ⟨1, 1, fun _ => 1.5, fun _ => 2⟩ (fun _ => I) [0] (.int 9) none = .ok [fun i => (W i : ℂ)] ∧
    qtcurrentList vj ⟨1, 1, fun _ => 1.5, fun _ => 2⟩ (fun v => ((v ^ 2 : ℝ) : ℂ) * I) [0] (.int 9) none = .ok [fun i => (cur i : ℂ)] ∧
    W () * 4 ≤ cur () := by
  obtain ⟨W, cur, h1, h2, h3⟩ := C185_average vj ⟨1, 1, fun _ => 1.5, fun _ => 2⟩ (fun v => ((v ^ 2 : ℝ) : ℂ) * I) rfl (nb := .int 9)
    ⟨by norm_num, by norm_num, le_rfl, fun f _ _ => by norm_num, by simp [NumB.toTup]⟩ (dcAlone_one _ (by norm_num))
  refine ⟨W, cur, h1, h2, ?_⟩
  have := (h3 ()).2.2.1 fun s => by
    simp only [im_ofReal_mul, I_im]
    nlinarith [sq_nonneg s]
  simp only [im_ofReal_mul, I_im] at this
  linarith

/-- C185 is false with two harmonics: with a fundamental and a second harmonic on an ideal junction, the dc current is negative at
a positive bias voltage, so the junction delivers dc power. -/
theorem C185_false (S : Splines) : ∃ (o : Obj) (cct : Cct Unit) (vj : ℕ → ℕ → Arr Unit) (cur : Unit → ℝ), respPerfect S {} = .ok o ∧
    Valid cct (.int 1) ∧ DcAlone cct ∧ cct.numP = 2 ∧ qtcurrentList vj cct o.resp [0] (.int 1) none = .ok [fun i => (cur i : ℂ)] ∧
    0 < cct.vb () ∧ cur () < 0 := by
  obtain ⟨o, hr⟩ : ∃ o, respPerfect S {} = .ok o := ⟨_, rfl⟩
  have hv : Valid (⟨1, 2, fun _ => 3 / 2, fun _ => 1 / 100⟩ : Cct Unit) (.int 1) :=
    ⟨by norm_num, by norm_num, by norm_num, fun f _ _ => by norm_num, by simp [NumB.toTup]⟩
  have hd : DcAlone (⟨1, 2, fun _ => 3 / 2, fun _ => 1 / 100⟩ : Cct Unit) := dcAlone_one _ (by norm_num)
  obtain ⟨ts, et, h1⟩ := qt_dc_points (fun _ _ _ => (3 / 2 : ℂ)) ⟨1, 2, fun _ => 3 / 2, fun _ => 1 / 100⟩ o.resp hv hd
  refine ⟨o, _, _, _, hr, hv, hd, rfl, h1, by norm_num, ?_⟩
  set A := besselJ 1 1 with hA
  set B := besselJ 0 (1 / 2) with hB
  set C := besselJ 1 (1 / 2) with hC
  have a0 : 0 < A := besselJ_one_pos one_pos (by linarith [Real.pi_gt_three])
  have c0 : 1 / 5 ≤ C := by
    have := besselJ_ge 1 (1 / 2) (by norm_num)
    norm_num at this
    linarith
  have b0 := (besselJ_zero_bounds (1 / 2)).1
  have b1 := (besselJ_zero_bounds (1 / 2)).2
  have c1 : C ≤ 1 := by
    have := sum_besselJ_sq_le {1} (x := 1 / 2) (by norm_num)
    rw [sum_singleton] at this
    nlinarith
  have ja : ∀ (p : ℕ) (n : ℤ), |n| ≤ 1 → Spec.jacobiAnger (3 / 2 : ℂ) (3 / 2) p 1 n = (besselJ n (1 / p) : ℂ) := by
    intro p n hn
    unfold Spec.jacobiAnger
    rw [show (3 / 2 : ℂ) = ((3 / 2 : ℝ) : ℂ) by push_cast; rfl, if_pos (by exact_mod_cast hn), arg_ofReal_of_nonneg (by norm_num), norm_real, Real.norm_eq_abs, abs_of_pos (by norm_num)]
    rw [show (3 / 2 : ℝ) / (p * (3 / 2)) = 1 / p by field_simp]
    simp
  have m1 : besselJ (-1) 1 = -A := by rw [besselJ_neg]; simp [hA]
  have m2 : besselJ (-1) (1 / 2) = -C := by rw [besselJ_neg]; simp [hC]
  have s3 : Icc (-(1 : ℤ)) 1 = {-1, 0, 1} := by decide
  have hcv : ∀ k : ℤ, |k| ≤ 1 → Spec.harmonicConv 1 (fun p => Spec.jacobiAnger (3 / 2 : ℂ) (3 / 2) p 1) 1 k = (besselJ k 1 : ℂ) := by
    intro k hk
    rw [Spec.harmonicConv_one (fun _ => (3 / 2 : ℂ)) _ _ _ le_rfl, ja 1 k hk]
    simp
  have k1 : Spec.toneCoeff (fun _ => (3 / 2 : ℂ)) (3 / 2) 2 1 1 1 = ((A * B - A * C : ℝ) : ℂ) := by
    unfold Spec.toneCoeff
    rw [Spec.harmonicConv]
    simp only [Nat.cast_one, s3]
    rw [sum_insert (by decide), sum_insert (by decide), sum_singleton]
    norm_num
    rw [hcv 1 (by norm_num), hcv (-1) (by norm_num), ja _ _ (by norm_num), ja _ _ (by norm_num), m1]
    push_cast
    ring
  have k2 : Spec.toneCoeff (fun _ => (3 / 2 : ℂ)) (3 / 2) 2 1 1 (-1) = ((-(A * B) - A * C : ℝ) : ℂ) := by
    unfold Spec.toneCoeff
    rw [Spec.harmonicConv]
    simp only [Nat.cast_one, s3]
    rw [sum_insert (by decide), sum_insert (by decide), sum_singleton]
    norm_num
    rw [hcv 1 (by norm_num), hcv (-1) (by norm_num), ja _ _ (by norm_num), ja _ _ (by norm_num), m1]
    push_cast
    norm_num at m2
    rw [m2]
    push_cast
    ring
  have pe : ∀ x : ℝ, (1 < x ∨ x < -1) → perfectElem x = x := by
    intro x hx
    have h1 : x ≠ 1 := by rintro rfl; rcases hx with h | h <;> linarith
    have h2 : x ≠ -1 := by rintro rfl; rcases hx with h | h <;> linarith
    have h3 : ¬ |x| < 1 := by rw [abs_lt]; rintro ⟨h4, h5⟩; rcases hx with h | h <;> linarith
    unfold perfectElem
    simp only [if_neg h1, if_neg h2, if_neg h3]
  have p0 : perfectElem (1 / 100) = 0 := by
    have : |(1 / 100 : ℝ)| < 1 := by norm_num [abs_lt]
    unfold perfectElem
    simp only [if_pos this]
  rw [et, show Spec.tonesFrom (fun f p => (3 / 2 : ℂ)) (fun _ => (3 / 2 : ℝ)) 2 (((NumB.int 1).toTup 1).foldr max 0) 1
    (((NumB.int 1).toTup 1).take 1) = [⟨Spec.toneCoeff (fun _ => (3 / 2 : ℂ)) (3 / 2) 2 1 1, 1, 3 / 2⟩] from rfl]
  rw [corr_zero_cons]
  simp only [Nat.cast_one, s3]
  rw [sum_insert (by decide), sum_insert (by decide), sum_singleton, k1, k2]
  simp only [List.length_nil, List.replicate_zero, List.zip_nil_left, Spec.corr, perfect_resp_odd (p := {}) rfl hr, normSq_ofReal]
  norm_num
  norm_num at p0
  rw [p0, pe _ (Or.inr (by norm_num)), pe _ (Or.inl (by norm_num))]
  have : 0 < A * A := mul_pos a0 a0
  have : 0 < A * A * (6 * (B * C) - 1 / 50 * (B * B + C * C)) := mul_pos this (by nlinarith)
  nlinarith

end QMix.Props
