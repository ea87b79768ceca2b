import Verif.Props.SignalAdmittance
import Verif.Props.Stable

/-!
# Property C163: the conversion matrix of quantum mixer theory

Any number of pump tones of any strength with any number of harmonics; the last tone is a weak signal at its
fundamental. The current at a frequency `a f₁ + b f₂ + ... + f_signal` is the signal voltage times a coefficient that
depends on the junction and the pumps only.
-/

namespace QMix.Props

open Complex Finset QMix.Qt QMix.Zemb

variable {ι : Type}

/-- The element of the conversion matrix: the correlations (eqn. 5.25) of the pump tones in `l`, with the response
function replaced by what one photon of the signal (frequency `w`) changes of it. -/
noncomputable def conversionElement (resp : ℝ → ℂ) (l : List (Spec.Tone × ℤ)) (w vb : ℝ) : ℂ :=
  -I / (2 * w) * (Spec.corr (fun v => resp v - resp (v - w)) l vb
    - (starRingEnd ℂ) (Spec.corr (fun v => resp (v + w) - resp v) (l.map fun x => (x.1, -x.2)) vb))

/-- The voltages `vj` with the last tone `F` replaced by the signal `s` at its fundamental. -/
def withSignal (vj : ℕ → ℕ → Arr ι) (F : ℕ) (s : Arr ι) : ℕ → ℕ → Arr ι :=
  fun f p => if f = F then (if p = 1 then s else fun _ => 0) else vj f p

/-! ## Lemmas -/

theorem corr_append (resp : ℝ → ℂ) (l l' : List (Spec.Tone × ℤ)) (v : ℝ) :
    Spec.corr resp (l ++ l') v = Spec.corr (fun u => Spec.corr resp l' u) l v := by
  induction l generalizing v with
  | nil => rfl
  | cons x l ih =>
    obtain ⟨t, a⟩ := x
    simp only [List.cons_append, Spec.corr, ih]

/-- A bound for a correlation in terms of a bound for the response. -/
noncomputable def absCorr (g : ℝ → ℝ) : List (Spec.Tone × ℤ) → ℝ → ℝ
  | [], v => g v
  | (t, a) :: ts, v => ∑ k ∈ Icc (-(t.nb : ℤ)) t.nb, ‖t.C k‖ * ‖t.C (k + a)‖ * absCorr g ts (v + k * t.w)

theorem absCorr_nonneg {g : ℝ → ℝ} (hg : ∀ v, 0 ≤ g v) (l : List (Spec.Tone × ℤ)) (v : ℝ) : 0 ≤ absCorr g l v := by
  induction l generalizing v with
  | nil => exact hg v
  | cons x l ih =>
    obtain ⟨t, a⟩ := x
    exact sum_nonneg fun k _ => mul_nonneg (by positivity) (ih _)

theorem norm_corr_le {h : ℝ → ℂ} {g : ℝ → ℝ} {c : ℝ} (hc : 0 ≤ c) (hg : ∀ v, 0 ≤ g v) (hh : ∀ v, ‖h v‖ ≤ c * g v)
    (l : List (Spec.Tone × ℤ)) (v : ℝ) : ‖Spec.corr h l v‖ ≤ c * absCorr g l v := by
  induction l generalizing v with
  | nil => exact hh v
  | cons x l ih =>
    obtain ⟨t, a⟩ := x
    simp only [Spec.corr, absCorr]
    rw [mul_sum]
    refine (norm_sum_le _ _).trans (sum_le_sum fun k _ => ?_)
    split_ifs
    · rw [norm_mul, norm_mul, norm_conj, mul_left_comm c]
      exact mul_le_mul_of_nonneg_left (ih _) (by positivity)
    · rw [norm_zero]
      exact mul_nonneg hc (mul_nonneg (by positivity) (absCorr_nonneg hg _ _))

theorem corr_sub (r s : ℝ → ℂ) (l : List (Spec.Tone × ℤ)) (v : ℝ) :
    Spec.corr r l v - Spec.corr s l v = Spec.corr (fun u => r u - s u) l v := by
  have := Spec.corr_linear r s (-1) l v
  simp only [neg_one_mul, ← sub_eq_add_neg] at this
  exact this.symm

theorem corr_smul (c : ℂ) (r : ℝ → ℂ) (l : List (Spec.Tone × ℤ)) (v : ℝ) :
    Spec.corr (fun u => c * r u) l v = c * Spec.corr r l v := by
  have := Spec.corr_linear (fun _ => 0) r c l v
  simpa only [zero_add, HB.corr_zero] using this

/-- A tone that is driven at its fundamental only. -/
theorem toneCoeff_fundamental {v : ℕ → ℂ} (w : ℝ) {P n M : ℕ} (hn : n ≤ M) (hP : 1 ≤ P)
    (hv : ∀ p, 2 ≤ p → p ≤ P → v p = 0) {k : ℤ} (hk : |k| ≤ (n : ℤ)) :
    Spec.toneCoeff v w P n M k = Spec.jacobiAnger (v 1) w 1 n k := by
  induction P, hP using Nat.le_induction with
  | base => exact Spec.harmonicConv_one v w n M hn k
  | succ P h1 ih =>
    rw [Spec.toneCoeff_extra_harmonic hn (hv _ (by omega) le_rfl) hk]
    exact ih fun p h2 h3 => hv p h2 (by omega)

theorem corr_coeff_congr (resp : ℝ → ℂ) {C C' : ℤ → ℂ} {n : ℕ} (w : ℝ) (h : ∀ k : ℤ, |k| ≤ (n : ℤ) → C k = C' k) (a : ℤ)
    (l : List (Spec.Tone × ℤ)) (v : ℝ) :
    Spec.corr resp ((⟨C, n, w⟩, a) :: l) v = Spec.corr resp ((⟨C', n, w⟩, a) :: l) v := by
  simp only [Spec.corr]
  refine sum_congr rfl fun k hk => ?_
  rw [mem_Icc, ← abs_le] at hk
  split_ifs with hka
  · rw [h k hk, h (k + a) hka]
  · rfl

/-- A weak tone behind any pumps. -/
theorem weak_product (resp : ℝ → ℂ) (l : List (Spec.Tone × ℤ)) (s : ℂ) {w : ℝ} (hw : 0 < w) (hs : ‖s‖ ≤ w) (n : ℕ)
    (hn : 1 ≤ n) (vb : ℝ) :
    ‖Spec.mixProduct resp (l ++ [(⟨Spec.jacobiAnger s w 1 n, n, w⟩, 1)]) vb - s * conversionElement resp l w vb‖
      ≤ 5 / 8 * (‖s‖ / w) ^ 3 * (absCorr (fun v => stepSum (fun x => ‖resp x‖) v w n) l vb
        + absCorr (fun v => stepSum (fun x => ‖resp x‖) v w n) (l.map fun x => (x.1, -x.2)) vb) := by
  set a := ‖s‖ / w with ha
  have hv : ‖s‖ = a * w := (div_mul_cancel₀ _ hw.ne').symm
  have ha1 : a ≤ 1 := (div_le_one hw).2 hs
  have ha0 : 0 ≤ a := by positivity
  have hg : ∀ v, 0 ≤ stepSum (fun x => ‖resp x‖) v w n := fun v => sum_nonneg fun _ _ => norm_nonneg _
  have hc : 0 ≤ 5 / 8 * a ^ 3 := by positivity
  have hvv := norm_mul_exp_arg_mul_I s
  rw [hv, mul_comm (arg s : ℂ) I] at hvv
  set l' := l.map fun x => (x.1, -x.2) with hl'
  have h1 := norm_corr_le hc hg (fun v => weak_corr resp s hw hv ha1 n hn v) l vb
  have h2 := norm_corr_le hc hg (fun v => weak_corr_neg resp s hw hv ha1 n hn v) l' vb
  rw [← corr_sub, ← corr_append] at h1 h2
  simp only [← mul_assoc] at h1 h2
  rw [corr_smul] at h1 h2
  have hm : Spec.mixProduct resp (l ++ [(⟨Spec.jacobiAnger s w 1 n, n, w⟩, 1)]) vb
      = -I * (Spec.corr resp (l ++ [(⟨Spec.jacobiAnger s w 1 n, n, w⟩, 1)]) vb
        - (starRingEnd ℂ) (Spec.corr resp (l' ++ [(⟨Spec.jacobiAnger s w 1 n, n, w⟩, -1)]) vb)) := by
    unfold Spec.mixProduct
    rw [if_neg]
    · simp [hl']
    · intro h
      have := h (⟨Spec.jacobiAnger s w 1 n, n, w⟩, 1) (by simp)
      simp at this
  have hw' : (w : ℂ) ≠ 0 := ofReal_ne_zero.2 hw.ne'
  set D1 := Spec.corr (fun v => resp v - resp (v - w)) l vb
  set D2 := Spec.corr (fun v => resp (v + w) - resp v) l' vb
  set R1 := Spec.corr resp (l ++ [(⟨Spec.jacobiAnger s w 1 n, n, w⟩, 1)]) vb
  set R2 := Spec.corr resp (l' ++ [(⟨Spec.jacobiAnger s w 1 n, n, w⟩, -1)]) vb
  have hconj : (starRingEnd ℂ) (exp (-(I * arg s)) * ((a / 2 : ℝ) : ℂ) * D2)
      = exp (I * arg s) * ((a / 2 : ℝ) : ℂ) * (starRingEnd ℂ) D2 := by
    rw [map_mul, map_mul, conj_ofReal, ← exp_conj]
    congr 3
    simp
  have hlead : s * conversionElement resp l w vb
      = -I * (exp (I * arg s) * ((a / 2 : ℝ) : ℂ) * D1
        - (starRingEnd ℂ) (exp (-(I * arg s)) * ((a / 2 : ℝ) : ℂ) * D2)) := by
    rw [hconj]
    conv_lhs => rw [← hvv]
    unfold conversionElement
    push_cast
    field_simp
    rfl
  rw [hm, hlead, ← mul_sub, norm_mul, norm_neg, norm_I, one_mul, sub_sub_sub_comm, ← map_sub]
  refine (norm_sub_le _ _).trans ?_
  rw [norm_conj, mul_add]
  exact add_le_add h1 h2

/-! ## C163 -/

/-- C163. Pump the junction with tones `1, ..., G` of any strength and any number of harmonics, and let tone `G + 1` be a
weak signal at its fundamental. At a frequency that only the mixing product of orders `as` (pumps) and 1 (signal) reaches,
the current is the signal voltage times the element of the conversion matrix, which depends on the junction and the pumps
only, up to the third power of the signal. -/
theorem C163_matrix (vj : ℕ → ℕ → Arr ι) (cct : Cct ι) (resp : ℝ → ℂ) (nb : NumB) (h : Valid cct nb) {G n : ℕ}
    (hF : cct.numF = G + 1) (hn : (nb.toTup cct.numF)[G]? = some n) (hn1 : 1 ≤ n) {as : List ℤ} (hl : as.length = G)
    (hP : ∀ a ∈ as, |a| ≤ (cct.numP : ℤ)) {f : ℝ}
    (hf : ∀ bs : List ℤ, bs.length = G + 1 → (∀ b ∈ bs, |b| ≤ (cct.numP : ℤ)) →
      (round4 (Spec.photonShift cct.freq 1 bs) = round4 f ↔ bs = as ++ [1])) (i : ι) :
    ∃ K : ℝ, ∀ s : Arr ι, ‖s i‖ ≤ cct.freq (G + 1) →
      ∃ r, qtcurrentList (withSignal vj (G + 1) s) cct resp [f] nb none = .ok [r] ∧
        ‖r i - s i * conversionElement resp ((Spec.tonesFrom (fun f p => vj f p i) cct.freq cct.numP
            ((nb.toTup cct.numF).foldr max 0) 1 ((nb.toTup cct.numF).take G)).zip as) (cct.freq (G + 1)) (cct.vb i)‖
          ≤ K * ‖s i‖ ^ 3 := by
  set w := cct.freq (G + 1)
  have hw : 0 < w := h.freq_pos _ (by omega) (by omega)
  set M := (nb.toTup cct.numF).foldr max 0 with hM
  set pumps := Spec.tonesFrom (fun f p => vj f p i) cct.freq cct.numP M 1 ((nb.toTup cct.numF).take G) with hp
  have hGlen : ((nb.toTup cct.numF).take G).length = G := by
    rw [List.length_take, min_eq_left]
    have := h.limits
    omega
  have hplen : pumps.length = G := by rw [hp, Spec.length_tonesFrom, hGlen]
  have hnM : n ≤ M := le_foldr_max (List.mem_of_getElem? hn)
  set A := absCorr (fun v => stepSum (fun x => ‖resp x‖) v w n) (pumps.zip as) (cct.vb i)
        + absCorr (fun v => stepSum (fun x => ‖resp x‖) v w n) ((pumps.zip as).map fun x => (x.1, -x.2)) (cct.vb i)
  refine ⟨5 / 8 / w ^ 3 * A, fun s hs => ⟨_, C14_mtsda (withSignal vj (G + 1) s) cct resp [f] nb h, ?_⟩⟩
  set v : ℕ → ℕ → ℂ := fun f p => withSignal vj (G + 1) s f p i with hvdef
  have htake : (nb.toTup cct.numF).take cct.numF = (nb.toTup cct.numF).take G ++ [n] := by
    rw [show (nb.toTup cct.numF).take cct.numF = (nb.toTup cct.numF).take (G + 1) by rw [← hF], List.take_add_one, hn]
    rfl
  have htones : Spec.tonesFrom v cct.freq cct.numP M 1 ((nb.toTup cct.numF).take cct.numF)
      = pumps ++ [⟨Spec.toneCoeff (v (G + 1)) w cct.numP n M, n, w⟩] := by
    rw [htake, Spec.tonesFrom_append, hGlen, add_comm 1 G]
    congr 1
    refine Spec.tonesFrom_congr _ _ _ _ (fun g p _ h2 => ?_) fun _ _ _ => rfl
    rw [hGlen] at h2
    simp only [hvdef, withSignal]
    rw [if_neg (by omega)]
  have hco : ∀ k : ℤ, |k| ≤ (n : ℤ) → Spec.toneCoeff (v (G + 1)) w cct.numP n M k = Spec.jacobiAnger (s i) w 1 n k := by
    intro k hk
    rw [toneCoeff_fundamental w hnM h.harmonics _ hk]
    · simp [hvdef, withSignal]
    · intro p h2 _
      simp only [hvdef, withSignal]
      rw [if_pos trivial, if_neg (by omega)]
  have hbs : (as ++ [(1 : ℤ)]).length = G + 1 := by simp [hl]
  have hbP : ∀ b ∈ as ++ [(1 : ℤ)], |b| ≤ (cct.numP : ℤ) := by
    intro b hb
    rcases List.mem_append.1 hb with hb | hb
    · exact hP b hb
    · rw [List.mem_singleton.1 hb, abs_one]
      exact_mod_cast h.harmonics
  have hcur : Spec.qt resp v cct.freq cct.numF cct.numP (nb.toTup cct.numF) (cct.vb i) f
      = Spec.mixProduct resp (pumps.zip as ++ [(⟨Spec.jacobiAnger (s i) w 1 n, n, w⟩, 1)]) (cct.vb i) := by
    unfold Spec.qt Spec.current
    rw [boxSum_single (bs := as ++ [1]) (by rw [hbs, Spec.length_tonesFrom, htake]; simp [hGlen]) hbP]
    · rw [Spec.mixFreq_zip _ _ _ _ _ _ _ (by rw [hbs, htake]; simp [hGlen]), if_pos ((hf _ hbs hbP).2 rfl), htones,
        List.zip_append (by rw [hplen, hl])]
      unfold Spec.mixProduct
      have e1 : ∀ (a : ℤ) (l : List (Spec.Tone × ℤ)) (u : ℝ),
          Spec.corr resp (l ++ [(⟨Spec.toneCoeff (v (G + 1)) w cct.numP n M, n, w⟩, a)]) u
            = Spec.corr resp (l ++ [(⟨Spec.jacobiAnger (s i) w 1 n, n, w⟩, a)]) u := by
        intro a l u
        rw [corr_append, corr_append]
        congr 1
        funext x
        exact corr_coeff_congr resp w hco a [] x
      rw [if_neg, if_neg]
      · simp only [List.map_append, List.map_cons, List.map_nil, List.zip_cons_cons, List.zip_nil_right, e1]
      · intro h0
        have := h0 (⟨Spec.jacobiAnger (s i) w 1 n, n, w⟩, 1) (by simp)
        simp at this
      · intro h0
        have := h0 (⟨Spec.toneCoeff (v (G + 1)) w cct.numP n M, n, w⟩, 1) (by simp)
        simp at this
    · intro bs h1 h2 h3
      rw [Spec.length_tonesFrom] at h1
      rw [if_neg]
      rw [Spec.mixFreq_zip _ _ _ _ _ _ _ h1]
      intro e
      refine h3 ((hf bs ?_ h2).1 e)
      rw [h1, htake]
      simp [hGlen]
  have hm := weak_product resp (pumps.zip as) (s i) hw hs n hn1 (cct.vb i)
  beta_reduce
  rw [hcur]
  refine hm.trans (le_of_eq ?_)
  rw [div_pow]
  ring

/-- C163. The admittance that pumps of any kind present to the signal itself (orders 0) has no negative conductance if the
dc I-V curve does not fall anywhere. -/
theorem C163_passive {resp : ℝ → ℂ} (hm : Monotone fun v => (resp v).im) (ts : List Spec.Tone) {w : ℝ} (hw : 0 < w) (vb : ℝ) :
    0 ≤ (conversionElement resp (ts.zip (List.replicate ts.length 0)) w vb).re := by
  have key : ∀ (g : ℝ → ℂ), (∀ v, 0 ≤ (g v).im) → ∀ (ts : List Spec.Tone) (v : ℝ),
      0 ≤ (Spec.corr g (ts.zip (List.replicate ts.length 0)) v).im := by
    intro g hg ts
    induction ts with
    | nil => exact hg
    | cons t ts ih =>
      intro v
      simp only [List.length_cons, List.replicate_succ, List.zip_cons_cons, Spec.corr, add_zero]
      rw [im_sum]
      refine sum_nonneg fun k _ => ?_
      split_ifs
      · rw [mul_conj, im_ofReal_mul]
        exact mul_nonneg (normSq_nonneg _) (ih _)
      · simp
  have e : ((ts.zip (List.replicate ts.length 0)).map fun x => (x.1, -x.2))
      = ts.zip (List.replicate ts.length 0) := by
    rw [Spec.zip_neg]
    simp
  unfold conversionElement
  rw [e]
  have h1 := key (fun v => resp v - resp (v - w)) (fun v => by
    have : (resp (v - w)).im ≤ (resp v).im := hm (by linarith)
    rw [sub_im]
    linarith) ts vb
  have h2 := key (fun v => resp (v + w) - resp v) (fun v => by
    have : (resp v).im ≤ (resp (v + w)).im := hm (by linarith)
    rw [sub_im]
    linarith) ts vb
  set D1 := Spec.corr (fun v => resp v - resp (v - w)) (ts.zip (List.replicate ts.length 0)) vb
  set D2 := Spec.corr (fun v => resp (v + w) - resp v) (ts.zip (List.replicate ts.length 0)) vb
  have : -I / (2 * (w : ℂ)) = ((1 / (2 * w) : ℝ) : ℂ) * -I := by
    push_cast
    ring
  rw [this, mul_assoc, re_ofReal_mul]
  refine mul_nonneg (by positivity) ?_
  simp
  linarith

/-- C163. One pump at its fundamental: the elements of Tucker's conversion matrix for all orders `a`, with products of
Bessel functions and turned by the phase of the pump. -/
theorem C163_tucker {v : ℕ → ℂ} {w₁ α : ℝ} (hw : 0 < w₁) (hα : ‖v 1‖ = α * w₁) {P n M : ℕ} (hP : 1 ≤ P) (hn : n ≤ M)
    (hv : ∀ p, 2 ≤ p → p ≤ P → v p = 0) (resp : ℝ → ℂ) (a : ℤ) (w₂ vb : ℝ) :
    conversionElement resp [(⟨Spec.toneCoeff v w₁ P n M, n, w₁⟩, a)] w₂ vb
      = -I / (2 * w₂) * exp (I * a * arg (v 1)) *
        (∑ k ∈ (Icc (-(n : ℤ)) n).filter (fun k : ℤ => |k + a| ≤ (n : ℤ)),
            ((besselJ k α * besselJ (k + a) α : ℝ) : ℂ) * (resp (vb + k * w₁) - resp (vb + k * w₁ - w₂))
          - ∑ k ∈ (Icc (-(n : ℤ)) n).filter (fun k : ℤ => |k - a| ≤ (n : ℤ)),
            ((besselJ k α * besselJ (k - a) α : ℝ) : ℂ) *
              (starRingEnd ℂ) (resp (vb + k * w₁ + w₂) - resp (vb + k * w₁))) := by
  have hco : ∀ k : ℤ, |k| ≤ (n : ℤ) → Spec.toneCoeff v w₁ P n M k = Spec.jacobiAnger (v 1) w₁ 1 n k :=
    fun k hk => toneCoeff_fundamental w₁ hn hP hv hk
  unfold conversionElement
  simp only [List.map_cons, List.map_nil]
  rw [corr_coeff_congr _ w₁ hco, corr_coeff_congr _ w₁ hco, corr_first _ _ hw hα, corr_first _ _ hw hα]
  have e : (starRingEnd ℂ) (exp (I * ((-a : ℤ) : ℂ) * arg (v 1))) = exp (I * a * arg (v 1)) := by
    rw [← exp_conj]
    congr 1
    simp
  rw [map_mul, e, ← mul_sub, ← mul_assoc, map_sum]
  simp only [Spec.corr, map_mul, conj_ofReal, ← sub_eq_add_neg]

/-! ## Cases -/

/-- A subharmonic mixer: pump at 0.15 with two harmonics, signal at 0.32. -/
noncomputable def subharmonic : Cct (Fin 2) :=
  { numF := 2, numP := 2, freq := fun f => if f = 1 then 0.15 else 0.32, vb := fun i => 0.5 * i }

theorem subharmonic_valid : Valid subharmonic (.tup [5, 3]) where
  tones_pos := by simp [subharmonic]
  tones_le := by simp [subharmonic]
  harmonics := by simp [subharmonic]
  freq_pos := by intro f _ _; simp only [subharmonic]; split_ifs <;> norm_num
  limits := by simp [subharmonic, NumB.toTup]

theorem subharmonic_if (bs : List ℤ) (h1 : bs.length = 2) (h2 : ∀ b ∈ bs, |b| ≤ (2 : ℤ)) :
    round4 (Spec.photonShift subharmonic.freq 1 bs) = round4 0.02 ↔ bs = [-2] ++ [1] := by
  obtain ⟨c, d, rfl⟩ := List.length_eq_two.1 h1
  have hc := abs_le.1 (h2 c (by simp))
  have hd := abs_le.1 (h2 d (by simp))
  have e : Spec.photonShift subharmonic.freq 1 [c, d] = c * 0.15 + d * 0.32 := by
    simp [Spec.photonShift, subharmonic]
  rw [e]
  have far : ∀ x y : ℝ, 1 / 1000 < |x - y| → round4 x ≠ round4 y := by
    intro x y h he
    have a := abs_le.1 (abs_round4_sub_le x)
    have b := abs_le.1 (abs_round4_sub_le y)
    rw [he] at a
    rw [lt_abs] at h
    rcases h with h | h <;> linarith [a.1, a.2, b.1, b.2]
  obtain rfl | rfl | rfl | rfl | rfl : c = -2 ∨ c = -1 ∨ c = 0 ∨ c = 1 ∨ c = 2 := by omega
  all_goals obtain rfl | rfl | rfl | rfl | rfl : d = -2 ∨ d = -1 ∨ d = 0 ∨ d = 1 ∨ d = 2 := by omega
  all_goals first
    | (refine iff_of_true ?_ (by norm_num); norm_num; done)
    | (refine iff_of_false (far _ _ ?_) (by norm_num); norm_num [abs_of_pos, abs_of_neg])

/-- The hypotheses of `C163_matrix` can be met: the second harmonic of the pump mixes the signal down to 0.02. -/
example (vj : ℕ → ℕ → Arr (Fin 2)) (resp : ℝ → ℂ) (i : Fin 2) :
    ∃ K : ℝ, ∀ s : Arr (Fin 2), ‖s i‖ ≤ 0.32 →
      ∃ r, qtcurrentList (withSignal vj 2 s) subharmonic resp [0.02] (.tup [5, 3]) none = .ok [r] ∧
        ‖r i - s i * conversionElement resp [(⟨Spec.toneCoeff (fun p => vj 1 p i) 0.15 2 5 5, 5, 0.15⟩, -2)] 0.32
          (subharmonic.vb i)‖ ≤ K * ‖s i‖ ^ 3 := by
  have := C163_matrix vj subharmonic resp (.tup [5, 3]) subharmonic_valid (G := 1) (n := 3) rfl rfl (by norm_num)
    (as := [-2]) rfl (by simp [subharmonic]) (f := 0.02) (fun bs h1 h2 => subharmonic_if bs h1 h2) i
  simpa [subharmonic, NumB.toTup, Spec.tonesFrom] using this

/-- A junction with an ideal step at the gap, pumped with two harmonics. -/
example (v : ℕ → ℂ) (vb : ℝ) : 0 ≤ (conversionElement (fun u => if 1 ≤ u then I else 0)
    ([(⟨Spec.toneCoeff v 0.15 2 5 5, 5, 0.15⟩ : Spec.Tone)].zip (List.replicate 1 0)) 0.32 vb).re :=
  C163_passive (fun a b hab => by
    have hab : a ≤ b := hab
    by_cases ha : 1 ≤ a
    · simp [ha, ha.trans hab]
    · by_cases hb : 1 ≤ b <;> simp [ha, hb]) [⟨Spec.toneCoeff v 0.15 2 5 5, 5, 0.15⟩] (by norm_num) vb

/-- The hypotheses of `C163_tucker` can be met, and the coefficient is not always zero: a step of the dc I-V curve between one
and two photon steps above the bias converts with the second harmonic of a pump that has no second harmonic voltage. -/
example : conversionElement (fun v => if 1.5 < v then I else 0)
    [(⟨Spec.toneCoeff (fun p => if p = 1 then 1 else 0) 1 2 1 1, 1, 1⟩, 2)] 1 0 ≠ 0 := by
  rw [C163_tucker (α := 1) one_pos (by simp) (by norm_num) le_rfl (fun p h _ => if_neg (by omega))]
  have f1 : (Icc (-((1 : ℕ) : ℤ)) (1 : ℕ)).filter (fun k : ℤ => |k + 2| ≤ ((1 : ℕ) : ℤ)) = {-1} := by decide
  have f2 : (Icc (-((1 : ℕ) : ℤ)) (1 : ℕ)).filter (fun k : ℤ => |k - 2| ≤ ((1 : ℕ) : ℤ)) = {1} := by decide
  rw [f1, f2, sum_singleton, sum_singleton]
  have hJ : besselJ 1 1 ≠ 0 := (besselJ_one_pos one_pos (by linarith [Real.pi_gt_three])).ne'
  have hJ' : besselJ (-1) 1 ≠ 0 := by
    rw [besselJ_neg]
    simpa using hJ
  norm_num
  exact ⟨hJ, hJ'⟩

end QMix.Props
