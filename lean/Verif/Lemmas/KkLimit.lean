import Mathlib.MeasureTheory.Integral.DominatedConvergence
import Mathlib.MeasureTheory.Measure.Lebesgue.Integral
import Mathlib.MeasureTheory.Integral.IntervalIntegral.Basic
import Mathlib.MeasureTheory.Constructions.BorelSpace.Basic
import Mathlib.MeasureTheory.Function.Floor
import Mathlib.MeasureTheory.Order.Lattice
import Mathlib.Tactic.Ring
import Mathlib.Tactic.FieldSimp
import Mathlib.Tactic.Linarith

/-!
# Principal values as limits of sums over samples

Helper lemmas about real functions; nothing here refers to the model.
-/

namespace QMix.MathFn

open MeasureTheory Filter Set Topology

/-- A bounded function that vanishes far away is integrable. -/
theorem integ_bdd {f : ℝ → ℝ} (hf : Measurable f) {S : Set ℝ} (hS : MeasurableSet S) {c R : ℝ}
    (hc : ∀ s ∈ S, |f s| ≤ c) (hR : ∀ s ∈ S, R < |s| → f s = 0) : IntegrableOn f S := by
  have h1 : IntegrableOn f (S ∩ Icc (-R) R) := by
    refine IntegrableOn.of_bound ?_ hf.aestronglyMeasurable c ?_
    · exact (measure_mono inter_subset_right).trans_lt measure_Icc_lt_top
    · rw [ae_restrict_iff' (hS.inter measurableSet_Icc)]
      exact Eventually.of_forall fun x hx => hc x hx.1
  refine h1.of_forall_sdiff_eq_zero hS fun x hx => hR x hx.1 ?_
  by_contra h
  exact hx.2 ⟨hx.1, abs_le.1 (not_lt.1 h)⟩

/-- The point of the cell of `s` in a grid of cells of width `w`, at the fraction `θ`. -/
noncomputable def cell (w θ s : ℝ) : ℝ := w * (⌊s / w⌋ + θ)

theorem cell_pos {w θ s : ℝ} (hw : 0 < w) (hθ : 0 < θ) (hs : 0 < s) : 0 < cell w θ s := by
  have : (0 : ℝ) ≤ ⌊s / w⌋ := by exact_mod_cast Int.floor_nonneg.2 (div_pos hs hw).le
  unfold cell
  positivity

theorem cell_near {w θ s : ℝ} (hw : 0 < w) (hθ : 0 < θ) (h1 : θ ≤ 1) : |cell w θ s - s| ≤ w := by
  have a := Int.floor_le (s / w)
  have b := Int.lt_floor_add_one (s / w)
  rw [le_div_iff₀ hw] at a
  rw [div_lt_iff₀ hw] at b
  unfold cell
  rw [abs_le]
  constructor <;> nlinarith

theorem cell_const {w θ s : ℝ} (hw : 0 < w) {m : ℕ} (h1 : w * m < s) (h2 : s < w * (m + 1 : ℕ)) :
    cell w θ s = w * (m + θ) := by
  have : ⌊s / w⌋ = m := by
    rw [Int.floor_eq_iff]
    constructor
    · rw [le_div_iff₀ hw]; push_cast; linarith
    · rw [div_lt_iff₀ hw]; push_cast at h2 ⊢; linarith
  unfold cell
  rw [this]
  push_cast
  rfl

/-- The integral of a step function. -/
theorem integral_cell {p : ℝ → ℝ} {w θ R : ℝ} (hw : 0 < w) (hθ : 0 < θ) (h1 : θ ≤ 1) {N : ℕ}
    (hR : ∀ s, R < s → p s = 0) (hN : R < w * N) :
    ∫ s in Ioi 0, p (cell w θ s) = ∑ m ∈ Finset.range N, w * p (w * (m + θ)) := by
  have hN0 : 0 ≤ w * N := by positivity
  have e1 : ∫ s in Ioi 0, p (cell w θ s) = ∫ s in Ioc 0 (w * N), p (cell w θ s) := by
    apply setIntegral_eq_of_subset_of_forall_sdiff_eq_zero measurableSet_Ioi Ioc_subset_Ioi_self
    intro s hs
    have hs1 : w * N < s := by
      by_contra h
      exact hs.2 ⟨hs.1, not_lt.1 h⟩
    apply hR
    have : (N : ℤ) ≤ ⌊s / w⌋ := by
      rw [Int.le_floor, le_div_iff₀ hw]; push_cast; linarith
    have h' : (N : ℝ) ≤ ⌊s / w⌋ := by exact_mod_cast this
    unfold cell
    nlinarith [mul_le_mul_of_nonneg_left h' hw.le, mul_pos hw hθ]
  have ee : ∀ m : ℕ, EqOn (fun s => p (cell w θ s)) (fun _ => p (w * (m + θ)))
      (Ioo (w * (m : ℕ)) (w * (m + 1 : ℕ))) := by
    intro m s hs
    change p (cell w θ s) = _
    rw [cell_const hw hs.1 hs.2]
  have hle : ∀ m : ℕ, w * (m : ℕ) ≤ w * (m + 1 : ℕ) := by
    intro m; push_cast; nlinarith
  rw [e1, ← intervalIntegral.integral_of_le hN0]
  have hz : (0 : ℝ) = w * ((0 : ℕ) : ℝ) := by simp
  rw [hz, ← intervalIntegral.sum_integral_adjacent_intervals (a := fun m : ℕ => w * (m : ℝ))]
  · apply Finset.sum_congr rfl
    intro m _
    rw [intervalIntegral.integral_of_le (hle m), integral_Ioc_eq_integral_Ioo,
      setIntegral_congr_fun measurableSet_Ioo (ee m), setIntegral_const]
    simp only [Measure.real, Real.volume_Ioo, smul_eq_mul]
    rw [ENNReal.toReal_ofReal (by linarith [hle m])]
    push_cast
    ring
  · intro m _
    rw [intervalIntegrable_iff_integrableOn_Ioo_of_le (hle m)]
    exact (integrableOn_congr_fun (ee m) measurableSet_Ioo).2 (integrableOn_const (by simp))

/-- The step functions tend to the function. -/
theorem tendsto_cells {p : ℝ → ℝ} {C R θ : ℝ} (hC : ∀ s, 0 < s → |p s| ≤ C)
    (hR : ∀ s, R < s → p s = 0) (hcont : ∀ᵐ s : ℝ, 0 < s → ContinuousAt p s) (hθ : 0 < θ) (h1 : θ ≤ 1) :
    Tendsto (fun w => ∫ s in Ioi 0, p (cell w θ s)) (𝓝[>] 0) (𝓝 (∫ s in Ioi 0, p s)) := by
  have hC0 : 0 ≤ C := (abs_nonneg _).trans (hC 1 one_pos)
  have hb : Measurable ((Iic (R + 1)).indicator fun _ : ℝ => C) :=
    measurable_const.indicator measurableSet_Iic
  have hsmall : ∀ᶠ w : ℝ in 𝓝[>] 0, 0 < w ∧ w < 1 := by
    filter_upwards [self_mem_nhdsWithin, nhdsWithin_le_nhds (Iio_mem_nhds one_pos)] with w h h'
    exact ⟨h, h'⟩
  refine tendsto_integral_filter_of_dominated_convergence ((Iic (R + 1)).indicator fun _ => C)
    ?_ ?_ ?_ ?_
  · refine Eventually.of_forall fun w => ?_
    have : Measurable fun s => p (cell w θ s) :=
      (measurable_of_countable fun m : ℤ => p (w * (m + θ))).comp
        (Int.measurable_floor.comp (measurable_id.div_const w))
    exact this.aestronglyMeasurable
  · filter_upwards [hsmall] with w hw
    rw [ae_restrict_iff' measurableSet_Ioi]
    refine Eventually.of_forall fun s hs => ?_
    unfold indicator
    split_ifs with h
    · exact hC _ (cell_pos hw.1 hθ hs)
    · rw [hR, norm_zero]
      have a := (abs_le.1 (cell_near (s := s) hw.1 hθ h1)).1
      have : R + 1 < s := by simpa using h
      linarith [hw.2]
  · refine integ_bdd hb measurableSet_Ioi (c := C) (R := R + 1) ?_ ?_
    · intro s _
      unfold indicator
      split_ifs
      · rw [abs_of_nonneg hC0]
      · rw [abs_zero]; exact hC0
    · intro s hs h
      rw [abs_of_pos hs] at h
      exact indicator_of_notMem (by simpa using h) _
  · rw [ae_restrict_iff' measurableSet_Ioi]
    filter_upwards [hcont] with s hs h0
    refine (hs h0).tendsto.comp ?_
    rw [tendsto_iff_norm_sub_tendsto_zero]
    refine squeeze_zero' (Eventually.of_forall fun _ => norm_nonneg _) ?_
      (nhdsWithin_le_nhds : 𝓝[>] (0 : ℝ) ≤ 𝓝 0)
    filter_upwards [hsmall] with w hw
    exact cell_near hw.1 hθ h1

/-! ## Principal values -/

/-- What is needed of a function `G` at the point `V`. -/
structure Nice (G : ℝ → ℝ) (V B R K : ℝ) : Prop where
  count : {x | ¬ ContinuousAt G x}.Countable
  bdd : ∀ x, |G x| ≤ B
  far : ∀ s, R < s → G (V + s) = 0 ∧ G (V - s) = 0
  lip : ∀ s, 0 < s → |G (V + s) - G (V - s)| ≤ K * s

/-- The symmetrised integrand. -/
noncomputable def sym (G : ℝ → ℝ) (V s : ℝ) : ℝ := (G (V + s) - G (V - s)) / s

section

variable {G : ℝ → ℝ} {V B R K : ℝ}

theorem Nice.meas (h : Nice G V B R K) : Measurable G :=
  measurable_of_countable_not_continuousAt h.count

theorem Nice.measP (h : Nice G V B R K) : Measurable fun s => G (V + s) / s :=
  (h.meas.comp (measurable_const.add measurable_id)).div measurable_id

theorem Nice.measM (h : Nice G V B R K) : Measurable fun s => G (V - s) / s :=
  (h.meas.comp (measurable_const.sub measurable_id)).div measurable_id

theorem sym_sub (G : ℝ → ℝ) (V : ℝ) : sym G V = fun s => G (V + s) / s - G (V - s) / s := by
  funext s
  unfold sym
  ring

theorem Nice.symMeas (h : Nice G V B R K) : Measurable (sym G V) := by
  rw [sym_sub]
  exact h.measP.sub h.measM

theorem Nice.symBdd (h : Nice G V B R K) {s : ℝ} (hs : 0 < s) : |sym G V s| ≤ K := by
  unfold sym
  rw [abs_div, abs_of_pos hs, div_le_iff₀ hs]
  exact h.lip s hs

theorem Nice.symFar (h : Nice G V B R K) {s : ℝ} (hs : R < s) : sym G V s = 0 := by
  unfold sym
  rw [(h.far s hs).1, (h.far s hs).2, sub_self, zero_div]

theorem Nice.symCont (h : Nice G V B R K) : ∀ᵐ s : ℝ, 0 < s → ContinuousAt (sym G V) s := by
  have c1 : ((fun x => x - V) '' {x | ¬ ContinuousAt G x}).Countable := h.count.image _
  have c2 : ((fun x => V - x) '' {x | ¬ ContinuousAt G x}).Countable := h.count.image _
  have := (c1.union c2).ae_notMem volume
  filter_upwards [this] with s hs h0
  have d1 : ContinuousAt G (V + s) := by
    by_contra hc
    exact hs (Or.inl ⟨V + s, hc, by ring⟩)
  have d2 : ContinuousAt G (V - s) := by
    by_contra hc
    exact hs (Or.inr ⟨V - s, hc, by ring⟩)
  unfold sym
  refine ContinuousAt.div (ContinuousAt.sub ?_ ?_) continuousAt_id h0.ne'
  · exact ContinuousAt.comp (f := fun s => V + s) d1 (by fun_prop)
  · exact ContinuousAt.comp (f := fun s => V - s) d2 (by fun_prop)

theorem Nice.symInt (h : Nice G V B R K) : IntegrableOn (sym G V) (Ioi 0) :=
  integ_bdd h.symMeas measurableSet_Ioi (c := K) (R := R) (fun _ hs => h.symBdd hs)
    fun s hs hR => h.symFar (by rwa [abs_of_pos hs] at hR)

theorem Nice.intP (h : Nice G V B R K) {ε : ℝ} (hε : 0 < ε) :
    IntegrableOn (fun s => G (V + s) / s) (Ioi ε) := by
  refine integ_bdd h.measP measurableSet_Ioi (c := B / ε) (R := R) ?_ ?_
  · intro s hs
    have hs' : ε < s := hs
    rw [abs_div, abs_of_pos (hε.trans hs')]
    have := (abs_nonneg _).trans (h.bdd 0)
    have := h.bdd (V + s)
    gcongr
  · intro s hs hR
    rw [abs_of_pos (hε.trans hs)] at hR
    rw [(h.far s hR).1, zero_div]

theorem Nice.intM (h : Nice G V B R K) {ε : ℝ} (hε : 0 < ε) :
    IntegrableOn (fun s => G (V - s) / s) (Ioi ε) := by
  refine integ_bdd h.measM measurableSet_Ioi (c := B / ε) (R := R) ?_ ?_
  · intro s hs
    have hs' : ε < s := hs
    rw [abs_div, abs_of_pos (hε.trans hs')]
    have := (abs_nonneg _).trans (h.bdd 0)
    have := h.bdd (V - s)
    gcongr
  · intro s hs hR
    rw [abs_of_pos (hε.trans hs)] at hR
    rw [(h.far s hR).2, zero_div]

/-- The integral without the singularity, symmetrised. -/
theorem Nice.outside (h : Nice G V B R K) {ε : ℝ} (hε : 0 < ε) :
    ∫ x in {x | ε ≤ |x - V|}, G x / (x - V) = ∫ s in Ioi ε, sym G V s := by
  have hm : MeasurableSet {x : ℝ | ε ≤ |x - V|} :=
    measurableSet_le measurable_const (by fun_prop)
  have hm' : MeasurableSet {x : ℝ | ε ≤ |x|} := measurableSet_le measurable_const (by fun_prop)
  have e1 : ∫ x in {x | ε ≤ |x - V|}, G x / (x - V) = ∫ u in {u | ε ≤ |u|}, G (V + u) / u := by
    rw [← integral_indicator hm, ← integral_indicator hm',
      ← integral_add_left_eq_self _ V]
    congr 1
    funext u
    simp only [indicator, mem_ofPred_eq, add_sub_cancel_left]
  have e2 : {u : ℝ | ε ≤ |u|} = Iic (-ε) ∪ Ici ε := by
    ext u
    simp only [mem_ofPred_eq, mem_union, mem_Iic, mem_Ici]
    rw [le_abs]
    constructor
    · rintro (h | h)
      · exact Or.inr h
      · exact Or.inl (by linarith)
    · rintro (h | h)
      · exact Or.inr (by linarith)
      · exact Or.inl h
  have hd : Disjoint (Iic (-ε)) (Ici ε) := by
    rw [Set.disjoint_left]
    intro u h1 h2
    have h1' : u ≤ -ε := h1
    have h2' : ε ≤ u := h2
    linarith
  have e3 : ∫ u in Iic (-ε), G (V + u) / u = ∫ s in Ioi ε, -(G (V - s) / s) := by
    rw [← integral_comp_neg_Ioi ε fun u => G (V + u) / u]
    congr 1
    funext s
    rw [← sub_eq_add_neg, div_neg]
  have i1 : IntegrableOn (fun u => G (V + u) / u) (Iic (-ε)) := by
    refine integ_bdd h.measP measurableSet_Iic (c := B / ε) (R := R) ?_ ?_
    · intro u hu
      have hu' : u ≤ -ε := hu
      have : ε ≤ |u| := by rw [abs_of_neg (by linarith)]; linarith
      rw [abs_div]
      have := (abs_nonneg _).trans (h.bdd 0)
      have := h.bdd (V + u)
      gcongr
    · intro u hu hR
      have hu' : u ≤ -ε := hu
      rw [abs_of_neg (by linarith)] at hR
      change G (V + u) / u = 0
      have := (h.far (-u) hR).2
      rw [sub_neg_eq_add] at this
      rw [this, zero_div]
  have i2 : IntegrableOn (fun u => G (V + u) / u) (Ici ε) :=
    (integrableOn_Ici_iff_integrableOn_Ioi (by simp)).2 (h.intP hε)
  rw [e1, e2, setIntegral_union hd measurableSet_Ici i1
    i2, e3, integral_Ici_eq_integral_Ioi,
    integral_neg, neg_add_eq_sub, ← integral_sub (h.intP hε) (h.intM hε), sym_sub]

/-- The principal value exists. -/
theorem Nice.pv (h : Nice G V B R K) :
    Tendsto (fun ε => ∫ x in {x | ε ≤ |x - V|}, G x / (x - V)) (𝓝[>] 0)
      (𝓝 (∫ s in Ioi 0, sym G V s)) := by
  have hK : 0 ≤ K := by
    have := (abs_nonneg _).trans (h.lip 1 one_pos)
    linarith
  have e : (fun ε => ∫ s in Ioi ε, sym G V s) =ᶠ[𝓝[>] 0]
      fun ε => ∫ x in {x | ε ≤ |x - V|}, G x / (x - V) := by
    filter_upwards [self_mem_nhdsWithin] with ε hε
    exact (h.outside hε).symm
  refine Tendsto.congr' e ?_
  rw [tendsto_iff_norm_sub_tendsto_zero]
  have hb : ∀ᶠ ε : ℝ in 𝓝[>] 0, ‖(∫ s in Ioi ε, sym G V s) - ∫ s in Ioi 0, sym G V s‖ ≤ K * ε := by
    filter_upwards [self_mem_nhdsWithin] with ε hε
    have hε' : (0 : ℝ) < ε := hε
    have hu : Ioi (0 : ℝ) = Ioc 0 ε ∪ Ioi ε := (Ioc_union_Ioi_eq_Ioi hε'.le).symm
    have hd : Disjoint (Ioc (0 : ℝ) ε) (Ioi ε) := by
      rw [Set.disjoint_left]
      intro u h1 h2
      exact absurd h1.2 (not_le.2 h2)
    rw [hu, setIntegral_union hd measurableSet_Ioi (h.symInt.mono_set Ioc_subset_Ioi_self)
      (h.symInt.mono_set (Ioi_subset_Ioi hε'.le)), sub_add_cancel_right, norm_neg]
    have := norm_setIntegral_le_of_norm_le_const (μ := volume) (f := sym G V) (s := Ioc 0 ε) (C := K)
      (by simp) fun s hs => h.symBdd hs.1
    simpa [Measure.real, hε'.le] using this
  refine squeeze_zero' (Eventually.of_forall fun _ => norm_nonneg _) hb ?_
  have : Tendsto (fun ε : ℝ => K * ε) (𝓝 0) (𝓝 (K * 0)) := tendsto_id.const_mul K
  rw [mul_zero] at this
  exact this.mono_left nhdsWithin_le_nhds

/-- Sums of the symmetrised integrand tend to the principal value. -/
theorem Nice.sums (h : Nice G V B R K) {θ : ℝ} (hθ : 0 < θ) (h1 : θ ≤ 1) {η : ℝ} (hη : 0 < η) :
    ∃ δ > 0, ∀ w, 0 < w → w < δ → ∀ N : ℕ, R < w * N →
      |(∑ m ∈ Finset.range N, w * sym G V (w * (m + θ))) - ∫ s in Ioi 0, sym G V s| < η := by
  have ht := tendsto_cells (fun _ hs => h.symBdd hs) (fun _ hs => h.symFar hs) h.symCont hθ h1
  have := Metric.tendsto_nhdsWithin_nhds.1 ht η hη
  obtain ⟨δ, hδ, hw⟩ := this
  refine ⟨δ, hδ, fun w h0 hlt N hN => ?_⟩
  have := hw h0 (by rw [Real.dist_eq, sub_zero, abs_of_pos h0]; exact hlt)
  rwa [Real.dist_eq, integral_cell h0 hθ h1 (fun _ hs => h.symFar hs) hN] at this

end

end QMix.MathFn
