import Verif.Props.Sensitivity
import Verif.Props.Session

/-! # How far apart two simulations are (C181) -/

namespace QMix.Props

open Complex Finset QMix.Qt QMix.Spec QMix.HB

variable {ι : Type}

/-- The feedback of a circuit: how strongly a change of the junction voltages returns through the impedances `zt`, at most, for a
response function bounded by `R`. -/
noncomputable def feedback (cct : Cct ι) (R : ℝ) (zt : ℕ → ℕ → ℂ) : ℝ :=
  4 * R * ∑ f ∈ Icc 1 cct.numF, ∑ p ∈ Icc 1 cct.numP, ‖zt f p‖ / (p * cct.freq f)

/-- C181. Junction voltages `v` and `v'` that solve the equations of two circuits up to `d` and `d'`: with the same junction, frequencies and
bias voltage, but sources `vt`, `vt'` and impedances `zt`, `zt'`. If the feedback `k` is below one, the distance of the voltages is bounded by
the errors and the differences. -/
theorem C181_distance (cct : Cct ι) (r : ℝ → ℂ) {nb : NumB} (h : Valid cct nb) (hb : Balanced cct nb) (hn : NoCoincidence cct)
    {vt zt vt' zt' v v' : ℕ → ℕ → ℂ} {u R k : ℝ} {d d' e : ℕ → ℕ → ℝ} (hR : ∀ x, |x - u| ≤ usedRange cct nb → ‖r x‖ ≤ R)
    (hk : feedback cct R zt ≤ k) (hk1 : k < 1)
    (hd : ∀ f p, 1 ≤ f → f ≤ cct.numF → 1 ≤ p → p ≤ cct.numP →
      ‖Spec.residual r cct.freq cct.numF cct.numP (nb.toTup cct.numF) u vt zt v f p‖ ≤ d f p)
    (hd' : ∀ f p, 1 ≤ f → f ≤ cct.numF → 1 ≤ p → p ≤ cct.numP →
      ‖Spec.residual r cct.freq cct.numF cct.numP (nb.toTup cct.numF) u vt' zt' v' f p‖ ≤ d' f p)
    (he : ∀ f p, 1 ≤ f → f ≤ cct.numF → 1 ≤ p → p ≤ cct.numP →
      d f p + d' f p + ‖vt f p - vt' f p‖ + 2 * R * ‖zt f p - zt' f p‖ ≤ e f p)
    {S : ℝ} (hS : S = (∑ f ∈ Icc 1 cct.numF, ∑ p ∈ Icc 1 cct.numP, e f p / (p * cct.freq f)) / (1 - k)) :
    ∑ f ∈ Icc 1 cct.numF, ∑ p ∈ Icc 1 cct.numP, ‖v f p - v' f p‖ / (p * cct.freq f) ≤ S ∧
    ∀ f p, 1 ≤ f → f ≤ cct.numF → 1 ≤ p → p ≤ cct.numP → ‖v f p - v' f p‖ ≤ e f p + 4 * R * ‖zt f p‖ * S := by
  have hpos : ∀ g ∈ Icc 1 cct.numF, ∀ q ∈ Icc 1 cct.numP, (0 : ℝ) < q * cct.freq g := fun g hg q hq => by
    have h5 := h.freq_pos g (mem_Icc.1 hg).1 (mem_Icc.1 hg).2
    have h6 : (0 : ℝ) < q := by exact_mod_cast (mem_Icc.1 hq).1
    positivity
  have hR0 : 0 ≤ R := by
    have := hR u (by
      rw [sub_self, abs_zero]
      exact usedRange_nonneg h)
    exact (norm_nonneg _).trans this
  have d0 : 0 ≤ drive cct v v' := sum_nonneg fun g hg => sum_nonneg fun q hq => div_nonneg (norm_nonneg _) (hpos g hg q hq).le
  have one : ∀ g q, 1 ≤ g → g ≤ cct.numF → 1 ≤ q → q ≤ cct.numP → ‖v g q - v' g q‖ ≤ e g q + ‖zt g q‖ * (4 * R * drive cct v v') := by
    intro g q hg1 hg2 hq1 hq2
    have e1 := hd g q hg1 hg2 hq1 hq2
    have e2 := hd' g q hg1 hg2 hq1 hq2
    have e4 := he g q hg1 hg2 hq1 hq2
    have h5 := (noCoincidence_single hn hg1 hg2 hq1 hq2 r h hb v v' u R hR).2
    have h6 := (noCoincidence_single hn hg1 hg2 hq1 hq2 r h hb v' v u R hR).1
    unfold Spec.residual at e1 e2
    set J := qt r v cct.freq cct.numF cct.numP (nb.toTup cct.numF) u (cct.freq g * q)
    set J' := qt r v' cct.freq cct.numF cct.numP (nb.toTup cct.numF) u (cct.freq g * q)
    have e3 : v g q - v' g q = (vt g q - vt' g q) - zt g q * (J - J') - (zt g q - zt' g q) * J'
        - (vt g q - zt g q * J - v g q) + (vt' g q - zt' g q * J' - v' g q) := by ring
    have a1 : ‖zt g q * (J - J')‖ ≤ ‖zt g q‖ * (4 * R * drive cct v v') := by
      rw [norm_mul]
      exact mul_le_mul_of_nonneg_left h5 (norm_nonneg _)
    have a2 : ‖(zt g q - zt' g q) * J'‖ ≤ 2 * R * ‖zt g q - zt' g q‖ := by
      rw [norm_mul, mul_comm]
      exact mul_le_mul_of_nonneg_right h6 (norm_nonneg _)
    rw [e3]
    refine (norm_add_le _ _).trans ?_
    have b1 := norm_sub_le ((vt g q - vt' g q) - zt g q * (J - J') - (zt g q - zt' g q) * J') (vt g q - zt g q * J - v g q)
    have b2 := norm_sub_le ((vt g q - vt' g q) - zt g q * (J - J')) ((zt g q - zt' g q) * J')
    have b3 := norm_sub_le (vt g q - vt' g q) (zt g q * (J - J'))
    linarith
  have key : drive cct v v' ≤ (∑ g ∈ Icc 1 cct.numF, ∑ q ∈ Icc 1 cct.numP, e g q / (q * cct.freq g)) + feedback cct R zt * drive cct v v' := by
    unfold feedback
    rw [mul_sum, sum_mul, ← sum_add_distrib]
    refine sum_le_sum fun g hg => ?_
    rw [mul_sum, sum_mul, ← sum_add_distrib]
    refine sum_le_sum fun q hq => ?_
    obtain ⟨hg1, hg2⟩ := mem_Icc.1 hg
    obtain ⟨hq1, hq2⟩ := mem_Icc.1 hq
    rw [show e g q / (q * cct.freq g) + 4 * R * (‖zt g q‖ / (q * cct.freq g)) * drive cct v v'
      = (e g q + ‖zt g q‖ * (4 * R * drive cct v v')) / (q * cct.freq g) by ring]
    exact div_le_div_of_nonneg_right (one g q hg1 hg2 hq1 hq2) (hpos g hg q hq).le
  have hD : drive cct v v' ≤ (∑ g ∈ Icc 1 cct.numF, ∑ q ∈ Icc 1 cct.numP, e g q / (q * cct.freq g)) / (1 - k) := by
    rw [le_div_iff₀ (by linarith)]
    have := mul_le_mul_of_nonneg_right hk d0
    linarith
  rw [← hS] at hD
  refine ⟨hD, fun f p h1 h2 h3 h4 => (one f p h1 h2 h3 h4).trans ?_⟩
  have := mul_le_mul_of_nonneg_left hD (show 0 ≤ 4 * R * ‖zt f p‖ by positivity)
  linarith

/-- A call of `harmonic_balance` that met its target, and returned the junction voltages `v`, none of them zero. -/
def Converged {N : ℕ} (cct : HCct N) (resp : ℝ → ℂ) (nb : NumB) (stop : ℝ) (v : ℕ → ℕ → Arr (Fin N)) : Prop :=
  (∃ maxIt vjInit damp mode zj run s, harmonicBalance cct resp nb maxIt stop vjInit damp mode zj = .ok run ∧ run.stopped = some s ∧
    s.exit = .target ∧ voltage run.res = some v) ∧ ∀ f p i, 1 ≤ f → f ≤ cct.numF → 1 ≤ p → p ≤ cct.numP → v f p i ≠ 0

theorem converged_residual {N : ℕ} {cct : HCct N} {resp : ℝ → ℂ} {nb : NumB} {stop : ℝ} {v : ℕ → ℕ → Arr (Fin N)} (h : Valid cct.toCct nb)
    (hc : Converged cct resp nb stop v) (f p : ℕ) (i : Fin N) (h1 : 1 ≤ f) (h2 : f ≤ cct.numF) (h3 : 1 ≤ p) (h4 : p ≤ cct.numP) :
    ‖Spec.residual resp cct.freq cct.numF cct.numP (nb.toTup cct.numF) (cct.vb i) (Spec.source cct.vt) cct.zt (fun f p => v f p i) f p‖
      ≤ stop * ‖v f p i‖ := by
  obtain ⟨⟨maxIt, vjInit, damp, mode, zj, run, s, hrun, hs, ht, hv⟩, hne⟩ := hc
  have := C27_converged_partial cct resp nb maxIt stop vjInit damp mode zj h run hrun s hs ht v hv
    (fun f p i h1 h2 h3 h4 hh => hne f p i h1 h2 h3 h4 hh.1) f p i h1 h2 h3 h4
  have e : run.cct = cct.clamp := by
    by_cases h0 : ztZero cct
    · rw [hb_zero _ _ _ _ _ _ _ _ h0] at hrun
      cases hrun; cases hs
    obtain ⟨start, m, s', hE⟩ := hb_entered h0 hrun
    exact hE.cct_eq
  rw [e] at this
  have e2 : clampVt cct.vt f p = Spec.source cct.vt f p := by
    unfold clampVt Spec.source
    rw [if_neg (by omega)]
  unfold resid Spec.residual at this
  unfold Spec.residual
  rw [← e2]
  exact this

/-- The residual reads the frequencies of the tones only. -/
theorem residual_freq (resp : ℝ → ℂ) {freq freq' : ℕ → ℝ} {numF P : ℕ} (tup : List ℕ) (u : ℝ) (vt zt v : ℕ → ℕ → ℂ)
    (hf : ∀ f, 1 ≤ f → f ≤ numF → freq f = freq' f) {f p : ℕ} (h1 : 1 ≤ f) (h2 : f ≤ numF) :
    Spec.residual resp freq numF P tup u vt zt v f p = Spec.residual resp freq' numF P tup u vt zt v f p := by
  unfold Spec.residual Spec.qt
  rw [hf f h1 h2, tonesFrom_congr (v := v) (v' := v) (freq := freq) (freq' := freq') P _ 1 (tup.take numF) (fun _ _ _ _ => rfl)
    fun g hg1 hg2 => hf g hg1 (by
      have := List.length_take_le numF tup
      omega)]

/-- C181. Two calls of `harmonic_balance` that met their targets, for circuits with the same junction and frequencies, at a bias voltage they
share: the junction voltages differ by no more than the targets and the differences of the sources and of the impedances explain. Neither
the start, nor the damping, nor the number of iterations matters. -/
theorem C181_runs {N M : ℕ} (cct : HCct N) (cct' : HCct M) (resp : ℝ → ℂ) {nb : NumB} (h : Valid cct.toCct nb) (hb : Balanced cct.toCct nb)
    (hn : NoCoincidence cct.toCct) (hF : cct'.numF = cct.numF) (hP : cct'.numP = cct.numP)
    (hf : ∀ f, 1 ≤ f → f ≤ cct.numF → cct'.freq f = cct.freq f) {i : Fin N} {j : Fin M} (hij : cct'.vb j = cct.vb i) {R k : ℝ}
    (hR : ∀ x, |x - cct.vb i| ≤ usedRange cct.toCct nb → ‖resp x‖ ≤ R) (hk : feedback cct.toCct R cct.zt ≤ k) (hk1 : k < 1)
    {stop stop' : ℝ} {v : ℕ → ℕ → Arr (Fin N)} {v' : ℕ → ℕ → Arr (Fin M)} (hv : Converged cct resp nb stop v)
    (hv' : Converged cct' resp nb stop' v') {e : ℕ → ℕ → ℝ}
    (he : ∀ f p, 1 ≤ f → f ≤ cct.numF → 1 ≤ p → p ≤ cct.numP → stop * ‖v f p i‖ + stop' * ‖v' f p j‖
      + ‖Spec.source cct.vt f p - Spec.source cct'.vt f p‖ + 2 * R * ‖cct.zt f p - cct'.zt f p‖ ≤ e f p)
    {S : ℝ} (hS : S = (∑ f ∈ Icc 1 cct.numF, ∑ p ∈ Icc 1 cct.numP, e f p / (p * cct.freq f)) / (1 - k)) :
    ∀ f p, 1 ≤ f → f ≤ cct.numF → 1 ≤ p → p ≤ cct.numP → ‖v f p i - v' f p j‖ ≤ e f p + 4 * R * ‖cct.zt f p‖ * S := by
  have hV' : Valid cct'.toCct nb := by
    refine ⟨by rw [hF]; exact h.tones_pos, by rw [hF]; exact h.tones_le, by rw [hP]; exact h.harmonics, fun f h1 h2 => ?_, ?_⟩
    · rw [hF] at h2
      rw [hf f h1 h2]
      exact h.freq_pos f h1 h2
    · rw [hF]
      exact h.limits
  refine (C181_distance cct.toCct resp h hb hn (vt := Spec.source cct.vt) (vt' := Spec.source cct'.vt) (zt := cct.zt) (zt' := cct'.zt)
    (v := fun f p => v f p i) (v' := fun f p => v' f p j) hR hk hk1 (d := fun f p => stop * ‖v f p i‖) (d' := fun f p => stop' * ‖v' f p j‖)
    (fun f p h1 h2 h3 h4 => converged_residual h hv f p i h1 h2 h3 h4) (fun f p h1 h2 h3 h4 => ?_) he hS).2
  have := converged_residual hV' hv' f p j h1 (by rw [hF]; exact h2) h3 (by rw [hP]; exact h4)
  rw [hF, hP, hij, residual_freq resp _ _ _ _ _ hf h1 h2] at this
  exact this

/-- Replacing small sources by `1e-10` separates two sources by `2e-10` at most. -/
theorem source_sub (vt vt' : ℕ → ℕ → ℂ) (f p : ℕ) : ‖Spec.source vt f p - Spec.source vt' f p‖ ≤ ‖vt f p - vt' f p‖ + 2 / 10 ^ 10 := by
  have hc : ‖(1 / 10 ^ 10 : ℂ)‖ = 1 / 10 ^ 10 := by norm_num
  unfold Spec.source
  split_ifs with h1 h2 h2
  · rw [sub_self, norm_zero]
    positivity
  · have a := norm_sub_le (1 / 10 ^ 10 : ℂ) (vt' f p)
    have b := norm_sub_norm_le (vt' f p) (vt f p)
    rw [norm_sub_rev (vt' f p)] at b
    rw [hc] at a
    linarith
  · have a := norm_sub_le (vt f p) (1 / 10 ^ 10 : ℂ)
    have b := norm_sub_norm_le (vt f p) (vt' f p)
    rw [hc] at a
    linarith
  · linarith [show (0 : ℝ) ≤ 2 / 10 ^ 10 by positivity]

theorem norm_le_of_parts {z : ℂ} {a : ℝ} (h1 : |z.re| ≤ a) (h2 : |z.im| ≤ a) : ‖z‖ ≤ 1.42 * a := by
  have ha : 0 ≤ a := (abs_nonneg _).trans h1
  rw [← abs_of_nonneg (norm_nonneg z), ← abs_of_nonneg (show 0 ≤ 1.42 * a by positivity), ← sq_le_sq, Complex.sq_norm, Complex.normSq_apply]
  have b1 := sq_le_sq.2 (h1.trans_eq (abs_of_nonneg ha).symm)
  have b2 := sq_le_sq.2 (h2.trans_eq (abs_of_nonneg ha).symm)
  nlinarith

/-- Some call meets its target at nonzero voltages, for a junction with a resistive and a reactive current. -/
example : ∃ (zt : ℂ) (v : ℕ → ℕ → Arr (Fin 1)), zt ≠ 0 ∧
    Converged (embed (cct1 1).toCct (fun _ _ => 1) fun _ _ => zt) (fun x => (x : ℂ) + I * |x|) (.int 1) (1 / 1000) v := by
  obtain ⟨ε, hε, hc⟩ := small_near (cct1 1).toCct (fun x => (x : ℂ) + I * |x|) (.int 1)
  obtain ⟨xs, -, hx, κ, -, hκ⟩ := hc (fun _ _ => 1) (fun _ _ => (ε : ℂ)) fun f p _ _ _ _ => by
    rw [norm_real, Real.norm_of_nonneg hε.le]
  have hz : ¬ ztZero (embed (cct1 1).toCct (fun _ _ => 1) fun _ _ => (ε : ℂ)) := by
    intro h0
    have : (ε : ℂ) = 0 := h0 1 1 le_rfl le_rfl
    exact hε.ne' (by exact_mod_cast this)
  obtain ⟨m, hm⟩ := C122_local one_pos (embed (cct1 1).toCct (fun _ _ => 1) fun _ _ => (ε : ℂ)) (fun x => (x : ℂ) + I * |x|) (.int 1)
    (cct1_valid 1) hz xs 0 le_rfl (fun _ => -LinearMap.id) (fun _ => 1) (fun _ => κ) (fun i => hκ 0 i) hx (1 / 1000) 1 (by norm_num) one_pos le_rfl
  obtain ⟨run, s, h1, h2, h3, -, h4⟩ := hm m (some fun f p i => Spec.signal (numF := 1) (P := 1) (xs i) f p) .o 0.67 _ le_rfl rfl
    fun i f p _ _ _ _ => (le_of_eq (by exact congrArg _ (sub_self (Spec.signal (numF := 1) (P := 1) (xs i) f p)))).trans_eq norm_zero
  obtain ⟨_, _, s', hE⟩ := hb_entered hz h1
  have hv : ∃ v, voltage run.res = some v := by
    rw [← Except.ok.inj hE.res]
    exact ⟨_, rfl⟩
  obtain ⟨v, hv⟩ := hv
  refine ⟨ε, v, by exact_mod_cast hε.ne', ⟨m, _, 1, .o, 0.67, run, s, h1, h2, h3, hv⟩, fun f p i a1 a2 a3 a4 h0 => ?_⟩
  have := h4 v hv i f p a1 a2 a3 a4
  rw [mul_zero, h0, zero_sub, norm_neg] at this
  have hs : Spec.signal (numF := 1) (P := 1) (xs i) f p = 0 := norm_le_zero_iff.1 this
  have b1 : f ≤ 1 := a2
  have b2 : p ≤ 1 := a4
  unfold Spec.signal at hs
  rw [dif_pos ⟨by omega, ⟨a1, a2⟩, a3, a4⟩] at hs
  exact hx i _ hs

/-- Two sources that differ by 0.05 %, targets of 0.001: the voltages differ by less than 0.00073. -/
example (r : ℝ → ℂ) (hr : ∀ x, ‖r x‖ ≤ 1) {v v' : ℕ → ℕ → Arr (Fin 2)}
    (hv : Converged (embed demo (fun _ _ => 0.2) fun _ _ => 0.0009 * I) r (.tup [3, 2]) 0.001 v)
    (hv' : Converged (embed demo (fun _ _ => 0.2001) fun _ _ => 0.0009 * I) r (.tup [3, 2]) 0.001 v')
    (hm : ∀ f p, ‖v f p 0‖ ≤ 0.3 ∧ ‖v' f p 0‖ ≤ 0.3) : ‖v 2 1 0 - v' 2 1 0‖ ≤ 0.00073 := by
  have := C181_runs (embed demo (fun _ _ => 0.2) fun _ _ => 0.0009 * I) (embed demo (fun _ _ => 0.2001) fun _ _ => 0.0009 * I) r demo_valid (.inl (by simp [embed, demo])) demo_noCoincidence rfl rfl (fun _ _ _ => rfl) (i := 0) (j := 0) rfl (R := 1) (k := 0.04)
    (fun x _ => hr x) (by norm_num [feedback, embed, demo, sum_Icc_succ_top]) (by norm_num) hv hv' (e := fun _ _ => 0.0007) (fun f p _ _ _ _ => by
      obtain ⟨m1, m2⟩ := hm f p
      have e1 : Spec.source (fun _ _ => 0.2) f p = 0.2 := by
        unfold Spec.source
        rw [if_neg (by norm_num)]
      have e2 : Spec.source (fun _ _ => 0.2001) f p = 0.2001 := by
        unfold Spec.source
        rw [if_neg (by norm_num)]
      have e3 : ‖(0.2 : ℂ) - 0.2001‖ = 0.0001 := by norm_num
      simp only [embed]
      rw [e1, e2, e3, sub_self, norm_zero]
      linarith) rfl 2 1 (by norm_num) (by simp [embed, demo]) le_rfl (by simp [embed, demo])
  refine this.trans ?_
  norm_num [embed, demo, sum_Icc_succ_top]

open Session in
/-- C181. A circuit `c` that was saved and read back as `c'`, with its frequencies unchanged. Simulations of both that met their targets agree at
every bias voltage they share, up to the targets and the four and two decimals of the file. -/
theorem C181_file (T : IO.FloatFormat) (c : Cct.Circuit) (io : IO.Circuit) (hd : Doubles c io) (hio : FileCircuit T io) (resp : ℝ → ℂ) {nb : NumB}
    (h : Valid (hcct c).toCct nb) (hb : Balanced (hcct c).toCct nb) (hn : NoCoincidence (hcct c).toCct) :
    ∃ text c', IO.save io = .ok text ∧ readCircuit T text = .ok c' ∧
      ((∀ f, 1 ≤ f → f ≤ c.numF → c'.freq.getD f 0 = c.freq.getD f 0) → ∀ {i : Fin c.vb.length} {j : Fin c'.vb.length}, c'.vb[j] = c.vb[i] →
        ∀ {R k : ℝ}, (∀ x, |x - c.vb[i]| ≤ usedRange (hcct c).toCct nb → ‖resp x‖ ≤ R) → feedback (hcct c).toCct R (hcct c).zt ≤ k → k < 1 →
        ∀ {stop m : ℝ} {v : ℕ → ℕ → Arr (Fin c.vb.length)} {v' : ℕ → ℕ → Arr (Fin c'.vb.length)}, 0 ≤ stop → Converged (hcct c) resp nb stop v →
        Converged (hcct c') resp nb stop v' →
        (∀ f p, 1 ≤ f → f ≤ c.numF → 1 ≤ p → p ≤ c.numP → ‖v f p i‖ ≤ m ∧ ‖v' f p j‖ ≤ m) →
        ∀ f p, 1 ≤ f → f ≤ c.numF → 1 ≤ p → p ≤ c.numP → ‖v f p i - v' f p j‖ ≤ (2 * stop * m + 1.5 / 10 ^ 4 + 3 / 10 ^ 2 * R) *
          (1 + 4 * R * ‖(hcct c).zt f p‖ / (1 - k) * ∑ f ∈ Icc 1 c.numF, ∑ p ∈ Icc 1 c.numP, 1 / (p * c.freq.getD f 0))) := by
  obtain ⟨text, c', hs, hr, -, eF, eP, -, hvz, -⟩ := C171_read_back_partial T c io hd hio
  refine ⟨text, c', hs, hr, fun hf i j hij R k hR hk hk1 stop m v v' hst hv hv' hm f p h1 h2 h3 h4 => ?_⟩
  have hR0 : 0 ≤ R := (norm_nonneg _).trans (hR c.vb[i] (by rw [sub_self, abs_zero]; exact usedRange_nonneg h))
  have := C181_runs (hcct c) (hcct c') resp h hb hn eF eP hf hij hR hk hk1 hv hv' (e := fun _ _ => 2 * stop * m + 1.5 / 10 ^ 4 + 3 / 10 ^ 2 * R)
    (fun f p h1 h2 h3 h4 => by
      obtain ⟨a1, a2, a3, a4⟩ := hvz f p h1 h2 h3 h4
      obtain ⟨m1, m2⟩ := hm f p h1 h2 h3 h4
      have b1 := source_sub (hcct c).vt (hcct c').vt f p
      have b2 : ‖(hcct c').vt f p - (hcct c).vt f p‖ ≤ 1.42 * (1 / 10 ^ 4) := norm_le_of_parts a1 a2
      have b3 : ‖(hcct c').zt f p - (hcct c).zt f p‖ ≤ 1.42 * (1 / 10 ^ 2) := norm_le_of_parts a3 a4
      rw [norm_sub_rev] at b2 b3
      have b4 := mul_le_mul_of_nonneg_left b3 (show 0 ≤ 2 * R by positivity)
      have b5 := mul_le_mul_of_nonneg_left m1 hst
      have b6 := mul_le_mul_of_nonneg_left m2 hst
      have b7 : (1.42 : ℝ) * (1 / 10 ^ 4) + 2 / 10 ^ 10 ≤ 1.5 / 10 ^ 4 := by norm_num
      have b8 : 2 * R * (1.42 * (1 / 10 ^ 2)) ≤ 3 / 10 ^ 2 * R := by nlinarith
      linarith) rfl f p h1 h2 h3 h4
  refine this.trans_eq ?_
  have e : (∑ f ∈ Icc 1 (hcct c).numF, ∑ p ∈ Icc 1 (hcct c).numP, (2 * stop * m + 1.5 / 10 ^ 4 + 3 / 10 ^ 2 * R) / (p * (hcct c).freq f))
      = (2 * stop * m + 1.5 / 10 ^ 4 + 3 / 10 ^ 2 * R) * ∑ f ∈ Icc 1 c.numF, ∑ p ∈ Icc 1 c.numP, 1 / (p * c.freq.getD f 0) := by
    rw [mul_sum]
    refine sum_congr rfl fun f _ => ?_
    rw [mul_sum]
    refine sum_congr rfl fun p _ => ?_
    rw [mul_one_div]
    rfl
  rw [e]
  ring

end QMix.Props
