import Verif.Props.Tucker
import Verif.Model.RespFn

/-!
# C132: photon steps of an ideal junction
-/

namespace QMix.Props

open Complex Finset QMix.Qt QMix.Zemb MathFn RespFn Filter Topology

/-! ## Lemmas -/

/-- The limits of the ideal curve from both sides: it jumps by 1 at both gaps, and its value there is in the middle. -/
theorem perfect_sides (x : ℝ) : ∃ L R, Tendsto perfectElem (𝓝[<] x) (𝓝 L) ∧ Tendsto perfectElem (𝓝[>] x) (𝓝 R) ∧
    R - L = (if |x| = 1 then 1 else 0) ∧ perfectElem x = (L + R) / 2 := by
  have pin : ∀ y : ℝ, |y| < 1 → perfectElem y = 0 := by
    intro y h
    unfold perfectElem
    simp only [if_pos h]
  have pout : ∀ y : ℝ, 1 < |y| → perfectElem y = y := by
    intro y h
    unfold perfectElem
    have h1 : y ≠ 1 := by rintro rfl; norm_num at h
    have h2 : y ≠ -1 := by rintro rfl; norm_num at h
    simp only [if_neg h1, if_neg h2, if_neg (not_lt.2 h.le)]
  have tl : ∀ a : ℝ, Tendsto (fun y : ℝ => y) (𝓝[<] a) (𝓝 a) := fun _ => tendsto_nhdsWithin_of_tendsto_nhds tendsto_id
  have tr : ∀ a : ℝ, Tendsto (fun y : ℝ => y) (𝓝[>] a) (𝓝 a) := fun _ => tendsto_nhdsWithin_of_tendsto_nhds tendsto_id
  rcases lt_trichotomy |x| 1 with h | h | h
  · refine ⟨0, 0, ?_, ?_, by simp [h.ne], by rw [pin x h]; norm_num⟩
    all_goals
      refine (tendsto_const_nhds (x := (0 : ℝ))).congr' ?_
      filter_upwards [nhdsWithin_le_nhds (continuous_abs.continuousAt.eventually_lt continuousAt_const h)] with y hy
      exact (pin y hy).symm
  · rcases (abs_eq zero_le_one).1 h with rfl | rfl
    · refine ⟨0, 1, ?_, ?_, by norm_num, by unfold perfectElem; norm_num⟩
      · refine (tendsto_const_nhds (x := (0 : ℝ))).congr' ?_
        filter_upwards [Ioo_mem_nhdsLT (show (0 : ℝ) < 1 by norm_num)] with y hy
        exact (pin y (by rw [abs_of_pos hy.1]; exact hy.2)).symm
      · refine (tr _).congr' ?_
        filter_upwards [self_mem_nhdsWithin] with y hy
        have hy : (1 : ℝ) < y := hy
        exact (pout y (by rw [abs_of_pos (by linarith)]; exact hy)).symm
    · refine ⟨-1, 0, ?_, ?_, by norm_num, by unfold perfectElem; norm_num⟩
      · refine (tl _).congr' ?_
        filter_upwards [self_mem_nhdsWithin] with y hy
        have hy : y < (-1 : ℝ) := hy
        exact (pout y (by rw [abs_of_neg (by linarith)]; linarith)).symm
      · refine (tendsto_const_nhds (x := (0 : ℝ))).congr' ?_
        filter_upwards [Ioo_mem_nhdsGT (show (-1 : ℝ) < 0 by norm_num)] with y hy
        exact (pin y (by rw [abs_of_neg hy.2]; linarith [hy.1])).symm
  · refine ⟨x, x, ?_, ?_, by simp [h.ne'], by rw [pout x h]; ring⟩
    · refine (tl _).congr' ?_
      filter_upwards [nhdsWithin_le_nhds (continuousAt_const.eventually_lt continuous_abs.continuousAt h)] with y hy
      exact (pout y hy).symm
    · refine (tr _).congr' ?_
      filter_upwards [nhdsWithin_le_nhds (continuousAt_const.eventually_lt continuous_abs.continuousAt h)] with y hy
      exact (pout y hy).symm

theorem shift_left (x c : ℝ) : Tendsto (fun v : ℝ => v + c) (𝓝[<] x) (𝓝[<] (x + c)) := by
  refine tendsto_nhdsWithin_iff.2 ⟨tendsto_nhdsWithin_of_tendsto_nhds (Continuous.tendsto (by fun_prop) x), ?_⟩
  filter_upwards [self_mem_nhdsWithin] with y hy
  have hy : y < x := hy
  show y + c < x + c
  linarith

theorem shift_right (x c : ℝ) : Tendsto (fun v : ℝ => v + c) (𝓝[>] x) (𝓝[>] (x + c)) := by
  refine tendsto_nhdsWithin_iff.2 ⟨tendsto_nhdsWithin_of_tendsto_nhds (Continuous.tendsto (by fun_prop) x), ?_⟩
  filter_upwards [self_mem_nhdsWithin] with y hy
  have hy : x < y := hy
  show x + c < y + c
  linarith

/-! ## C132 -/

/-- C132: with one tone the dc current that `qtcurrent` returns for the ideal junction is a function of the bias voltage that, at
every voltage, has limits from both sides; it jumps up by the sum of `J_k(α)²` over the numbers of photons `k` (up to `num_b`) that
lift the voltage to a gap, and the value is in the middle of the step. -/
theorem C132_steps {S : Splines} {p : Params} (hs : p.vSmear = none) {r : Obj} (hr : respPerfect S p = .ok r) {w α : ℝ}
    (hw : 1 / 20000 < w) (n : ℕ) : ∃ F : ℝ → ℝ,
    (∀ {ι : Type} (vj : ℕ → ℕ → Arr ι) (cct : Cct ι), cct.numF = 1 → cct.numP = 1 → cct.freq 1 = w → (∀ i, ‖vj 1 1 i‖ = α * w) →
      qtcurrentList vj cct r.resp [0] (.int n) none = .ok [fun i => (F (cct.vb i) : ℂ)]) ∧
    ∀ v, ∃ L R, Tendsto F (𝓝[<] v) (𝓝 L) ∧ Tendsto F (𝓝[>] v) (𝓝 R) ∧
      R - L = ∑ k ∈ (Icc (-(n : ℤ)) n).filter fun k : ℤ => |v + k * w| = 1, besselJ k α ^ 2 ∧ F v = (L + R) / 2 := by
  unfold respPerfect at hr
  rw [hs] at hr
  have hi : ∀ x, (r.resp x).im = perfectElem x := by
    intro x
    have e : r.fIdc = perfectElem := by rw [← Except.ok.inj hr]
    unfold Obj.resp
    rw [e]
    simp
  refine ⟨fun v => ∑ k ∈ Icc (-(n : ℤ)) n, besselJ k α ^ 2 * perfectElem (v + k * w), fun vj cct hF hP hf hv => ?_, fun v => ?_⟩
  · rw [C65_tien_gordon vj cct r.resp n hF hP (by rw [hf]; exact hw)]
    congr 2
    funext i
    rw [hf, hv, mul_div_cancel_right₀ _ (by linarith)]
    simp only [hi]
  · choose L R hL hR hd hm using perfect_sides
    refine ⟨∑ k ∈ Icc (-(n : ℤ)) n, besselJ k α ^ 2 * L (v + k * w), ∑ k ∈ Icc (-(n : ℤ)) n, besselJ k α ^ 2 * R (v + k * w),
      tendsto_finsetSum _ fun k _ => ((hL _).comp (shift_left v _)).const_mul _,
      tendsto_finsetSum _ fun k _ => ((hR _).comp (shift_right v _)).const_mul _, ?_, ?_⟩
    · rw [← sum_sub_distrib, sum_filter]
      refine sum_congr rfl fun k _ => ?_
      rw [← mul_sub, hd]
      split_ifs <;> ring
    · dsimp only
      rw [← sum_add_distrib, sum_div]
      refine sum_congr rfl fun k _ => ?_
      rw [hm]
      ring

/-- C132: no photon number leads to a gap: the current is continuous there. -/
theorem C132_between {S : Splines} {p : Params} (hs : p.vSmear = none) {r : Obj} (hr : respPerfect S p = .ok r) {w α : ℝ}
    (hw : 1 / 20000 < w) (n : ℕ) : ∃ F : ℝ → ℝ,
    (∀ {ι : Type} (vj : ℕ → ℕ → Arr ι) (cct : Cct ι), cct.numF = 1 → cct.numP = 1 → cct.freq 1 = w → (∀ i, ‖vj 1 1 i‖ = α * w) →
      qtcurrentList vj cct r.resp [0] (.int n) none = .ok [fun i => (F (cct.vb i) : ℂ)]) ∧
    ∀ v, (∀ k : ℤ, |k| ≤ n → |v + k * w| ≠ 1) → ContinuousAt F v := by
  obtain ⟨F, h1, h2⟩ := C132_steps hs hr (α := α) hw n
  refine ⟨F, h1, fun v hv => ?_⟩
  obtain ⟨L, R, hL, hR, hd, hm⟩ := h2 v
  rw [sum_eq_zero] at hd
  · have e : L = F v := by rw [hm]; linarith
    have e' : R = F v := by rw [hm]; linarith
    rw [e] at hL
    rw [e'] at hR
    rw [continuousAt_iff_continuous_left'_right']
    exact ⟨hL, hR⟩
  · intro k hk
    rw [mem_filter, mem_Icc] at hk
    exact absurd hk.2 (hv k (abs_le.2 hk.1))

/-- C132, the first steps below the gap: a photon step that no other photon number shares is `J_n(α)²` high. -/
theorem C132_height {S : Splines} {p : Params} (hs : p.vSmear = none) {r : Obj} (hr : respPerfect S p = .ok r) {w α : ℝ}
    (hw : 1 / 20000 < w) (n : ℕ) : ∃ F : ℝ → ℝ,
    (∀ {ι : Type} (vj : ℕ → ℕ → Arr ι) (cct : Cct ι), cct.numF = 1 → cct.numP = 1 → cct.freq 1 = w → (∀ i, ‖vj 1 1 i‖ = α * w) →
      qtcurrentList vj cct r.resp [0] (.int n) none = .ok [fun i => (F (cct.vb i) : ℂ)]) ∧
    ∀ m : ℤ, |m| ≤ n → (∀ k : ℤ, |k| ≤ n → (m - k) * w ≠ 2) →
      ∃ L R, Tendsto F (𝓝[<] (1 - m * w)) (𝓝 L) ∧ Tendsto F (𝓝[>] (1 - m * w)) (𝓝 R) ∧ R - L = besselJ m α ^ 2 := by
  obtain ⟨F, h1, h2⟩ := C132_steps hs hr (α := α) hw n
  refine ⟨F, h1, fun m hm hk => ?_⟩
  obtain ⟨L, R, hL, hR, hd, -⟩ := h2 (1 - m * w)
  refine ⟨L, R, hL, hR, ?_⟩
  rw [hd]
  have : (Icc (-(n : ℤ)) n).filter (fun k : ℤ => |1 - m * w + k * w| = 1) = {m} := by
    ext k
    rw [mem_filter, mem_singleton, mem_Icc, ← abs_le]
    constructor
    · rintro ⟨a, b⟩
      rcases (abs_eq zero_le_one).1 b with b | b
      · have : ((k : ℝ) - m) * w = 0 := by linarith
        rcases mul_eq_zero.1 this with c | c
        · exact_mod_cast sub_eq_zero.1 c
        · linarith
      · exact absurd (by linarith) (hk k a)
    · rintro rfl
      exact ⟨hm, by norm_num⟩
  rw [this, sum_singleton]

/-- The hypotheses can be met: the first step, one photon (w = 0.3) below the gap. -/
example (S : Splines) : ∃ r, respPerfect S {} = .ok r ∧ ∃ F : ℝ → ℝ,
    (∀ vb : Fin 3 → ℝ, qtcurrentList (fun _ _ _ => 0.3) ⟨1, 1, fun _ => 0.3, vb⟩ r.resp [0] (.int 15) none
      = .ok [fun i => (F (vb i) : ℂ)]) ∧
    ∃ L R, Tendsto F (𝓝[<] 0.7) (𝓝 L) ∧ Tendsto F (𝓝[>] 0.7) (𝓝 R) ∧ R - L = besselJ 1 1 ^ 2 := by
  refine ⟨_, rfl, ?_⟩
  obtain ⟨F, h1, h2⟩ := C132_height (S := S) (p := {}) rfl rfl (w := 0.3) (α := 1) (by norm_num) 15
  refine ⟨F, fun vb => h1 _ _ rfl rfl rfl fun i => by norm_num, ?_⟩
  have := h2 1 (by norm_num) fun k _ h => by
    have h : (1 - (k : ℝ)) * 3 = 20 := by linarith
    have h : (1 - k) * 3 = 20 := by exact_mod_cast h
    omega
  rwa [show (1 : ℝ) - ((1 : ℤ) : ℝ) * 0.3 = 0.7 by norm_num] at this

end QMix.Props
