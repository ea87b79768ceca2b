import Verif.Lemmas.Ohm

/-! The power absorbed by a junction. -/

namespace QMix

open Complex Filter Topology Finset Spec

/-! ## Growth of the full correlation -/

theorem toneLim_const {L : Tone} (h : Small fun k => ‖L.C k‖) :
    ToneLim atTop (fun n : ℕ => ⟨L.C, n, L.w⟩) L :=
  ⟨⟨_, h, fun _ _ => le_rfl, fun _ => le_rfl⟩, fun _ => tendsto_const_nhds, tendsto_id, fun _ => rfl⟩

theorem corrFull_bound {resp : ℝ → ℂ} {m : ℕ} (hr : Growth m resp) {Ls : List Tone} (h : ∀ L ∈ Ls, Small fun k => ‖L.C k‖)
    (as : List ℤ) : ∃ K, 0 ≤ K ∧ ∀ v, ‖corrFull resp (Ls.zip as) v‖ ≤ K * (1 + |v|) ^ m := by
  have hf : List.Forall₂ (ToneLim atTop) (Ls.map fun L => fun n : ℕ => (⟨L.C, n, L.w⟩ : Tone)) Ls := by
    induction Ls with
    | nil => exact .nil
    | cons L Ls ih => exact .cons (toneLim_const (h L (by simp))) (ih fun L hL => h L (by simp [hL]))
  obtain ⟨K, hK, hb⟩ := corr_bound hr hf as
  exact ⟨K, hK, fun v => le_of_tendsto (tendsto_corr hr hf as v).norm (Eventually.of_forall fun t => hb t v)⟩

theorem corrFull_hasSum {resp : ℝ → ℂ} {m : ℕ} (hr : Growth m resp) {L : Tone} {Ls : List Tone} (h1 : Small fun k => ‖L.C k‖)
    (h : ∀ L ∈ Ls, Small fun k => ‖L.C k‖) (a : ℤ) (as : List ℤ) (v : ℝ) :
    HasSum (fun k : ℤ => L.C k * (starRingEnd ℂ) (L.C (k + a)) * corrFull resp (Ls.zip as) (v + k * L.w))
      (corrFull resp ((L :: Ls).zip (a :: as)) v) := by
  obtain ⟨K, hK, hb⟩ := corrFull_bound hr h as
  obtain ⟨B, hB0, hB'⟩ := h1.bounded 0
  have hB : ∀ k : ℤ, ‖L.C k‖ ≤ B := fun k => by simpa using hB' k
  refine Summable.hasSum (Summable.of_norm (Summable.of_nonneg_of_le (fun _ => norm_nonneg _) (fun k => ?_)
    ((h1.summable m).mul_left (B * K * (1 + |L.w|) ^ m * (1 + |v|) ^ m))))
  exact term_le h1 hB hK le_rfl le_rfl (hb _)

/-! ## Photon averages -/

theorem sq_summable {L : Tone} (h1 : Small fun k => ‖L.C k‖) (m : ℕ) :
    Summable fun k : ℤ => (1 + |(k : ℝ)|) ^ m * ‖L.C k‖ ^ 2 := by
  obtain ⟨B, hB0, hB⟩ := h1.bounded 0
  refine Summable.of_nonneg_of_le (fun k => by positivity) (fun k => ?_) ((h1.summable m).mul_left B)
  calc (1 + |(k : ℝ)|) ^ m * ‖L.C k‖ ^ 2 = ‖L.C k‖ * ((1 + |(k : ℝ)|) ^ m * ‖L.C k‖) := by ring
    _ ≤ B * ((1 + |(k : ℝ)|) ^ m * ‖L.C k‖) := mul_le_mul_of_nonneg_right (by simpa using hB k) (by positivity)

/-- At most polynomial growth of a real function. -/
def GrowthR (m : ℕ) (g : ℝ → ℝ) : Prop := ∃ K, 0 ≤ K ∧ ∀ v, |g v| ≤ K * (1 + |v|) ^ m

theorem avg_term_le {L : Tone} {K v : ℝ} {m : ℕ} (hK : 0 ≤ K) {y : ℝ} {k : ℤ} (hy : |y| ≤ K * (1 + |v + k * L.w|) ^ m) :
    |‖L.C k‖ ^ 2 * y| ≤ (K * ((1 + |L.w|) * (1 + |v|)) ^ m) * ((1 + |(k : ℝ)|) ^ m * ‖L.C k‖ ^ 2) := by
  rw [abs_mul, abs_of_nonneg (by positivity : 0 ≤ ‖L.C k‖ ^ 2)]
  have h := one_add_abs_add_le v L.w k
  calc ‖L.C k‖ ^ 2 * |y| ≤ ‖L.C k‖ ^ 2 * (K * ((1 + |L.w|) * (1 + |v|) * (1 + |(k : ℝ)|)) ^ m) := by
        refine mul_le_mul_of_nonneg_left (hy.trans (mul_le_mul_of_nonneg_left ?_ hK)) (by positivity)
        exact pow_le_pow_left₀ (by positivity) h m
    _ = _ := by rw [mul_pow _ (1 + |(k : ℝ)|)]; ring

theorem avg_bound {g : ℝ → ℝ} {m : ℕ} (hg : GrowthR m g) {Ls : List Tone} (h : ∀ L ∈ Ls, Small fun k => ‖L.C k‖) :
    GrowthR m (photonAverage g Ls) := by
  induction Ls with
  | nil => exact hg
  | cons L Ls ih =>
    obtain ⟨K, hK, hb⟩ := ih fun L hL => h L (by simp [hL])
    have hs := sq_summable (h L (by simp)) m
    refine ⟨K * (1 + |L.w|) ^ m * ∑' k : ℤ, (1 + |(k : ℝ)|) ^ m * ‖L.C k‖ ^ 2, ?_, fun v => ?_⟩
    · have : 0 ≤ ∑' k : ℤ, (1 + |(k : ℝ)|) ^ m * ‖L.C k‖ ^ 2 := tsum_nonneg fun k => by positivity
      positivity
    · have hs' := hs.mul_left (K * ((1 + |L.w|) * (1 + |v|)) ^ m)
      have := tsum_of_norm_bounded hs'.hasSum (f := fun k : ℤ => ‖L.C k‖ ^ 2 * photonAverage g Ls (v + k * L.w))
        fun k => avg_term_le hK (hb _)
      rw [Real.norm_eq_abs, tsum_mul_left] at this
      refine this.trans_eq ?_
      rw [mul_pow]
      ring

theorem avg_hasSum {g : ℝ → ℝ} {m : ℕ} (hg : GrowthR m g) {L : Tone} {Ls : List Tone} (h1 : Small fun k => ‖L.C k‖)
    (h : ∀ L ∈ Ls, Small fun k => ‖L.C k‖) (v : ℝ) :
    HasSum (fun k : ℤ => ‖L.C k‖ ^ 2 * photonAverage g Ls (v + k * L.w)) (photonAverage g (L :: Ls) v) := by
  obtain ⟨K, hK, hb⟩ := avg_bound hg h
  refine Summable.hasSum (Summable.of_norm_bounded ((sq_summable h1 m).mul_left (K * ((1 + |L.w|) * (1 + |v|)) ^ m)) fun k => ?_)
  exact avg_term_le hK (hb _)

theorem avg_nonneg {g : ℝ → ℝ} (hg : ∀ v, 0 ≤ g v) (Ls : List Tone) (v : ℝ) : 0 ≤ photonAverage g Ls v := by
  induction Ls generalizing v with
  | nil => exact hg v
  | cons L Ls ih => exact tsum_nonneg fun k => mul_nonneg (by positivity) (ih _)

theorem Growth.im {resp : ℝ → ℂ} {m : ℕ} (hr : Growth m resp) : GrowthR m fun v => (resp v).im := by
  obtain ⟨K, hK, h⟩ := hr
  exact ⟨K, hK, fun v => (abs_im_le_norm _).trans (h v)⟩

theorem Growth.power {resp : ℝ → ℂ} {m : ℕ} (hr : Growth m resp) : GrowthR (m + 1) fun v => v * (resp v).im := by
  obtain ⟨K, hK, h⟩ := hr
  refine ⟨K, hK, fun v => ?_⟩
  rw [abs_mul]
  have h1 := (abs_im_le_norm _).trans (h v)
  calc |v| * |(resp v).im| ≤ (1 + |v|) * (K * (1 + |v|) ^ m) :=
        mul_le_mul (by linarith) h1 (abs_nonneg _) (by positivity)
    _ = _ := by ring

/-- The dc current is the photon average of the unpumped one. -/
theorem im_corrFull_zero {resp : ℝ → ℂ} {m : ℕ} (hr : Growth m resp) {Ls : List Tone} (h : ∀ L ∈ Ls, Small fun k => ‖L.C k‖) (v : ℝ) :
    (corrFull resp (Ls.zip (List.replicate Ls.length 0)) v).im = photonAverage (fun v => (resp v).im) Ls v := by
  induction Ls generalizing v with
  | nil => rfl
  | cons L Ls ih =>
    have h1 := h L (by simp)
    have h2 : ∀ L ∈ Ls, Small fun k => ‖L.C k‖ := fun L hL => h L (by simp [hL])
    have hs := (corrFull_hasSum hr h1 h2 0 (List.replicate Ls.length 0) v).mapL imCLM
    have e : (fun k : ℤ => imCLM (L.C k * (starRingEnd ℂ) (L.C (k + 0)) *
        corrFull resp (Ls.zip (List.replicate Ls.length 0)) (v + k * L.w))) =
        fun k : ℤ => ‖L.C k‖ ^ 2 * photonAverage (fun v => (resp v).im) Ls (v + k * L.w) := by
      funext k
      rw [add_zero, mul_conj, ← ih h2, imCLM_apply, normSq_eq_norm_sq]
      exact im_ofReal_mul _ _
    rw [e] at hs
    exact hs.unique (avg_hasSum hr.im h1 h2 v)

/-! ## The power -/

/-- One term of the power of a tone. -/
theorem power_term (u b c d r : ℂ) :
    ((starRingEnd ℂ) u * (-I * (c * (starRingEnd ℂ) b * r - (starRingEnd ℂ) (c * (starRingEnd ℂ) d * r)))).re / 2
      = r.im * (((starRingEnd ℂ) u * d + u * b) / 2 * (starRingEnd ℂ) c).re
        - r.re * (((starRingEnd ℂ) u * d + u * b) / 2 * (starRingEnd ℂ) c).im := by
  have h2 : ∀ z : ℂ, z / 2 = (1 / 2 : ℝ) * z := fun z => by push_cast; ring
  rw [h2]
  simp only [mul_re, mul_im, sub_re, sub_im, add_re, add_im, conj_re, conj_im, neg_re, neg_im, I_re, I_im, ofReal_re, ofReal_im]
  ring

/-- The power that the first tone gives to the junction. -/
theorem power_head {resp : ℝ → ℂ} {m : ℕ} (hr : Growth m resp) {P : ℕ} {u : ℕ → ℂ} {L : Tone} {Ls : List Tone} (h1 : Exact P u L)
    (h2 : ∀ L ∈ Ls, Small fun k => ‖L.C k‖) (v : ℝ) :
    HasSum (fun k : ℤ => (k * L.w) * (‖L.C k‖ ^ 2 * photonAverage (fun v => (resp v).im) Ls (v + k * L.w)))
      (∑ p ∈ Icc 1 P, ((starRingEnd ℂ) (u p) *
        mixFull resp ((L :: Ls).zip ((p : ℤ) :: List.replicate Ls.length 0)) v).re / 2) := by
  have hp : ∀ p ∈ Icc 1 P, HasSum (fun k : ℤ => ((starRingEnd ℂ) (u p) * (-I *
      (L.C k * (starRingEnd ℂ) (L.C (k + p)) * corrFull resp (Ls.zip (List.replicate Ls.length 0)) (v + k * L.w)
        - (starRingEnd ℂ) (L.C k * (starRingEnd ℂ) (L.C (k - p)) *
          corrFull resp (Ls.zip (List.replicate Ls.length 0)) (v + k * L.w))))).re / 2)
      (((starRingEnd ℂ) (u p) * mixFull resp ((L :: Ls).zip ((p : ℤ) :: List.replicate Ls.length 0)) v).re / 2) := by
    intro p hp
    have hp0 := (Finset.mem_Icc.1 hp).1
    have hm : mixFull resp ((L :: Ls).zip ((p : ℤ) :: List.replicate Ls.length 0)) v
        = -I * (corrFull resp ((L :: Ls).zip ((p : ℤ) :: List.replicate Ls.length 0)) v
          - (starRingEnd ℂ) (corrFull resp ((L :: Ls).zip ((-p : ℤ) :: List.replicate Ls.length 0)) v)) := by
      unfold mixFull
      rw [if_neg, zip_neg]
      · simp
      · intro hz
        have := hz (L, (p : ℤ)) (by simp)
        simp at this
        omega
    rw [hm]
    have s1 := corrFull_hasSum hr h1.small h2 (p : ℤ) (List.replicate Ls.length 0) v
    have s2 := corrFull_hasSum hr h1.small h2 (-p : ℤ) (List.replicate Ls.length 0) v
    have s3 := (((s1.sub (hasSum_conj'.2 s2)).mul_left (-I)).mul_left ((starRingEnd ℂ) (u p))).mapL reCLM
    exact s3.div_const 2
  have hs := hasSum_sum hp
  refine (Eq.mp (congrArg (fun f => HasSum f _) ?_) hs)
  funext k
  have e : ∀ p : ℕ, _ := fun p => power_term (u p) (L.C (k + p)) (L.C k) (L.C (k - p))
    (corrFull resp (Ls.zip (List.replicate Ls.length 0)) (v + k * L.w))
  simp only [e]
  rw [Finset.sum_sub_distrib, ← Finset.mul_sum, ← Finset.mul_sum, ← re_sum, ← im_sum, ← Finset.sum_mul, ← h1.recur k,
    im_corrFull_zero hr h2, mul_assoc _ (L.C k), mul_conj, normSq_eq_norm_sq]
  have : (k : ℂ) * L.w * ((‖L.C k‖ ^ 2 : ℝ) : ℂ) = ((k * L.w * ‖L.C k‖ ^ 2 : ℝ) : ℂ) := by push_cast; ring
  rw [this, ofReal_re, ofReal_im]
  ring

/-- A tone that does not take part only averages. -/
theorem mixFull_zero_cons {resp : ℝ → ℂ} {m : ℕ} (hr : Growth m resp) {L : Tone} {Ls : List Tone} (h1 : Small fun k => ‖L.C k‖)
    (h2 : ∀ L ∈ Ls, Small fun k => ‖L.C k‖) (as : List ℤ) (hlen : as.length = Ls.length) (h0 : ¬ ∀ a ∈ as, a = 0) (v : ℝ) :
    HasSum (fun k : ℤ => ((‖L.C k‖ ^ 2 : ℝ) : ℂ) * mixFull resp (Ls.zip as) (v + k * L.w))
      (mixFull resp ((L :: Ls).zip (0 :: as)) v) := by
  have hz : ¬ ∀ y ∈ Ls.zip as, y.2 = 0 := by rwa [zip_zero_iff hlen]
  have hz' : ¬ ∀ y ∈ (L :: Ls).zip (0 :: as), y.2 = 0 := by
    rw [zip_zero_iff (by simp [hlen]), List.forall_mem_cons]
    exact fun h => h0 h.2
  unfold mixFull
  simp only [if_neg hz, if_neg hz', zip_neg, List.map_cons, neg_zero]
  have s1 := corrFull_hasSum hr h1 h2 0 as v
  have s2 := corrFull_hasSum hr h1 h2 0 (as.map fun a => -a) v
  have s3 := (s1.sub (hasSum_conj'.2 s2)).mul_left (-I)
  refine (Eq.mp (congrArg (fun f => HasSum f _) ?_) s3)
  funext k
  simp only [add_zero, mul_conj, normSq_eq_norm_sq, map_mul, conj_ofReal]
  ring

/-- The power of all ac signals. -/
noncomputable def acPower (resp : ℝ → ℂ) (P : ℕ) (us : List (ℕ → ℂ)) (Ls : List Tone) (v : ℝ) : ℝ :=
  ∑ i ∈ range Ls.length, ∑ p ∈ Icc 1 P, ((starRingEnd ℂ) (us.getD i 0 p) *
    mixFull resp (Ls.zip ((List.replicate Ls.length 0).set i (p : ℤ))) v).re / 2

theorem acPower_cons {resp : ℝ → ℂ} {m : ℕ} (hr : Growth m resp) {P : ℕ} {u : ℕ → ℂ} {us : List (ℕ → ℂ)} {L : Tone} {Ls : List Tone}
    (h1 : Small fun k => ‖L.C k‖) (h2 : ∀ L ∈ Ls, Small fun k => ‖L.C k‖) (v : ℝ) :
    HasSum (fun k : ℤ => ‖L.C k‖ ^ 2 * acPower resp P us Ls (v + k * L.w))
      (acPower resp P (u :: us) (L :: Ls) v - ∑ p ∈ Icc 1 P, ((starRingEnd ℂ) (u p) *
        mixFull resp ((L :: Ls).zip ((p : ℤ) :: List.replicate Ls.length 0)) v).re / 2) := by
  unfold acPower
  rw [List.length_cons, Finset.sum_range_succ']
  simp only [List.replicate_succ, List.set_cons_succ, List.set_cons_zero, List.getD_cons_succ, List.getD_cons_zero,
    add_sub_cancel_right, Finset.mul_sum]
  refine hasSum_sum fun i hi => hasSum_sum fun p hp => ?_
  have hp0 := (Finset.mem_Icc.1 hp).1
  have hne : ¬ ∀ a ∈ (List.replicate Ls.length (0 : ℤ)).set i (p : ℤ), a = 0 := by
    intro h
    have := h p (List.mem_set (by simpa using hi) _)
    omega
  have s := ((mixFull_zero_cons hr h1 h2 _ (by simp) hne v).mul_left ((starRingEnd ℂ) (us.getD i 0 p))).mapL reCLM
  refine (Eq.mp (congrArg (fun f => HasSum f _) ?_) (s.div_const 2))
  funext k
  rw [reCLM_apply, mul_left_comm, re_ofReal_mul]
  ring

/-- Conservation of energy. -/
theorem energy {resp : ℝ → ℂ} {m : ℕ} (hr : Growth m resp) {P : ℕ} {us : List (ℕ → ℂ)} {Ls : List Tone}
    (h : List.Forall₂ (Exact P) us Ls) (v : ℝ) :
    v * photonAverage (fun v => (resp v).im) Ls v + acPower resp P us Ls v
      = photonAverage (fun v => v * (resp v).im) Ls v := by
  induction h generalizing v with
  | nil => simp [photonAverage, acPower]
  | @cons u L us Ls h1 h3 ih =>
    have h2 : ∀ L ∈ Ls, Small fun k => ‖L.C k‖ := by
      clear ih
      induction h3 with
      | nil => simp
      | cons h _ ih =>
        intro L' hL'
        rcases List.mem_cons.1 hL' with rfl | hm
        · exact h.small
        · exact ih L' hm
    have s1 := avg_hasSum hr.power h1.small h2 v
    have s2 := (avg_hasSum hr.im h1.small h2 v).mul_left v
    have s3 := power_head hr h1 h2 v
    have s4 := acPower_cons (u := u) (us := us) (P := P) hr h1.small h2 v
    have s5 := (s2.add s3).add s4
    have e : (fun k : ℤ => ‖L.C k‖ ^ 2 * photonAverage (fun v => v * (resp v).im) Ls (v + k * L.w)) = fun k : ℤ =>
        v * (‖L.C k‖ ^ 2 * photonAverage (fun v => (resp v).im) Ls (v + k * L.w)) +
        (k * L.w) * (‖L.C k‖ ^ 2 * photonAverage (fun v => (resp v).im) Ls (v + k * L.w)) +
        ‖L.C k‖ ^ 2 * acPower resp P us Ls (v + k * L.w) := by
      funext k
      rw [← ih]
      ring
    rw [e] at s1
    have := s5.unique s1
    linarith

end QMix
