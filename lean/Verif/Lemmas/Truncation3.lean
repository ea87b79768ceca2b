import Verif.Lemmas.Weighted

/-! How much the summation limits cut off when the tones have several harmonics. -/

namespace QMix

open Complex Finset Spec

/-- The products of coefficients that the sum of a tone uses. -/
noncomputable def inside (t : Tone) (a k : ℤ) : ℂ :=
  if |k| ≤ (t.nb : ℤ) ∧ |k + a| ≤ (t.nb : ℤ) then t.C k * (starRingEnd ℂ) (t.C (k + a)) else 0

/-- A tone with summation limits, `t`, next to the exact one, `L`. -/
structure Pair where
  t : Tone
  L : Tone
  m : ℝ
  d : ℝ

structure Pair.Ok (P : ℕ) (x : Pair) : Prop where
  w_eq : x.t.w = x.L.w
  small : Small fun k => ‖x.L.C k‖
  mass : ∀ a : ℤ, (Summable fun k : ℤ => ‖x.L.C k * (starRingEnd ℂ) (x.L.C (k + a))‖ * (1 + |(k : ℝ) * x.L.w|)) ∧
    ∑' k : ℤ, ‖x.L.C k * (starRingEnd ℂ) (x.L.C (k + a))‖ * (1 + |(k : ℝ) * x.L.w|) ≤ x.m
  diff : ∀ a : ℤ, |a| ≤ (P : ℤ) →
    (Summable fun k : ℤ => ‖inside x.t a k - x.L.C k * (starRingEnd ℂ) (x.L.C (k + a))‖ * (1 + |(k : ℝ) * x.L.w|)) ∧
    ∑' k : ℤ, ‖inside x.t a k - x.L.C k * (starRingEnd ℂ) (x.L.C (k + a))‖ * (1 + |(k : ℝ) * x.L.w|) ≤ x.d
  m_nonneg : 0 ≤ x.m
  d_nonneg : 0 ≤ x.d

theorem inside_sum (t : Tone) (a : ℤ) (R : ℝ → ℂ) (v : ℝ) :
    HasSum (fun k : ℤ => inside t a k * R (v + k * t.w))
      (∑ k ∈ Icc (-(t.nb : ℤ)) t.nb, if |k + a| ≤ t.nb then t.C k * (starRingEnd ℂ) (t.C (k + a)) * R (v + k * t.w) else 0) := by
  rw [Finset.sum_congr rfl (g := fun k : ℤ => inside t a k * R (v + k * t.w))]
  · refine hasSum_sum_of_ne_finset_zero fun k hk => ?_
    rw [inside, if_neg, zero_mul]
    exact fun hc => hk (Finset.mem_Icc.2 (abs_le.1 hc.1))
  · intro k hk
    have hk' : |k| ≤ (t.nb : ℤ) := abs_le.2 (Finset.mem_Icc.1 hk)
    unfold inside
    simp only [hk', true_and]
    split_ifs
    · rfl
    · rw [zero_mul]

theorem prod_pair_le {P : ℕ} (xs : List Pair) (h : ∀ x ∈ xs, x.Ok P) :
    0 ≤ (xs.map Pair.m).prod ∧ (xs.map Pair.m).prod ≤ (xs.map fun x => x.m + x.d).prod := by
  induction xs with
  | nil => simp
  | cons x xs ih =>
    have hx := h x (by simp)
    obtain ⟨i1, i2⟩ := ih fun y hy => h y (by simp [hy])
    simp only [List.map_cons, List.prod_cons]
    have := hx.m_nonneg
    have := hx.d_nonneg
    exact ⟨by positivity, mul_le_mul (by linarith) i2 i1 (by linarith)⟩

theorem weight_mul (v z : ℝ) : 1 + |v + z| ≤ (1 + |v|) * (1 + |z|) := by
  have := abs_add_le v z
  have := mul_nonneg (abs_nonneg v) (abs_nonneg z)
  nlinarith

/-- The correlations with and without summation limits. -/
theorem pair_error {resp : ℝ → ℂ} {K : ℝ} (hK : 0 ≤ K) (hr : ∀ v, ‖resp v‖ ≤ K * (1 + |v|)) {P : ℕ} (xs : List Pair)
    (h : ∀ x ∈ xs, x.Ok P) (as : List ℤ) (hlen : as.length = xs.length) (has : ∀ a ∈ as, |a| ≤ (P : ℤ)) (v : ℝ) :
    ‖corrFull resp ((xs.map Pair.L).zip as) v‖ ≤ K * (1 + |v|) * (xs.map Pair.m).prod ∧
    ‖corr resp ((xs.map Pair.t).zip as) v - corrFull resp ((xs.map Pair.L).zip as) v‖
      ≤ K * (1 + |v|) * ((xs.map fun x => x.m + x.d).prod - (xs.map Pair.m).prod) := by
  induction xs generalizing as v with
  | nil => simpa [corrFull, corr] using hr v
  | cons x xs ih =>
    obtain ⟨a, as, rfl⟩ := List.exists_cons_of_length_eq_add_one hlen
    have hx := h x (by simp)
    have hxs : ∀ y ∈ xs, y.Ok P := fun y hy => h y (by simp [hy])
    have hl : as.length = xs.length := by simpa using hlen
    have ha : |a| ≤ (P : ℤ) := has a (by simp)
    have ih' := ih hxs as hl fun b hb => has b (by simp [hb])
    obtain ⟨p1, p2⟩ := prod_pair_le xs hxs
    set D := (xs.map fun x => x.m + x.d).prod
    set Q := (xs.map Pair.m).prod
    set R := fun v => corr resp ((xs.map Pair.t).zip as) v
    set R' := fun v => corrFull resp ((xs.map Pair.L).zip as) v
    set c' := fun k : ℤ => x.L.C k * (starRingEnd ℂ) (x.L.C (k + a))
    obtain ⟨s1, m1⟩ := hx.mass a
    obtain ⟨s2, m2⟩ := hx.diff a ha
    have hr1 : Growth 1 resp := ⟨K, hK, by simpa using hr⟩
    have hfull : HasSum (fun k : ℤ => c' k * R' (v + k * x.L.w)) (corrFull resp (((x :: xs).map Pair.L).zip (a :: as)) v) := by
      rw [List.map_cons]
      refine corrFull_hasSum hr1 hx.small (fun L hL => ?_) a as v
      obtain ⟨y, hy, rfl⟩ := List.mem_map.1 hL
      exact (hxs y hy).small
    have hcut : HasSum (fun k : ℤ => inside x.t a k * R (v + k * x.L.w)) (corr resp (((x :: xs).map Pair.t).zip (a :: as)) v) := by
      simp only [List.map_cons, List.zip_cons_cons, corr]
      rw [← hx.w_eq]
      exact inside_sum x.t a R v
    have hKv : 0 ≤ K * (1 + |v|) := by positivity
    have hw : ∀ k : ℤ, K * (1 + |v + k * x.L.w|) ≤ K * (1 + |v|) * (1 + |(k : ℝ) * x.L.w|) := fun k => by
      rw [mul_assoc]
      exact mul_le_mul_of_nonneg_left (weight_mul v _) hK
    have hR' : ∀ k : ℤ, ‖R' (v + k * x.L.w)‖ ≤ K * (1 + |v|) * (1 + |(k : ℝ) * x.L.w|) * Q := fun k =>
      (ih' (v + k * x.L.w)).1.trans (mul_le_mul_of_nonneg_right (hw k) p1)
    have hRR : ∀ k : ℤ, ‖R (v + k * x.L.w) - R' (v + k * x.L.w)‖ ≤ K * (1 + |v|) * (1 + |(k : ℝ) * x.L.w|) * (D - Q) := fun k =>
      (ih' (v + k * x.L.w)).2.trans (mul_le_mul_of_nonneg_right (hw k) (by linarith))
    have hR : ∀ k : ℤ, ‖R (v + k * x.L.w)‖ ≤ K * (1 + |v|) * (1 + |(k : ℝ) * x.L.w|) * D := fun k => by
      have e : R (v + k * x.L.w) = R' (v + k * x.L.w) + (R (v + k * x.L.w) - R' (v + k * x.L.w)) := by ring
      rw [e]
      refine (norm_add_le _ _).trans ((add_le_add (hR' k) (hRR k)).trans_eq ?_)
      ring
    simp only [List.map_cons, List.prod_cons]
    constructor
    · rw [← List.map_cons, ← hfull.tsum_eq]
      refine (tsum_of_norm_bounded (s1.hasSum.mul_left (K * (1 + |v|) * Q)) fun k => ?_).trans ?_
      · rw [norm_mul]
        refine (mul_le_mul_of_nonneg_left (hR' k) (norm_nonneg _)).trans_eq ?_
        ring
      · refine (mul_le_mul_of_nonneg_left m1 (by positivity)).trans_eq ?_
        ring
    · rw [← List.map_cons, ← List.map_cons, ← (hcut.sub hfull).tsum_eq]
      refine (tsum_of_norm_bounded ((s2.hasSum.mul_left (K * (1 + |v|) * D)).add (s1.hasSum.mul_left (K * (1 + |v|) * (D - Q))))
        fun k => ?_).trans ?_
      · have e : inside x.t a k * R (v + k * x.L.w) - c' k * R' (v + k * x.L.w)
            = (inside x.t a k - c' k) * R (v + k * x.L.w) + c' k * (R (v + k * x.L.w) - R' (v + k * x.L.w)) := by ring
        rw [e]
        refine (norm_add_le _ _).trans ?_
        rw [norm_mul, norm_mul]
        refine (add_le_add (mul_le_mul_of_nonneg_left (hR k) (norm_nonneg _))
          (mul_le_mul_of_nonneg_left (hRR k) (norm_nonneg _))).trans_eq ?_
        ring
      · have hD : 0 ≤ D := p1.trans p2
        have hDQ : 0 ≤ D - Q := by linarith
        refine (add_le_add (mul_le_mul_of_nonneg_left m2 (by positivity)) (mul_le_mul_of_nonneg_left m1 (by positivity))).trans_eq ?_
        ring

/-- The bound of `pair_error`. -/
noncomputable def pairBound (K : ℝ) (xs : List Pair) (v : ℝ) : ℝ :=
  K * (1 + |v|) * ((xs.map fun x => x.m + x.d).prod - (xs.map Pair.m).prod)

theorem mix_pair_error {resp : ℝ → ℂ} {K : ℝ} (hK : 0 ≤ K) (hr : ∀ v, ‖resp v‖ ≤ K * (1 + |v|)) {P : ℕ} (xs : List Pair)
    (h : ∀ x ∈ xs, x.Ok P) (as : List ℤ) (hlen : as.length = xs.length) (has : ∀ a ∈ as, |a| ≤ (P : ℤ)) (v : ℝ) :
    ‖mixProduct resp ((xs.map Pair.t).zip as) v - mixFull resp ((xs.map Pair.L).zip as) v‖ ≤ 2 * pairBound K xs v := by
  have h1 := (pair_error hK hr xs h as hlen has v).2
  have h2 := (pair_error hK hr xs h (as.map fun a => -a) (by simpa using hlen) (fun a ha => by
    obtain ⟨b, hb, rfl⟩ := List.mem_map.1 ha
    simpa using has b hb) v).2
  change _ ≤ pairBound K xs v at h1 h2
  have h0 : 0 ≤ pairBound K xs v := (norm_nonneg _).trans h1
  unfold mixProduct mixFull
  rw [zip_neg, zip_neg]
  simp only [zip_zero_iff (show as.length = (xs.map Pair.t).length by simpa using hlen),
    zip_zero_iff (show as.length = (xs.map Pair.L).length by simpa using hlen)]
  split_ifs
  · rw [← ofReal_sub, norm_real, ← sub_im]
    exact (abs_im_le_norm _).trans (by linarith)
  · rw [← mul_sub, norm_mul, norm_neg, norm_I, one_mul, sub_sub_sub_comm, ← map_sub]
    refine (norm_sub_le _ _).trans ?_
    rw [RCLike.norm_conj]
    linarith

theorem mixFreq_pair {P : ℕ} (xs : List Pair) (h : ∀ x ∈ xs, x.Ok P) (as : List ℤ) :
    mixFreq ((xs.map Pair.t).zip as) = mixFreq ((xs.map Pair.L).zip as) := by
  unfold mixFreq
  induction xs generalizing as with
  | nil => rfl
  | cons x xs ih =>
    cases as with
    | nil => rfl
    | cons a as =>
      have := ih (fun y hy => h y (by simp [hy])) as
      simp only [List.map_cons, List.zip_cons_cons, List.sum_cons, this, (h x (by simp)).w_eq]

theorem current_pair_error {resp : ℝ → ℂ} {K : ℝ} (hK : 0 ≤ K) (hr : ∀ v, ‖resp v‖ ≤ K * (1 + |v|)) {P : ℕ} (xs : List Pair)
    (h : ∀ x ∈ xs, x.Ok P) (v f : ℝ) :
    ‖current resp P (xs.map Pair.t) v f - currentFull resp P (xs.map Pair.L) v f‖
      ≤ (2 * P + 1 : ℕ) ^ xs.length * (2 * pairBound K xs v) := by
  have h0 : 0 ≤ 2 * pairBound K xs v := (norm_nonneg _).trans
    (mix_pair_error hK hr xs h (List.replicate xs.length 0) (by simp) (fun a ha => by
      rw [List.eq_of_mem_replicate ha]; simp) v)
  have := boxSum_error (P := P) (xs.map Pair.t) (xs.map Pair.L) (by simp) h0
    (g := fun l => if round4 (mixFreq l) = round4 f then mixProduct resp l v else 0)
    (g' := fun l => if round4 (mixFreq l) = round4 f then mixFull resp l v else 0) fun as h1 h2 => by
      rw [mixFreq_pair xs h]
      split_ifs
      · exact mix_pair_error hK hr xs h as (by simpa using h1) h2 v
      · simpa using h0
  rwa [List.length_map] at this

/-! ## The tones of the code -/

/-- Coefficients whose weighted distance from the exact ones is at most `e ≤ 1`. -/
theorem pair_ok {P : ℕ} {u : ℕ → ℂ} {t L : Tone} (hw : 0 ≤ L.w) (he : Exact P u L) (hww : t.w = L.w) {e : ℝ} (h1 : e ≤ 1)
    (hs : Summable fun k : ℤ => (1 + |(k : ℝ)| * L.w) * ‖(if |k| ≤ (t.nb : ℤ) then t.C k else 0) - L.C k‖)
    (hb : ∑' k : ℤ, (1 + |(k : ℝ)| * L.w) * ‖(if |k| ≤ (t.nb : ℤ) then t.C k else 0) - L.C k‖ ≤ e) :
    Pair.Ok P ⟨t, L, 1 + ∑ p ∈ Icc 1 P, ‖u p‖, (3 + P * L.w) * e⟩ := by
  set T := fun k : ℤ => if |k| ≤ (t.nb : ℤ) then t.C k else 0 with hT
  set D := fun k : ℤ => T k - L.C k with hD
  have hD0 : ∀ k : ℤ, ‖D k‖ ≤ (1 + |(k : ℝ)| * L.w) * ‖D k‖ := fun k =>
    le_mul_of_one_le_left (norm_nonneg _) (by have : 0 ≤ |(k : ℝ)| * L.w := by positivity
                                              linarith)
  have he0 : 0 ≤ e := (tsum_nonneg fun k => by positivity).trans hb
  have hDe : ∀ k, ‖D k‖ ≤ e := fun k =>
    (hD0 k).trans ((hs.le_tsum k fun j _ => by positivity).trans hb)
  have hL1 : ∀ k, ‖L.C k‖ ≤ 1 := fun k => by
    have := he.norm_sq
    have h2 : ‖L.C k‖ ^ 2 ≤ 1 := by
      rw [← this.tsum_eq]
      exact this.summable.le_tsum k fun j _ => by positivity
    nlinarith [norm_nonneg (L.C k)]
  have hT2 : ∀ k, ‖T k‖ ≤ 2 := fun k => by
    have e1 : T k = L.C k + D k := by simp [hD]
    rw [e1]
    refine (norm_add_le _ _).trans ?_
    linarith [hL1 k, hDe k]
  have hw' : ∀ k : ℤ, |(k : ℝ) * L.w| = |(k : ℝ)| * L.w := fun k => by rw [abs_mul, abs_of_nonneg hw]
  refine ⟨hww, he.small, fun a => ?_, fun a ha => ?_, ?_, by positivity⟩
  · have s1 := (pair_summable0 he.small a).hasSum.add (moment_summable he.small a).hasSum
    have e1 : (fun k : ℤ => ‖L.C k * (starRingEnd ℂ) (L.C (k + a))‖ * (1 + |(k : ℝ) * L.w|))
        = fun k : ℤ => ‖L.C k‖ * ‖L.C (k + a)‖ + ‖L.C k‖ * ‖L.C (k + a)‖ * |(k : ℝ) * L.w| := by
      funext k
      rw [norm_mul, RCLike.norm_conj]
      ring
    dsimp only
    rw [e1]
    refine ⟨s1.summable, ?_⟩
    rw [s1.tsum_eq]
    exact add_le_add (he.pair_le a) (he.moment_le a)
  · have ha' : |(a : ℝ)| ≤ P := by exact_mod_cast ha
    have hin : ∀ k, inside t a k = T k * (starRingEnd ℂ) (T (k + a)) := fun k => by
      simp only [inside, hT]
      by_cases c1 : |k| ≤ (t.nb : ℤ) <;> by_cases c2 : |k + a| ≤ (t.nb : ℤ) <;> simp [c1, c2]
    have hsh : Summable fun k : ℤ => (1 + |((k + a : ℤ) : ℝ)| * L.w) * ‖D (k + a)‖ := (Equiv.addRight a).summable_iff.2 hs
    have hbh : ∑' k : ℤ, (1 + |((k + a : ℤ) : ℝ)| * L.w) * ‖D (k + a)‖ ≤ e :=
      (Equiv.tsum_eq (Equiv.addRight a) fun k : ℤ => (1 + |(k : ℝ)| * L.w) * ‖D k‖).trans_le hb
    have hmaj := (hs.hasSum.mul_left 2).add (hsh.hasSum.mul_left (1 + P * L.w))
    have hle : ∀ k : ℤ, ‖inside t a k - L.C k * (starRingEnd ℂ) (L.C (k + a))‖ * (1 + |(k : ℝ) * L.w|)
        ≤ 2 * ((1 + |(k : ℝ)| * L.w) * ‖D k‖) + (1 + P * L.w) * ((1 + |((k + a : ℤ) : ℝ)| * L.w) * ‖D (k + a)‖) := fun k => by
      rw [hin, hw', show T k * (starRingEnd ℂ) (T (k + a)) - L.C k * (starRingEnd ℂ) (L.C (k + a))
        = D k * (starRingEnd ℂ) (T (k + a)) + L.C k * (starRingEnd ℂ) (D (k + a)) by simp only [hD, map_sub]; ring]
      have n1 : ‖D k * (starRingEnd ℂ) (T (k + a)) + L.C k * (starRingEnd ℂ) (D (k + a))‖ ≤ 2 * ‖D k‖ + ‖D (k + a)‖ := by
        refine (norm_add_le _ _).trans ?_
        rw [norm_mul, norm_mul, RCLike.norm_conj, RCLike.norm_conj]
        have := mul_le_mul_of_nonneg_left (hT2 (k + a)) (norm_nonneg (D k))
        have := mul_le_mul_of_nonneg_right (hL1 k) (norm_nonneg (D (k + a)))
        linarith
      have w1 : 1 + |(k : ℝ)| * L.w ≤ (1 + P * L.w) * (1 + |((k + a : ℤ) : ℝ)| * L.w) := by
        have t1 : |(k : ℝ)| ≤ |((k + a : ℤ) : ℝ)| + P := by
          have := abs_sub (((k + a : ℤ) : ℝ)) (a : ℝ)
          push_cast at this ⊢
          rw [add_sub_cancel_right] at this
          linarith
        have t2 := mul_le_mul_of_nonneg_right t1 hw
        have t3 : 0 ≤ P * L.w * (|((k + a : ℤ) : ℝ)| * L.w) := by positivity
        nlinarith
      have w0 : 0 ≤ 1 + |(k : ℝ)| * L.w := by positivity
      have := mul_le_mul_of_nonneg_right n1 w0
      have := mul_le_mul_of_nonneg_right w1 (norm_nonneg (D (k + a)))
      linarith
    have hsum : Summable fun k : ℤ => ‖inside t a k - L.C k * (starRingEnd ℂ) (L.C (k + a))‖ * (1 + |(k : ℝ) * L.w|) :=
      Summable.of_nonneg_of_le (fun k => by positivity) hle hmaj.summable
    refine ⟨hsum, (hasSum_le hle hsum.hasSum hmaj).trans ?_⟩
    have := mul_le_mul_of_nonneg_left hbh (show (0 : ℝ) ≤ 1 + P * L.w by positivity)
    dsimp only
    linarith
  · have : 0 ≤ ∑ p ∈ Icc 1 P, ‖u p‖ := Finset.sum_nonneg fun _ _ => norm_nonneg _
    dsimp only
    linarith

/-- The tones of the specification next to the exact ones. -/
noncomputable def pairs (v : ℕ → ℕ → ℂ) (freq : ℕ → ℝ) (P M : ℕ) (e : ℕ → ℕ → ℝ) : ℕ → List ℕ → List Pair
  | _, [] => []
  | f, nb :: nbs => ⟨⟨toneCoeff (v f) (freq f) P nb M, nb, freq f⟩, ⟨phaseCoeff (v f) (freq f) P, 0, freq f⟩,
      1 + ∑ p ∈ Icc 1 P, ‖v f p‖, (3 + P * freq f) * e f nb⟩ :: pairs v freq P M e (f + 1) nbs

variable (v : ℕ → ℕ → ℂ) (freq : ℕ → ℝ) (P M : ℕ) (e : ℕ → ℕ → ℝ)

theorem pairs_t (f : ℕ) (nbs : List ℕ) : (pairs v freq P M e f nbs).map Pair.t = tonesFrom v freq P M f nbs := by
  induction nbs generalizing f with
  | nil => rfl
  | cons nb nbs ih => simp [pairs, tonesFrom, ih]

theorem pairs_L (f : ℕ) (nbs : List ℕ) : (pairs v freq P M e f nbs).map Pair.L = tonesFull v freq P f nbs.length := by
  induction nbs generalizing f with
  | nil => rfl
  | cons nb nbs ih => simp [pairs, tonesFull, ih]

theorem pairs_length (f : ℕ) (nbs : List ℕ) : (pairs v freq P M e f nbs).length = nbs.length := by
  induction nbs generalizing f with
  | nil => rfl
  | cons nb nbs ih => simp [pairs, ih]

theorem pairs_prod (f : ℕ) (nbs : List ℕ) (g : ℝ → ℝ → ℝ) :
    ((pairs v freq P M e f nbs).map fun x => g x.m x.d).prod = ∏ i ∈ range nbs.length,
      g (1 + ∑ p ∈ Icc 1 P, ‖v (f + i) p‖) ((3 + P * freq (f + i)) * e (f + i) (nbs.getD i 0)) := by
  induction nbs generalizing f with
  | nil => rfl
  | cons nb nbs ih =>
    rw [pairs, List.map_cons, List.prod_cons, ih, List.length_cons, Finset.prod_range_succ', mul_comm]
    congr 1
    refine Finset.prod_congr rfl fun i _ => ?_
    rw [show f + 1 + i = f + (i + 1) by omega]
    rfl

theorem pairs_ok {ρ : ℝ} (hρ : 2 ≤ ρ) (f : ℕ) (nbs : List ℕ) (hM : ∀ nb ∈ nbs, nb ≤ M)
    (hf : ∀ i, i < nbs.length → 0 < freq (f + i) ∧ freq (f + i) ≤ ρ - 1 ∧
      (2 * P + 1) * thin (freq (f + i)) ρ (nbs.getD i 0) * spreads (v (f + i)) (freq (f + i)) ρ P ≤ e (f + i) (nbs.getD i 0) ∧
      e (f + i) (nbs.getD i 0) ≤ 1) :
    ∀ x ∈ pairs v freq P M e f nbs, x.Ok P := by
  induction nbs generalizing f with
  | nil => simp [pairs]
  | cons nb nbs ih =>
    refine List.forall_mem_cons.2 ⟨?_, ih (f + 1) (fun n hn => hM n (by simp [hn])) fun i hi => ?_⟩
    · obtain ⟨h1, h2, h3, h4⟩ := hf 0 (by simp)
      simp only [Nat.add_zero, List.getD_cons_zero] at h1 h2 h3 h4
      obtain ⟨c1, c2⟩ := coeff_error_real (v f) h1 hρ h2 (hM nb (by simp)) P
      exact pair_ok (t := ⟨toneCoeff (v f) (freq f) P nb M, nb, freq f⟩) (L := ⟨phaseCoeff (v f) (freq f) P, 0, freq f⟩)
        h1.le (exact_phaseCoeff (v f) h1.ne' P 0) rfl h4 c1 (c2.trans h3)
    · have := hf (i + 1) (by simpa using hi)
      rw [show f + (i + 1) = f + 1 + i by omega] at this
      simpa using this

end QMix
