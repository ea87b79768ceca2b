import Verif.Lemmas.Bessel4
import Verif.Lemmas.Limit2

/-! How much the summation limits cut off. -/

namespace QMix

open Complex Finset Spec

/-! ## Sums of products of coefficients -/

theorem pair_summable {L : Tone} (h : Small fun k => ‖L.C k‖) (a : ℤ) (m : ℕ) :
    Summable fun k : ℤ => (1 + |(k : ℝ)|) ^ m * (‖L.C k‖ * ‖L.C (k + a)‖) := by
  obtain ⟨B, hB0, hB⟩ := h.bounded 0
  refine Summable.of_nonneg_of_le (fun k => by positivity) (fun k => ?_) ((h.summable m).mul_left B)
  calc (1 + |(k : ℝ)|) ^ m * (‖L.C k‖ * ‖L.C (k + a)‖) = ‖L.C (k + a)‖ * ((1 + |(k : ℝ)|) ^ m * ‖L.C k‖) := by ring
    _ ≤ B * ((1 + |(k : ℝ)|) ^ m * ‖L.C k‖) := mul_le_mul_of_nonneg_right (by simpa using hB (k + a)) (by positivity)

theorem pair_summable0 {L : Tone} (h : Small fun k => ‖L.C k‖) (a : ℤ) :
    Summable fun k : ℤ => ‖L.C k‖ * ‖L.C (k + a)‖ := by simpa using pair_summable h a 0

theorem Exact.norm_sq {P : ℕ} {u : ℕ → ℂ} {L : Tone} (h : Exact P u L) : HasSum (fun k : ℤ => ‖L.C k‖ ^ 2) 1 := by
  have := (h.orth 0).mapL reCLM
  rw [if_pos rfl] at this
  simpa [mul_conj, normSq_eq_norm_sq, ← ofReal_pow] using this

/-- Cauchy-Schwarz. -/
theorem Exact.pair_le {P : ℕ} {u : ℕ → ℂ} {L : Tone} (h : Exact P u L) (a : ℤ) :
    ∑' k : ℤ, ‖L.C k‖ * ‖L.C (k + a)‖ ≤ 1 := by
  have h1 := h.norm_sq
  have h2 : HasSum (fun k : ℤ => ‖L.C (k + a)‖ ^ 2) 1 := (Equiv.addRight a).hasSum_iff.2 h1
  have h3 := (h1.add h2).div_const 2
  refine (hasSum_le (fun k => ?_) (pair_summable0 h.small a).hasSum h3).trans (by norm_num)
  nlinarith [sq_nonneg (‖L.C k‖ - ‖L.C (k + a)‖)]

theorem moment_summable {L : Tone} (h : Small fun k => ‖L.C k‖) (a : ℤ) :
    Summable fun k : ℤ => ‖L.C k‖ * ‖L.C (k + a)‖ * |(k : ℝ) * L.w| := by
  refine Summable.of_nonneg_of_le (fun k => by positivity) (fun k => ?_) ((pair_summable h a 1).mul_left |L.w|)
  rw [pow_one, abs_mul]
  have : (0 : ℝ) ≤ ‖L.C k‖ * ‖L.C (k + a)‖ * |L.w| := by positivity
  nlinarith

/-- The mean energy exchanged is limited by the drive. -/
theorem Exact.moment_le {P : ℕ} {u : ℕ → ℂ} {L : Tone} (h : Exact P u L) (a : ℤ) :
    ∑' k : ℤ, ‖L.C k‖ * ‖L.C (k + a)‖ * |(k : ℝ) * L.w| ≤ ∑ p ∈ Icc 1 P, ‖u p‖ := by
  have hs : ∀ b c : ℤ, (Summable fun k : ℤ => ‖L.C (k + b)‖ * ‖L.C (k + c)‖) ∧
      ∑' k : ℤ, ‖L.C (k + b)‖ * ‖L.C (k + c)‖ ≤ 1 := by
    intro b c
    have e : (fun k : ℤ => ‖L.C (k + b)‖ * ‖L.C (k + c)‖)
        = (fun k : ℤ => ‖L.C k‖ * ‖L.C (k + (c - b))‖) ∘ Equiv.addRight b := by
      funext k
      simp only [Function.comp, Equiv.coe_addRight]
      rw [show k + b + (c - b) = k + c by ring]
    rw [e]
    refine ⟨(Equiv.addRight b).summable_iff.2 (pair_summable0 h.small _), ?_⟩
    exact (Equiv.tsum_eq (Equiv.addRight b) (fun k : ℤ => ‖L.C k‖ * ‖L.C (k + (c - b))‖)).trans_le (h.pair_le _)
  have hb : HasSum (fun k : ℤ => ∑ p ∈ Icc 1 P, ‖u p‖ / 2 * (‖L.C (k + -p)‖ * ‖L.C (k + a)‖ + ‖L.C (k + p)‖ * ‖L.C (k + a)‖))
      (∑ p ∈ Icc 1 P, ‖u p‖ / 2 * (∑' k : ℤ, ‖L.C (k + -p)‖ * ‖L.C (k + a)‖ + ∑' k : ℤ, ‖L.C (k + p)‖ * ‖L.C (k + a)‖)) :=
    hasSum_sum fun p _ => ((hs _ _).1.hasSum.add (hs _ _).1.hasSum).mul_left _
  refine (hasSum_le (fun k => ?_) (moment_summable h.small a).hasSum hb).trans (Finset.sum_le_sum fun p _ => ?_)
  · have r := congrArg norm (h.recur k)
    rw [norm_mul, norm_mul, ← ofReal_intCast, norm_real, norm_real, ← norm_mul, Real.norm_eq_abs] at r
    have r2 : |(k : ℝ) * L.w| * ‖L.C k‖ ≤ ∑ p ∈ Icc 1 P, ‖u p‖ / 2 * (‖L.C (k + -p)‖ + ‖L.C (k + p)‖) := by
      rw [r]
      refine (norm_sum_le _ _).trans (Finset.sum_le_sum fun p _ => ?_)
      rw [norm_div, show ‖(2 : ℂ)‖ = 2 by simp]
      have := norm_add_le ((starRingEnd ℂ) (u p) * L.C (k - p)) (u p * L.C (k + p))
      rw [norm_mul, norm_mul, RCLike.norm_conj] at this
      rw [← sub_eq_add_neg]
      linarith
    calc ‖L.C k‖ * ‖L.C (k + a)‖ * |(k : ℝ) * L.w| = |(k : ℝ) * L.w| * ‖L.C k‖ * ‖L.C (k + a)‖ := by ring
      _ ≤ (∑ p ∈ Icc 1 P, ‖u p‖ / 2 * (‖L.C (k + -p)‖ + ‖L.C (k + p)‖)) * ‖L.C (k + a)‖ :=
          mul_le_mul_of_nonneg_right r2 (norm_nonneg _)
      _ = _ := by
          rw [Finset.sum_mul]
          exact Finset.sum_congr rfl fun p _ => by ring
  · have h1 := (hs (-p) a).2
    have h2 := (hs p a).2
    have := norm_nonneg (u p)
    nlinarith

/-! ## One tone -/

/-- A tone with summation limits, `t`, next to the exact one, `L`: `U` bounds the drive and `τ (c + s)` what the
limits cut off. -/
structure Cut where
  t : Tone
  L : Tone
  τ : ℝ
  U : ℝ
  s : ℝ

/-- What is left out when a sum of weight `c + |k w|` is cut. -/
noncomputable def cutTerm (L : Tone) (nb : ℕ) (a : ℤ) (c : ℝ) (k : ℤ) : ℝ :=
  if |k| ≤ (nb : ℤ) ∧ |k + a| ≤ (nb : ℤ) then 0 else ‖L.C k‖ * ‖L.C (k + a)‖ * (c + |(k : ℝ) * L.w|)

structure Cut.Ok (P : ℕ) (x : Cut) : Prop where
  w_eq : x.t.w = x.L.w
  agree : ∀ k, |k| ≤ (x.t.nb : ℤ) → x.t.C k = x.L.C k
  small : Small fun k => ‖x.L.C k‖
  mass : ∀ a : ℤ, ∑' k : ℤ, ‖x.L.C k‖ * ‖x.L.C (k + a)‖ ≤ 1
  moment : ∀ a : ℤ, ∑' k : ℤ, ‖x.L.C k‖ * ‖x.L.C (k + a)‖ * |(k : ℝ) * x.L.w| ≤ x.U
  tail : ∀ a : ℤ, |a| ≤ (P : ℤ) → ∀ c, 0 ≤ c → ∑' k : ℤ, cutTerm x.L x.t.nb a c k ≤ x.τ * (c + x.s)
  τ_nonneg : 0 ≤ x.τ
  U_nonneg : 0 ≤ x.U
  s_nonneg : 0 ≤ x.s

theorem cutTerm_summable {L : Tone} (h : Small fun k => ‖L.C k‖) (nb : ℕ) (a : ℤ) {c : ℝ} (hc : 0 ≤ c) :
    Summable (cutTerm L nb a c) := by
  refine Summable.of_nonneg_of_le (fun k => ?_) (fun k => ?_)
    (((pair_summable0 h a).mul_right c).add (moment_summable h a))
  all_goals
    unfold cutTerm
    split_ifs
    · positivity
  · positivity
  · exact (mul_add _ _ _).le

/-! ## Lists of tones -/

theorem corrFull_le {resp : ℝ → ℂ} {K : ℝ} (hK : 0 ≤ K) (hr : ∀ v, ‖resp v‖ ≤ K * (1 + |v|)) {P : ℕ} (xs : List Cut)
    (h : ∀ x ∈ xs, x.Ok P) (as : List ℤ) (hlen : as.length = xs.length) (v : ℝ) :
    ‖corrFull resp ((xs.map Cut.L).zip as) v‖ ≤ K * (1 + |v| + (xs.map Cut.U).sum) := by
  induction xs generalizing as v with
  | nil => simpa [corrFull] using hr v
  | cons x xs ih =>
    obtain ⟨a, as, rfl⟩ := List.exists_cons_of_length_eq_add_one hlen
    have hx := h x (by simp)
    have ih' := ih (fun y hy => h y (by simp [hy])) as (by simpa using hlen)
    have hU : 0 ≤ (xs.map Cut.U).sum := List.sum_nonneg fun u hu => by
      obtain ⟨y, hy, rfl⟩ := List.mem_map.1 hu
      exact (h y (by simp [hy])).U_nonneg
    set U := (xs.map Cut.U).sum
    have hb := ((pair_summable0 hx.small a).hasSum.mul_right (K * (1 + |v| + U))).add
      ((moment_summable hx.small a).hasSum.mul_left K)
    have := tsum_of_norm_bounded hb (f := fun k : ℤ => x.L.C k * (starRingEnd ℂ) (x.L.C (k + a)) *
      corrFull resp ((xs.map Cut.L).zip as) (v + k * x.L.w)) fun k => by
        rw [norm_mul, norm_mul, RCLike.norm_conj]
        have h1 := ih' (v + k * x.L.w)
        have h2 := abs_add_le v (k * x.L.w)
        have h3 : ‖corrFull resp ((xs.map Cut.L).zip as) (v + k * x.L.w)‖ ≤ K * (1 + |v| + U) + K * |(k : ℝ) * x.L.w| :=
          h1.trans (by nlinarith)
        refine (mul_le_mul_of_nonneg_left h3 (by positivity)).trans_eq ?_
        ring
    simp only [List.map_cons, List.zip_cons_cons, corrFull, List.sum_cons]
    refine this.trans ?_
    have m := hx.mass a
    have m1 := hx.moment a
    have : 0 ≤ K * (1 + |v| + U) := by positivity
    nlinarith

theorem corr_error {resp : ℝ → ℂ} {K : ℝ} (hK : 0 ≤ K) (hr : ∀ v, ‖resp v‖ ≤ K * (1 + |v|)) {P : ℕ} (xs : List Cut)
    (h : ∀ x ∈ xs, x.Ok P) (as : List ℤ) (hlen : as.length = xs.length) (has : ∀ a ∈ as, |a| ≤ (P : ℤ)) (v : ℝ) :
    ‖corr resp ((xs.map Cut.t).zip as) v - corrFull resp ((xs.map Cut.L).zip as) v‖
      ≤ K * ((xs.map Cut.τ).sum * (1 + |v| + (xs.map Cut.U).sum) + (xs.map fun x => x.τ * x.s).sum) := by
  induction xs generalizing as v with
  | nil => simp [corrFull, corr]
  | cons x xs ih =>
    obtain ⟨a, as, rfl⟩ := List.exists_cons_of_length_eq_add_one hlen
    have hx := h x (by simp)
    have hxs : ∀ y ∈ xs, y.Ok P := fun y hy => h y (by simp [hy])
    have hl : as.length = xs.length := by simpa using hlen
    have ha : |a| ≤ (P : ℤ) := has a (by simp)
    have ih' := ih hxs as hl fun b hb => has b (by simp [hb])
    have hf := corrFull_le hK hr xs hxs as hl
    have hU : 0 ≤ (xs.map Cut.U).sum := List.sum_nonneg fun u hu => by
      obtain ⟨y, hy, rfl⟩ := List.mem_map.1 hu
      exact (hxs y hy).U_nonneg
    have hT : 0 ≤ (xs.map Cut.τ).sum := List.sum_nonneg fun u hu => by
      obtain ⟨y, hy, rfl⟩ := List.mem_map.1 hu
      exact (hxs y hy).τ_nonneg
    have hQ : 0 ≤ (xs.map fun x => x.τ * x.s).sum := List.sum_nonneg fun u hu => by
      obtain ⟨y, hy, rfl⟩ := List.mem_map.1 hu
      exact mul_nonneg (hxs y hy).τ_nonneg (hxs y hy).s_nonneg
    set U := (xs.map Cut.U).sum
    set T := (xs.map Cut.τ).sum
    set Q := (xs.map fun x => x.τ * x.s).sum
    set R := fun v => corr resp ((xs.map Cut.t).zip as) v
    set R' := fun v => corrFull resp ((xs.map Cut.L).zip as) v
    -- both sums over all integers
    have hg : HasSum (fun k : ℤ => if |k| ≤ (x.t.nb : ℤ) ∧ |k + a| ≤ (x.t.nb : ℤ) then
        x.L.C k * (starRingEnd ℂ) (x.L.C (k + a)) * R (v + k * x.L.w) else 0)
        (corr resp (((x :: xs).map Cut.t).zip (a :: as)) v) := by
      simp only [List.map_cons, List.zip_cons_cons, corr]
      rw [Finset.sum_congr rfl (g := fun k : ℤ => if |k| ≤ (x.t.nb : ℤ) ∧ |k + a| ≤ (x.t.nb : ℤ) then
        x.L.C k * (starRingEnd ℂ) (x.L.C (k + a)) * R (v + k * x.L.w) else 0)]
      · refine hasSum_sum_of_ne_finset_zero fun k hk => if_neg fun hc => hk ?_
        exact Finset.mem_Icc.2 (abs_le.1 hc.1)
      · intro k hk
        have hk' : |k| ≤ (x.t.nb : ℤ) := abs_le.2 (Finset.mem_Icc.1 hk)
        simp only [hk', true_and]
        split_ifs with hc
        · rw [hx.agree k hk', hx.agree _ hc, hx.w_eq]
        · rfl
    have hr1 : Growth 1 resp := ⟨K, hK, by simpa using hr⟩
    have hfull : HasSum (fun k : ℤ => x.L.C k * (starRingEnd ℂ) (x.L.C (k + a)) * R' (v + k * x.L.w))
        (corrFull resp (((x :: xs).map Cut.L).zip (a :: as)) v) := by
      rw [List.map_cons]
      refine corrFull_hasSum hr1 hx.small (fun L hL => ?_) a as v
      obtain ⟨y, hy, rfl⟩ := List.mem_map.1 hL
      exact (hxs y hy).small
    have hc0 : 0 ≤ 1 + |v| + U := by positivity
    have hb := (((pair_summable0 hx.small a).hasSum.mul_right (K * (T * (1 + |v| + U) + Q))).add
      ((moment_summable hx.small a).hasSum.mul_left (K * T))).add
      ((cutTerm_summable hx.small x.t.nb a hc0).hasSum.mul_left K)
    have hd := (hg.sub hfull)
    rw [← hd.tsum_eq]
    refine (tsum_of_norm_bounded hb fun k => ?_).trans ?_
    · have h2 := abs_add_le v (k * x.L.w)
      have hn : (0 : ℝ) ≤ ‖x.L.C k‖ * ‖x.L.C (k + a)‖ := by positivity
      unfold cutTerm
      split_ifs with hc
      · rw [← mul_sub, norm_mul, norm_mul, RCLike.norm_conj]
        have h1 := ih' (v + k * x.L.w)
        have h3 : ‖R (v + k * x.L.w) - R' (v + k * x.L.w)‖ ≤ K * (T * (1 + |v| + U) + Q) + K * T * |(k : ℝ) * x.L.w| := by
          refine h1.trans ?_
          have : K * T * |v + k * x.L.w| ≤ K * T * (|v| + |(k : ℝ) * x.L.w|) := mul_le_mul_of_nonneg_left h2 (by positivity)
          linarith
        refine (mul_le_mul_of_nonneg_left h3 hn).trans_eq ?_
        ring
      · rw [zero_sub, norm_neg, norm_mul, norm_mul, RCLike.norm_conj]
        have h1 := hf (v + k * x.L.w)
        have h3 : ‖R' (v + k * x.L.w)‖ ≤ K * (1 + |v| + U + |(k : ℝ) * x.L.w|) := by
          refine h1.trans (mul_le_mul_of_nonneg_left ?_ hK)
          linarith
        have h4 := mul_le_mul_of_nonneg_left h3 hn
        have h5 : 0 ≤ ‖x.L.C k‖ * ‖x.L.C (k + a)‖ * (K * (T * (1 + |v| + U) + Q)) := by positivity
        have h6 : 0 ≤ K * T * (‖x.L.C k‖ * ‖x.L.C (k + a)‖ * |(k : ℝ) * x.L.w|) := by positivity
        refine h4.trans ?_
        linarith
    · have m := hx.mass a
      have m1 := hx.moment a
      have m2 := hx.tail a ha _ hc0
      have e1 := mul_le_mul_of_nonneg_right m (show 0 ≤ K * (T * (1 + |v| + U) + Q) by positivity)
      have e2 := mul_le_mul_of_nonneg_left m1 (show 0 ≤ K * T by positivity)
      have e3 := mul_le_mul_of_nonneg_left m2 hK
      have e4 : 0 ≤ K * (x.τ * x.U) := mul_nonneg hK (mul_nonneg hx.τ_nonneg hx.U_nonneg)
      simp only [List.map_cons, List.sum_cons]
      refine (add_le_add (add_le_add e1 e2) e3).trans ?_
      have : K * ((x.τ + T) * (1 + |v| + (x.U + U)) + (x.τ * x.s + Q)) = 1 * (K * (T * (1 + |v| + U) + Q)) + K * T * x.U
        + K * (x.τ * (1 + |v| + U + x.s)) + K * (x.τ * x.U) := by ring
      rw [this]
      linarith

/-- The bound of `corr_error`. -/
noncomputable def cutBound (K : ℝ) (xs : List Cut) (v : ℝ) : ℝ :=
  K * ((xs.map Cut.τ).sum * (1 + |v| + (xs.map Cut.U).sum) + (xs.map fun x => x.τ * x.s).sum)

theorem mix_error {resp : ℝ → ℂ} {K : ℝ} (hK : 0 ≤ K) (hr : ∀ v, ‖resp v‖ ≤ K * (1 + |v|)) {P : ℕ} (xs : List Cut)
    (h : ∀ x ∈ xs, x.Ok P) (as : List ℤ) (hlen : as.length = xs.length) (has : ∀ a ∈ as, |a| ≤ (P : ℤ)) (v : ℝ) :
    ‖mixProduct resp ((xs.map Cut.t).zip as) v - mixFull resp ((xs.map Cut.L).zip as) v‖ ≤ 2 * cutBound K xs v := by
  have h1 := corr_error hK hr xs h as hlen has v
  have h2 := corr_error hK hr xs h (as.map fun a => -a) (by simpa using hlen) (fun a ha => by
    obtain ⟨b, hb, rfl⟩ := List.mem_map.1 ha
    simpa using has b hb) v
  change _ ≤ cutBound K xs v at h1 h2
  have h0 : 0 ≤ cutBound K xs v := (norm_nonneg _).trans h1
  unfold mixProduct mixFull
  rw [zip_neg, zip_neg]
  simp only [zip_zero_iff (show as.length = (xs.map Cut.t).length by simpa using hlen),
    zip_zero_iff (show as.length = (xs.map Cut.L).length by simpa using hlen)]
  split_ifs
  · rw [← ofReal_sub, norm_real, ← sub_im]
    exact (abs_im_le_norm _).trans (by linarith)
  · rw [← mul_sub, norm_mul, norm_neg, norm_I, one_mul, sub_sub_sub_comm, ← map_sub]
    refine (norm_sub_le _ _).trans ?_
    rw [RCLike.norm_conj]
    linarith

theorem mixFreq_cut {P : ℕ} (xs : List Cut) (h : ∀ x ∈ xs, x.Ok P) (as : List ℤ) :
    mixFreq ((xs.map Cut.t).zip as) = mixFreq ((xs.map Cut.L).zip as) := by
  unfold mixFreq
  induction xs generalizing as with
  | nil => rfl
  | cons x xs ih =>
    cases as with
    | nil => rfl
    | cons a as =>
      have := ih (fun y hy => h y (by simp [hy])) as
      simp only [List.map_cons, List.zip_cons_cons, List.sum_cons, this, (h x (by simp)).w_eq]

theorem boxSum_error {P : ℕ} (ts Ls : List Tone) (hl : ts.length = Ls.length) {g g' : List (Tone × ℤ) → ℂ} {B : ℝ} (hB : 0 ≤ B)
    (h : ∀ as : List ℤ, as.length = ts.length → (∀ a ∈ as, |a| ≤ (P : ℤ)) → ‖g (ts.zip as) - g' (Ls.zip as)‖ ≤ B) :
    ‖boxSum P ts g - boxSum P Ls g'‖ ≤ (2 * P + 1 : ℕ) ^ ts.length * B := by
  induction ts generalizing Ls g g' with
  | nil =>
    obtain rfl := List.length_eq_zero_iff.1 hl.symm
    simpa [boxSum] using h [] rfl (by simp)
  | cons t ts ih =>
    cases Ls with
    | nil => simp at hl
    | cons L Ls =>
      simp only [boxSum]
      rw [← Finset.sum_sub_distrib]
      refine (norm_sum_le_of_le _ fun a ha => ih Ls (by simpa using hl) (g := fun l => g ((t, a) :: l))
        (g' := fun l => g' ((L, a) :: l)) fun as h1 h2 => ?_).trans ?_
      · exact h (a :: as) (by simp [h1]) (List.forall_mem_cons.2 ⟨abs_le.2 (Finset.mem_Icc.1 ha), h2⟩)
      · rw [Finset.sum_const, Int.card_Icc, nsmul_eq_mul, show ((P : ℤ) + 1 - -P).toNat = 2 * P + 1 by omega,
          List.length_cons, pow_succ]
        exact (by ring : _ = _).le

theorem current_error {resp : ℝ → ℂ} {K : ℝ} (hK : 0 ≤ K) (hr : ∀ v, ‖resp v‖ ≤ K * (1 + |v|)) {P : ℕ} (xs : List Cut)
    (h : ∀ x ∈ xs, x.Ok P) (v f : ℝ) :
    ‖current resp P (xs.map Cut.t) v f - currentFull resp P (xs.map Cut.L) v f‖
      ≤ (2 * P + 1 : ℕ) ^ xs.length * (2 * cutBound K xs v) := by
  have h0 : 0 ≤ 2 * cutBound K xs v := (norm_nonneg _).trans
    (mix_error hK hr xs h (List.replicate xs.length 0) (by simp) (fun a ha => by
      rw [List.eq_of_mem_replicate ha]; simp) v)
  have := boxSum_error (P := P) (xs.map Cut.t) (xs.map Cut.L) (by simp) h0
    (g := fun l => if round4 (mixFreq l) = round4 f then mixProduct resp l v else 0)
    (g' := fun l => if round4 (mixFreq l) = round4 f then mixFull resp l v else 0) fun as h1 h2 => by
      rw [mixFreq_cut xs h]
      split_ifs
      · exact mix_error hK hr xs h as (by simpa using h1) h2 v
      · simpa using h0
  rwa [List.length_map] at this

end QMix
