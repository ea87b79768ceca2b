import Verif.Lemmas.Truncation
import Mathlib.Analysis.SpecificLimits.Normed

/-! How much the summation limits cut off when every tone has one harmonic. -/

namespace QMix

open Complex Finset Spec

/-- The bound of `|J_k(x)|`. -/
noncomputable def powFac (x : ℝ) (k : ℕ) : ℝ := (x / 2) ^ k / k.factorial

theorem powFac_nonneg {x : ℝ} (hx : 0 ≤ x) (k : ℕ) : 0 ≤ powFac x k := by unfold powFac; positivity

theorem powFac_succ_le {x : ℝ} (hx : 0 ≤ x) {n k : ℕ} (hn : x ≤ n + 1) (hk : n ≤ k) : powFac x (k + 1) ≤ powFac x k * (1 / 2) := by
  have h0 := powFac_nonneg hx k
  have hk' : (n : ℝ) ≤ k := by exact_mod_cast hk
  have e : powFac x (k + 1) = powFac x k * (x / 2 / (k + 1)) := by
    unfold powFac
    rw [Nat.factorial_succ, pow_succ]
    push_cast
    have : (k.factorial : ℝ) ≠ 0 := by exact_mod_cast k.factorial_ne_zero
    field_simp
  rw [e]
  refine mul_le_mul_of_nonneg_left ?_ h0
  rw [div_le_iff₀ (by positivity)]
  linarith

theorem powFac_le {x : ℝ} (hx : 0 ≤ x) {n : ℕ} (hn : x ≤ n + 1) {k : ℕ} (hk : n ≤ k) (j : ℕ) :
    powFac x (k + j) ≤ powFac x k * (1 / 2) ^ j := by
  induction j with
  | zero => simp
  | succ j ih =>
    have := powFac_succ_le hx hn (show n ≤ k + j by omega)
    rw [← add_assoc, pow_succ]
    linarith

/-- The weights that dominate what is cut off. -/
noncomputable def cutWeight (n : ℕ) (c w : ℝ) (i : ℕ) : ℝ :=
  if i < n then 0 else if i = n then c + i * w else (1 / 4) ^ (i - (n + 1)) * (c + i * w)

theorem cutWeight_nonneg (n : ℕ) {c w : ℝ} (hc : 0 ≤ c) (hw : 0 ≤ w) (i : ℕ) : 0 ≤ cutWeight n c w i := by
  unfold cutWeight
  split_ifs <;> positivity

theorem hasSum_cutWeight (n : ℕ) (c w : ℝ) :
    HasSum (cutWeight n c w) ((4 / 3 * (c + (n + 1) * w) + 4 / 9 * w) + (c + n * w)) := by
  have h1 : HasSum (fun j : ℕ => ((1 : ℝ) / 4) ^ j) (4 / 3) := by
    have := hasSum_geometric_of_lt_one (r := (1 : ℝ) / 4) (by norm_num) (by norm_num)
    norm_num at this ⊢
    exact this
  have h2 : HasSum (fun j : ℕ => (j : ℝ) * ((1 : ℝ) / 4) ^ j) (4 / 9) := by
    have := hasSum_coe_mul_geometric_of_norm_lt_one (r := (1 : ℝ) / 4) (by norm_num [abs_of_pos])
    norm_num at this ⊢
    exact this
  have h3 := (h1.mul_right (c + (n + 1) * w)).add (h2.mul_right w)
  have e : (fun j : ℕ => ((1 : ℝ) / 4) ^ j * (c + (n + 1) * w) + j * (1 / 4) ^ j * w) = fun j => cutWeight n c w (j + (n + 1)) := by
    funext j
    unfold cutWeight
    rw [if_neg (by omega), if_neg (by omega), Nat.add_sub_cancel]
    push_cast
    ring
  rw [e] at h3
  have h4 := (hasSum_nat_add_iff (f := cutWeight n c w) (n + 1)).1 h3
  rw [Finset.sum_range_succ, Finset.sum_eq_zero (fun i hi => by simp [cutWeight, Finset.mem_range.1 hi]), zero_add] at h4
  have : cutWeight n c w n = c + n * w := by simp [cutWeight]
  rwa [this] at h4

theorem phaseCoeff_one (v : ℕ → ℂ) (w : ℝ) (k : ℤ) : phaseCoeff v w 1 k = jaFull (v 1) w 1 k := by
  rw [phaseCoeff_succ, tsum_eq_single k]
  · rw [show k - ((0 + 1 : ℕ) : ℤ) * k = 0 by push_cast; ring, phaseCoeff_zero]
    simp
  · intro l hl
    rw [phaseCoeff_zero, if_neg (by push_cast; omega), zero_mul]

theorem norm_phaseCoeff_one_le (v : ℕ → ℂ) {w : ℝ} (hw : 0 < w) (k : ℤ) :
    ‖phaseCoeff v w 1 k‖ ≤ powFac (‖v 1‖ / w) k.natAbs := by
  rw [phaseCoeff_one, norm_jaFull, Nat.cast_one, one_mul]
  exact abs_besselJ_le_half k (by positivity)

/-- What the summation limit `n` of a tone cuts off, when the drive level is at most `n + 1`. -/
theorem tail_one (v : ℕ → ℂ) {w : ℝ} (hw : 0 < w) (n : ℕ) (hn : ‖v 1‖ / w ≤ n + 1) (a : ℤ) (ha : |a| ≤ 1) {c : ℝ} (hc : 0 ≤ c) :
    ∑' k : ℤ, cutTerm ⟨phaseCoeff v w 1, 0, w⟩ n a c k
      ≤ 5 * (powFac (‖v 1‖ / w) n * powFac (‖v 1‖ / w) (n + 1)) * (c + (n + 1) * w) := by
  set x := ‖v 1‖ / w with hx
  have hx0 : 0 ≤ x := by positivity
  set β := powFac x n * powFac x (n + 1)
  have hβ : 0 ≤ β := mul_nonneg (powFac_nonneg hx0 _) (powFac_nonneg hx0 _)
  have hC := norm_phaseCoeff_one_le v hw
  have key : ∀ k : ℤ, cutTerm ⟨phaseCoeff v w 1, 0, w⟩ n a c k ≤ β * cutWeight n c w k.natAbs := by
    intro k
    unfold cutTerm
    dsimp only
    have hw0 : 0 ≤ β * cutWeight n c w k.natAbs := mul_nonneg hβ (cutWeight_nonneg n hc hw.le _)
    split_ifs with hin
    · exact hw0
    rw [Int.abs_eq_natAbs, Int.abs_eq_natAbs] at hin
    have ha' : a.natAbs ≤ 1 := by rw [Int.abs_eq_natAbs] at ha; exact_mod_cast ha
    have hab : |(k : ℝ) * w| = k.natAbs * w := by
      rw [abs_mul, abs_of_pos hw, ← Int.cast_abs, Int.abs_eq_natAbs]
      simp
    rw [hab]
    have hpos : 0 ≤ c + (k.natAbs : ℝ) * w := by positivity
    have h1 := hC k
    have h2 := hC (k + a)
    rw [← hx] at h1 h2
    have hmul : ‖phaseCoeff v w 1 k‖ * ‖phaseCoeff v w 1 (k + a)‖ ≤ powFac x k.natAbs * powFac x (k + a).natAbs :=
      mul_le_mul h1 h2 (norm_nonneg _) (powFac_nonneg hx0 _)
    have hge : n ≤ k.natAbs := by
      by_contra hlt
      rw [not_le] at hlt
      exact hin ⟨by omega, by omega⟩
    unfold cutWeight
    rw [if_neg (by omega)]
    split_ifs with heq
    · have h3 : (k + a).natAbs = n + 1 := by omega
      rw [heq, h3] at hmul
      rw [heq]
      rw [heq] at hpos
      exact mul_le_mul_of_nonneg_right hmul hpos
    · obtain ⟨j, hj⟩ : ∃ j, k.natAbs = n + 1 + j := ⟨k.natAbs - (n + 1), by omega⟩
      obtain ⟨i, hi⟩ : ∃ i, (k + a).natAbs = n + j + i := ⟨(k + a).natAbs - (n + j), by omega⟩
      have e1 := powFac_le hx0 hn (show n ≤ n + 1 by omega) j
      have e2 := powFac_le hx0 hn (show n ≤ n + j by omega) i
      have e3 := powFac_le hx0 hn le_rfl j
      have e4 : powFac x (n + j + i) ≤ powFac x n * (1 / 2) ^ j := by
        refine e2.trans (le_trans ?_ e3)
        exact mul_le_of_le_one_right (powFac_nonneg hx0 _) (pow_le_one₀ (by norm_num) (by norm_num))
      rw [hj] at hmul
      rw [hi] at hmul
      have e5 : powFac x (n + 1 + j) * powFac x (n + j + i) ≤ β * (1 / 4) ^ j := by
        refine (mul_le_mul e1 e4 (powFac_nonneg hx0 _) (mul_nonneg (powFac_nonneg hx0 _) (by positivity))).trans_eq ?_
        rw [show ((1 : ℝ) / 4) = 1 / 2 * (1 / 2) by norm_num, mul_pow]
        ring
      rw [hj, Nat.add_sub_cancel_left, ← mul_assoc]
      rw [hj] at hpos
      exact mul_le_mul_of_nonneg_right (hmul.trans e5) hpos
  -- the dominating sum
  have hs := hasSum_cutWeight n c w
  have hs1 : HasSum (fun j : ℕ => cutWeight n c w (j + 1)) (((4 / 3 * (c + (n + 1) * w) + 4 / 9 * w) + (c + n * w)) - cutWeight n c w 0) := by
    rw [hasSum_nat_add_iff (f := cutWeight n c w) 1]
    simpa using hs
  have h0 := cutWeight_nonneg n hc hw.le 0
  have ht : HasSum (fun k : ℤ => β * cutWeight n c w k.natAbs)
      (β * (((4 / 3 * (c + (n + 1) * w) + 4 / 9 * w) + (c + n * w))
        + (((4 / 3 * (c + (n + 1) * w) + 4 / 9 * w) + (c + n * w)) - cutWeight n c w 0))) := by
    refine HasSum.mul_left _ (HasSum.of_nat_of_neg_add_one (f := fun k : ℤ => cutWeight n c w k.natAbs) ?_ ?_)
    · simpa using hs
    · have e : (fun j : ℕ => cutWeight n c w (-((j : ℤ) + 1)).natAbs) = fun j : ℕ => cutWeight n c w (j + 1) := by
        funext j
        congr 1
      exact e ▸ hs1
  have hsm := cutTerm_summable (L := ⟨phaseCoeff v w 1, 0, w⟩) (small_phaseCoeff v w 1) n a hc
  refine (hasSum_le key hsm.hasSum ht).trans ?_
  rw [show 5 * β * (c + (n + 1) * w) = β * (5 * (c + (n + 1) * w)) by ring]
  refine mul_le_mul_of_nonneg_left ?_ hβ
  have hn0 : (0 : ℝ) ≤ n := Nat.cast_nonneg _
  have : 0 ≤ (n : ℝ) * w := by positivity
  linarith

theorem toneCoeff_one (v : ℕ → ℂ) (w : ℝ) {nb M : ℕ} (h : nb ≤ M) (k : ℤ) (hk : |k| ≤ (nb : ℤ)) :
    toneCoeff v w 1 nb M k = phaseCoeff v w 1 k := by
  rw [phaseCoeff_one]
  unfold toneCoeff
  have hk' := abs_le.1 hk
  simp only [harmonicConv]
  rw [Finset.sum_eq_single k]
  · rw [show k - ((0 + 1 : ℕ) : ℤ) * k = 0 by push_cast; ring, if_pos (by simp), if_pos rfl, one_mul, jacobiAnger, if_pos hk]
    rfl
  · intro l _ hl
    rw [if_neg (show ¬k - ((0 + 1 : ℕ) : ℤ) * l = 0 by push_cast; omega)]
    simp
  · intro hn
    exact absurd (Finset.mem_Icc.2 (by omega)) hn

/-- The tones of the specification next to the exact ones, for one harmonic. -/
noncomputable def cuts (v : ℕ → ℕ → ℂ) (freq : ℕ → ℝ) (M : ℕ) : ℕ → List ℕ → List Cut
  | _, [] => []
  | f, nb :: nbs => ⟨⟨toneCoeff (v f) (freq f) 1 nb M, nb, freq f⟩, ⟨phaseCoeff (v f) (freq f) 1, 0, freq f⟩,
      5 * (powFac (‖v f 1‖ / freq f) nb * powFac (‖v f 1‖ / freq f) (nb + 1)), ‖v f 1‖, (nb + 1) * freq f⟩ :: cuts v freq M (f + 1) nbs

theorem cuts_t (v : ℕ → ℕ → ℂ) (freq : ℕ → ℝ) (M f : ℕ) (nbs : List ℕ) : (cuts v freq M f nbs).map Cut.t = tonesFrom v freq 1 M f nbs := by
  induction nbs generalizing f with
  | nil => rfl
  | cons nb nbs ih => simp [cuts, tonesFrom, ih]

theorem cuts_L (v : ℕ → ℕ → ℂ) (freq : ℕ → ℝ) (M f : ℕ) (nbs : List ℕ) :
    (cuts v freq M f nbs).map Cut.L = tonesFull v freq 1 f nbs.length := by
  induction nbs generalizing f with
  | nil => rfl
  | cons nb nbs ih => simp [cuts, tonesFull, ih]

theorem cuts_length (v : ℕ → ℕ → ℂ) (freq : ℕ → ℝ) (M f : ℕ) (nbs : List ℕ) : (cuts v freq M f nbs).length = nbs.length := by
  induction nbs generalizing f with
  | nil => rfl
  | cons nb nbs ih => simp [cuts, ih]

theorem cuts_sum (v : ℕ → ℕ → ℂ) (freq : ℕ → ℝ) (M f : ℕ) (nbs : List ℕ) (g : ℝ → ℝ → ℝ → ℝ) :
    ((cuts v freq M f nbs).map fun x => g x.τ x.U x.s).sum = ∑ i ∈ range nbs.length,
      g (5 * (powFac (‖v (f + i) 1‖ / freq (f + i)) (nbs.getD i 0) * powFac (‖v (f + i) 1‖ / freq (f + i)) (nbs.getD i 0 + 1)))
        ‖v (f + i) 1‖ ((nbs.getD i 0 + 1) * freq (f + i)) := by
  induction nbs generalizing f with
  | nil => rfl
  | cons nb nbs ih =>
    rw [cuts, List.map_cons, List.sum_cons, ih, List.length_cons, Finset.sum_range_succ', add_comm]
    congr 1
    refine Finset.sum_congr rfl fun i _ => ?_
    rw [show f + 1 + i = f + (i + 1) by omega]
    rfl

theorem cuts_ok (v : ℕ → ℕ → ℂ) (freq : ℕ → ℝ) (M f : ℕ) (nbs : List ℕ) (hM : ∀ nb ∈ nbs, nb ≤ M)
    (hf : ∀ i, i < nbs.length → 0 < freq (f + i) ∧ ‖v (f + i) 1‖ ≤ (nbs.getD i 0 + 1) * freq (f + i)) :
    ∀ x ∈ cuts v freq M f nbs, x.Ok 1 := by
  induction nbs generalizing f with
  | nil => simp [cuts]
  | cons nb nbs ih =>
    refine List.forall_mem_cons.2 ⟨?_, ih (f + 1) (fun n hn => hM n (by simp [hn])) fun i hi => ?_⟩
    · obtain ⟨h1, h2⟩ := hf 0 (by simp)
      simp only [Nat.add_zero, List.getD_cons_zero] at h1 h2
      have he := exact_phaseCoeff (v f) h1.ne' 1 0
      have hx : 0 ≤ ‖v f 1‖ / freq f := by positivity
      refine ⟨rfl, fun k hk => toneCoeff_one _ _ (hM nb (by simp)) k hk, small_phaseCoeff _ _ _, he.pair_le, fun a => ?_,
        fun a ha c hc => ?_, ?_, norm_nonneg _, by positivity⟩
      · exact (he.moment_le a).trans (by simp)
      · exact tail_one (v f) h1 nb (by rwa [div_le_iff₀ h1]) a (by simpa using ha) hc
      · have := mul_nonneg (powFac_nonneg hx nb) (powFac_nonneg hx (nb + 1))
        dsimp only
        linarith
    · have := hf (i + 1) (by simpa using hi)
      rw [show f + 1 + i = f + (i + 1) by omega]
      simpa using this

end QMix
