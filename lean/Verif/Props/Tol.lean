import Verif.Props.Classical

/-! # How near a requested frequency must be to a mixing product (C135)

`qtcurrent` compares `round(f, 4)` of the requested frequency with `round(f, 4)` of each mixing
product (`qmix/qtcurrent.py:89-90, 464-476`). Rounding is not a tolerance: two frequencies that lie on
the two sides of a rounding tie never match, however near they are. -/

namespace QMix.Props
open Complex QMix.Qt

variable {ι : Type}

/-- Everything strictly within half a unit of the fourth decimal of `n / 10^4` rounds to it. -/
theorem round4_near {x : ℝ} (n : ℤ) (h : |x - n / 10 ^ 4| < 1 / 20000) : round4 x = n / 10 ^ 4 := by
  have h2 : (n : ℝ) - 1 / 2 < x * 10 ^ 4 ∧ x * 10 ^ 4 < n + 1 / 2 := by
    have := abs_lt.1 h
    constructor <;> linarith [this.1, this.2]
  rw [round4]
  generalize x * 10 ^ 4 = y at h2 ⊢
  have h1 := abs_le.1 (abs_roundHalfEven_sub_le y)
  have u1 : (roundHalfEven y : ℝ) < ((n + 1 : ℤ) : ℝ) := by push_cast; linarith [h1.2, h2.2]
  have u2 : ((n - 1 : ℤ) : ℝ) < (roundHalfEven y : ℝ) := by push_cast; linarith [h1.1, h2.1]
  have u1' := Int.cast_lt.1 u1
  have u2' := Int.cast_lt.1 u2
  rw [show roundHalfEven y = n by omega]

/-- C135, the part that holds: two requests that are both within half a unit of the fourth decimal of
the same four-decimal number get the same current. -/
theorem C135_near_partial (vj : ℕ → ℕ → Arr ι) (cct : Cct ι) (resp : ℝ → ℂ) (nb : NumB) (h : Valid cct nb) (f g : ℝ)
    (n : ℤ) (hf : |f - n / 10 ^ 4| < 1 / 20000) (hg : |g - n / 10 ^ 4| < 1 / 20000) :
    (∃ cur, qtcurrentList vj cct resp [f] nb none = .ok [cur] ∧ qtcurrentList vj cct resp [g] nb none = .ok [cur]) ∧
    ∃ cur, qtcurrentScalar vj cct resp f nb none = .ok cur ∧ qtcurrentScalar vj cct resp g nb none = .ok cur := by
  have e : round4 f = round4 g := (round4_near n hf).trans (round4_near n hg).symm
  have e2 : ∀ (ts : List Spec.Tone) (v : ℝ), Spec.current resp cct.numP ts v f = Spec.current resp cct.numP ts v g := by
    intro ts v
    unfold Spec.current
    rw [e]
  constructor
  · refine ⟨_, qtcurrentList_eq vj cct resp [f] nb h, ?_⟩
    rw [qtcurrentList_eq vj cct resp [g] nb h]
    simp only [List.map_cons, List.map_nil, Spec.qt, e2]
  · refine ⟨_, qtcurrentScalar_eq vj cct resp f nb h, ?_⟩
    rw [qtcurrentScalar_eq vj cct resp g nb h]
    simp only [Spec.qt, e2]

/-- C135: a request that is further than 1e-4 from every mixing product gets no current. -/
theorem C135_far (vj : ℕ → ℕ → Arr ι) (cct : Cct ι) (resp : ℝ → ℂ) (nb : NumB) (h : Valid cct nb) (f : ℝ)
    (hf : ∀ ks : List ℤ, ks.length = cct.numF → (∀ k ∈ ks, |k| ≤ cct.numP) →
      1 / 10 ^ 4 < |Spec.photonShift cct.freq 1 ks - f|) :
    qtcurrentList vj cct resp [f] nb none = .ok [fun _ => 0] := by
  refine C23_unmatched_zero vj cct resp f nb h fun ks h1 h2 => ?_
  have a := hf ks h1 h2
  have b := abs_round4_sub_le f
  have c := abs_sub_abs_le_abs_sub (Spec.photonShift cct.freq 1 ks - f) (round4 f - f)
  rw [sub_sub_sub_cancel_right] at c
  linarith

/-- A circuit whose tone lies on a rounding tie. -/
noncomputable def tie : Cct (Fin 1) := { numF := 1, numP := 1, freq := fun _ => 30005 / 10 ^ 5, vb := fun _ => 1 / 2 }

theorem tie_valid (N : ℕ) : Valid tie (.tup [N]) :=
  ⟨by simp [tie], by simp [tie], by simp [tie], fun _ _ _ => by simp only [tie]; norm_num, by simp [tie, NumB.toTup]⟩

theorem round4_tie : round4 (30005 / 10 ^ 5) = (3000 : ℤ) / 10 ^ 4 := by
  have e : (30005 / 10 ^ 5 : ℝ) * 10 ^ 4 = ((3000 : ℤ) : ℝ) + 1 / 2 := by push_cast; norm_num
  have e1 : ⌊((3000 : ℤ) : ℝ) + 1 / 2⌋ = 3000 := by rw [Int.floor_eq_iff]; constructor <;> push_cast <;> norm_num
  have e2 : Int.fract (((3000 : ℤ) : ℝ) + 1 / 2) = 1 / 2 := by rw [Int.fract, e1]; push_cast; ring
  have : roundHalfEven (((3000 : ℤ) : ℝ) + 1 / 2) = 3000 := by
    unfold roundHalfEven
    rw [e1, e2, if_neg (lt_irrefl _), if_neg (lt_irrefl _), if_pos (by decide)]
  rw [round4, e, this]

/-- C135 is false: there is no tolerance. However small `δ` is, there is a frequency nearer than `δ` to
the tone of this circuit for which `qtcurrent` reports exactly 0, although the current of the tone
itself tends to the amplitude 1/4 of its voltage across the unit resistor. -/
theorem C135_false {δ : ℝ} (hδ : 0 < δ) : ∃ f, |f - tie.freq 1| < δ ∧
    (∀ M, qtcurrentList (fun _ _ _ => 1 / 4) tie (fun v => I * v) [f] (.tup [M]) none = .ok [fun _ => 0]) ∧
    ∃ N, ∀ M, N ≤ M → ∃ cur : Arr (Fin 1),
      qtcurrentList (fun _ _ _ => 1 / 4) tie (fun v => I * v) [tie.freq 1] (.tup [M]) none = .ok [cur] ∧
      ‖cur 0 - 1 / 4‖ < 1 / 100 := by
  have r0 : round4 (0 : ℝ) = (0 : ℤ) / 10 ^ 4 := round4_near 0 (by norm_num)
  have rt := round4_tie
  refine ⟨30005 / 10 ^ 5 + min (δ / 2) (1 / 10 ^ 5), ?_, ?_, ?_⟩
  · have h1 : 0 < min (δ / 2) (1 / 10 ^ 5) := lt_min (by linarith) (by norm_num)
    have h2 : min (δ / 2) (1 / 10 ^ 5 : ℝ) ≤ δ / 2 := min_le_left _ _
    simp only [tie, add_sub_cancel_left, abs_of_pos h1]
    linarith
  · have h1 : 0 < min (δ / 2) (1 / 10 ^ 5) := lt_min (by linarith) (by norm_num)
    have h2 : min (δ / 2) (1 / 10 ^ 5 : ℝ) ≤ 1 / 10 ^ 5 := min_le_right _ _
    have rf : round4 (30005 / 10 ^ 5 + min (δ / 2) (1 / 10 ^ 5)) = (3001 : ℤ) / 10 ^ 4 := by
      apply round4_near
      rw [abs_lt]
      push_cast
      constructor
      · linarith
      · linarith
    intro M
    rw [qtcurrentList_eq _ _ _ _ _ (tie_valid M)]
    simp only [List.map_cons, List.map_nil]
    congr 2
    funext i
    apply Spec.current_unmatched
    intro l h1 h2 he
    have hm := Spec.mixFreq_tonesFrom _ _ _ _ _ _ l h1
    have hl : l.length = 1 := by
      have := congrArg List.length h1
      rw [List.length_map, Spec.length_tonesFrom, List.length_take] at this
      simpa [tie, NumB.toTup] using this
    obtain ⟨x, rfl⟩ := List.length_eq_one_iff.1 hl
    have hx := abs_le.1 (h2 x (by simp))
    rw [hm, rf] at he
    simp only [tie, List.map_cons, List.map_nil, Spec.photonShift, add_zero] at he hx
    have h3 : x.2 = -1 ∨ x.2 = 0 ∨ x.2 = 1 := by
      have a := hx.1; have b := hx.2; push_cast at a b; omega
    rcases h3 with h3 | h3 | h3
    · rw [h3, show ((-1 : ℤ) : ℝ) * (30005 / 10 ^ 5) = -(30005 / 10 ^ 5) by push_cast; ring, round4_neg, rt] at he
      norm_num at he
    · rw [h3, Int.cast_zero, zero_mul, r0] at he
      norm_num at he
    · rw [h3, Int.cast_one, one_mul, rt] at he
      norm_num at he
  · obtain ⟨N, hN⟩ := C100_resistor (fun _ _ _ => 1 / 4) tie (by simp [tie]) (fun f _ _ => by simp [tie]) [tie.freq 1]
      (by norm_num : (0 : ℝ) < 1 / 100)
    refine ⟨N, fun M hM => ?_⟩
    obtain ⟨cur, h1, h2⟩ := hN (.tup [M]) (tie_valid M) (fun f hf => by
      have : f = 0 := by simpa [tie] using hf
      simpa [this, NumB.toTup] using hM)
    refine ⟨cur (tie.freq 1), h1, ?_⟩
    have := h2 (tie.freq 1) (by simp) 0
    simp only [tie, Finset.Icc_self, Finset.sum_singleton, Nat.cast_one, one_mul, round4_neg, rt, r0, if_true] at this
    rw [if_neg (by norm_num), if_neg (by norm_num), zero_add, add_zero] at this
    exact this

/-- Requests for 0.30001 and 0.30004 are the same request. -/
example (vj : ℕ → ℕ → Arr (Fin 2)) (resp : ℝ → ℂ) : ∃ cur,
    qtcurrentScalar vj demo resp 0.30001 (.tup [3, 2]) none = .ok cur ∧
    qtcurrentScalar vj demo resp 0.30004 (.tup [3, 2]) none = .ok cur :=
  (C135_near_partial vj demo resp _ demo_valid _ _ 3000 (by rw [abs_lt]; constructor <;> norm_num)
    (by rw [abs_lt]; constructor <;> norm_num)).2

/-- 0.3002 is too far from 0.30005. -/
example (vj : ℕ → ℕ → Arr (Fin 1)) (resp : ℝ → ℂ) : qtcurrentList vj tie resp [0.3002] (.tup [5]) none = .ok [fun _ => 0] := by
  refine C135_far vj tie resp _ (tie_valid 5) _ fun ks hl hk => ?_
  obtain ⟨k, rfl⟩ := List.length_eq_one_iff.1 hl
  have hk' := abs_le.1 (hk k (by simp))
  simp only [tie, Spec.photonShift, add_zero] at *
  have h3 : k = -1 ∨ k = 0 ∨ k = 1 := by
    have a := hk'.1; have b := hk'.2; push_cast at a b; omega
  rcases h3 with rfl | rfl | rfl <;> norm_num [lt_abs]

end QMix.Props
