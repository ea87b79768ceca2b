import Verif.Lemmas.MathFn2
import Verif.Lemmas.IvModels
import Verif.Lemmas.KkTrans
import Verif.Lemmas.PrincipalValue

/-!
# Properties of `qmix/mathfn`
-/

namespace QMix.Props

open QMix.Np QMix.MathFn Filter Topology

/-! ## C42: `kk_trans` -/

/-- C42: the transform has one value per point; it vanishes for `current = voltage`; it is linear in
the excess current; and it is even for an odd curve (sampled symmetrically about the centre). -/
theorem C42_zero {v r : List ℝ} {n : ℤ} (h : kkTrans v v n = .ok r) :
    r = v.map fun _ => (0 : ℝ) := by
  obtain ⟨hn, h2, rfl⟩ := kkTrans_ok rfl h
  have hle : v.length ≤ v.length * n.toNat := Nat.le_mul_of_pos_right _ (by omega)
  symm
  apply ext_tab (by simp)
  intro i hi
  have : (tab v.length fun t => v.getD t 0 - v.getD t 0) = tab v.length fun _ => 0 :=
    tab_ext rfl fun t _ => sub_self _
  rw [this, kkAt_zero _ _ hle]
  simp [hi]

theorem C42_linear {v i₁ i₂ i₃ r₁ r₂ r₃ : List ℝ} {n : ℤ} {a b : ℝ} (h1 : i₁.length = v.length)
    (h2 : i₂.length = v.length) (h3 : i₃.length = v.length)
    (hi : ∀ t < v.length, i₃.getD t 0 - v.getD t 0
      = a * (i₁.getD t 0 - v.getD t 0) + b * (i₂.getD t 0 - v.getD t 0))
    (k1 : kkTrans v i₁ n = .ok r₁) (k2 : kkTrans v i₂ n = .ok r₂) (k3 : kkTrans v i₃ n = .ok r₃) :
    r₃.length = v.length ∧ ∀ t < v.length, r₃.getD t 0 = a * r₁.getD t 0 + b * r₂.getD t 0 := by
  obtain ⟨hn, -, rfl⟩ := kkTrans_ok h1 k1
  obtain ⟨-, -, rfl⟩ := kkTrans_ok h2 k2
  obtain ⟨-, -, rfl⟩ := kkTrans_ok h3 k3
  have hle : v.length ≤ v.length * n.toNat := Nat.le_mul_of_pos_right _ (by omega)
  refine ⟨tab_length _ _, fun t ht => ?_⟩
  rw [tab_getD ht, tab_getD ht, tab_getD ht, tab_ext rfl hi]
  exact kkAt_lin _ _ hle _ _ a b t

theorem C42_parity {v i r : List ℝ} {n : ℤ} (hl : i.length = v.length) (hv : v.reverse = v.map fun t => -t)
    (hi : i.reverse = i.map fun t => -t) (h : kkTrans v i n = .ok r) : r.reverse = r := by
  obtain ⟨hn, -, rfl⟩ := kkTrans_ok hl h
  have hle : v.length ≤ v.length * n.toNat := Nat.le_mul_of_pos_right _ (by omega)
  have key : ∀ l : List ℝ, l.reverse = l.map (fun t => -t) → ∀ t < l.length,
      l.getD (l.length - 1 - t) 0 = -l.getD t 0 := by
    intro l hl t ht
    have e := eq_tab l 0
    rw [e, reverse_tab, map_tab] at hl
    have := congrArg (fun l => l.getD t 0) hl
    beta_reduce at this
    rw [tab_getD ht, tab_getD ht] at this
    exact this
  rw [reverse_tab]
  apply tab_ext rfl
  intro k hk
  apply kkAt_odd _ _ hle _ _ _ hk
  intro t ht
  rw [key v hv t ht]
  have := key i hi t (by rw [hl]; exact ht)
  rw [hl] at this
  rw [this]
  ring

/-- Every evenly spaced grid is accepted. -/
theorem C42_accepted (N : ℕ) (hN : 2 ≤ N) (a d : ℝ) (i : List ℝ) (hl : i.length = N) {n : ℤ} (hn : 1 ≤ n) :
    ∃ r, kkTrans (tab N fun t => a + d * t) i n = .ok r :=
  kkTrans_even N hN a d i hl hn

/-- A grid of three points with an odd current satisfies the hypotheses. -/
example : ∃ r, kkTrans (tab 3 fun t => -1 + 1 * t) [-5, 0, 5] 50 = .ok r ∧ r.reverse = r := by
  obtain ⟨r, hr⟩ := C42_accepted 3 (by norm_num) (-1) 1 [-5, 0, 5] rfl (n := 50) (by norm_num)
  refine ⟨r, hr, C42_parity (by simp) ?_ ?_ hr⟩
  · simp [tab, List.range_succ]; norm_num
  · simp

/-! ## C72: harmonics -/

/-- C72: without padding (`n = 1`) a harmonic of the excess current is turned by a quarter of a
period: a cosine becomes minus the sine. -/
theorem C72_harmonic {v i r : List ℝ} {m : ℕ} {φ : ℝ} (hm : 0 < m) (h2 : 2 * m < v.length)
    (hl : i.length = v.length)
    (hi : ∀ t < v.length, i.getD t 0 = v.getD t 0 + Real.cos (2 * Real.pi * m * t / v.length + φ))
    (h : kkTrans v i 1 = .ok r) :
    r = tab v.length fun k => -Real.sin (2 * Real.pi * m * k / v.length + φ) := by
  obtain ⟨-, -, rfl⟩ := kkTrans_ok hl h
  apply tab_ext rfl
  intro k _
  rw [show v.length * (1 : ℤ).toNat = v.length by simp, ← kkAt_cos hm h2 φ k]
  congr 1
  apply tab_ext rfl
  intro t ht
  rw [hi t ht]
  ring

theorem C72_constant {v i r : List ℝ} {c : ℝ} (hl : i.length = v.length)
    (hi : ∀ t < v.length, i.getD t 0 = v.getD t 0 + c)
    (h : kkTrans v i 1 = .ok r) : r = v.map fun _ => (0 : ℝ) := by
  obtain ⟨-, h2, rfl⟩ := kkTrans_ok hl h
  symm
  apply ext_tab (by simp)
  intro k hk
  have : (tab v.length fun t => i.getD t 0 - v.getD t 0) = tab v.length fun _ => c :=
    tab_ext rfl fun t ht => by rw [hi t ht]; ring
  rw [this, show v.length * (1 : ℤ).toNat = v.length by simp, kkAt_const (by omega)]
  simp [hk]

/-- Four points, first harmonic: the excess `1, 0, -1, 0` gives `0, -1, 0, 1`. -/
example : ∃ r, kkTrans (tab 4 fun t => 0 + 1 * t)
      (tab 4 fun t => (0 + 1 * t : ℝ) + Real.cos (2 * Real.pi * 1 * t / 4 + 0)) 1 = .ok r
    ∧ r.getD 1 0 = -1 := by
  obtain ⟨r, hr⟩ := C42_accepted 4 (by norm_num) 0 1
    (tab 4 fun t => (0 + 1 * t : ℝ) + Real.cos (2 * Real.pi * 1 * t / 4 + 0)) (by simp) (n := 1) le_rfl
  refine ⟨r, hr, ?_⟩
  have := C72_harmonic (m := 1) (φ := 0) one_pos (by simp) (by simp) (by
    intro t ht
    simp only [tab_length] at ht
    rw [tab_getD ht, tab_getD ht, tab_length]
    push_cast
    rfl) hr
  rw [this, tab_length, tab_getD (by norm_num)]
  have e : 2 * Real.pi * ((1 : ℕ) : ℝ) * ((1 : ℕ) : ℝ) / ((4 : ℕ) : ℝ) + 0 = Real.pi / 2 := by
    push_cast; ring
  rw [e, Real.sin_pi_div_two]

/-! ## C43: odd I-V models -/

/-- The value of the opposite sign. -/
noncomputable def negRet : Ret → Ret
  | .arrF l => .arrF (l.map fun x => -x)
  | .arrI l => .arrI (l.map fun x => -x)
  | .num x => .num (-x)
  | .none => .none

/-- The opposite voltage. -/
noncomputable def negVolt : Volt → Volt
  | .arrF l => .arrF (l.map fun x => -x)
  | .arrI l => .arrI (l.map fun x => -x)
  | .flt x => .flt (-x)
  | .int x => .int (-x)
  | .other => .other

/-- C43: the ideal curve is odd, in every form of the argument. -/
theorem C43_perfect_odd (v : Volt) : perfect (negVolt v) = negRet (perfect v) := by
  cases v with
  | arrF l => simp [perfect, negVolt, negRet, perfectElem_neg, Function.comp_def]
  | arrI l => simp [perfect, negVolt, negRet, perfectElemI_neg, Function.comp_def]
  | flt x => simp only [perfect, negVolt, perfectScalar_eq, negRet, perfectElem_neg]
  | int x =>
    simp only [perfect, negVolt, perfectScalar_eq, negRet]
    rw [Int.cast_neg, perfectElem_neg]
  | other => rfl

/-- C43: the ideal Kramers-Kronig curve is even, in every form of the argument. -/
theorem C43_perfect_kk_even (m : ℝ) (v : Volt) : perfectKk m (negVolt v) = perfectKk m v := by
  cases v with
  | arrF l => simp [perfectKk, negVolt, perfectKkElem_neg, Function.comp_def]
  | arrI l => simp [perfectKk, negVolt, perfectKkElem_neg, Function.comp_def]
  | flt x => simp only [perfectKk, negVolt, perfectKkScalar_eq, perfectKkElem_neg]
  | int x =>
    simp only [perfectKk, negVolt, perfectKkScalar_eq]
    rw [Int.cast_neg, perfectKkElem_neg]
  | other => rfl

/-- C43 for the polynomial model, for integer orders (of either sign). -/
theorem C43_polynomial_odd_partial (v : ℝ) (order : ℤ) :
    polynomial (-v) order = (polynomial v order).map fun i => -i :=
  polynomial_int_neg v order

/-- C43 fails for half-integer orders: the curve of order 1/2 is `v ^ 2 / (1 + v)`. -/
theorem C43_false_half_order :
    polynomial 2 (1 / 2) = .ok (4 / 3) ∧ polynomial (-2) (1 / 2) = .ok (-4) := by
  have e1 : (2 * (1 / 2) + 1 : ℝ) = ((2 : ℤ) : ℝ) := by norm_num
  have e2 : (2 * (1 / 2) : ℝ) = ((1 : ℤ) : ℝ) := by norm_num
  constructor
  · unfold polynomial
    rw [e1, e2, npow_int (Or.inl (by norm_num)), py_bind, npow_int (Or.inl (by norm_num)), py_bind,
      fdiv_ok (by norm_num)]
    norm_num
  · unfold polynomial
    rw [e1, e2, npow_int (Or.inl (by norm_num)), py_bind, npow_int (Or.inl (by norm_num)), py_bind,
      fdiv_ok (by norm_num)]
    norm_num

/-- C43: both exponential models are odd, for every parameter value. -/
theorem C43_exponential_odd (v vgap rn rsg agap : ℝ) (model : String) :
    exponential (-v) vgap rn rsg agap model = (exponential v vgap rn rsg agap model).map fun i => -i := by
  unfold exponential
  by_cases h1 : rn = 0
  · rw [raiseIf_pos h1, raiseIf_pos h1]; rfl
  rw [raiseIf_neg h1, raiseIf_neg h1]
  dsimp only
  have a1 : -agap * (-v * vgap + vgap) = agap * (v * vgap - vgap) := by ring
  have a2 : agap * (-v * vgap + vgap) = -agap * (v * vgap - vgap) := by ring
  have a3 : -agap * (-v * vgap - vgap) = agap * (v * vgap + vgap) := by ring
  have a4 : agap * (-v * vgap - vgap) = -agap * (v * vgap + vgap) := by ring
  by_cases hm : lower model = "fixed".toList ∨ lower model = "corrected".toList
  · rw [if_pos hm, if_pos hm]
    by_cases h2 : rsg = 0 ∨ vgap / rn = 0
    · rw [raiseIf_pos h2, raiseIf_pos h2]; rfl
    · rw [raiseIf_neg h2, raiseIf_neg h2, a1, a2, a3, a4]
      show Except.ok _ = Except.ok _
      congr 1
      ring
  · rw [if_neg hm, if_neg hm]
    by_cases ho : lower model = "original".toList
    · rw [if_pos ho, if_pos ho]
      by_cases h2 : rsg = 0 ∨ vgap / rn = 0
      · rw [raiseIf_pos h2, raiseIf_pos h2]; rfl
      · rw [raiseIf_neg h2, raiseIf_neg h2, a1, a2, a3, a4]
        show Except.ok _ = Except.ok _
        congr 1
        ring
    · rw [if_neg ho, if_neg ho]; rfl

/-- C43: the expanded model is odd, for every parameter value. -/
theorem C43_expanded_odd (v vgap rn rsg agap a0 ileak vnot inot anot ioff : ℝ) :
    expanded (-v) vgap rn rsg agap a0 ileak vnot inot anot ioff
      = (expanded v vgap rn rsg agap a0 ileak vnot inot anot ioff).map fun i => -i := by
  unfold expanded
  dsimp only
  by_cases h1 : rn = 0
  · rw [raiseIf_pos h1, raiseIf_pos h1]; rfl
  rw [raiseIf_neg h1, raiseIf_neg h1]
  by_cases h2 : rsg = 0 ∨ vgap / rn = 0
  · rw [raiseIf_pos h2, raiseIf_pos h2]; rfl
  rw [raiseIf_neg h2, raiseIf_neg h2]
  show Except.ok _ = Except.ok _
  congr 1
  have st : ∀ c x : ℝ, c / (1 + Real.exp x) = c * step x := by
    intro c x; unfold step; rw [mul_one_div]
  simp only [st]
  have a0' : -a0 * (-v * vgap) = -(-a0 * (v * vgap)) := by ring
  have a1 : -agap * (-v * vgap + vgap) = agap * (v * vgap - vgap) := by ring
  have a2 : agap * (-v * vgap + vgap) = -(agap * (v * vgap - vgap)) := by ring
  have a3 : -agap * (-v * vgap - vgap) = agap * (v * vgap + vgap) := by ring
  have a4 : agap * (-v * vgap - vgap) = -(agap * (v * vgap + vgap)) := by ring
  have a5 : anot * (-v * vgap - vnot) = -(anot * (v * vgap + vnot)) := by ring
  have a6 : anot * (-v * vgap + vnot) = -(anot * (v * vgap - vnot)) := by ring
  have b1 : -agap * (v * vgap - vgap) = -(agap * (v * vgap - vgap)) := by ring
  have b2 : -agap * (v * vgap + vgap) = -(agap * (v * vgap + vgap)) := by ring
  rw [a0', a1, a2, a3, a4, a5, a6, b1, b2]
  simp only [step_neg]
  ring

example : ∃ i, exponential 3 (27 / 10000) 14 300 40000 "fixed" = .ok i := by
  unfold exponential
  rw [raiseIf_neg (by norm_num)]
  dsimp only
  rw [if_pos (Or.inl (by decide)), raiseIf_neg (by norm_num)]
  exact ⟨_, rfl⟩

/-! ## C44: the ideal curve -/

/-- C44 for real (float) arguments: scalar and array forms agree and are defined everywhere, and the
curve is 0 below, 1/2 at and `v` above the gap. -/
theorem C44_perfect_partial (v : ℝ) :
    (∃ i, perfect (.flt v) = .num i ∧ (∀ l l', perfect (.arrF (l ++ v :: l'))
        = .arrF (l.map (fun x => (perfectElem x)) ++ i :: l'.map fun x => perfectElem x)) ∧
      (|v| < 1 → i = 0) ∧ (1 < |v| → i = v) ∧ (v = 1 → i = 1 / 2) ∧ (v = -1 → i = -1 / 2)) ∧
    ∀ m, ∃ i, perfectKk m (.flt v) = .num i ∧ perfectKk m (.arrF [v]) = .arrF [i] ∧ (|v| = 1 → i = m) := by
  refine ⟨⟨perfectElem v, perfectScalar_eq v, ?_, perfectElem_lt, perfectElem_gt, ?_, ?_⟩, fun m =>
    ⟨perfectKkElem m v, ?_, rfl, ?_⟩⟩
  · intro l l'
    simp [perfect]
  · rintro rfl; exact perfectElem_one
  · rintro rfl; exact perfectElem_neg_one
  · simp only [perfectKk, perfectKkScalar_eq]
  · intro h
    unfold perfectKkElem
    rw [if_neg (not_not.2 h)]

/-- C44 fails for integer arrays: the value at the gap is 0 there, and 1/2 for the `int`. -/
theorem C44_false_integer_array :
    perfect (.arrI [1]) = .arrI [0] ∧ perfect (.int 1) = .num (1 / 2) := by
  refine ⟨by simp [perfect, perfectElemI], ?_⟩
  simp only [perfect, perfectScalar_eq]
  rw [Int.cast_one, perfectElem_one]

/-- C44 fails for NumPy integers: nothing is returned. -/
theorem C44_false_numpy_int : perfect .other = .none ∧ ∀ m, perfectKk m .other = .none :=
  ⟨rfl, fun _ => rfl⟩

/-! ## C45: the polynomial model -/

/-- C45 for positive voltages: for every real order that is not negative the model is defined, lies
strictly between 0 and `v`, and is strictly increasing; it is 1/2 at the gap. -/
theorem C45_shape_partial {r : ℝ} (hr : 0 ≤ r) :
    polynomial 0 r = .ok 0 ∧ polynomial 1 r = .ok (1 / 2) ∧
    (∀ v : ℝ, 0 < v → ∃ i, polynomial v r = .ok i ∧ 0 < i ∧ i < v) ∧
    ∀ v w i j : ℝ, 0 ≤ v → v < w → polynomial v r = .ok i → polynomial w r = .ok j → i < j := by
  refine ⟨?_, ?_, ?_, ?_⟩
  · rw [polynomial_nonneg le_rfl hr, zero_mul]
  · rw [polynomial_nonneg zero_le_one hr, Real.one_rpow]
    norm_num
  · intro v hv
    have h0 := rpow_pos_or (r := r) hv
    refine ⟨_, polynomial_nonneg hv.le hr, mul_pos hv (ratio_pos h0), ?_⟩
    have := ratio_lt_one h0.le
    nlinarith
  · intro v w i j hv hw hi hj
    have hw0 : 0 < w := lt_of_le_of_lt hv hw
    rw [polynomial_nonneg hv hr] at hi
    rw [polynomial_nonneg hw0.le hr] at hj
    cases hi; cases hj
    have h0 : 0 ≤ v ^ (2 * r) := Real.rpow_nonneg hv _
    have hm := ratio_mono h0 (Real.rpow_le_rpow hv hw.le (by linarith : 0 ≤ 2 * r))
    have hp := ratio_pos (rpow_pos_or (r := r) hw0)
    have hq : 0 ≤ v ^ (2 * r) / (1 + v ^ (2 * r)) := div_nonneg h0 (by linarith)
    nlinarith

/-- C45 for all voltages and natural orders: strictly increasing on the whole line. -/
theorem C45_strictly_increasing_partial (n : ℕ) {v w i j : ℝ} (h : v < w)
    (hi : polynomial v n = .ok i) (hj : polynomial w n = .ok j) : i < j := by
  have hn : (0 : ℝ) ≤ n := Nat.cast_nonneg n
  obtain ⟨h0, -, hp, hm⟩ := C45_shape_partial hn
  have hneg : ∀ u k : ℝ, polynomial u n = .ok k → polynomial (-u) n = .ok (-k) := by
    intro u k hk
    have := polynomial_int_neg u n
    rw [Int.cast_natCast] at this
    rw [this, hk]
    rfl
  rcases le_or_gt 0 v with hv | hv
  · exact hm v w i j hv h hi hj
  · obtain ⟨k, hk, hk0, -⟩ := hp (-v) (by linarith)
    have hvi := hneg _ _ hi
    rw [hvi] at hk
    cases hk
    rcases lt_trichotomy w 0 with hw | rfl | hw
    · have := hm (-w) (-v) (-j) (-i) (by linarith) (by linarith) (hneg _ _ hj) hvi
      linarith
    · rw [h0] at hj
      cases hj
      linarith
    · obtain ⟨l, hl, hl0, -⟩ := hp w hw
      rw [hl] at hj
      cases hj
      linarith

/-- C45: as the order grows the polynomial model tends to the ideal one, at every voltage. -/
theorem C45_limit (v : ℝ) : ∃ i : ℕ → ℝ, (∀ n : ℕ, polynomial v n = .ok (i n)) ∧
    Tendsto i atTop (𝓝 (perfectElem v)) := by
  have key : ∀ u : ℝ, 0 ≤ u → ∃ i : ℕ → ℝ, (∀ n : ℕ, polynomial u n = .ok (i n)) ∧
      Tendsto i atTop (𝓝 (perfectElem u)) := by
    intro u hu
    refine ⟨fun n => u * (u ^ (2 * n) / (1 + u ^ (2 * n))), fun n => ?_, ?_⟩
    · rw [polynomial_nonneg hu (Nat.cast_nonneg n), show (2 * (n : ℝ)) = ((2 * n : ℕ) : ℝ) by push_cast; rfl,
        Real.rpow_natCast]
    · rcases lt_trichotomy u 1 with h | rfl | h
      · rw [perfectElem_lt (by rw [abs_of_nonneg hu]; exact h)]
        exact ratio_limit_lt hu h
      · rw [perfectElem_one]
        refine tendsto_const_nhds.congr fun n => ?_
        norm_num
      · rw [perfectElem_gt (by rw [abs_of_nonneg hu]; exact h)]
        exact ratio_limit_gt h
  rcases le_or_gt 0 v with hv | hv
  · exact key v hv
  · obtain ⟨i, hi, ht⟩ := key (-v) (by linarith)
    refine ⟨fun n => -i n, fun n => ?_, ?_⟩
    · have := polynomial_int_neg (-v) n
      rw [Int.cast_natCast, neg_neg, hi n] at this
      exact this
    · rw [perfectElem_neg] at ht
      have := ht.neg
      rwa [neg_neg] at this

/-- C45 fails for negative orders: order -1 is `v / (1 + v ^ 2)`, which is not increasing. -/
theorem C45_false_negative_order :
    polynomial 2 (-1) = .ok (2 / 5) ∧ polynomial 3 (-1) = .ok (3 / 10) := by
  have h := polynomial_int (v := 2) (k := -1) (Or.inl (by norm_num))
  have h' := polynomial_int (v := 3) (k := -1) (Or.inl (by norm_num))
  constructor
  · rw [show (-1 : ℝ) = ((-1 : ℤ) : ℝ) by norm_num, h]; norm_num
  · rw [show (-1 : ℝ) = ((-1 : ℤ) : ℝ) by norm_num, h']; norm_num

/-! ## C70: the corrected exponential model -/

/-- C70: with positive resistances, gap and sharpness, the corrected exponential model lies between
the subgap line `v * rn / rsg` and the normal-state line `v`. -/
theorem C70_between {v vgap rn rsg agap i : ℝ} (h1 : 0 < vgap) (h2 : 0 < rn) (h3 : 0 < rsg) (h4 : 0 < agap)
    (h : exponential v vgap rn rsg agap "fixed" = .ok i) :
    ∃ w, 0 < w ∧ w < 1 ∧ i = w * (v * (rn / rsg)) + (1 - w) * v := by
  unfold exponential at h
  rw [raiseIf_neg h2.ne'] at h
  dsimp only at h
  rw [if_pos (Or.inl (by decide)), raiseIf_neg (by
    rintro (h' | h')
    · exact h3.ne' h'
    · exact (div_pos h1 h2).ne' h')] at h
  cases h
  refine ⟨step (agap * (v * vgap - vgap)) - step (agap * (v * vgap + vgap)), ?_, ?_, ?_⟩
  · have := step_anti (show agap * (v * vgap - vgap) < agap * (v * vgap + vgap) from
      mul_lt_mul_of_pos_left (by linarith) h4)
    linarith
  · have := step_pos (agap * (v * vgap + vgap))
    have := step_lt_one (agap * (v * vgap - vgap))
    linarith
  · rw [show -agap * (v * vgap + vgap) = -(agap * (v * vgap + vgap)) by ring,
      show -agap * (v * vgap - vgap) = -(agap * (v * vgap - vgap)) by ring, step_neg, step_neg]
    field_simp
    ring

/-- C70 at a voltage above the gap, with resistances 10 and 100: between 0.2 and 2. -/
example : ∃ i, exponential 2 1 10 100 20 "fixed" = .ok i ∧ 1 / 5 < i ∧ i < 2 := by
  have hok : ∃ i, exponential 2 1 10 100 20 "fixed" = .ok i := by
    unfold exponential
    rw [raiseIf_neg (by norm_num)]
    dsimp only
    rw [if_pos (Or.inl (by decide)), raiseIf_neg (by norm_num)]
    exact ⟨_, rfl⟩
  obtain ⟨i, hi⟩ := hok
  obtain ⟨w, h0, h1, rfl⟩ := C70_between (by norm_num) (by norm_num) (by norm_num) (by norm_num) hi
  exact ⟨_, hi, by nlinarith, by nlinarith⟩

/-- The model named `original` does not: for equal resistances it exceeds the line by the factor 2. -/
theorem C70_original_doubles {v vgap rn agap i : ℝ} (h1 : 0 < vgap) (h2 : 0 < rn)
    (h : exponential v vgap rn rn agap "original" = .ok i) : i = 2 * v := by
  unfold exponential at h
  rw [raiseIf_neg h2.ne'] at h
  dsimp only at h
  rw [if_neg (by decide), if_pos (by decide), raiseIf_neg (by
    rintro (h' | h')
    · exact h2.ne' h'
    · exact (div_pos h1 h2).ne' h')] at h
  cases h
  rw [show -agap * (v * vgap + vgap) = -(agap * (v * vgap + vgap)) by ring,
    show -agap * (v * vgap - vgap) = -(agap * (v * vgap - vgap)) by ring, step_neg, step_neg]
  field_simp
  ring

/-! ## C71: the ideal Kramers-Kronig curve -/

/-- C71: away from the gap `perfect_kk` is the principal value of the Kramers-Kronig integral of
`perfect(x) - x`. -/
theorem C71_principal_value (m v : ℝ) (h : |v| ≠ 1) :
    ∃ I K : ℝ → ℝ, (∀ x, perfect (.flt x) = .num (I x)) ∧ (∀ x, perfectKk m (.flt x) = .num (K x)) ∧
      Tendsto (fun ε => 1 / Real.pi * ∫ x in {x | ε ≤ |x - v|}, (I x - x) / (x - v)) (𝓝[>] 0) (𝓝 (K v)) := by
  refine ⟨perfectElem, perfectKkElem m, perfectScalar_eq, fun x => ?_, pv_perfect m h⟩
  simp only [perfectKk, perfectKkScalar_eq]

example : |(1 / 2 : ℝ)| ≠ 1 := by norm_num [abs_of_pos]

/-! ## C46: smoothing is an average -/

/-- C46: as many points as were given. -/
theorem C46_length {x y : List ℝ} {sigma ext : ℝ} (h : gaussConv x sigma ext = .ok y) :
    y.length = x.length := by
  obtain ⟨-, -, rfl⟩ := gaussConv_ok h
  exact tab_length _ _

/-- C46: every output lies between any bounds of the input (so constants are preserved). -/
theorem C46_bounds {x y : List ℝ} {sigma ext lo hi : ℝ} (h : gaussConv x sigma ext = .ok y)
    (hx : ∀ t ∈ x, lo ≤ t ∧ t ≤ hi) : ∀ t ∈ y, lo ≤ t ∧ t ≤ hi := by
  obtain ⟨h1, h2, rfl⟩ := gaussConv_ok h
  have h3 := winLen_ge h1
  intro t ht
  obtain ⟨i, hi', rfl⟩ := mem_tab.1 ht
  have hmem : ∀ j ∈ Finset.range (winLen sigma ext),
      x.getD (reflect x.length ((i : ℤ) + (winLen sigma ext / 2 : ℕ) - j)) 0 ∈ x := by
    intro j hj
    have := reflect_lt h3 h2 hi' (Finset.mem_range.1 hj)
    rw [List.getD_eq_getElem?_getD, List.getElem?_eq_getElem this, Option.getD_some]
    exact List.getElem_mem this
  unfold smoothAt
  constructor
  · calc lo = ∑ j ∈ Finset.range (winLen sigma ext), win sigma ext j * lo := by
          rw [← Finset.sum_mul, win_sum h1, one_mul]
      _ ≤ _ := Finset.sum_le_sum fun j hj =>
          mul_le_mul_of_nonneg_left (hx _ (hmem j hj)).1 (win_pos h1 j).le
  · calc _ ≤ ∑ j ∈ Finset.range (winLen sigma ext), win sigma ext j * hi :=
          Finset.sum_le_sum fun j hj => mul_le_mul_of_nonneg_left (hx _ (hmem j hj)).2 (win_pos h1 j).le
      _ = hi := by rw [← Finset.sum_mul, win_sum h1, one_mul]

theorem C46_constant {x y : List ℝ} {sigma ext c : ℝ} (h : gaussConv x sigma ext = .ok y)
    (hx : ∀ t ∈ x, t = c) : ∀ t ∈ y, t = c := fun t ht => by
  have := C46_bounds h (lo := c) (hi := c) (fun t ht => by rw [hx t ht]; exact ⟨le_rfl, le_rfl⟩) t ht
  exact le_antisymm this.2 this.1

/-- C46: linear. -/
theorem C46_linear {x₁ x₂ y₁ y₂ : List ℝ} {sigma ext a b : ℝ} (hl : x₁.length = x₂.length)
    (h₁ : gaussConv x₁ sigma ext = .ok y₁) (h₂ : gaussConv x₂ sigma ext = .ok y₂) :
    gaussConv (List.zipWith (fun s t => a * s + b * t) x₁ x₂) sigma ext
      = .ok (List.zipWith (fun s t => a * s + b * t) y₁ y₂) := by
  obtain ⟨h1, h2, rfl⟩ := gaussConv_ok h₁
  obtain ⟨-, -, rfl⟩ := gaussConv_ok h₂
  have h3 := winLen_ge h1
  have hlen : (List.zipWith (fun s t => a * s + b * t) x₁ x₂).length = x₁.length := by
    rw [List.length_zipWith, ← hl, min_self]
  rw [gaussConv_eq h1 (by rw [hlen]; exact h2), hlen, ← hl, zipWith_tab]
  congr 1
  apply tab_ext rfl
  intro i hi
  unfold smoothAt
  rw [hlen, ← hl, Finset.mul_sum, Finset.mul_sum, ← Finset.sum_add_distrib]
  apply Finset.sum_congr rfl
  intro j hj
  have hr := reflect_lt h3 h2 hi (Finset.mem_range.1 hj)
  have e1 := eq_tab x₁ 0
  have e2 := eq_tab x₂ 0
  rw [← hl] at e2
  conv_lhs => rw [e1, e2]
  rw [zipWith_tab, tab_length, tab_getD hr]
  ring

/-- C46: order preserving. -/
theorem C46_monotone {x₁ x₂ y₁ y₂ : List ℝ} {sigma ext : ℝ} (hl : x₁.length = x₂.length)
    (hx : ∀ i < x₁.length, x₁.getD i 0 ≤ x₂.getD i 0)
    (h₁ : gaussConv x₁ sigma ext = .ok y₁) (h₂ : gaussConv x₂ sigma ext = .ok y₂) :
    ∀ i < y₁.length, y₁.getD i 0 ≤ y₂.getD i 0 := by
  obtain ⟨h1, h2, rfl⟩ := gaussConv_ok h₁
  obtain ⟨-, -, rfl⟩ := gaussConv_ok h₂
  have h3 := winLen_ge h1
  intro i hi
  rw [tab_length] at hi
  rw [tab_getD hi, tab_getD (by omega)]
  unfold smoothAt
  rw [← hl]
  exact Finset.sum_le_sum fun j hj =>
    mul_le_mul_of_nonneg_left (hx _ (reflect_lt h3 h2 hi (Finset.mem_range.1 hj))) (win_pos h1 j).le

theorem winLen_one (ext : ℝ) (n : ℕ) (h1 : (n : ℝ) < 2 * ext + 1 / 10 ^ 5) (h2 : 2 * ext + 1 / 10 ^ 5 ≤ n + 1) :
    winLen 1 ext = n + 1 := by
  unfold winLen
  have : ⌈ext * 1 + 1 / 10 ^ 5 - -(ext * 1)⌉ = n + 1 := by
    rw [Int.ceil_eq_iff]
    push_cast
    constructor <;> linarith
  rw [this]
  rfl

/-- Five points smoothed with `sigma = 1`, `ext_x = 1` are accepted. -/
example : ∃ y, gaussConv [0, 0, 1, 0, 0] 1 1 = .ok y := by
  have : winLen 1 1 = 2 + 1 := winLen_one 1 2 (by norm_num) (by norm_num)
  exact ⟨_, gaussConv_eq (by norm_num) (by rw [this]; simp)⟩

/-! ## C47: no shift -/

/-- C47 for windows whose half width `ext_x * sigma` is an integer: smoothing commutes with reversing
the data. -/
theorem C47_reverse_partial {x y : List ℝ} {sigma ext : ℝ} {r : ℕ} (hr : ext * sigma = r)
    (h : gaussConv x sigma ext = .ok y) : gaussConv x.reverse sigma ext = .ok y.reverse := by
  obtain ⟨h1, h2, rfl⟩ := gaussConv_ok h
  have hr1 : 1 ≤ r := by
    rw [mul_comm, hr] at h1
    exact_mod_cast h1
  rw [gaussConv_eq h1 (by rw [List.length_reverse]; exact h2), List.length_reverse, reverse_tab]
  congr 1
  apply tab_ext rfl
  intro i hi
  exact smoothAt_reverse hr h2 hi hr1

example : ∃ y, gaussConv [0, 0, 1, 0, 0] 1 1 = .ok y ∧ (1 : ℝ) * 1 = (1 : ℕ) := by
  have : winLen 1 1 = 2 + 1 := winLen_one 1 2 (by norm_num) (by norm_num)
  exact ⟨_, gaussConv_eq (by norm_num) (by rw [this]; simp), by norm_num⟩

/-- C47 fails for other windows: with `sigma = 1`, `ext_x = 3/2` an impulse in the centre of nine
points (the same reversed) is not smoothed to a symmetric curve. -/
theorem C47_false_half_width :
    ∃ y, gaussConv [0, 0, 0, 0, 1, 0, 0, 0, 0] 1 (3 / 2) = .ok y ∧ y.reverse ≠ y := by
  have hL : winLen 1 (3 / 2) = 3 + 1 := winLen_one (3 / 2) 3 (by norm_num) (by norm_num)
  refine ⟨_, gaussConv_eq (by norm_num) (by rw [hL]; simp), ?_⟩
  rw [reverse_tab]
  intro h
  have := congrArg (fun l => l.getD 3 0) h
  simp only [List.length_cons, List.length_nil] at this
  rw [tab_getD (by norm_num), tab_getD (by norm_num)] at this
  unfold smoothAt at this
  rw [hL] at this
  simp only [List.length_cons, List.length_nil, Finset.sum_range_succ, Finset.range_zero, Finset.sum_empty,
    reflect] at this
  norm_num at this
  have this : win 1 (3 / 2) 0 * 0 + win 1 (3 / 2) 1 * 0 + win 1 (3 / 2) 2 * 0 + win 1 (3 / 2) 3 * 1
      = win 1 (3 / 2) 0 * 0 + win 1 (3 / 2) 1 * 1 + win 1 (3 / 2) 2 * 0 + win 1 (3 / 2) 3 * 0 := this
  norm_num at this
  unfold win at this
  have hs := winSum_pos (sigma := 1) (ext := 3 / 2) (by norm_num)
  rw [div_left_inj' hs.ne'] at this
  unfold winExp at this
  rw [Real.exp_eq_exp] at this
  norm_num at this

/-! ## C48: `slope` -/

/-- C48: one value per point. -/
theorem C48_length {x y d : List ℝ} (h : slope x y = .ok d) : d.length = x.length := slope_length h

/-- C48: exact on straight lines, for every grid of at least two different points. -/
theorem C48_line (x : List ℝ) (hx : x.Nodup) (h2 : 2 ≤ x.length) (m c : ℝ) :
    slope x (x.map fun t => m * t + c) = .ok (x.map fun _ => m) := by
  have e := eq_tab x 0
  rw [e] at hx ⊢
  have hinj := tab_nodup hx
  rw [map_tab, map_tab, slope_eq _ _ _ h2 (fun i hi he => by have := hinj _ _ (by omega) (by omega) he; omega)
    (fun he => by have := hinj _ _ (by omega) (by omega) he; omega)
    (fun he => by have := hinj _ _ (by omega) (by omega) he; omega)]
  congr 1
  apply tab_ext rfl
  intro i hi
  have q : ∀ a b : ℕ, a < x.length → b < x.length → a ≠ b →
      (m * x.getD a 0 + c - (m * x.getD b 0 + c)) / (x.getD a 0 - x.getD b 0) = m := by
    intro a b ha hb hab
    have : x.getD a 0 - x.getD b 0 ≠ 0 := sub_ne_zero.2 fun he => hab (hinj _ _ ha hb he)
    field_simp
    ring
  split_ifs
  · exact q _ _ (by omega) (by omega) (by omega)
  · exact q _ _ (by omega) (by omega) (by omega)
  · exact q _ _ (by omega) (by omega) (by omega)

/-- C48: linear in `y`, for all accepted data. -/
theorem C48_linear {x y₁ y₂ d₁ d₂ : List ℝ} {a b : ℝ} (hl₁ : y₁.length = x.length) (hl₂ : y₂.length = x.length)
    (h₁ : slope x y₁ = .ok d₁) (h₂ : slope x y₂ = .ok d₂) :
    slope x (List.zipWith (fun s t => a * s + b * t) y₁ y₂)
      = .ok (List.zipWith (fun s t => a * s + b * t) d₁ d₂) := by
  have e := eq_tab x 0
  have e1 := eq_tab y₁ 0
  have e2 := eq_tab y₂ 0
  rw [hl₁] at e1
  rw [hl₂] at e2
  generalize x.length = n at e e1 e2
  rw [e, e1] at h₁
  rw [e, e2] at h₂
  obtain ⟨c1, c2, c3, c4⟩ := slope_ok h₁
  rw [slope_eq _ _ _ c1 c2 c3 c4] at h₁ h₂
  cases h₁; cases h₂
  have ez : List.zipWith (fun s t => a * s + b * t) y₁ y₂
      = tab n fun i => a * y₁.getD i 0 + b * y₂.getD i 0 := by
    conv_lhs => rw [e1, e2]
    rw [zipWith_tab]
  rw [ez, zipWith_tab]
  conv_lhs => rw [e]
  rw [slope_eq _ _ _ c1 c2 c3 c4]
  congr 1
  apply tab_ext rfl
  intro i _
  split_ifs <;> ring

/-- C48: exact at the interior points of an evenly spaced parabola. -/
theorem C48_parabola (n : ℕ) (h2 : 2 ≤ n) (x0 h p q r : ℝ) (hh : h ≠ 0) {d : List ℝ}
    (hd : slope (tab n fun t => x0 + h * t)
      (tab n fun t => p * (x0 + h * t) ^ 2 + q * (x0 + h * t) + r) = .ok d) :
    ∀ i, 0 < i → i + 1 < n → d.getD i 0 = 2 * p * (x0 + h * i) + q := by
  intro i h0 hi
  obtain ⟨c1, c2, c3, c4⟩ := slope_ok hd
  rw [slope_eq _ _ _ c1 c2 c3 c4] at hd
  cases hd
  rw [tab_getD (by omega), if_neg (by omega), if_neg (by omega), Nat.cast_sub (by omega)]
  push_cast
  have : x0 + h * ((i : ℝ) + 1) - (x0 + h * ((i : ℝ) - 1)) ≠ 0 := by
    rw [show x0 + h * ((i : ℝ) + 1) - (x0 + h * ((i : ℝ) - 1)) = 2 * h by ring]
    exact mul_ne_zero two_ne_zero hh
  rw [div_eq_iff this]
  ring

example : slope [0, 1, 3] ([0, 1, 3].map fun t => 2 * t + 5) = .ok ([0, 1, 3].map fun _ => 2) :=
  C48_line [0, 1, 3] (by norm_num) (by simp) 2 5

/-! ## C49: `slope_span_n` -/

/-- C49: one value per point, and with `nozeros` none of them is zero. -/
theorem C49_length_nozeros {x y d : List ℝ} {n : ℤ} {nz : Bool} (h : slopeSpanN x y n nz = .ok d) :
    d.length = x.length ∧ (nz = true → (0 : ℝ) ∉ d) := by
  obtain ⟨e, he, rfl⟩ := slopeSpanN_last h
  refine ⟨by rw [noZeros_length, he], ?_⟩
  rintro rfl
  exact noZeros_ne e

/-- C49 for spans of at least 3: exact on straight lines, on every grid accepted (a zero slope becomes
1e-10 with `nozeros`); the grids accepted are those with at least `3 * (n - 1) / 2 + 2` points. -/
theorem C49_line_partial (x : List ℝ) (hx : x.Nodup) (k : ℕ) (hk : 1 ≤ k) (m c : ℝ) (nz : Bool) (d : List ℝ) :
    slopeSpanN x (x.map fun t => m * t + c) (2 * k + 1) nz = .ok d ↔
      3 * k + 2 ≤ x.length ∧ d = x.map fun _ => if nz = true ∧ m = 0 then 1 / 10 ^ 10 else m := by
  have e := eq_tab x 0
  rw [e] at hx ⊢
  have hinj := tab_nodup hx
  rw [map_tab, map_tab, tab_length]
  by_cases h : 3 * k + 2 ≤ x.length
  · rw [slopeSpanN_eq _ k hk h _ _ nz hinj]
    have ht : (tab x.length fun i => quot (fun i => x.getD i 0) (fun i => m * x.getD i 0 + c)
        (spanPts x.length k i).1 (spanPts x.length k i).2) = tab x.length fun _ => m := by
      apply tab_ext rfl
      intro i hi
      obtain ⟨h1, h2⟩ := spanPts_range hk h hi
      have : x.getD (spanPts x.length k i).1 0 - x.getD (spanPts x.length k i).2 0 ≠ 0 :=
        sub_ne_zero.2 fun he => by have := hinj _ _ h1 (h2.trans h1) he; omega
      unfold quot
      rw [div_eq_iff this]
      ring
    rw [ht]
    have hz : noZeros nz (tab x.length fun _ => m)
        = tab x.length fun _ => if nz = true ∧ m = 0 then 1 / 10 ^ 10 else m := by
      unfold noZeros
      by_cases hnz : nz = true
      · rw [if_pos hnz, map_tab]
        apply tab_ext rfl
        intro _ _
        by_cases hm : m = 0
        · rw [if_pos hm, if_pos ⟨hnz, hm⟩]
        · rw [if_neg hm, if_neg (fun h => hm h.2)]
      · rw [if_neg hnz]
        apply tab_ext rfl
        intro _ _
        rw [if_neg (fun h => hnz h.1)]
    rw [hz]
    constructor
    · intro h'; cases h'; exact ⟨h, rfl⟩
    · rintro ⟨-, rfl⟩; rfl
  · constructor
    · intro h'; exact absurd h' (slopeSpanN_short _ k hk (by omega) _ _ nz d)
    · intro h'; exact absurd h'.1 h

example : slopeSpanN [0, 1, 2, 3, 4] ([0, 1, 2, 3, 4].map fun t => 7 * t + 1) 3 false
    = .ok [7, 7, 7, 7, 7] := by
  have := (C49_line_partial [0, 1, 2, 3, 4] (by norm_num) 1 le_rfl 7 1 false [7, 7, 7, 7, 7]).2
    ⟨by simp, by simp⟩
  exact this

/-- C49 fails for the accepted span 1: two points on the line `y = x` give slopes of zero. -/
theorem C49_false_span_one : slopeSpanN [0, 1] [0, 1] 1 false = .ok [0, 0] := by
  have hd : spanDiff [0, 1] 0 = .ok [1] := by
    unfold spanDiff slice zip bound
    norm_num
  unfold slopeSpanN
  rw [pyAssert_pos (by norm_num)]
  dsimp only
  rw [show ((1 : ℤ) - 1) / 2 = 0 by norm_num, hd, py_bind, py_bind]
  have hq : Np.div [(1 : ℝ)] [1] = .ok [1] := by
    unfold Np.div zip
    norm_num
  rw [hq, py_bind]
  have hs : setSlice (List.replicate ([0, 1] : List ℝ).length (0 : ℝ)) (some (0 + 1)) (some (-0)) [1]
      = .ok [0, 0] := by
    simp [setSlice, bound]
  rw [hs, py_bind]
  rfl

end QMix.Props
