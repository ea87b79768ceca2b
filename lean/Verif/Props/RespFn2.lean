import Verif.Props.RespFn
import Verif.Lemmas.IvModels

/-!
# Properties of the response functions, continued (C75, C76, C78)
-/

namespace QMix.RespFn

open QMix.Np QMix.MathFn

/-! ## C78: which inputs are accepted -/

/-- The options for which the classes of this module never fail: errors are not checked, the order of the
splines and the padding are valid, and the smearing (if any) is not too narrow or wide for the grid. -/
structure GoodParams (p : Params) : Prop where
  check : p.checkError = false
  kk : 1 ≤ p.kkN
  order : 1 ≤ p.splineOrder ∧ p.splineOrder ≤ 5
  smear : ∀ s, p.vSmear = some s → 1 / 600 ≤ s ∧ s ≤ 5

theorem vinit_init (S : Splines) {p : Params} (hp : GoodParams p) {c : List ℝ} (hc : c.length = 7001) :
    ∃ r, respInit S VINIT c p = .ok r := by
  rw [VINIT_grid]
  refine grid_init S (by norm_num) (by norm_num) (by norm_num) (by norm_num) hc ?_ hp.kk hp.order hp.check
  intro s hs
  obtain ⟨s1, s2⟩ := hp.smear s hs
  push_cast
  constructor
  · linarith
  · norm_num
    linarith

theorem VINIT_length : VINIT.length = 7001 := by unfold VINIT; rw [tab_length]

/-- C78: the polynomial response function exists for every order that is not negative. -/
theorem C78_polynomial (S : Splines) {p : Params} (hp : GoodParams p) {order : ℝ} (ho : 0 ≤ order) :
    ∃ r, respPolynomial S order p = .ok r := by
  unfold respPolynomial
  have : VINIT.mapM (fun v => polynomial v order)
      = .ok (VINIT.map fun v => v * (v ^ (2 * order) / (1 + v ^ (2 * order)))) := by
    apply mapM_of
    intro v hv
    unfold VINIT at hv
    obtain ⟨i, -, rfl⟩ := mem_tab.1 hv
    exact polynomial_nonneg (by positivity) ho
  rw [this, py_bind]
  exact vinit_init S hp (by rw [List.length_map, VINIT_length])

/-- C78: the exponential response function exists for all parameters except zero resistances or gap. -/
theorem C78_exponential (S : Splines) {p : Params} (hp : GoodParams p) {vgap rn rsg agap : ℝ}
    (h1 : rn ≠ 0) (h2 : rsg ≠ 0) (h3 : vgap ≠ 0) : ∃ r, respExponential S vgap rn rsg agap p = .ok r := by
  unfold respExponential
  have key : ∀ v, ∃ i, exponential v vgap rn rsg agap "fixed" = .ok i := by
    intro v
    unfold exponential
    rw [raiseIf_neg h1]
    dsimp only
    rw [if_pos (Or.inl (by decide)), raiseIf_neg]
    · exact ⟨_, rfl⟩
    · rintro (h | h)
      · exact h2 h
      · rcases div_eq_zero_iff.1 h with h | h
        · exact h3 h
        · exact h1 h
  choose g hg using key
  rw [mapM_of g (fun a _ => hg a), py_bind]
  exact vinit_init S hp (by rw [List.length_map, VINIT_length])

/-- C78: measured data is accepted if the lists have the same length and some sample lies strictly between
0 and the limit. -/
theorem C78_data (S : Splines) {p : Params} (hp : GoodParams p) {voltage current : List ℝ} {vlimit : Option ℝ}
    (hl : current.length = voltage.length) (hk : keptData voltage current (vlimit.getD 1.8) ≠ []) :
    ∃ r, fromIVData S voltage current vlimit p = .ok r := by
  obtain ⟨i, hi⟩ := C40_accepted hl hk
  unfold fromIVData
  rw [hi, py_bind]
  apply vinit_init S hp
  obtain ⟨-, pre, vl, il, -, he⟩ := ivResample_ok hi
  rw [he, tab_length]

theorem impulse_eq : impulse VINIT = .ok (tab 7001 fun i => if i = 200 then 1 else 0) := by
  unfold impulse
  obtain ⟨i, hi⟩ := argmin_ok (l := VINIT.map fun t => |t - 1|) (by
    intro h0
    have := congrArg List.length h0
    rw [List.length_map, VINIT_length] at this
    cases this)
  rw [hi, py_bind]
  have e : VINIT = tab 7001 fun t => 0 + 35 / 7000 * (t : ℝ) := by
    unfold VINIT
    exact tab_ext rfl fun i _ => by ring
  rw [e] at hi ⊢
  have := argmin_grid (k := 200) (by norm_num) (by norm_num) (by norm_num) hi
  subst this
  rw [map_tab]
  exact pySet_tab _ _ (pyIndex_nonneg (by norm_num) (by norm_num))

/-- The current that `RespFnPerfect` passes on when smearing with `s`. -/
noncomputable def perfectBump (s : ℝ) (i : ℕ) : ℝ :=
  smoothAt (s * 200) 3 (tab 7001 fun i => if i = 200 then 1 else 0) i + perfectElem (i * (35 / 7000))

theorem perfectSmeared_eq {s : ℝ} (h1 : 1 / 600 ≤ s) (h2 : s ≤ 5) :
    perfectSmeared s = .ok (tab 7001 (perfectBump s)) := by
  unfold perfectSmeared
  rw [impulse_eq, py_bind]
  have g1 : pyGet VINIT 1 = .ok (1 / 200) := by
    have := pyGet_tab (n := 7001) (k := 1) (i := 1) (fun i => (i : ℝ) * (35 / 7000))
      (pyIndex_nonneg (by norm_num) (by norm_num))
    rw [show ((1 : ℕ) : ℝ) * (35 / 7000) = 1 / 200 by norm_num] at this
    exact this
  have g0 : pyGet VINIT 0 = .ok 0 := by
    have := pyGet_tab (n := 7001) (k := 0) (i := 0) (fun i => (i : ℝ) * (35 / 7000))
      (pyIndex_nonneg (by norm_num) (by norm_num))
    rw [Nat.cast_zero, zero_mul] at this
    exact this
  have hw : winLen (s * 200) 3 ≤ 7001 := by
    unfold winLen
    have : ⌈3 * (s * 200) + 1 / 10 ^ 5 - -(3 * (s * 200))⌉ ≤ ((7001 : ℕ) : ℤ) := by
      rw [Int.ceil_le]
      push_cast
      linarith
    omega
  rw [g1, py_bind, g0, py_bind, sub_zero, fdiv_ok (by norm_num), py_bind,
    show s / (1 / 200) = s * 200 by ring, gaussConv_eq (by linarith) (by rw [tab_length]; exact hw), py_bind,
    tab_length]
  unfold VINIT
  rw [map_tab, zip_tab]
  rfl

/-- C78: the perfect response function exists for every smearing. -/
theorem C78_perfect (S : Splines) {p : Params} (hp : GoodParams p) : ∃ r, respPerfect S p = .ok r := by
  unfold respPerfect
  cases hs : p.vSmear with
  | none => exact ⟨_, rfl⟩
  | some s =>
    obtain ⟨s1, s2⟩ := hp.smear s hs
    dsimp only
    rw [perfectSmeared_eq s1 s2, py_bind]
    exact vinit_init S hp (tab_length _ _)

/-- The default options, with a smearing of 0.02, are good. -/
example : GoodParams { vSmear := some 0.02 } :=
  ⟨rfl, by norm_num, by norm_num, by rintro s ⟨⟩; norm_num⟩

/-- The line is accepted with and without smearing, so the hypotheses of C36, C38 and C73 can be met. -/
example (S : Splines) : ∃ r, respInit S line line {} = .ok r ∧ r.current.reverse = r.current.map (fun t => -t) ∧
    r.idc 0 = 0 := by
  obtain ⟨r, hr⟩ := grid_init S (M := 40) (N := 240) (by norm_num) (by norm_num) (by norm_num) (by norm_num)
    (c := line) (tab_length _ _) (p := {}) (by rintro s ⟨⟩) (by norm_num) (by norm_num) rfl
  change respInit S line line {} = .ok r at hr
  have hl : line.length = 241 := tab_length _ _
  have h0 : line.getD 0 0 = 0 := by
    unfold line grid
    rw [tab_getD (by norm_num)]
    norm_num
  obtain ⟨l1, -, hv, hc, -, -, ho⟩ := C36_data rfl rfl hr
  refine ⟨r, hr, ho.2 h0, ?_⟩
  have v0 := (hv 0 (by omega)).1
  have c0 := (hc 0 (by omega)).1
  have := (C73_exact hr (i := line.length - 1 + 0) (by omega) (Or.inl (by
    rw [v0, h0]
    norm_num))).1
  rw [v0, c0, h0] at this
  exact this

example (S : Splines) : ∃ r, respInit S line line { vSmear := some 0.1 } = .ok r ∧
    r.current.reverse = r.current.map fun t => -t := by
  obtain ⟨r, hr⟩ := grid_init S (M := 40) (N := 240) (by norm_num) (by norm_num) (by norm_num) (by norm_num)
    (c := line) (tab_length _ _) (p := { vSmear := some 0.1 }) (by rintro s ⟨⟩; norm_num) (by norm_num) (by norm_num) rfl
  change respInit S line line _ = .ok r at hr
  refine ⟨r, hr, C36_smeared_partial (k := 12) rfl ?_ rfl ?_ hr⟩
  · unfold line grid
    rw [tab_getD (by norm_num)]
    norm_num
  · obtain ⟨-, -, -, hv, -⟩ := respInit_ok hr
    rw [hv, line, grid_reflected (by norm_num), tab_getD (by norm_num), tab_getD (by norm_num)]
    norm_num

/-! ## C75: smearing the perfect curve -/

theorem smoothAt_int {sigma : ℝ} {k n i : ℕ} (hk : 3 * sigma = k) (h1 : k ≤ i) (h2 : i + k < n) (f : ℕ → ℝ) :
    smoothAt sigma 3 (tab n f) i = ∑ j ∈ Finset.range (2 * k + 1), win sigma 3 j * f (i + k - j) := by
  unfold smoothAt
  rw [winLen_int hk]
  refine Finset.sum_congr rfl fun j hj => ?_
  have hj := Finset.mem_range.1 hj
  rw [tab_length]
  have : reflect n ((i : ℤ) + ((2 * k + 1) / 2 : ℕ) - j) = i + k - j := by
    unfold reflect
    split_ifs <;> omega
  rw [this, tab_getD (by omega)]

/-- C75 is false: if the smearing is `k / 600` (three standard deviations are `k` voltage steps) then the
stored current is larger than the voltage at `k + 1` steps above the gap, where smearing the perfect curve
gives exactly the voltage. -/
theorem C75_false_overshoot (S : Splines) {p : Params} {k : ℕ} (h1 : 1 ≤ k) (h2 : k ≤ 3000)
    (hs : p.vSmear = some ((k : ℝ) / 600)) {r : Obj} (h : respPerfect S p = .ok r) :
    ∃ c, smear p.vSmear r.voltage (reflected (VINIT.map perfectElem)) = .ok c ∧
      c.getD (7201 + k) 0 = r.voltage.getD (7201 + k) 0 ∧
      r.voltage.getD (7201 + k) 0 < r.current.getD (7201 + k) 0 := by
  have k1 : (1 : ℝ) ≤ k := by exact_mod_cast h1
  have k2 : (k : ℝ) ≤ 3000 := by exact_mod_cast h2
  have hsig : 3 * ((k / 600 : ℝ) * 200) = k := by ring
  have hsig' : 3 * ((k / 600 : ℝ) * (200 : ℕ)) = k := by push_cast; ring
  have hge : 1 ≤ (k / 600 : ℝ) * 200 * 3 := by linarith
  unfold respPerfect at h
  rw [hs] at h
  dsimp only at h
  rw [perfectSmeared_eq (by linarith) (by linarith), py_bind] at h
  obtain ⟨-, -, -, hv, hc, -⟩ := respInit_ok h
  have cond : ∀ s, p.vSmear = some s → 1 ≤ 3 * (s * (200 : ℕ)) ∧ 6 * (s * (200 : ℕ)) + 1 / 10 ^ 5 ≤ 2 * (7000 : ℕ) + 1 := by
    intro s hs'
    rw [hs] at hs'
    cases hs'
    push_cast
    constructor
    · linarith
    · norm_num
      linarith
  have refl : ∀ f : ℕ → ℝ, reflected (tab 7001 f)
      = tab (2 * 7000 + 1) fun i => if i < 7000 then -f (7000 - i) else f (i - 7000) :=
    fun f => reflected_tab 7001 (by norm_num) f
  have volt : r.voltage.getD (7201 + k) 0 = (201 + k) / 200 := by
    rw [hv, VINIT_grid, grid_reflected (by norm_num), tab_getD (by omega)]
    push_cast
    ring
  have wpos := win_pos hge
  have perf : ∀ j, j < 2 * k + 1 → perfectElem (((7201 + k + k - j - 7000 : ℕ) : ℝ) * (35 / 7000))
      = ((7201 + k + k - j - 7000 : ℕ) : ℝ) * (35 / 7000) := by
    intro j hj
    apply perfectElem_gt
    have hm : 201 ≤ 7201 + k + k - j - 7000 := by omega
    generalize 7201 + k + k - j - 7000 = m at hm
    have : (201 : ℝ) ≤ (m : ℝ) := by exact_mod_cast hm
    rw [abs_of_nonneg (by positivity)]
    linarith
  have line : ∀ j, j < 2 * k + 1 → -(((7000 : ℕ) : ℝ) / (200 : ℕ)) + 1 / ((200 : ℕ) : ℝ) * ((7201 + k + k - j : ℕ) : ℝ)
      = ((7201 + k + k - j - 7000 : ℕ) : ℝ) * (35 / 7000) := by
    intro j hj
    rw [Nat.cast_sub (show 7000 ≤ 7201 + k + k - j by omega)]
    push_cast
    ring
  have line0 : -(((7000 : ℕ) : ℝ) / (200 : ℕ)) + 1 / ((200 : ℕ) : ℝ) * ((7201 + k : ℕ) : ℝ) = (201 + k) / 200 := by
    push_cast
    ring
  rw [VINIT_grid, refl] at hc
  obtain ⟨cur, hcur, -, ecur⟩ := grid_smear (M := 200) (N := 7000) (by norm_num) (by norm_num)
    (c := fun i => if i < 7000 then -perfectBump (k / 600) (7000 - i) else perfectBump (k / 600) (i - 7000)) cond
  have ecur := ecur _ hs
  rw [hcur] at hc
  have hc := Except.ok.inj hc
  obtain ⟨cur', hcur', -, ecur'⟩ := grid_smear (M := 200) (N := 7000) (by norm_num) (by norm_num)
    (c := fun i => if i < 7000 then -perfectElem ((7000 - i : ℕ) * (35 / 7000)) else perfectElem ((i - 7000 : ℕ) * (35 / 7000))) cond
  have ecur' := ecur' _ hs
  refine ⟨tab (2 * 7000 + 1) cur', ?_, ?_, ?_⟩
  · rw [hv, ← hcur', ← VINIT_grid]
    have e : reflected (VINIT.map perfectElem) = tab (2 * 7000 + 1) fun i => if i < 7000 then
        -perfectElem ((7000 - i : ℕ) * (35 / 7000)) else perfectElem ((i - 7000 : ℕ) * (35 / 7000)) := by
      unfold VINIT
      rw [map_tab, refl]
    rw [e]
  · rw [tab_getD (by omega), ecur']
    beta_reduce
    rw [smoothAt_int hsig' (by omega) (by omega), volt, line0, Finset.sum_eq_zero, zero_add]
    intro j hj
    have hj := Finset.mem_range.1 hj
    rw [if_neg (by omega), perf j hj, line j hj, sub_self, mul_zero]
  · rw [← hc, tab_getD (by omega), ecur]
    beta_reduce
    rw [smoothAt_int hsig' (by omega) (by omega), volt, line0]
    have nonneg : ∀ i, 0 ≤ smoothAt ((k / 600 : ℝ) * 200) 3 (tab 7001 fun i => if i = 200 then 1 else 0) i := by
      intro i
      unfold smoothAt
      refine Finset.sum_nonneg fun j _ => mul_nonneg (wpos j).le ?_
      generalize reflect _ _ = q
      by_cases hq : q < 7001
      · rw [tab_getD hq]
        split_ifs <;> norm_num
      · rw [List.getD_eq_getElem?_getD, tab_get?, if_neg hq]
        rfl
    have pos : 0 < smoothAt ((k / 600 : ℝ) * 200) 3 (tab 7001 fun i => if i = 200 then 1 else 0) 201 := by
      by_cases hk : k ≤ 201
      · rw [smoothAt_int hsig hk (by omega)]
        refine Finset.sum_pos' (fun j _ => mul_nonneg (wpos j).le ?_) ⟨k + 1, Finset.mem_range.2 (by omega), ?_⟩
        · split_ifs <;> norm_num
        · rw [if_pos (by omega), mul_one]
          exact wpos _
      · unfold smoothAt
        rw [winLen_int hsig]
        refine Finset.sum_pos' (fun j _ => mul_nonneg (wpos j).le ?_) ⟨k + 1, Finset.mem_range.2 (by omega), ?_⟩
        · generalize reflect _ _ = q
          by_cases hq : q < 7001
          · rw [tab_getD hq]
            split_ifs <;> norm_num
          · rw [List.getD_eq_getElem?_getD, tab_get?, if_neg hq]
            rfl
        · rw [tab_length, show reflect 7001 (((201 : ℕ) : ℤ) + ((2 * k + 1) / 2 : ℕ) - ((k + 1 : ℕ) : ℤ)) = 200 by
            unfold reflect
            split_ifs <;> omega]
          rw [tab_getD (by norm_num), if_pos rfl, mul_one]
          exact wpos _
    have term : ∀ j, j < 2 * k + 1 → (if 7201 + k + k - j < 7000 then -perfectBump (k / 600) (7000 - (7201 + k + k - j))
        else perfectBump (k / 600) (7201 + k + k - j - 7000))
        - (-(((7000 : ℕ) : ℝ) / (200 : ℕ)) + 1 / ((200 : ℕ) : ℝ) * ((7201 + k + k - j : ℕ) : ℝ))
        = smoothAt ((k / 600 : ℝ) * 200) 3 (tab 7001 fun i => if i = 200 then 1 else 0) (7201 + k + k - j - 7000) := by
      intro j hj
      rw [if_neg (by omega), line j hj]
      unfold perfectBump
      rw [perf j hj]
      ring
    have : 0 < ∑ j ∈ Finset.range (2 * k + 1), win ((k / 600 : ℝ) * (200 : ℕ)) 3 j *
        ((if 7201 + k + k - j < 7000 then -perfectBump (k / 600) (7000 - (7201 + k + k - j))
          else perfectBump (k / 600) (7201 + k + k - j - 7000))
          - (-(((7000 : ℕ) : ℝ) / (200 : ℕ)) + 1 / ((200 : ℕ) : ℝ) * ((7201 + k + k - j : ℕ) : ℝ))) := by
      have hw : (k / 600 : ℝ) * (200 : ℕ) = (k / 600 : ℝ) * 200 := by push_cast; ring
      rw [hw]
      refine Finset.sum_pos' (fun j hj => ?_) ⟨2 * k, Finset.mem_range.2 (by omega), ?_⟩
      · rw [term j (Finset.mem_range.1 hj)]
        exact mul_nonneg (wpos j).le (nonneg _)
      · rw [term (2 * k) (by omega), show 7201 + k + k - 2 * k - 7000 = 201 by omega]
        exact mul_pos (wpos _) pos
    linarith

/-- The hypotheses can be met: a smearing of 0.02 (`k` is 12). -/
example (S : Splines) : ∃ r, respPerfect S { vSmear := some (((12 : ℕ) : ℝ) / 600) } = .ok r :=
  C78_perfect S ⟨rfl, by norm_num, by norm_num, by rintro s ⟨⟩; norm_num⟩

/-! ## C76: the check of the interpolation error -/

/-- C76, what the check establishes: the data exceeds the interpolation by less than the limit. -/
theorem C76_upper_partial {S : Splines} {v c : List ℝ} {p : Params} {r : Obj} (h : respInit S v c p = .ok r)
    (hc : p.checkError = true) {i : ℕ} (hi : i < r.voltage.length) (hl : r.current.length = r.voltage.length)
    (hr : |r.voltage.getD i 0| < 34) :
    r.current.getD i 0 - r.idc (r.voltage.getD i 0) < p.maxInterpError ∧
    r.currentKk.getD i 0 - r.ikk (r.voltage.getD i 0) < p.maxInterpError := by
  obtain ⟨-, -, -, -, -, hk, f, hf, e1, e2⟩ := respInit_ok h
  obtain ⟨dcIdx, kkIdx, xd, yd, xk, yk, -, -, -, -, -, -, -, -, h9, h10⟩ := setup_ok hf
  have lk : r.currentKk.length = r.voltage.length := by
    obtain ⟨-, -, e⟩ := kkTrans_ok hl hk
    rw [e, tab_length]
  have key : ∀ (cur : List ℝ) (g : ℝ → ℝ), cur.length = r.voltage.length →
      checkErr p.checkError (errors r.voltage cur g) p.maxInterpError = .ok () →
      cur.getD i 0 - g (r.voltage.getD i 0) < p.maxInterpError := by
    intro cur g hl' hce
    rw [hc] at hce
    unfold checkErr at hce
    rw [if_pos rfl] at hce
    obtain ⟨m, hm, hce⟩ := bind_ok_iff.1 hce
    refine (amax_lt hm _).1 (pyAssert_ok.1 hce) _ ?_
    unfold errors
    rw [List.mem_map]
    refine ⟨(r.voltage.getD i 0, cur.getD i 0), ?_, rfl⟩
    rw [List.mem_filter]
    constructor
    · rw [List.mem_iff_getElem?]
      refine ⟨i, ?_⟩
      rw [List.getElem?_zip_eq_some, List.getD_eq_getElem?_getD, List.getD_eq_getElem?_getD,
        List.getElem?_eq_getElem hi, List.getElem?_eq_getElem (by omega)]
      exact ⟨rfl, rfl⟩
    · unfold VRANGE
      rw [abs_lt] at hr
      simp only [decide_eq_true_eq]
      constructor <;> linarith [hr.1, hr.2]
  unfold Obj.idc Obj.ikk
  rw [e1, e2]
  exact ⟨key _ _ hl h9, key _ _ lk h10⟩

open Classical in
/-- An interpolation that passes through the samples and is a million elsewhere. -/
noncomputable def spiky : Splines where
  eval x y _ t := if h : ∃ i, i < x.length ∧ x.getD i 0 = t then y.getD (Nat.find h) 0 else 10 ^ 6
  deriv _ _ _ _ := 0
  passes := by
    intro x y k hx hl _ _ _ i hi
    have h : ∃ j, j < x.length ∧ x.getD j 0 = x.getD i 0 := ⟨i, hi, rfl⟩
    rw [dif_pos h]
    obtain ⟨j1, j2⟩ := Nat.find_spec h
    congr 1
    generalize Nat.find h = j at j1 j2 ⊢
    rw [List.getD_eq_getElem?_getD, List.getD_eq_getElem?_getD, List.getElem?_eq_getElem j1,
      List.getElem?_eq_getElem hi, Option.getD_some, Option.getD_some] at j2
    exact hx.nodup.getElem_inj_iff.1 j2

theorem getD_inj {v : List ℝ} (hv : v.SortedLT) {i j : ℕ} (hi : i < v.length) (hj : j < v.length)
    (h : v.getD i 0 = v.getD j 0) : i = j := by
  rw [List.getD_eq_getElem?_getD, List.getD_eq_getElem?_getD, List.getElem?_eq_getElem hi,
    List.getElem?_eq_getElem hj, Option.getD_some, Option.getD_some] at h
  exact hv.nodup.getElem_inj_iff.1 h

theorem spiky_eval {v c : List ℝ} {idx : List ℤ} (hv : v.SortedLT) (hi : idx.SortedLT)
    (hb : ∀ k ∈ idx, 0 ≤ k ∧ k < v.length) (o : ℤ) (ho : 1 ≤ o ∧ o ≤ 5) (h6 : 6 ≤ idx.length) {i : ℕ} (hlt : i < v.length) :
    spiky.eval (idx.map fun (k : ℤ) => v.getD k.toNat 0) (idx.map fun (k : ℤ) => c.getD k.toNat 0) o (v.getD i 0)
      = if (i : ℤ) ∈ idx then c.getD i 0 else 10 ^ 6 := by
  split_ifs with h
  · obtain ⟨j, hj, hji⟩ := List.getElem_of_mem h
    have := spiky.passes (idx.map fun (k : ℤ) => v.getD k.toNat 0) (idx.map fun (k : ℤ) => c.getD k.toNat 0) o
      (takeIdx_sorted hv hi hb) (by simp) ho.1 ho.2 (by rw [List.length_map]; omega) j (by rw [List.length_map]; exact hj)
    simp only [List.getD_eq_getElem?_getD, List.getElem?_map, List.getElem?_eq_getElem hj, hji] at this
    simpa using this
  · unfold spiky
    dsimp only
    rw [dif_neg]
    rintro ⟨j, hj, hji⟩
    rw [List.length_map] at hj
    simp only [List.getD_eq_getElem?_getD, List.getElem?_map, List.getElem?_eq_getElem hj, Option.map_some,
      Option.getD_some] at hji
    obtain ⟨b1, b2⟩ := hb _ (List.getElem_mem hj)
    rw [← List.getD_eq_getElem?_getD, ← List.getD_eq_getElem?_getD] at hji
    have := getD_inj hv (by omega) hlt hji
    apply h
    have e : idx[j] = (i : ℤ) := by omega
    rw [← e]
    exact List.getElem_mem hj

theorem spiky_check {v c : List ℝ} {idx : List ℤ} (hv : v.SortedLT) (hi : idx.SortedLT)
    (hl : c.length = v.length) (hb : ∀ k ∈ idx, 0 ≤ k ∧ k < v.length) (h6 : 6 ≤ idx.length)
    (hc : ∀ i < v.length, c.getD i 0 ≤ 10 ^ 6) (h0 : (0 : ℝ) ∈ v) :
    checkErr true (errors v c (spiky.eval (idx.map fun (k : ℤ) => v.getD k.toNat 0)
      (idx.map fun (k : ℤ) => c.getD k.toNat 0) 3)) 0.001 = .ok () := by
  unfold checkErr
  rw [if_pos rfl]
  have mem : ∀ p ∈ v.zip c, ∃ i, i < v.length ∧ p = (v.getD i 0, c.getD i 0) := by
    intro p hp
    obtain ⟨i, hi'⟩ := List.mem_iff_getElem?.1 hp
    rw [List.getElem?_zip_eq_some] at hi'
    obtain ⟨a, b⟩ := hi'
    refine ⟨i, (List.getElem?_eq_some_iff.1 a).1, ?_⟩
    rw [List.getD_eq_getElem?_getD, List.getD_eq_getElem?_getD, a, b]
    rfl
  obtain ⟨m, hm⟩ := amax_ok (l := errors v c (spiky.eval (idx.map fun (k : ℤ) => v.getD k.toNat 0)
      (idx.map fun (k : ℤ) => c.getD k.toNat 0) 3)) (by
    obtain ⟨i, hi', he⟩ := List.getElem_of_mem h0
    apply List.ne_nil_of_mem (a := c.getD i 0 - (spiky.eval (idx.map fun (k : ℤ) => v.getD k.toNat 0)
      (idx.map fun (k : ℤ) => c.getD k.toNat 0) 3 0))
    unfold errors
    rw [List.mem_map]
    refine ⟨(0, c.getD i 0), ?_, rfl⟩
    rw [List.mem_filter]
    constructor
    · rw [List.mem_iff_getElem?]
      refine ⟨i, ?_⟩
      rw [List.getElem?_zip_eq_some, List.getD_eq_getElem?_getD, List.getElem?_eq_getElem hi',
        List.getElem?_eq_getElem (by omega), he]
      exact ⟨rfl, rfl⟩
    · unfold VRANGE
      norm_num)
  rw [hm, py_bind, pyAssert, if_pos]
  rw [amax_lt hm]
  intro y hy
  unfold errors at hy
  obtain ⟨p, hp, rfl⟩ := List.mem_map.1 hy
  obtain ⟨i, hlt, rfl⟩ := mem p (List.mem_filter.1 hp).1
  dsimp only
  rw [spiky_eval hv hi hb 3 (by norm_num) h6 hlt]
  have := hc i hlt
  split_ifs
  · norm_num
  · norm_num at this ⊢
    linarith

/-- C76 is false: an interpolation through the samples can be wrong by more than a thousand and pass the
check with the limit 0.001. -/
theorem C76_false_unbounded : ∃ (S : Splines) (r : Obj),
    respInit S line line { maxNptsDc := 1, maxNptsKk := 1, checkError := true } = .ok r ∧
    ∃ i < r.voltage.length, |r.voltage.getD i 0| < 34 ∧
      1000 < |r.current.getD i 0 - r.idc (r.voltage.getD i 0)| := by
  set p : Params := { maxNptsDc := 1, maxNptsKk := 1, checkError := true } with hp
  have hlen := line_length
  have hsort : (reflected line).SortedLT := grid_sorted (by norm_num)
  have hll : line.length = 241 := tab_length _ _
  have hg : reflected line = tab 481 fun t => -((240 : ℕ) / (40 : ℕ) : ℝ) + 1 / ((40 : ℕ) : ℝ) * (t : ℝ) :=
    grid_reflected (by norm_num)
  have hval : ∀ i < 481, (reflected line).getD i 0 = -6 + i / 40 := by
    intro i hi
    rw [hg, tab_getD hi]
    push_cast
    ring
  obtain ⟨kk, hkk⟩ := kkTrans_even 481 (by norm_num) (-((240 : ℕ) / (40 : ℕ) : ℝ)) (1 / ((40 : ℕ) : ℝ)) (reflected line)
    hlen (n := 50) (by norm_num)
  rw [← hg] at hkk
  have kk0 := Props.C42_zero hkk
  obtain ⟨d, hd⟩ := line_sample 0.25 30 (by norm_num) (by norm_num) (by norm_num) 1
  obtain ⟨k, hk⟩ := line_sample 1 120 (by norm_num) (by norm_num) (by norm_num) 1
  obtain ⟨d1, -, d3, -⟩ := C38_sampling hd
  obtain ⟨k1, -, k3, -⟩ := C38_sampling hk
  have d3 := d3 (by omega)
  have k3 := k3 (by omega)
  have d6 := six_le hd (by omega)
  have k6 := six_le hk (by omega)
  have h0 : (0 : ℝ) ∈ reflected line := by
    rw [hg, mem_tab]
    exact ⟨240, by norm_num, by norm_num⟩
  have hkl : kk.length = (reflected line).length := by rw [kk0, List.length_map]
  have hkv : ∀ i, kk.getD i 0 = 0 := by
    intro i
    rw [kk0, List.getD_eq_getElem?_getD, List.getElem?_map]
    cases (reflected line)[i]? <;> rfl
  obtain ⟨f, hf, hfd⟩ := setup_of (S := spiky) (p := p) hsort (by omega) rfl hkl (by norm_num [hp]) hd hk
    (spiky_check hsort d1 rfl d3 d6 (fun i hi => by
      rw [hval i (by omega)]
      have : (i : ℝ) ≤ 481 := by exact_mod_cast (show i ≤ 481 by omega)
      norm_num
      linarith) h0)
    (spiky_check hsort k1 hkl k3 k6 (fun i hi => by rw [hkv]; norm_num) h0)
  have hinit : respInit spiky line line p = .ok (Obj.mk f.dc f.kk (some f.ddc) (some f.dkk) (reflected line)
      (reflected line) kk) := by
    unfold respInit
    have g0 : pyGet line 0 = .ok 0 := by
      have := pyGet_nat_ok (l := line) (i := 0) (by omega)
      unfold line grid at this
      rw [tab_getD (by norm_num), show (((0 : ℕ) : ℝ) / ((40 : ℕ) : ℝ)) = 0 by norm_num] at this
      exact this
    have gl : pyGet line (-1) = .ok 6 := by
      have := pyGet_last_ok (l := line) (by omega)
      rw [hll] at this
      rw [this]
      unfold line grid
      rw [tab_getD (by norm_num)]
      norm_num
    rw [g0, py_bind, pyAssert_pos rfl, gl, py_bind, pyAssert_pos (by norm_num)]
    dsimp only [smear, hp]
    rw [pure_bind, hkk, py_bind]
    rw [hf, py_bind]
    rfl
  refine ⟨spiky, _, hinit, ?_⟩
  have hcount := C39_limit_partial (by norm_num) hsort hd
  obtain ⟨i, hi, hni⟩ : ∃ i : ℕ, i < 481 ∧ (i : ℤ) ∉ d := by
    by_contra hall
    push Not at hall
    have hsub : (Finset.range 481).image (fun i : ℕ => (i : ℤ)) ⊆ d.toFinset := by
      intro x hx
      obtain ⟨i, hi, rfl⟩ := Finset.mem_image.1 hx
      exact List.mem_toFinset.2 (hall i (Finset.mem_range.1 hi))
    have c1 := (Finset.card_le_card hsub).trans (List.toFinset_card_le d)
    rw [Finset.card_image_of_injective _ (fun a b h => by simpa using h), Finset.card_range] at c1
    have c2 := sampleCurve_count (by norm_num) hsort hd
    have c3 : gapCount (reflected line) (reflected line).length ≤ 101 := by
      classical
      unfold gapCount
      refine (Finset.card_le_card (t := Finset.Icc 190 290) ?_).trans (by simp)
      intro i hi
      rw [Finset.mem_filter, Finset.mem_range, hlen] at hi
      obtain ⟨hi1, hi2⟩ := hi
      rw [hval i hi1] at hi2
      have : -1.2 < -6 + (i : ℝ) / 40 ∧ -6 + (i : ℝ) / 40 < 1.2 := by
        rcases hi2 with h | h | h <;> rw [abs_lt] at h <;> constructor <;> linarith [h.1, h.2]
      rw [Finset.mem_Icc]
      constructor
      · have : (190 : ℝ) < i := by linarith [this.1]
        have : 190 < i := by exact_mod_cast this
        omega
      · have : (i : ℝ) < 290 := by linarith [this.2]
        have : i < 290 := by exact_mod_cast this
        omega
    rw [hlen, hval 0 (by norm_num), hval (481 - 1) (by norm_num)] at c2
    rw [hlen] at c3
    have c1' : (481 : ℝ) ≤ d.length := by exact_mod_cast c1
    have c3' : (gapCount (reflected line) 481 : ℝ) ≤ 101 := by exact_mod_cast c3
    norm_num at c2
    linarith
  refine ⟨i, by dsimp only; omega, ?_, ?_⟩
  · dsimp only
    rw [hval i hi, abs_lt]
    have : (i : ℝ) ≤ 481 := by exact_mod_cast hi.le
    have : (0 : ℝ) ≤ i := by positivity
    constructor <;> linarith
  · unfold Obj.idc
    dsimp only
    rw [hfd, spiky_eval hsort d1 d3 _ (by norm_num [hp]) d6 (by omega), if_neg hni, hval i hi, abs_sub_comm]
    have : (i : ℝ) ≤ 481 := by exact_mod_cast hi.le
    refine lt_of_lt_of_le ?_ (le_abs_self _)
    norm_num
    linarith

end QMix.RespFn
