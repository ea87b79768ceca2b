import Verif.Model.IfNoise
import Verif.Lemmas.IvLoad
import Verif.Lemmas.CleanMatrix
import Verif.Lemmas.SlopeSpan
import Verif.Lemmas.MathFn

/-!
# Lemmas about IF data
-/

namespace QMix.IfData

open Np Fl Clean IvData

/-! ## Linear regression -/

theorem covar_eq (L : List (ℝ × ℝ)) (hL : L ≠ []) :
    covar (L.map Prod.fst) (L.map Prod.snd) =
      (L.length * sm L (fun q => q.1 * q.2) - sm L (fun q => q.1) * sm L (fun q => q.2)) / L.length ^ 2 := by
  have hn : (L.length : ℝ) ≠ 0 := by exact_mod_cast (List.length_pos_iff.2 hL).ne'
  unfold covar
  simp only [List.length_map]
  set mx := (L.map Prod.fst).sum / (L.length : ℝ) with hmx
  set my := (L.map Prod.snd).sum / (L.length : ℝ) with hmy
  have e : (List.zipWith (fun a b => (a - mx) * (b - my)) (L.map Prod.fst) (L.map Prod.snd)).sum =
      sm L (fun q => q.1 * q.2) - mx * sm L (fun q => q.2) - my * sm L (fun q => q.1) + L.length * (mx * my) := by
    clear hmx hmy
    clear_value mx my
    clear hn hL
    induction L with
    | nil => simp [sm]
    | cons a l ih =>
      simp only [sm, List.map_cons, List.zipWith_cons_cons, List.sum_cons, List.length_cons] at *
      rw [ih]
      push_cast
      ring
  rw [e]
  have h1 : sm L (fun q => q.1) = mx * L.length := by rw [hmx]; unfold sm; field_simp
  have h2 : sm L (fun q => q.2) = my * L.length := by rw [hmy]; unfold sm; field_simp
  rw [h1, h2]
  field_simp
  ring

theorem covar_self (L : List (ℝ × ℝ)) (hL : L ≠ []) :
    covar (L.map Prod.fst) (L.map Prod.fst) =
      (L.length * sm L (fun q => q.1 ^ 2) - sm L (fun q => q.1) ^ 2) / L.length ^ 2 := by
  have h := covar_eq (L.map fun q => (q.1, q.1)) (by simpa using hL)
  have e1 : (L.map fun q => (q.1, q.1)).map Prod.fst = L.map Prod.fst := by
    simp [List.map_map, Function.comp_def]
  have e2 : (L.map fun q => (q.1, q.1)).map Prod.snd = L.map Prod.fst := by
    simp [List.map_map, Function.comp_def]
  rw [e1, e2] at h
  rw [h]
  unfold sm
  simp only [List.map_map, List.length_map, Function.comp_def, pow_two]

/-- `linregress` gives the line of the closed form. -/
theorem linregress_eq (L : List (ℝ × ℝ)) (h2 : ∃ a ∈ L, ∃ b ∈ L, a.1 ≠ b.1) :
    linregress (L.map Prod.fst) (L.map Prod.snd) = .ok (closedForm L) := by
  have hL : L ≠ [] := by obtain ⟨a, ha, -⟩ := h2; rintro rfl; cases ha
  have hn : (L.length : ℝ) ≠ 0 := by exact_mod_cast (List.length_pos_iff.2 hL).ne'
  have hz : L.length * sm L (fun q => q.1 ^ 2) - sm L (fun q => q.1) ^ 2 ≠ 0 := by
    intro h
    obtain ⟨a, ha, b, hb, hne⟩ := h2
    exact hne (spread_zero h a ha b hb)
  unfold linregress
  rw [raiseIf_neg (by simpa using hL), raiseIf_neg (by simp), raiseIf_neg]
  · rw [covar_eq L hL, covar_self L hL]
    have e : (↑L.length * sm L (fun q => q.1 * q.2) - sm L (fun q => q.1) * sm L (fun q => q.2)) / (L.length : ℝ) ^ 2 /
        ((↑L.length * sm L (fun q => q.1 ^ 2) - sm L (fun q => q.1) ^ 2) / (L.length : ℝ) ^ 2) =
        (↑L.length * sm L (fun q => q.1 * q.2) - sm L (fun q => q.1) * sm L (fun q => q.2)) /
        (↑L.length * sm L (fun q => q.1 ^ 2) - sm L (fun q => q.1) ^ 2) := by
      field_simp
    simp only [List.length_map]
    rw [e]
    unfold closedForm
    simp only [if_neg hz]
    show Except.ok _ = _
    congr 2
    change sm L (fun q => q.2) / (L.length : ℝ) - _ * (sm L (fun q => q.1) / (L.length : ℝ)) = _
    ring
  · intro h
    obtain ⟨a, ha, b, hb, hne⟩ := h2
    exact hne (h a.1 (List.mem_map_of_mem ha) b.1 (List.mem_map_of_mem hb))

theorem linregress_ok {x y : List ℝ} {p : ℝ × ℝ} (h : linregress x y = .ok p) :
    x.length = y.length ∧ (∃ a ∈ x, ∃ b ∈ x, a ≠ b) := by
  unfold linregress at h
  obtain ⟨_, h1, h⟩ := bind_ok_iff.1 h
  obtain ⟨_, h2, h⟩ := bind_ok_iff.1 h
  obtain ⟨_, h3, h⟩ := bind_ok_iff.1 h
  rw [raiseIf_ok] at h2 h3
  refine ⟨not_not.1 h2, ?_⟩
  push Not at h3
  exact h3

theorem sum_map_mul (l : List ℝ) (g : ℝ) : (l.map (· * g)).sum = l.sum * g := by
  induction l with
  | nil => simp
  | cons a l ih => simp only [List.map_cons, List.sum_cons, ih]; ring

/-- The line scales with the data. -/
theorem linregress_smul (x y : List ℝ) (g : ℝ) :
    linregress x (y.map (· * g)) = (linregress x y).map fun p => (p.1 * g, p.2 * g) := by
  unfold linregress
  by_cases h1 : x = []
  · rw [raiseIf_pos h1, raiseIf_pos h1]; rfl
  rw [raiseIf_neg h1, raiseIf_neg h1]
  by_cases h2 : x.length ≠ y.length
  · rw [raiseIf_pos h2, raiseIf_pos (by simpa using h2)]; rfl
  rw [raiseIf_neg h2, raiseIf_neg (by simpa using h2)]
  by_cases h3 : ∀ a ∈ x, ∀ b ∈ x, a = b
  · rw [raiseIf_pos h3, raiseIf_pos h3]; rfl
  rw [raiseIf_neg h3, raiseIf_neg h3]
  have e1 : (y.map (· * g)).sum / ((y.map (· * g)).length : ℝ) = y.sum / (y.length : ℝ) * g := by
    rw [sum_map_mul, List.length_map]; ring
  have e2 : covar x (y.map (· * g)) = covar x y * g := by
    unfold covar
    dsimp only
    rw [e1]
    generalize y.sum / (y.length : ℝ) = my
    generalize x.sum / (x.length : ℝ) = mx
    have : (List.zipWith (fun a b => (a - mx) * (b - my * g)) x (y.map (· * g))).sum =
        (List.zipWith (fun a b => (a - mx) * (b - my)) x y).sum * g := by
      clear h1 h2 h3 e1
      induction x generalizing y with
      | nil => simp
      | cons a l ih =>
        cases y with
        | nil => simp
        | cons b y =>
          simp only [List.map_cons, List.zipWith_cons_cons, List.sum_cons, ih]
          ring
    rw [this]
    ring
  rw [e1, e2]
  show Except.ok _ = Except.ok _
  congr 2
  · ring
  · ring

/-! ## Interpolation and smoothing are linear -/

theorem npInterp_smul (xp fp : List ℝ) (g x : ℝ) :
    RespFn.npInterp xp (fp.map (· * g)) x = RespFn.npInterp xp fp x * g := by
  induction xp generalizing fp with
  | nil =>
    cases fp with
    | nil => simp [RespFn.npInterp]
    | cons p l => simp [RespFn.npInterp]
  | cons a xs ih =>
    cases fp with
    | nil => simp [RespFn.npInterp]
    | cons p l =>
      cases xs with
      | nil => simp [RespFn.npInterp]
      | cons b xs =>
        cases l with
        | nil => simp [RespFn.npInterp]
        | cons q l =>
          have := ih (q :: l)
          simp only [List.map_cons] at this ⊢
          rw [RespFn.npInterp, RespFn.npInterp]
          split_ifs
          · exact this
          · rfl
          · ring

theorem interp_smul (x xp fp : List ℝ) (g : ℝ) :
    interp x xp (fp.map (· * g)) = (interp x xp fp).map (List.map (· * g)) := by
  unfold interp
  rw [List.length_map]
  by_cases h1 : xp.length ≠ fp.length
  · rw [raiseIf_pos h1, raiseIf_pos h1]; rfl
  rw [raiseIf_neg h1, raiseIf_neg h1]
  by_cases h2 : xp = []
  · rw [raiseIf_pos h2, raiseIf_pos h2]; rfl
  rw [raiseIf_neg h2, raiseIf_neg h2]
  show Except.ok _ = Except.ok _
  rw [List.map_map]
  congr 1
  apply List.map_congr_left
  intro t _
  exact npInterp_smul _ _ _ _

theorem interp0_smul (x xp fp : List ℝ) (g : ℝ) :
    interp0 x xp (fp.map (· * g)) = (interp0 x xp fp).map (List.map (· * g)) := by
  unfold interp0
  rw [List.length_map]
  by_cases h1 : xp.length ≠ fp.length
  · rw [raiseIf_pos h1, raiseIf_pos h1]; rfl
  rw [raiseIf_neg h1, raiseIf_neg h1]
  by_cases h2 : xp = []
  · rw [raiseIf_pos h2, raiseIf_pos h2]; rfl
  rw [raiseIf_neg h2, raiseIf_neg h2]
  show Except.ok _ = Except.ok _
  rw [List.map_map]
  congr 1
  apply List.map_congr_left
  intro t _
  simp only [Function.comp_apply]
  split_ifs
  · rw [zero_mul]
  · exact npInterp_smul _ _ _ _

theorem getD_map_mul (l : List ℝ) (g : ℝ) (k : ℕ) : (l.map (· * g)).getD k 0 = l.getD k 0 * g := by
  simp only [List.getD_eq_getElem?_getD, List.getElem?_map]
  cases l[k]? <;> simp

theorem smoothAt_smul (s ext : ℝ) (l : List ℝ) (g : ℝ) (i : ℕ) :
    MathFn.smoothAt s ext (l.map (· * g)) i = MathFn.smoothAt s ext l i * g := by
  unfold MathFn.smoothAt
  rw [Finset.sum_mul]
  refine Finset.sum_congr rfl fun j _ => ?_
  rw [List.length_map, getD_map_mul]
  ring

theorem tab_mul (n : ℕ) (f : ℕ → ℝ) (g : ℝ) : (tab n f).map (· * g) = tab n fun i => f i * g := by
  rw [map_tab]

theorem gaussConv_smul (l : List ℝ) (s ext g : ℝ) :
    MathFn.gaussConv (l.map (· * g)) s ext = (MathFn.gaussConv l s ext).map (List.map (· * g)) := by
  by_cases h0 : s ≠ 0
  swap
  · unfold MathFn.gaussConv
    rw [pyAssert_neg h0, pyAssert_neg h0]; rfl
  by_cases h1 : MathFn.winLen s ext ≤ l.length
  swap
  · unfold MathFn.gaussConv
    rw [pyAssert_pos h0, pyAssert_pos h0, MathFn.gauss_eq h0, py_bind, py_bind]
    dsimp only
    rw [tab_length, List.length_map, pyAssert_neg h1, pyAssert_neg h1]; rfl
  by_cases h2 : 1 ≤ s * ext
  swap
  · unfold MathFn.gaussConv
    rw [pyAssert_pos h0, pyAssert_pos h0, MathFn.gauss_eq h0, py_bind, py_bind]
    dsimp only
    rw [tab_length, List.length_map, pyAssert_pos h1, pyAssert_pos h1, pyAssert_neg h2, pyAssert_neg h2]; rfl
  rw [MathFn.gaussConv_eq h2 h1, MathFn.gaussConv_eq h2 (by rwa [List.length_map])]
  show Except.ok _ = Except.ok _
  rw [tab_mul, List.length_map]
  congr 1
  exact congrArg _ (funext fun i => smoothAt_smul _ _ _ _ _)

theorem smoothIf_smul (s : Option ℝ) (vgap : ℝ) (v p : List ℝ) (g : ℝ) :
    smoothIf s vgap v (p.map (· * g)) = (smoothIf s vgap v p).map (List.map (· * g)) := by
  unfold smoothIf
  cases s with
  | none => rfl
  | some s =>
    dsimp only
    cases pyGet v 1 with
    | error e => rfl
    | ok v1 =>
      rw [py_bind, py_bind]
      cases pyGet v 0 with
      | error e => rfl
      | ok v0 =>
        rw [py_bind, py_bind]
        cases Np.fdiv (if 0.5 < s then s * ((v1 - v0) * vgap) else s) ((v1 - v0) * vgap) with
        | error e => rfl
        | ok w =>
          rw [py_bind, py_bind]
          exact gaussConv_smul _ _ _ _

/-! ## Loading -/

/-- The part of `loadIf` after cleaning. -/
noncomputable def resample (o : IfOpts) (dc : DCIV) (v p : List ℝ) : Py (List ℝ × List ℝ) := do
  let v ← ifSeries o.rseries dc (v.map fun t => t * o.vMult - dc.offset.1)
  let vn ← div v [dc.vgap]
  let top ← Np.fdiv o.vmax dc.vgap
  let vout ← linspace 0 top o.npts
  let pout ← interp0 vout vn p
  let ps ← smoothIf o.sigma dc.vgap vout pout
  return (vout, ps)

theorem resample_smul (o : IfOpts) (dc : DCIV) (v p : List ℝ) (g : ℝ) :
    resample o dc v (p.map (· * g)) =
      (resample o dc v p).map fun r => (r.1, r.2.map (· * g)) := by
  unfold resample
  cases ifSeries o.rseries dc (v.map fun t => t * o.vMult - dc.offset.1) with
  | error e => rfl
  | ok v1 =>
    rw [py_bind, py_bind]
    cases div v1 [dc.vgap] with
    | error e => rfl
    | ok vn =>
      rw [py_bind, py_bind]
      cases Np.fdiv o.vmax dc.vgap with
      | error e => rfl
      | ok top =>
        rw [py_bind, py_bind]
        cases linspace 0 top o.npts with
        | error e => rfl
        | ok vout =>
          rw [py_bind, py_bind, interp0_smul]
          cases interp0 vout vn p with
          | error e => rfl
          | ok q =>
            rw [py_bind]
            show (do let ps ← smoothIf o.sigma dc.vgap vout (q.map (· * g)); _) = _
            rw [smoothIf_smul]
            cases smoothIf o.sigma dc.vgap vout q <;> rfl

/-- Voltage in V and power of the rows without NaN. -/
noncomputable def powers (u : ℝ) (m : Mat) : List (Flt × Flt) :=
  (m.rows.map fun r => (fmul (r.getD 0 none) (num u), r.getD 1 none)).filter
    fun p => notNan p.1 && notNan p.2

theorem scaleVolt_pair {u : ℝ} {r : List Flt} (h : r.length = 2) :
    pair (r.set 0 (fmul (r.getD 0 none) (num u))) = (fmul (r.getD 0 none) (num u), r.getD 1 none) := by
  match r, h with
  | [a, b], _ => rfl

theorem powers_eq {u : ℝ} {m : Mat} (h : m.ncol = 2) (hw : m.WF) :
    powers u m = (validRows (scaleVolt u m).rows).map pair := by
  unfold powers validRows scaleVolt
  dsimp only
  have : (m.rows.map fun r => (fmul (r.getD 0 none) (num u), r.getD 1 none)) =
      (m.rows.map fun r => r.set 0 (fmul (r.getD 0 none) (num u))).map pair := by
    rw [List.map_map]
    apply List.map_congr_left
    intro r hr
    exact (scaleVolt_pair (by rw [hw r hr, h])).symm
  rw [this, List.filter_map]
  rfl

/-- The cleaned points. -/
noncomputable def points (S : Sorter) (u : ℝ) (m : Mat) : List (Flt × Flt) :=
  keep Prod.fst (sortBy S Prod.fst (none, none) (powers u m))

theorem loadIf_eq (S : Sorter) (o : IfOpts) (dc : DCIV) {m : Mat} (h : m.ncol = 2) (hw : m.WF) :
    loadIf S o dc (.matrix m) = (do
      let u ← vUnit o.vFmt
      checkSorted ((sortBy S Prod.fst (none, none) (powers u m)).map Prod.fst)
      let v ← toReals ((points S u m).map Prod.fst)
      let p ← toReals ((points S u m).map Prod.snd)
      resample o dc v p) := by
  unfold loadIf
  dsimp only
  rw [pyAssert_pos h]
  cases vUnit o.vFmt with
  | error e => rfl
  | ok u =>
    rw [py_bind, py_bind]
    have hs : sortBy S Prod.fst (none, none) (powers u m) =
        (sortBy S (entry 0) [] (validRows (scaleVolt u m).rows)).map pair := by
      rw [powers_eq h hw, sortBy_map S Prod.fst pair (none, none) []]
      rfl
    have hk : points S u m = (keep (entry 0) (sortBy S (entry 0) [] (validRows (scaleVolt u m).rows))).map pair := by
      unfold points
      rw [hs, keep_map]
      rfl
    rw [removeNansMatrix_eq (m := scaleVolt u m) h, py_bind,
      sortMatrix_eq S (m := ⟨2, validRows (scaleVolt u m).rows⟩) (col := 0) (j := 0) rfl, py_bind,
      removeDoublesMatrix_eq (m := ⟨2, sortBy S (entry 0) [] (validRows (scaleVolt u m).rows)⟩) (col := 0)
        (j := 0) rfl, hk, hs]
    simp only [if_true, List.map_map]
    have e0 : (Prod.fst ∘ pair) = entry 0 := rfl
    have e1 : (Prod.snd ∘ pair) = entry 1 := rfl
    rw [e0, e1]
    cases checkSorted ((sortBy S (entry 0) [] (validRows (scaleVolt u m).rows)).map (entry 0)) with
    | error e => rfl
    | ok _ =>
      rw [py_bind]
      rfl

/-- The power multiplied by `g`. -/
noncomputable def amplify (g : ℝ) (m : Mat) : Mat :=
  { m with rows := m.rows.map fun r => r.set 1 (fmul (r.getD 1 none) (num g)) }

theorem amplify_wf {g : ℝ} {m : Mat} (hw : m.WF) : (amplify g m).WF := by
  intro r hr
  obtain ⟨q, hq, rfl⟩ := List.mem_map.1 hr
  rw [List.length_set]
  exact hw q hq

theorem fmul_pos_cases {g : ℝ} (hg : 0 < g) (a : Flt) :
    (a = none ∧ fmul a (num g) = none) ∨ (a = some ⊤ ∧ fmul a (num g) = some ⊤) ∨
      (a = some ⊥ ∧ fmul a (num g) = some ⊥) ∨ ∃ x : ℝ, a = num x ∧ fmul a (num g) = num (x * g) := by
  cases a with
  | none => exact Or.inl ⟨rfl, rfl⟩
  | some a =>
    have hz : (g : EReal) ≠ 0 := by exact_mod_cast hg.ne'
    induction a with
    | bot =>
      refine Or.inr (Or.inr (Or.inl ⟨rfl, ?_⟩))
      unfold fmul num
      simp [hz, EReal.bot_mul_coe_of_pos hg]
    | coe x => exact Or.inr (Or.inr (Or.inr ⟨x, rfl, fmul_num x g⟩))
    | top =>
      refine Or.inr (Or.inl ⟨rfl, ?_⟩)
      unfold fmul num
      simp [hz, EReal.top_mul_coe_of_pos hg]

theorem notNan_fmul {g : ℝ} (hg : 0 < g) (a : Flt) : notNan (fmul a (num g)) = notNan a := by
  rcases fmul_pos_cases hg a with ⟨h, e⟩ | ⟨h, e⟩ | ⟨h, e⟩ | ⟨x, h, e⟩ <;> rw [e, h] <;> rfl

theorem toReals_smul {g : ℝ} (hg : 0 < g) (l : List Flt) :
    toReals (l.map (fmul · (num g))) = (toReals l).map (List.map (· * g)) := by
  induction l with
  | nil => rfl
  | cons a l ih =>
    unfold toReals at ih ⊢
    rw [List.map_cons, List.mapM_cons, List.mapM_cons]
    rcases fmul_pos_cases hg a with ⟨h, e⟩ | ⟨h, e⟩ | ⟨h, e⟩ | ⟨x, h, e⟩
    · rw [e, h]; rfl
    · rw [e, h]; simp only [true_or, if_true]; rfl
    · rw [e, h]; simp only [or_true, if_true]; rfl
    · rw [e, h, ih]
      simp only [num, EReal.coe_ne_top, EReal.coe_ne_bot, or_self, if_false, EReal.toReal_coe]
      rw [py_bind, py_bind]
      cases l.mapM fun (a : Flt) => (match a with
        | some x => if x = ⊤ ∨ x = ⊥ then (Except.error PyErr.nonFinite : Py ℝ) else .ok x.toReal
        | none => .error .nonFinite) <;> rfl

theorem powers_amplify {u g : ℝ} {m : Mat} (hg : 0 < g) (h : m.ncol = 2) (hw : m.WF) :
    powers u (amplify g m) = (powers u m).map fun p => (p.1, fmul p.2 (num g)) := by
  unfold powers amplify
  dsimp only
  have : ((m.rows.map fun r => r.set 1 (fmul (r.getD 1 none) (num g))).map
      fun r : List Flt => (fmul (r.getD 0 none) (num u), r.getD 1 none)) =
      (m.rows.map fun r => (fmul (r.getD 0 none) (num u), r.getD 1 none)).map
        fun p => (p.1, fmul p.2 (num g)) := by
    rw [List.map_map, List.map_map]
    apply List.map_congr_left
    intro r hr
    have := hw r hr
    rw [h] at this
    match r, this with
    | [a, b], _ => rfl
  rw [this, List.filter_map]
  congr 1
  apply List.filter_congr
  intro p _
  simp only [Function.comp_apply]
  rw [notNan_fmul hg]

theorem points_amplify (S : Sorter) {u g : ℝ} {m : Mat} (hg : 0 < g) (h : m.ncol = 2) (hw : m.WF) :
    points S u (amplify g m) = (points S u m).map fun p => (p.1, fmul p.2 (num g)) := by
  unfold points
  rw [powers_amplify hg h hw, sortBy_map S Prod.fst _ (none, none) (none, none), keep_map]
  rfl

/-- The resampled power is proportional to the measured power. -/
theorem loadIf_amplify (S : Sorter) (o : IfOpts) (dc : DCIV) {m : Mat} {g : ℝ} (hg : 0 < g) (h : m.ncol = 2)
    (hw : m.WF) :
    loadIf S o dc (.matrix (amplify g m)) =
      (loadIf S o dc (.matrix m)).map fun r => (r.1, r.2.map (· * g)) := by
  rw [loadIf_eq S o dc h hw, loadIf_eq S o dc (m := amplify g m) h (amplify_wf hw)]
  cases vUnit o.vFmt with
  | error e => rfl
  | ok u =>
    rw [py_bind, py_bind, points_amplify S hg h hw, powers_amplify hg h hw,
      sortBy_map S Prod.fst _ (none, none) (none, none), List.map_map, List.map_map, List.map_map]
    change (do
      let _ ← checkSorted ((sortBy S Prod.fst (none, none) (powers u m)).map Prod.fst)
      let v ← toReals ((points S u m).map Prod.fst)
      let p ← toReals ((points S u m).map ((fmul · (num g)) ∘ Prod.snd))
      resample o dc v p) = _
    rw [← List.map_map, toReals_smul hg]
    cases checkSorted ((sortBy S Prod.fst (none, none) (powers u m)).map Prod.fst) with
    | error e => rfl
    | ok _ =>
      rw [py_bind, py_bind]
      cases toReals ((points S u m).map Prod.fst) with
      | error e => rfl
      | ok v =>
        rw [py_bind, py_bind]
        cases toReals ((points S u m).map Prod.snd) with
        | error e => rfl
        | ok p =>
          rw [py_bind]
          exact resample_smul o dc v p g

/-! ## IF noise -/

theorem masked_ok {α β : Type} {mask : List Bool} {x : List α} {y : List β} {r : List α × List β}
    (h : masked mask x y = .ok r) : x.length = mask.length ∧ y.length = mask.length ∧
      r.1 = (((x.zip y).zip mask).filter fun q => q.2).map (fun q => q.1.1) ∧
      r.2 = (((x.zip y).zip mask).filter fun q => q.2).map (fun q => q.1.2) := by
  unfold masked at h
  obtain ⟨a, ha, h⟩ := bind_ok_iff.1 h
  obtain ⟨b, hb, h'⟩ := bind_ok_iff.1 h
  cases h'
  clear h
  unfold select at ha hb
  split_ifs at ha hb with h1 h2
  cases ha
  cases hb
  clear * - h1 h2
  refine ⟨h1, h2, ?_, ?_⟩
  · induction mask generalizing x y with
    | nil => simp
    | cons c mask ih =>
      match x, y, h1, h2 with
      | u :: x, w :: y, h1, h2 =>
        have := ih (x := x) (y := y) (by simpa using h1) (by simpa using h2)
        cases c <;> simpa using this
  · induction mask generalizing x y with
    | nil => simp
    | cons c mask ih =>
      match x, y, h1, h2 with
      | u :: x, w :: y, h1, h2 =>
        have := ih (x := x) (y := y) (by simpa using h1) (by simpa using h2)
        cases c <;> simpa using this

/-- The chosen points. -/
def chosen (mask : List Bool) (x y : List ℝ) : List (ℝ × ℝ) :=
  (((x.zip y).zip mask).filter fun q => q.2).map Prod.fst

theorem chosen_sublist (mask : List Bool) (x y : List ℝ) : (chosen mask x y).Sublist (x.zip y) := by
  unfold chosen
  have h1 : ((((x.zip y).zip mask).filter fun q => q.2).map Prod.fst).Sublist (((x.zip y).zip mask).map Prod.fst) :=
    List.filter_sublist.map _
  refine h1.trans ?_
  generalize x.zip y = l
  induction l generalizing mask with
  | nil => simp
  | cons a l ih =>
    cases mask with
    | nil => simp
    | cons b mask => simpa using ih mask (List.filter_sublist.map _)

/-- What the routine does with the chosen points. -/
theorem findIfNoise_ok {R : Routines} {o : IfOpts} {dc : DCIV} {x y : List ℝ} {n c : ℝ} {line : List ℝ}
    {good : Bool} (h : findIfNoise R o dc x y = .ok (n, c, line, good)) :
    ∃ mask : List Bool, ∃ m0, shotMask R o dc.vgap x y = .ok m0 ∧
      mask = (if m0.count true < 5 then x.map fun t => decide (2 < t) else m0) ∧
      x.length = mask.length ∧ y.length = mask.length ∧
      (∃ a ∈ chosen mask x y, ∃ b ∈ chosen mask x y, a.1 ≠ b.1) ∧
      (closedForm (chosen mask x y)).1 ≠ 0 ∧ dc.vgap ≠ 0 ∧ x ≠ [] ∧
      c = 5.8 / (closedForm (chosen mask x y)).1 * dc.vgap * 1e3 ∧
      line = x.map (fun t => ((closedForm (chosen mask x y)).1 * t + (closedForm (chosen mask x y)).2) * c) ∧
      n = RespFn.npInterp x line (dc.vint / dc.vgap) ∧ good = decide (0 < n ∧ n < 50) := by
  unfold findIfNoise at h
  obtain ⟨m0, h0, h⟩ := bind_ok_iff.1 h
  dsimp only at h
  obtain ⟨red, h1, h⟩ := bind_ok_iff.1 h
  obtain ⟨l, h2, h⟩ := bind_ok_iff.1 h
  obtain ⟨q, h3, h⟩ := bind_ok_iff.1 h
  obtain ⟨at0, h4, h⟩ := bind_ok_iff.1 h
  obtain ⟨ns, h5, h⟩ := bind_ok_iff.1 h
  obtain ⟨n', h6, h⟩ := bind_ok_iff.1 h
  have he := pure_ok_iff.1 h
  simp only [Prod.mk.injEq] at he
  obtain ⟨rfl, rfl, rfl, rfl⟩ := he
  obtain ⟨l1, l2, e1, e2⟩ := masked_ok h1
  set mask := (if m0.count true < 5 then x.map fun t => decide (2 < t) else m0) with hmask
  have e1' : red.1 = (chosen mask x y).map Prod.fst := by rw [e1]; unfold chosen; rw [List.map_map]; rfl
  have e2' : red.2 = (chosen mask x y).map Prod.snd := by rw [e2]; unfold chosen; rw [List.map_map]; rfl
  rw [e1', e2'] at h2
  have h2' : ∃ a ∈ chosen mask x y, ∃ b ∈ chosen mask x y, a.1 ≠ b.1 := by
    obtain ⟨-, a, ha, b, hb, hne⟩ := linregress_ok h2
    obtain ⟨a', ha', rfl⟩ := List.mem_map.1 ha
    obtain ⟨b', hb', rfl⟩ := List.mem_map.1 hb
    exact ⟨a', ha', b', hb', hne⟩
  rw [linregress_eq _ h2'] at h2
  cases h2
  obtain ⟨z1, e3⟩ : (closedForm (chosen mask x y)).1 ≠ 0 ∧ q = 5.8 / (closedForm (chosen mask x y)).1 := by
    unfold Np.fdiv at h3
    split_ifs at h3 with hz
    exact ⟨hz, (Except.ok.inj h3).symm⟩
  obtain ⟨z2, e4⟩ : dc.vgap ≠ 0 ∧ at0 = dc.vint / dc.vgap := by
    unfold Np.fdiv at h4
    split_ifs at h4 with hz
    exact ⟨hz, (Except.ok.inj h4).symm⟩
  subst e3 e4
  have hx : x ≠ [] := by
    rintro rfl
    obtain ⟨a, ha, -⟩ := h2'
    have := (chosen_sublist mask [] y).subset ha
    cases this
  unfold interp at h5
  obtain ⟨_, -, h5⟩ := bind_ok_iff.1 h5
  obtain ⟨_, -, h5⟩ := bind_ok_iff.1 h5
  obtain rfl := (pure_ok_iff.1 h5)
  have e6 : n' = RespFn.npInterp x ((x.map fun t => (closedForm (chosen mask x y)).1 * t + (closedForm (chosen mask x y)).2).map
      (· * (5.8 / (closedForm (chosen mask x y)).1 * dc.vgap * 1e3))) (dc.vint / dc.vgap) := by
    exact (Except.ok.inj h6).symm
  refine ⟨mask, m0, h0, hmask, l1, l2, h2', z1, z2, hx, rfl, ?_, ?_, rfl⟩
  · rw [List.map_map]; rfl
  · rw [e6]

end QMix.IfData
