import Verif.Props.RespPrint
import Verif.Props.FigureTexts

/-!
# C130: the figures of the response functions
-/

namespace QMix.Props

open QMix Np MathFn RespFn RespPrint Exp Fl

/-! ## What a reader sees -/

/-- The point `(x, y)` is a point of a curve with this label in the legend. -/
def Drawn (g : List Cmd) (label : String) (x y : ℝ) : Prop :=
  ∃ (a : ℕ) (xs ys : List Flt) (i : ℕ), Cmd.plot a (.text label) xs ys ∈ g ∧ xs[i]? = some (num x) ∧ ys[i]? = some (num y)

/-- The axis of a command. -/
def onAxis : Cmd → ℕ
  | .plot a _ _ _ => a
  | .vline a _ => a
  | .hline a _ => a
  | .mesh a _ => a
  | .note a _ _ _ => a
  | .xlim a _ _ => a
  | .ylim a _ _ => a
  | .xlabel a _ => a
  | .ylabel a _ => a
  | .title a _ => a

/-- The response functions that the classes make. -/
def Made (S : Splines) (r : Obj) : Prop :=
  (∃ v c p, c.length = v.length ∧ respInit S v c p = .ok r) ∨ (∃ v c l p, fromIVData S v c l p = .ok r) ∨
    (∃ n p, respPolynomial S n p = .ok r) ∨ (∃ a b c d p, respExponential S a b c d p = .ok r) ∨
    (∃ p, respPerfect S p = .ok r)

/-! ## Lemmas -/

theorem init_lengths {S : Splines} {v c : List ℝ} {p : Params} {r : Obj} (hl : c.length = v.length)
    (h : respInit S v c p = .ok r) : r.current.length = r.voltage.length ∧ r.currentKk.length = r.voltage.length := by
  obtain ⟨hpos, -, -, hv, hs, hk, -⟩ := respInit_ok h
  have hlr : (reflected c).length = (reflected v).length := by
    rw [reflected_length (by omega), reflected_length (by omega), hl]
  have h1 := smear_length hs hlr
  rw [← hv] at h1
  obtain ⟨-, -, e⟩ := kkTrans_ok h1 hk
  exact ⟨h1, by rw [e, tab_length]⟩

theorem perfectSmeared_length {s : ℝ} {i : List ℝ} (h : perfectSmeared s = .ok i) : i.length = VINIT.length := by
  unfold perfectSmeared at h
  obtain ⟨tmp, ht, h⟩ := bind_ok_iff.1 h
  obtain ⟨_, -, h⟩ := bind_ok_iff.1 h
  obtain ⟨_, -, h⟩ := bind_ok_iff.1 h
  obtain ⟨_, -, h⟩ := bind_ok_iff.1 h
  obtain ⟨g, hg, h⟩ := bind_ok_iff.1 h
  obtain ⟨-, -, hg⟩ := gaussConv_ok hg
  rw [impulse_eq] at ht
  have ht := Except.ok.inj ht
  have := zip_length h (by rw [hg, tab_length, ← ht, tab_length, List.length_map, VINIT_length])
  rw [this, List.length_map]

theorem ivResample_length {v c i : List ℝ} {l : ℝ} (h : ivResample v c l = .ok i) : i.length = VINIT.length := by
  unfold ivResample at h
  obtain ⟨pts, -, h⟩ := bind_ok_iff.1 h
  rw [← Except.ok.inj h, List.length_map]

theorem made_lengths {S : Splines} {r : Obj} (h : Made S r) :
    r.current.length = r.voltage.length ∧ r.currentKk.length = r.voltage.length := by
  rcases h with ⟨v, c, p, hl, h⟩ | ⟨v, c, l, p, h⟩ | ⟨n, p, h⟩ | ⟨a, b, c, d, p, h⟩ | ⟨p, h⟩
  · exact init_lengths hl h
  · unfold fromIVData at h
    obtain ⟨i, hi, h⟩ := bind_ok_iff.1 h
    exact init_lengths (ivResample_length hi) h
  · unfold respPolynomial at h
    obtain ⟨i, hi, h⟩ := bind_ok_iff.1 h
    exact init_lengths (mapM_ok hi).length_eq.symm h
  · unfold respExponential at h
    obtain ⟨i, hi, h⟩ := bind_ok_iff.1 h
    exact init_lengths (mapM_ok hi).length_eq.symm h
  · unfold respPerfect at h
    split at h
    · have h := Except.ok.inj h
      rw [← h]
      have h1 : 1 ≤ VINIT.length := by rw [VINIT_length]; norm_num
      dsimp only
      constructor
      · rw [reflected_length (by rw [List.length_map]; exact h1), reflected_length h1, List.length_map]
      · rw [List.length_map]
    · obtain ⟨i, hi, h⟩ := bind_ok_iff.1 h
      exact init_lengths (perfectSmeared_length hi) h

theorem num_inj' {x y : ℝ} (h : num x = num y) : x = y := by
  unfold num at h
  exact_mod_cast Option.some.inj h

theorem drawn_zip {xs ys : List ℝ} {x y : ℝ} :
    (∃ i : ℕ, (xs.map num)[i]? = some (num x) ∧ (ys.map num)[i]? = some (num y)) ↔ (x, y) ∈ xs.zip ys := by
  rw [List.mem_iff_getElem?]
  refine exists_congr fun i => ?_
  rw [List.getElem?_zip_eq_some, List.getElem?_map, List.getElem?_map]
  cases xs[i]? with
  | none => simp
  | some a =>
    cases ys[i]? with
    | none => simp
    | some b =>
      simp only [Option.map_some, Option.some.injEq]
      exact ⟨fun h => ⟨num_inj' h.1, num_inj' h.2⟩, fun h => ⟨by rw [h.1], by rw [h.2]⟩⟩

theorem draw_eq' {a : ℕ} {l : Label} {xs ys : List ℝ} (h : ys.length = xs.length) :
    draw a l xs ys = .ok (.plot a l (xs.map num) (ys.map num)) := by
  unfold draw
  exact drawF_eq (by rw [List.length_map, List.length_map, h])

theorem zip_map_self {f : ℝ → ℝ} {l : List ℝ} {x y : ℝ} : (x, y) ∈ l.zip (l.map f) ↔ x ∈ l ∧ y = f x := by
  rw [List.mem_iff_getElem?, List.mem_iff_getElem?]
  constructor
  · rintro ⟨i, hi⟩
    rw [List.getElem?_zip_eq_some, List.getElem?_map] at hi
    obtain ⟨h1, h2⟩ := hi
    rw [h1] at h2
    exact ⟨⟨i, h1⟩, (Option.some.inj h2).symm⟩
  · rintro ⟨⟨i, hi⟩, rfl⟩
    refine ⟨i, ?_⟩
    rw [List.getElem?_zip_eq_some, List.getElem?_map, hi]
    exact ⟨rfl, rfl⟩

/-! ## C130 -/

/-- C130: for every response function both methods return, and the curves in the figures are the stored curves and the values of
`idc` and `ikk` at the same voltages. -/
theorem C130_curves {S : Splines} {r : Obj} (h : Made S r) (new : ℕ) (fig : Option String) (ax : Option ℕ) :
    (∃ g, plot r new fig ax = .ok g ∧ ∀ x y,
      (Drawn g.cmds "$I_\\mathrm{{dc}}^0(V_0)$" x y ↔ (x, y) ∈ r.voltage.zip r.current) ∧
      (Drawn g.cmds "$I_\\mathrm{{kk}}^0(V_0)$" x y ↔ (x, y) ∈ r.voltage.zip r.currentKk)) ∧
    (∃ g, plotInterpolation r new fig ax = .ok g ∧ ∀ x y,
      (Drawn g.cmds "$I_\\mathrm{{dc}}^0(V_0)$: imported" x y ↔ (x, y) ∈ r.voltage.zip r.current) ∧
      (Drawn g.cmds "$I_\\mathrm{{kk}}^0(V_0)$: imported" x y ↔ (x, y) ∈ r.voltage.zip r.currentKk) ∧
      (Drawn g.cmds "$I_\\mathrm{{dc}}^0(V_0)$: interpolated" x y ↔ x ∈ r.voltage ∧ y = r.idc x) ∧
      (Drawn g.cmds "$I_\\mathrm{{kk}}^0(V_0)$: interpolated" x y ↔ x ∈ r.voltage ∧ y = r.ikk x)) := by
  obtain ⟨h1, h2⟩ := made_lengths h
  have fin : ∀ (l : List Cmd) a, (finish l a fig).cmds = l := by
    intro l a
    cases fig <;> rfl
  constructor
  · unfold plot
    dsimp only
    rw [draw_eq' h1, py_bind, draw_eq' h2, py_bind]
    refine ⟨_, rfl, fun x y => ?_⟩
    rw [fin]
    unfold Drawn
    rw [← drawn_zip, ← drawn_zip]
    simp
  · unfold plotInterpolation
    dsimp only
    rw [draw_eq' h1, py_bind, draw_eq' h2, py_bind, draw_eq' (List.length_map _), py_bind, draw_eq' (List.length_map _), py_bind]
    refine ⟨_, rfl, fun x y => ?_⟩
    rw [fin]
    unfold Drawn
    have e1 : x ∈ r.voltage ∧ y = r.idc x ↔ (x, y) ∈ r.voltage.zip (r.voltage.map r.fIdc) := zip_map_self.symm
    have e2 : x ∈ r.voltage ∧ y = r.ikk x ↔ (x, y) ∈ r.voltage.zip (r.voltage.map r.fIkk) := zip_map_self.symm
    rw [e1, e2, ← drawn_zip, ← drawn_zip, ← drawn_zip, ← drawn_zip]
    simp

/-- C130: everything is drawn on the given axis, or on a new one; if a file name is given then the figure is saved there and closed and
nothing is returned, and otherwise the axis is returned; and `show_current` does the same as `plot_interpolation`. -/
theorem C130_axis (r : Obj) (new : ℕ) (fig : Option String) (ax : Option ℕ) {g : Shown}
    (h : plot r new fig ax = .ok g ∨ plotInterpolation r new fig ax = .ok g ∨ showCurrent r new fig ax = .ok g) :
    (∀ c ∈ g.cmds, onAxis c = ax.getD new) ∧
    (∀ f, fig = some f → g.file = some f ∧ g.closed = true ∧ g.axis = none) ∧
    (fig = none → g.file = none ∧ g.closed = false ∧ g.axis = some (ax.getD new)) := by
  have fin : ∀ (l : List Cmd), (∀ c ∈ l, onAxis c = ax.getD new) → g = finish l (ax.getD new) fig →
      (∀ c ∈ g.cmds, onAxis c = ax.getD new) ∧
      (∀ f, fig = some f → g.file = some f ∧ g.closed = true ∧ g.axis = none) ∧
      (fig = none → g.file = none ∧ g.closed = false ∧ g.axis = some (ax.getD new)) := by
    rintro l hl rfl
    cases fig with
    | none => exact ⟨hl, by rintro f ⟨⟩, fun _ => ⟨rfl, rfl, rfl⟩⟩
    | some f => exact ⟨hl, by rintro f' ⟨⟩; exact ⟨rfl, rfl, rfl⟩, by rintro ⟨⟩⟩
  have int : plotInterpolation r new fig ax = .ok g →
      (∀ c ∈ g.cmds, onAxis c = ax.getD new) ∧
      (∀ f, fig = some f → g.file = some f ∧ g.closed = true ∧ g.axis = none) ∧
      (fig = none → g.file = none ∧ g.closed = false ∧ g.axis = some (ax.getD new)) := by
    intro h
    unfold plotInterpolation at h
    obtain ⟨c1, h1, h⟩ := bind_ok_iff.1 h
    obtain ⟨c2, h2, h⟩ := bind_ok_iff.1 h
    obtain ⟨c3, h3, h⟩ := bind_ok_iff.1 h
    obtain ⟨c4, h4, h⟩ := bind_ok_iff.1 h
    rw [draw_plot h1, draw_plot h2, draw_plot h3, draw_plot h4] at h
    exact fin _ (by simp [onAxis]) (Except.ok.inj h).symm
  rcases h with h | h | h
  · unfold plot at h
    obtain ⟨c1, h1, h⟩ := bind_ok_iff.1 h
    obtain ⟨c2, h2, h⟩ := bind_ok_iff.1 h
    rw [draw_plot h1, draw_plot h2] at h
    exact fin _ (by simp [onAxis]) (Except.ok.inj h).symm
  · exact int h
  · exact int h

/-- C130, the texts: each axis has exactly one label, which says that the values are normalised, and the visible part is the interval from
0 (or -2) to 2. -/
theorem C130_labels (r : Obj) (new : ℕ) (fig : Option String) (ax : Option ℕ) {g : Shown} :
    (plot r new fig ax = .ok g → ∀ a t,
      (.xlabel a t ∈ g.cmds → t = "Bias Voltage (normalized)") ∧ (.ylabel a t ∈ g.cmds → t = "Current (normalized)") ∧
      .xlabel (ax.getD new) "Bias Voltage (normalized)" ∈ g.cmds ∧ .ylabel (ax.getD new) "Current (normalized)" ∈ g.cmds ∧
      ∀ lo hi, .xlim a lo hi ∈ g.cmds → lo = some 0 ∧ hi = some 2) ∧
    (plotInterpolation r new fig ax = .ok g → ∀ a t,
      (.xlabel a t ∈ g.cmds → t = "Bias Voltage / $V_\\mathrm{{gap}}$") ∧
      (.ylabel a t ∈ g.cmds → t = "Current / $I_\\mathrm{{gap}}$") ∧
      .xlabel (ax.getD new) "Bias Voltage / $V_\\mathrm{{gap}}$" ∈ g.cmds ∧
      .ylabel (ax.getD new) "Current / $I_\\mathrm{{gap}}$" ∈ g.cmds ∧
      ∀ lo hi, .xlim a lo hi ∈ g.cmds → lo = some (-2) ∧ hi = some 2) := by
  have fin : ∀ (l : List Cmd) a, (finish l a fig).cmds = l := by
    intro l a
    cases fig <;> rfl
  constructor
  · intro h a t
    unfold plot at h
    obtain ⟨c1, h1, h⟩ := bind_ok_iff.1 h
    obtain ⟨c2, h2, h⟩ := bind_ok_iff.1 h
    rw [draw_plot h1, draw_plot h2] at h
    rw [← Except.ok.inj h, fin]
    simp +contextual
  · intro h a t
    unfold plotInterpolation at h
    obtain ⟨c1, h1, h⟩ := bind_ok_iff.1 h
    obtain ⟨c2, h2, h⟩ := bind_ok_iff.1 h
    obtain ⟨c3, h3, h⟩ := bind_ok_iff.1 h
    obtain ⟨c4, h4, h⟩ := bind_ok_iff.1 h
    rw [draw_plot h1, draw_plot h2, draw_plot h3, draw_plot h4] at h
    rw [← Except.ok.inj h, fin]
    simp +contextual

theorem mem_zip_getD {v c : List ℝ} (hl : c.length = v.length) {x y : ℝ} :
    (x, y) ∈ v.zip c ↔ ∃ j < v.length, x = v.getD j 0 ∧ y = c.getD j 0 := by
  rw [List.mem_iff_getElem?]
  constructor
  · rintro ⟨j, hj⟩
    rw [List.getElem?_zip_eq_some] at hj
    refine ⟨j, (List.getElem?_eq_some_iff.1 hj.1).1, ?_, ?_⟩ <;> rw [List.getD_eq_getElem?_getD]
    · rw [hj.1]; rfl
    · rw [hj.2]; rfl
  · rintro ⟨j, hj, rfl, rfl⟩
    refine ⟨j, ?_⟩
    rw [List.getElem?_zip_eq_some, List.getD_eq_getElem?_getD, List.getD_eq_getElem?_getD, List.getElem?_eq_getElem hj,
      List.getElem?_eq_getElem (by omega)]
    exact ⟨rfl, rfl⟩

/-- C130, what the curve called "imported" shows if the class is `RespFn` and there is no smearing: the data passed by the user, and
its reflection. (`plot` shows the same curve, by `C130_curves`.) -/
theorem C130_imported_partial {S : Splines} {v c : List ℝ} {p : Params} {r : Obj} (hl : c.length = v.length)
    (hs : p.vSmear = none) (h : respInit S v c p = .ok r) {new : ℕ} {fig : Option String} {ax : Option ℕ} {g : Shown}
    (hg : plotInterpolation r new fig ax = .ok g) (x y : ℝ) :
    Drawn g.cmds "$I_\\mathrm{{dc}}^0(V_0)$: imported" x y ↔
      ∃ i < v.length, x = v.getD i 0 ∧ y = c.getD i 0 ∨ 0 < i ∧ x = -v.getD i 0 ∧ y = -c.getD i 0 := by
  obtain ⟨-, g', hg', hd⟩ := C130_curves (S := S) (.inl ⟨v, c, p, hl, h⟩) new fig ax
  rw [hg] at hg'
  cases hg'
  rw [(hd x y).1, mem_zip_getD (init_lengths hl h).1]
  obtain ⟨l1, -, a1, a2, -⟩ := C36_data hl hs h
  obtain ⟨hpos, -⟩ := respInit_ok h
  rw [l1]
  constructor
  · rintro ⟨j, hj, rfl, rfl⟩
    by_cases hc : v.length - 1 ≤ j
    · obtain ⟨i, rfl⟩ := Nat.exists_eq_add_of_le hc
      exact ⟨i, by omega, .inl ⟨(a1 i (by omega)).1, (a2 i (by omega)).1⟩⟩
    · obtain ⟨i, hi, rfl⟩ : ∃ i, i < v.length ∧ j = v.length - 1 - i := ⟨v.length - 1 - j, by omega, by omega⟩
      exact ⟨i, hi, .inr ⟨by omega, (a1 i hi).2, (a2 i hi).2 (by omega)⟩⟩
  · rintro ⟨i, hi, ⟨rfl, rfl⟩ | ⟨h0, rfl, rfl⟩⟩
    · exact ⟨v.length - 1 + i, by omega, (a1 i hi).1.symm, (a2 i hi).1.symm⟩
    · exact ⟨v.length - 1 - i, by omega, (a1 i hi).2.symm, ((a2 i hi).2 h0).symm⟩

/-- The hypotheses can be met: a straight line. -/
example (S : Splines) : ∃ r g, respInit S line line {} = .ok r ∧ plotInterpolation r 0 none none = .ok g ∧
    Drawn g.cmds "$I_\\mathrm{{dc}}^0(V_0)$: imported" 1 1 := by
  have hll : line.length = 241 := tab_length _ _
  obtain ⟨r, hr⟩ : ∃ r, respInit S line line {} = .ok r :=
    grid_init S (by norm_num) (by norm_num) (by norm_num) (by norm_num) hll (by rintro s ⟨⟩) (by norm_num) (by norm_num) rfl
  obtain ⟨-, g, hg, -⟩ := C130_curves (S := S) (.inl ⟨line, line, {}, rfl, hr⟩) 0 none none
  refine ⟨r, g, hr, hg, (C130_imported_partial rfl rfl hr hg 1 1).2 ⟨40, by omega, .inl ?_⟩⟩
  have : line.getD 40 0 = 1 := by
    unfold line grid
    rw [tab_getD (by norm_num)]
    norm_num
  rw [this]
  exact ⟨rfl, rfl⟩

/-- C130 is false for `RespFnFromIVData`: no sample at or above the limit is on the curve called "imported", unless it happens to lie on
the line with slope 1 through the last sample below the limit. -/
theorem C130_false_limit {S : Splines} {v c : List ℝ} {l : ℝ} {p : Params} {r : Obj} (hv : v.SortedLT) (h50 : l ≤ 50)
    (hs : p.vSmear = none) (h : fromIVData S v c (some l) p = .ok r) {vl il : ℝ}
    (hlast : (keptData v c l).getLast? = some (vl, il)) {new : ℕ} {fig : Option String} {ax : Option ℕ} {g : Shown}
    (hg : plotInterpolation r new fig ax = .ok g) {x y : ℝ} (hx : l ≤ x) (hy : y ≠ x + (il - vl)) :
    ¬ Drawn g.cmds "$I_\\mathrm{{dc}}^0(V_0)$: imported" x y := by
  unfold fromIVData at h
  obtain ⟨i, hi, h⟩ := bind_ok_iff.1 h
  have hi : ivResample v c l = .ok i := hi
  obtain ⟨-, hline, -⟩ := C40_resampling hv h50 hi
  have hkept : 0 < vl ∧ vl < l := by
    have := List.mem_of_getLast? hlast
    unfold keptData at this
    simpa using (List.mem_filter.1 this).2
  intro hd
  have key := (C130_imported_partial (ivResample_length hi) hs h hg x y).1 hd
  rw [VINIT_length] at key
  obtain ⟨k, hk, key⟩ := key
  rw [VINIT_getD hk] at key
  rcases key with ⟨e1, e2⟩ | ⟨h0, e1, e2⟩
  · have := hline vl il hlast k hk (by rw [VINIT_getD hk, ← e1]; linarith [hkept.2])
    rw [VINIT_getD hk, ← e1, ← e2] at this
    exact hy this
  · have : (0 : ℝ) ≤ k * (35 / 7000) := by positivity
    linarith [hkept.1, hkept.2]

/-- The hypotheses can be met: the third sample is missing from the curve. -/
example (S : Splines) : ∃ r g, fromIVData S [1, 1.5, 2] [0.25, 1.5, 3] (some 1.75) {} = .ok r ∧
    plotInterpolation r 0 none none = .ok g ∧ ¬ Drawn g.cmds "$I_\\mathrm{{dc}}^0(V_0)$: imported" 2 3 := by
  have hk : keptData [1, 1.5, 2] [0.25, 1.5, 3] (1.75 : ℝ) = [(1, 0.25), (1.5, 1.5)] := by
    unfold keptData
    norm_num [List.filter]
  have hp : GoodParams {} := ⟨rfl, by norm_num, by norm_num, by rintro s ⟨⟩⟩
  obtain ⟨r, hr⟩ := C78_data S hp (vlimit := some 1.75) (voltage := [1, 1.5, 2]) (current := [0.25, 1.5, 3]) rfl (by
    show keptData _ _ 1.75 ≠ []
    rw [hk]
    exact List.cons_ne_nil _ _)
  obtain ⟨-, g, hg, -⟩ := C130_curves (S := S) (.inr (.inl ⟨_, _, _, _, hr⟩)) 0 none none
  refine ⟨r, g, hr, hg, C130_false_limit (vl := 1.5) (il := 1.5) ?_ (by norm_num) rfl hr ?_ hg (by norm_num) (by norm_num)⟩
  · apply List.Pairwise.sortedLT
    norm_num
  · rw [hk]
    rfl

/-- C130 is false with smearing, for every spline: the sample `(1, 2)` of the data is not on the curve called "imported", and that
curve has a lower value there. -/
theorem C130_false_smeared (S : Splines) : ∃ v c p r g, c.length = v.length ∧ (1, 2) ∈ v.zip c ∧ respInit S v c p = .ok r ∧
    plotInterpolation r 0 none none = .ok g ∧ ¬ Drawn g.cmds "$I_\\mathrm{{dc}}^0(V_0)$: imported" 1 2 ∧
    ∃ y < 2, Drawn g.cmds "$I_\\mathrm{{dc}}^0(V_0)$: imported" 1 y := by
  obtain ⟨f, hf⟩ : ∃ f : ℕ → ℝ, f = fun t : ℕ => (t : ℝ) / 40 + (if t = 40 then 1 else 0 : ℝ) := ⟨_, rfl⟩
  have hll : (grid 40 240).length = 241 := tab_length _ _
  have hcl : (tab 241 f).length = 241 := tab_length _ _
  have hsm : ∀ s, (some (1 / 120 : ℝ)) = some s →
      1 ≤ 3 * (s * (40 : ℕ)) ∧ 6 * (s * (40 : ℕ)) + 1 / 10 ^ 5 ≤ 2 * ((240 : ℕ) : ℝ) + 1 := by
    intro s hs
    rw [← Option.some.inj hs]
    norm_num
  obtain ⟨r, hr⟩ := grid_init S (M := 40) (N := 240) (c := tab 241 f) (p := { vSmear := some (1 / 120) })
    (by norm_num) (by norm_num) (by norm_num) (by norm_num) hcl hsm (by norm_num) (by norm_num) rfl
  have hlen : (tab 241 f).length = (grid 40 240).length := by rw [hll, hcl]
  obtain ⟨-, g, hg, hd⟩ := C130_curves (S := S) (.inl ⟨_, _, _, hlen, hr⟩) 0 none none
  obtain ⟨-, -, -, hv, hs, -⟩ := respInit_ok hr
  have hl := (init_lengths hlen hr).1
  rw [reflected_tab 241 (by norm_num)] at hs
  obtain ⟨cur, h1, -, h2⟩ := grid_smear (M := 40) (N := 240) (by norm_num) (by norm_num) hsm
    (c := fun i => if i < 241 - 1 then -f (241 - 1 - i) else f (i - (241 - 1)))
  have hc : r.current = tab 481 cur := Except.ok.inj (hs.symm.trans h1)
  have h2 := h2 _ rfl
  rw [grid_reflected (by norm_num)] at hv
  have hv : r.voltage = tab 481 fun t => -((240 : ℕ) / (40 : ℕ) : ℝ) + 1 / (40 : ℕ) * (t : ℝ) := hv
  -- the smeared curve at 1
  have hw : cur 280 = 1 + win (1 / 3) 3 1 := by
    have e := smoothAt_int (sigma := 1 / 120 * (40 : ℕ)) (k := 1) (n := 2 * 240 + 1) (i := 280) (by norm_num) (by norm_num) (by norm_num)
      (fun t => (if t < 241 - 1 then -f (241 - 1 - t) else f (t - (241 - 1))) - (-((240 : ℕ) / (40 : ℕ) : ℝ) + 1 / (40 : ℕ) * (t : ℝ)))
    rw [h2]
    dsimp only
    rw [e, hf]
    simp only [Finset.sum_range_succ, Finset.sum_range_zero]
    norm_num
    ring
  have hlt : win (1 / 3) 3 1 < 1 := by
    have e := win_sum (sigma := 1 / 3) (ext := 3) (by norm_num)
    rw [winLen_int (r := 1) (by norm_num)] at e
    simp only [Finset.sum_range_succ, Finset.sum_range_zero] at e
    have a := win_pos (sigma := 1 / 3) (ext := 3) (by norm_num) 0
    have b := win_pos (sigma := 1 / 3) (ext := 3) (by norm_num) 2
    linarith
  refine ⟨grid 40 240, tab 241 f, _, r, g, hlen, (mem_zip_getD hlen).2 ⟨40, by omega, ?_, ?_⟩, hr, hg, ?_, cur 280, by linarith, ?_⟩
  · unfold grid
    rw [tab_getD (by norm_num)]
    norm_num
  · rw [tab_getD (by norm_num), hf]
    norm_num
  · rw [(hd 1 2).1, mem_zip_getD hl]
    rintro ⟨j, hj, e1, e2⟩
    have hj : j < 481 := by rwa [hv, tab_length] at hj
    rw [hv, tab_getD hj] at e1
    have : (j : ℝ) = (280 : ℕ) := by
      push_cast at e1 ⊢
      linarith
    have : j = 280 := by exact_mod_cast this
    subst this
    rw [hc, tab_getD hj, hw] at e2
    linarith
  · rw [(hd 1 _).1, mem_zip_getD hl]
    refine ⟨280, by rw [hv, tab_length]; norm_num, ?_, ?_⟩
    · rw [hv, tab_getD (by norm_num)]
      norm_num
    · rw [hc, tab_getD (by norm_num)]

end QMix.Props
