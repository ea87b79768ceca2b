import Verif.Props.FigureTexts2

/-! # C194: the ranges of the axes of the summary figures -/

namespace QMix.Results

open QMix Np Fl IvData IfData Opt Exp Spec Files

/-! ## Specification -/

/-- The range of the horizontal axis of `a` in the finished figure: the last one that was set, if any. An end that is `none` is left to
Matplotlib. -/
def xRange (a : ℕ) (g : Drawing) : Option (Option ℝ × Option ℝ) :=
  (g.cmds.filterMap fun c => match c with
    | .xlim b lo hi => if b = a then some (lo, hi) else none
    | _ => none).getLast?

/-- The range of the vertical axis. -/
def yRange (a : ℕ) (g : Drawing) : Option (Option ℝ × Option Flt) :=
  (g.cmds.filterMap fun c => match c with
    | .ylim b lo hi => if b = a then some (lo, hi) else none
    | _ => none).getLast?

/-- The vertical range of each figure: none (the figures of impedances and the logarithmic one), or from zero to the greatest value asked
for, if there is one. -/
noncomputable def heights (imax : ℝ) (tnMax : Option ℝ) : List (String × Option (Option ℝ × Option Flt)) :=
  [("iv_curves.png", some (some 0, some (num imax))), ("rdyn.png", some (some 0, none)),
   ("noise_temperature.png", some (some 0, tnMax.map num)), ("noise_temperature_spline_fit.png", some (some 0, tnMax.map num)),
   ("noise_temperature_logy.png", none), ("noise_temperature_and_gain.png", some (some 0, tnMax.map num)),
   ("if_noise.png", some (some 0, none)), ("embedding_impedance.png", none), ("embedding_impedance_all.png", none),
   ("embedding_voltage.png", some (some 0, none)), ("drive_level.png", some (some 0, some (num 1.2))),
   ("junction_impedance.png", none)]

/-! ## Lemmas -/

theorem mapM_plots {β : Type} (a : ℕ) (l : List Point) (u v : ℝ) (cs : List Cmd)
    (h : (l.mapM fun q => draw a (.text (String.ofList q.e.freqText)) (q.e.p.voltage.map (· * u))
      (q.e.p.current.map (· * v))) = .ok cs) (f : Cmd → Option β) (hf : ∀ b t x y, f (.plot b t x y) = none) :
    cs.filterMap f = [] := by
  induction l generalizing cs with
  | nil => cases h; rfl
  | cons q l ih =>
    rw [List.mapM_cons] at h
    obtain ⟨c, hc, h⟩ := bind_ok_iff.1 h
    obtain ⟨cs', hcs, h⟩ := bind_ok_iff.1 h
    cases h
    rw [List.filterMap_cons, draw_plot hc, hf]
    exact ih _ hcs

/-! ## C194 -/

/-- C194: the frequency axis of each figure shows the range of frequencies asked for (the range of the data if none is asked for), the
voltage axis of the I-V curves goes from zero to the greatest voltage asked for, whatever the range of frequencies, and the vertical
axes have the ranges of `heights`. -/
theorem C194_ranges (spline : List ℝ → List Flt → Py (List ℝ → List Flt)) (d : DCData) (l : List Point)
    (vmax imax : ℝ) (tnMax : Option ℝ) (fr : Option (ℝ × ℝ)) (a : ℕ) (name : String) (r : Py Drawing)
    (hm : (name.toList, r) ∈ figures spline d l vmax imax tnMax fr a) (g : Drawing) (h : r = .ok g) :
    xRange a g = (if name = "iv_curves.png" then some (some 0, some vmax) else fr.map fun r => (some r.1, some r.2)) ∧
    (heights imax tnMax).lookup name = some (yRange a g) := by
  unfold figures at hm
  simp only [List.mem_cons, List.not_mem_nil, or_false, Prod.mk.injEq, String.toList_inj] at hm
  rcases hm with ⟨rfl, rfl⟩ | ⟨rfl, rfl⟩ | ⟨rfl, rfl⟩ | ⟨rfl, rfl⟩ | ⟨rfl, rfl⟩ | ⟨rfl, rfl⟩ | ⟨rfl, rfl⟩ | ⟨rfl, rfl⟩ |
    ⟨rfl, rfl⟩ | ⟨rfl, rfl⟩ | ⟨rfl, rfl⟩ | ⟨rfl, rfl⟩
  · unfold ivCurves at h
    obtain ⟨_, h1, h⟩ := bind_ok_iff.1 h
    obtain ⟨cs, h2, h⟩ := bind_ok_iff.1 h
    rw [draw_plot h1] at h
    cases h
    constructor
    · rw [if_pos rfl]
      simp only [xRange, List.cons_append, List.filterMap_append, List.filterMap_cons]
      rw [mapM_plots _ _ _ _ _ h2 _ fun _ _ _ _ => rfl]
      cases fr <;> simp [rangeCmd]
    · simp only [yRange, List.cons_append, List.filterMap_append, List.filterMap_cons]
      rw [mapM_plots _ _ _ _ _ h2 _ fun _ _ _ _ => rfl]
      cases fr <;> simp [rangeCmd, heights]
  all_goals
    rw [if_neg (by decide)]
  case inr.inr.inr.inl =>
    unfold splineFig at h
    obtain ⟨_, -, h⟩ := bind_ok_iff.1 h
    obtain ⟨_, -, h⟩ := bind_ok_iff.1 h
    obtain ⟨_, -, h⟩ := bind_ok_iff.1 h
    obtain ⟨_, h1, h⟩ := bind_ok_iff.1 h
    obtain ⟨_, h2, h⟩ := bind_ok_iff.1 h
    rw [drawF_plot h1, drawF_plot h2] at h
    cases h
    cases fr <;> cases tnMax <;> simp [xRange, yRange, rangeCmd, tnCmd, heights, List.lookup]
  case inr.inr.inr.inr.inr.inl =>
    unfold gainFig at h
    obtain ⟨_, h1, h⟩ := bind_ok_iff.1 h
    obtain ⟨_, h2, h⟩ := bind_ok_iff.1 h
    rw [drawF_plot h1, drawF_plot h2] at h
    cases h
    cases fr <;> cases tnMax <;> simp [xRange, yRange, rangeCmd, tnCmd, heights, List.lookup]
  all_goals
    first
    | unfold lineFig at h
    | unfold zFig at h
    follow h
    cases fr <;> cases tnMax <;> simp [xRange, yRange, rangeCmd, tnCmd, heights, List.lookup]

/-- A summary of two measurements with a range of frequencies and a greatest noise temperature. -/
example (spline : List ℝ → List Flt → Py (List ℝ → List Flt)) (d : DCData) (q : Point) (a : ℕ) : ∃ g,
    lineFig [q, q] ([q, q].map fun q => q.f.tnBest) "Noise Temperature (K)" [] (rangeCmd a (some (200, 260)) ++ tnCmd a (some 300)) a =
      .ok g ∧ xRange a g = some (some 200, some 260) ∧ yRange a g = some (some 0, some (num 300)) := by
  refine ⟨_, rfl, ?_⟩
  obtain ⟨h1, h2⟩ := C194_ranges spline d [q, q] 4 100 (some 300) (some (200, 260)) a "noise_temperature.png" _
    (.tail _ (.tail _ (.head _))) _ rfl
  refine ⟨by rw [h1, if_neg (by decide)]; rfl, ?_⟩
  have e : (heights 100 (some 300)).lookup "noise_temperature.png" = some (some (some 0, some (num 300))) := by
    simp [heights, List.lookup]
  rw [e] at h2
  exact (Option.some.inj h2).symm

end QMix.Results
