import Verif.Props.Results
import Verif.Props.Figures2

/-!
# C117: the folders and files that `plot_overall_results` makes, and what its figures show
-/

namespace QMix.Results

open QMix Np Fl IvData IfData Opt Exp Spec Files

/-- The folders of the default hierarchy. -/
def folderNames : List String := ["dciv", "iv-curves", "iv-if", "impedance", "impedance-sim", "if-noise", "noise-temp",
  "if-spectrum", "overall-results", "csv"]

/-- The text files. -/
def textNames : List String := ["dciv-data.txt", "recovered-emb.txt", "dciv-info.txt", "results.txt"]

/-- The figures. -/
def figureNames : List String := ["iv_curves.png", "rdyn.png", "noise_temperature.png", "noise_temperature_spline_fit.png",
  "noise_temperature_logy.png", "noise_temperature_and_gain.png", "if_noise.png", "embedding_impedance.png",
  "embedding_impedance_all.png", "embedding_voltage.png", "drive_level.png", "junction_impedance.png"]

/-- The place of a file in one of the folders. -/
def fileIn (cwd : List Name) (fig : List Char) (sub name : String) : List Name :=
  place cwd fig ++ [sub.toList] ++ [name.toList]

/-- The lines of the figures: the points of the measurements, which are drawn with or without some of them. -/
noncomputable def shownFigures (sp : List ℝ → List Flt) (d : DCData) (l : List Point) (lo hi : ℝ) (a : ℕ) :
    List (String × List (ℕ × Label × List (Flt × Flt))) :=
  let good := l.filter fun q => q.z.fitGood
  let over := fun (l : List Point) (y : Point → Flt) => l.map fun q => (num q.e.p.freq, y q)
  let grid := (List.range 1001).map fun i : ℕ => lo + i * ((hi - lo) / 1000)
  [("iv_curves.png", (a, .text "", numPts (shownMvUa (siCurve d))) :: l.map fun q =>
      (a, .text (String.ofList q.e.freqText), numPts ((q.e.p.voltage.zip q.e.p.current).map fun p =>
        (p.1 * d.dc.vgap * 1e3, p.2 * d.dc.igap * 1e6)))),
   ("rdyn.png", [(a, .text "", over l fun q => q.f.zjIf)]),
   ("noise_temperature.png", [(a, .text "", over l fun q => q.f.tnBest)]),
   ("noise_temperature_spline_fit.png", [(a, .text "", over l fun q => q.f.tnBest),
      (a, .text "", (grid.map num).zip (sp grid))]),
   ("noise_temperature_logy.png", [(a, .text "", over l fun q => q.f.tnBest)]),
   ("noise_temperature_and_gain.png", [(a, .text "", over l fun q => q.f.tnBest), (a + 1, .text "", over l fun q => q.f.gDb)]),
   ("if_noise.png", [(a, .text "", over (l.filter fun q => q.f.dcif.ifFit) fun q => num q.f.dcif.ifNoise)]),
   ("embedding_impedance.png", [(a, .text "Real", over good fun q => num (q.z.zt * q.e.p.dc.rn).re),
      (a, .text "Imaginary", over good fun q => num (q.z.zt * q.e.p.dc.rn).im)]),
   ("embedding_impedance_all.png", [(a, .text "Real", over l fun q => num (q.z.zt * q.e.p.dc.rn).re),
      (a, .text "Imaginary", over l fun q => num (q.z.zt * q.e.p.dc.rn).im)]),
   ("embedding_voltage.png", [(a, .text "", over good fun q => q.z.vt.map fun v => ((v * q.e.p.dc.vgap * 1e3 : ℝ) : EReal))]),
   ("drive_level.png", [(a, .text "", over l fun q => q.z.alpha)]),
   ("junction_impedance.png", [(a, .text "Re$\\{Z_J\\}$", over l fun q => q.z.zw.map fun z : ℂ => (((z * d.dc.rn).re : ℝ) : EReal)),
      (a, .text "Im$\\{Z_J\\}$", over l fun q => q.z.zw.map fun z : ℂ => (((z * d.dc.rn).im : ℝ) : EReal))])]

theorem curves_append (x : List Cmd) (ax ax' : List ℕ) (y : List Cmd) :
    curves ⟨ax, x ++ y⟩ = curves ⟨ax', x⟩ ++ curves ⟨ax, y⟩ := List.filterMap_append ..

theorem curves_range (ax : List ℕ) (a : ℕ) (fr : Option (ℝ × ℝ)) : curves ⟨ax, rangeCmd a fr⟩ = [] := by
  cases fr <;> rfl

theorem curves_tn (ax : List ℕ) (a : ℕ) (m : Option ℝ) : curves ⟨ax, tnCmd a m⟩ = [] := by
  cases m <;> rfl

theorem freqs_zip (l : List Point) (y : Point → Flt) : (freqs l).zip (l.map y) = l.map fun q => (num q.e.p.freq, y q) := by
  unfold freqs
  induction l with
  | nil => rfl
  | cons q l ih => simp [ih]

theorem lineFig_run (l : List Point) (y : Point → Flt) (yl : String) (pre post : List Cmd) (a : ℕ)
    (h1 : ∀ ax, curves ⟨ax, pre⟩ = []) (h2 : ∀ ax, curves ⟨ax, post⟩ = []) :
    ∃ g, lineFig l (l.map y) yl pre post a = .ok g ∧ curves g = [(a, .text "", l.map fun q => (num q.e.p.freq, y q))] := by
  unfold lineFig
  rw [drawF_eq (by simp [freqs]), py_bind]
  refine ⟨_, rfl, ?_⟩
  rw [curves_append _ _ [a], curves_append _ _ [a], show ∀ x, Cmd.plot a (.text "") (freqs l) (l.map y) :: x =
    [Cmd.plot a (.text "") (freqs l) (l.map y)] ++ x from fun _ => rfl, curves_append _ _ [a], h1, h2, ← freqs_zip]
  rfl

theorem zFig_run (l : List Point) (z : Point → Flt × Flt) (n1 n2 yl : String) (fr : Option (ℝ × ℝ)) (a : ℕ) :
    ∃ g, zFig l z n1 n2 yl fr a = .ok g ∧ curves g = [(a, .text n1, l.map fun q => (num q.e.p.freq, (z q).1)),
      (a, .text n2, l.map fun q => (num q.e.p.freq, (z q).2))] := by
  unfold zFig
  rw [drawF_eq (by simp [freqs]), py_bind, drawF_eq (by simp [freqs]), py_bind]
  refine ⟨_, rfl, ?_⟩
  rw [curves_append _ _ [a], curves_append _ _ [a], curves_range, ← freqs_zip, ← freqs_zip]
  rfl

theorem gainFig_run (l : List Point) (fr : Option (ℝ × ℝ)) (m : Option ℝ) (a : ℕ) :
    ∃ g, gainFig l fr m a = .ok g ∧ curves g = [(a, .text "", l.map fun q => (num q.e.p.freq, q.f.tnBest)),
      (a + 1, .text "", l.map fun q => (num q.e.p.freq, q.f.gDb))] := by
  unfold gainFig
  rw [drawF_eq (by simp [freqs]), py_bind, drawF_eq (by simp [freqs]), py_bind]
  refine ⟨_, rfl, ?_⟩
  rw [curves_append _ _ [a], curves_append _ _ [a], curves_append _ _ [a], curves_range, curves_tn, ← freqs_zip, ← freqs_zip]
  rfl

theorem splineFig_run (spline : List ℝ → List Flt → Py (List ℝ → List Flt)) (l : List Point) (fr : Option (ℝ × ℝ))
    (m : Option ℝ) (a : ℕ) (sp : List ℝ → List Flt)
    (hsp : spline (l.map fun q => q.e.p.freq) (l.map fun q => q.f.tnBest) = .ok sp) (hlen : ∀ t, (sp t).length = t.length)
    (lo hi : ℝ) (hx : extent (l.map fun q => q.e.p.freq) = .ok (lo, hi)) :
    ∃ g, splineFig spline l fr m a = .ok g ∧ curves g = [(a, .text "", l.map fun q => (num q.e.p.freq, q.f.tnBest)),
      (a, .text "", (((List.range 1001).map fun i : ℕ => lo + i * ((hi - lo) / 1000)).map num).zip
        (sp ((List.range 1001).map fun i : ℕ => lo + i * ((hi - lo) / 1000))))] := by
  have hlin : linspace lo hi 1001 = .ok ((List.range 1001).map fun i : ℕ => lo + i * ((hi - lo) / 1000)) := by
    unfold linspace raiseIf
    rw [if_neg (by norm_num), py_bind]
    unfold tab
    norm_num
    rfl
  unfold splineFig
  simp only [hx, py_bind, hlin, hsp]
  rw [drawF_eq (by simp [freqs]), py_bind, drawF_eq (by simp [hlen]), py_bind]
  refine ⟨_, rfl, ?_⟩
  rw [curves_append _ _ [a], curves_append _ _ [a], curves_range, curves_tn, ← freqs_zip]
  rfl

theorem ivCurves_run (d : DCData) (l : List Point) (vmax imax : ℝ) (fr : Option (ℝ × ℝ)) (a : ℕ)
    (hl : d.current.length = d.voltage.length) (hne : d.voltage ≠ [])
    (hp : ∀ q ∈ l, q.e.p.voltage.length = q.e.p.current.length) :
    ∃ g, ivCurves d l vmax imax fr a = .ok g ∧ curves g = (a, .text "", numPts (shownMvUa (siCurve d))) :: l.map fun q =>
      (a, .text (String.ofList q.e.freqText), numPts ((q.e.p.voltage.zip q.e.p.current).map fun p =>
        (p.1 * d.dc.vgap * 1e3, p.2 * d.dc.igap * 1e6))) := by
  obtain ⟨L, -, -, -, f1, f2, -⟩ := dc_points_of hl hne
  have hcs : (l.mapM fun q => draw a (.text (String.ofList q.e.freqText)) (q.e.p.voltage.map (· * (d.dc.vgap * 1e3)))
      (q.e.p.current.map (· * (d.dc.igap * 1e6)))) = .ok (l.map fun q => Cmd.plot a (.text (String.ofList q.e.freqText))
        ((q.e.p.voltage.map (· * (d.dc.vgap * 1e3))).map num) ((q.e.p.current.map (· * (d.dc.igap * 1e6))).map num)) := by
    induction l with
    | nil => rfl
    | cons q l ih =>
      rw [List.mapM_cons, draw_eq (by simpa using hp q (by simp)), py_bind, ih fun q hq => hp q (by simp [hq]), py_bind]
      rfl
  unfold ivCurves
  simp only [f1, f2, hcs]
  rw [draw_eq (by simp), py_bind, py_bind]
  refine ⟨_, rfl, ?_⟩
  rw [curves_append _ _ [a], curves_append _ _ [a], curves_range]
  have hc : ∀ l : List Point, (∀ q ∈ l, q.e.p.voltage.length = q.e.p.current.length) →
      curves ⟨[a], l.map fun q => Cmd.plot a (.text (String.ofList q.e.freqText))
        ((q.e.p.voltage.map (· * (d.dc.vgap * 1e3))).map num) ((q.e.p.current.map (· * (d.dc.igap * 1e6))).map num)⟩ =
      l.map fun q => (a, .text (String.ofList q.e.freqText), numPts ((q.e.p.voltage.zip q.e.p.current).map fun p =>
        (p.1 * d.dc.vgap * 1e3, p.2 * d.dc.igap * 1e6))) := by
    intro l hp
    induction l with
    | nil => rfl
    | cons q l ih =>
      have := ih fun q hq => hp q (by simp [hq])
      rw [List.map_cons, show ∀ (c : Cmd) (x : List Cmd), c :: x = [c] ++ x from fun _ _ => rfl, curves_append _ _ [a], this,
        List.map_cons]
      simp only [curves, List.filterMap_cons, List.filterMap_nil, List.singleton_append]
      congr 3
      rw [List.map_map, List.map_map, List.zip_map, numPts, List.map_map]
      apply List.map_congr_left
      intro p _
      simp [mul_assoc]
      rfl
  rw [show ∀ (c : Cmd) (x : List Cmd), c :: x = [c] ++ x from fun _ _ => rfl, curves_append _ _ [a], hc l hp]
  simp only [curves, List.filterMap_cons, List.filterMap_nil, zip_numPts, List.append_nil]
  rfl

theorem scaledVt_map (r : Zemb.Result) (c e : ℝ) :
    fmul (scaledVt r c) (num e) = r.vt.map fun v => ((v * c * e : ℝ) : EReal) := by
  cases h : r.vt with
  | none => exact scaledVt_nan h c e
  | some v => exact scaledVt_num h c e

theorem zParts_map (z : Option ℂ) (rn : ℝ) : (zParts z rn).1 = z.map (fun z : ℂ => (((z * rn).re : ℝ) : EReal)) ∧
    (zParts z rn).2 = z.map fun z : ℂ => (((z * rn).im : ℝ) : EReal) := by
  cases z <;> exact ⟨rfl, rfl⟩

/-- All figures are drawn. -/
theorem figures_run (spline : List ℝ → List Flt → Py (List ℝ → List Flt)) (d : DCData) (l : List Point) (vmax imax : ℝ)
    (tnMax : Option ℝ) (fr : Option (ℝ × ℝ)) (a : ℕ) (hl : d.current.length = d.voltage.length) (hne : d.voltage ≠ [])
    (hp : ∀ q ∈ l, q.e.p.voltage.length = q.e.p.current.length) (sp : List ℝ → List Flt)
    (hsp : spline (l.map fun q => q.e.p.freq) (l.map fun q => q.f.tnBest) = .ok sp) (hlen : ∀ t, (sp t).length = t.length)
    (lo hi : ℝ) (hx : extent (l.map fun q => q.e.p.freq) = .ok (lo, hi)) :
    ∃ G : List (String × Drawing), ((figures spline d l vmax imax tnMax fr a).map fun x => (x.1, x.2.map Content.figure)) =
        (G.map fun x => (x.1.toList, Content.figure x.2)).map (fun x => (x.1, .ok x.2)) ∧
      G.map Prod.fst = figureNames ∧ G.map (fun x => (x.1, curves x.2)) = shownFigures sp d l lo hi a := by
  have r0 : ∀ ax, curves ⟨ax, []⟩ = [] := fun _ => rfl
  have r1 : ∀ ax, curves ⟨ax, rangeCmd a fr⟩ = [] := fun ax => curves_range ax a fr
  have r2 : ∀ ax, curves ⟨ax, rangeCmd a fr ++ tnCmd a tnMax⟩ = [] := fun ax => by
    rw [curves_append _ _ [a], curves_range, curves_tn]; rfl
  have r3 : ∀ ax, curves ⟨ax, [.ylim a (some 0) none]⟩ = [] := fun _ => rfl
  have r4 : ∀ ax, curves ⟨ax, [.ylim a (some 0) (some (num 1.2))]⟩ = [] := fun _ => rfl
  obtain ⟨g1, e1, c1⟩ := ivCurves_run d l vmax imax fr a hl hne hp
  obtain ⟨g2, e2, c2⟩ := lineFig_run l (fun q => q.f.zjIf) "Dynamic resistance ($\\Omega$)" _ _ a r1 r3
  obtain ⟨g3, e3, c3⟩ := lineFig_run l (fun q => q.f.tnBest) "Noise Temperature (K)" _ _ a r0 r2
  obtain ⟨g4, e4, c4⟩ := splineFig_run spline l fr tnMax a sp hsp hlen lo hi hx
  obtain ⟨g5, e5, c5⟩ := lineFig_run l (fun q => q.f.tnBest) "Noise Temperature (K)" _ _ a r0 r1
  obtain ⟨g6, e6, c6⟩ := gainFig_run l fr tnMax a
  obtain ⟨g7, e7, c7⟩ := lineFig_run (l.filter fun q => q.f.dcif.ifFit) (fun q => num q.f.dcif.ifNoise)
    "IF Noise Contribution (K)" _ _ a r1 r3
  obtain ⟨g8, e8, c8⟩ := zFig_run (l.filter fun q => q.z.fitGood) (fun q => zParts (some q.z.zt) q.e.p.dc.rn) "Real" "Imaginary"
    "Embedding Impedance ($\\Omega$)" fr a
  obtain ⟨g9, e9, c9⟩ := zFig_run l (fun q => zParts (some q.z.zt) q.e.p.dc.rn) "Real" "Imaginary"
    "Embedding Impedance ($\\Omega$)" fr a
  obtain ⟨g10, e10, c10⟩ := lineFig_run (l.filter fun q => q.z.fitGood)
    (fun q => fmul (scaledVt q.z q.e.p.dc.vgap) (num 1e3)) "Embedding Voltage (mV)" _ _ a r1 r3
  obtain ⟨g11, e11, c11⟩ := lineFig_run l (fun q => q.z.alpha) "Drive Level, $\\alpha$" _ _ a r1 r4
  obtain ⟨g12, e12, c12⟩ := zFig_run l (fun q => zParts q.z.zw d.dc.rn) "Re$\\{Z_J\\}$" "Im$\\{Z_J\\}$"
    "Junction Impedance ($\\Omega$)" fr a
  refine ⟨[("iv_curves.png", g1), ("rdyn.png", g2), ("noise_temperature.png", g3), ("noise_temperature_spline_fit.png", g4),
    ("noise_temperature_logy.png", g5), ("noise_temperature_and_gain.png", g6), ("if_noise.png", g7),
    ("embedding_impedance.png", g8), ("embedding_impedance_all.png", g9), ("embedding_voltage.png", g10),
    ("drive_level.png", g11), ("junction_impedance.png", g12)], ?_, rfl, ?_⟩
  · unfold figures
    simp only [e1, e2, e3, e4, e5, e6, e7, e8, e9, e10, e11, e12, List.map_cons, List.map_nil]
    rfl
  · have z1 : (fun q : Point => (num q.e.p.freq, (zParts q.z.zw d.dc.rn).1)) = fun q : Point =>
        (num q.e.p.freq, q.z.zw.map fun z : ℂ => (((z * d.dc.rn).re : ℝ) : EReal)) := funext fun q => by rw [(zParts_map _ _).1]
    have z2 : (fun q : Point => (num q.e.p.freq, (zParts q.z.zw d.dc.rn).2)) = fun q : Point =>
        (num q.e.p.freq, q.z.zw.map fun z : ℂ => (((z * d.dc.rn).im : ℝ) : EReal)) := funext fun q => by rw [(zParts_map _ _).2]
    rw [z1, z2] at c12
    simp only [scaledVt_map] at c10
    simp only [List.map_cons, List.map_nil, c1, c2, c3, c4, c5, c6, c7, c8, c9, c10, c11, c12, shownFigures, zParts]

/-! ## The disk -/

theorem foldl_min_least (x : ℝ) (l : List ℝ) : IsLeast {y | y ∈ x :: l} (l.foldl min x) := by
  induction l generalizing x with
  | nil => exact ⟨by simp, by simp [lowerBounds]⟩
  | cons y l ih =>
    obtain ⟨h1, h2⟩ := ih (min x y)
    rw [List.foldl_cons]
    refine ⟨?_, ?_⟩
    · rcases List.mem_cons.1 h1 with h | h
      · rw [h]
        rcases min_choice x y with h | h <;> rw [h] <;> simp
      · simp [h]
    · intro z hz
      have hm := h2 (List.mem_cons_self (a := min x y) (l := l))
      rcases List.mem_cons.1 hz with rfl | hz
      · exact hm.trans (min_le_left _ _)
      · rcases List.mem_cons.1 hz with rfl | hz
        · exact hm.trans (min_le_right _ _)
        · exact h2 (List.mem_cons_of_mem _ hz)

theorem foldl_max_greatest (x : ℝ) (l : List ℝ) : IsGreatest {y | y ∈ x :: l} (l.foldl max x) := by
  induction l generalizing x with
  | nil => exact ⟨by simp, by simp [upperBounds]⟩
  | cons y l ih =>
    obtain ⟨h1, h2⟩ := ih (max x y)
    rw [List.foldl_cons]
    refine ⟨?_, ?_⟩
    · rcases List.mem_cons.1 h1 with h | h
      · rw [h]
        rcases max_choice x y with h | h <;> rw [h] <;> simp
      · simp [h]
    · intro z hz
      have hm := h2 (List.mem_cons_self (a := max x y) (l := l))
      rcases List.mem_cons.1 hz with rfl | hz
      · exact (le_max_left _ _).trans hm
      · rcases List.mem_cons.1 hz with rfl | hz
        · exact (le_max_right _ _).trans hm
        · exact h2 (List.mem_cons_of_mem _ hz)

theorem extent_of {l : List ℝ} {lo hi : ℝ} (h1 : IsLeast {y | y ∈ l} lo) (h2 : IsGreatest {y | y ∈ l} hi) :
    extent l = .ok (lo, hi) := by
  cases l with
  | nil => exact absurd h1.1 (by simp)
  | cons x l =>
    show Except.ok (l.foldl min x, l.foldl max x) = _
    rw [(foldl_min_least x l).unique h1, (foldl_max_greatest x l).unique h2]

section

variable (spline : List ℝ → List Flt → Py (List ℝ → List Flt)) (str : ℝ → List Char) (cwd : List Name) (d : DCData)
  (data : List Entry) (fig : List Char) (vmax : ℝ) (tnMax : Option ℝ) (fr : Option (ℝ × ℝ)) (new : ℕ) (s : Disk Content)
  (hs : s.Ok) (hfree : ∀ w ∈ folderNames, s.Free (place cwd fig ++ [w.toList]))

include hs hfree

/-- The folders. -/
theorem folders_all : ∃ s', (structure_.forM fun k => ensure cwd (join fig k.2)) s = (.ok (), s') ∧ s'.Ok ∧ s'.file = s.file ∧
    ∀ l, s'.dir l ↔ s.dir l ∨ ∃ w ∈ folderNames, l <+: place cwd fig ++ [w.toList] := by
  have sub : ∀ w ∈ folderNames, place cwd (join fig (w.toList ++ ['/'])) = place cwd fig ++ [w.toList] := by
    have h : ∀ w ∈ folderNames, (w.toList ++ ['/']).head? ≠ some '/' ∧ parts (w.toList ++ ['/']) = [w.toList] := by decide
    intro w hw
    rw [place_join cwd fig (h w hw).1, (h w hw).2]
  obtain ⟨s', e1, e2, e3, e4⟩ := ensure_each cwd (folderNames.map fun w => join fig (w.toList ++ ['/'])) s hs
    (by
      intro p hp
      obtain ⟨w, -, rfl⟩ := List.mem_map.1 hp
      exact join_ne (by simp))
    (by
      intro p hp
      obtain ⟨w, hw, rfl⟩ := List.mem_map.1 hp
      rw [sub w hw]
      exact hfree w hw)
  refine ⟨s', e1, e2, e3, fun l => ?_⟩
  rw [e4]
  apply or_congr_right
  constructor
  · rintro ⟨p, hp, h⟩
    obtain ⟨w, hw, rfl⟩ := List.mem_map.1 hp
    rw [sub w hw] at h
    exact ⟨w, hw, h⟩
  · rintro ⟨w, hw, h⟩
    exact ⟨_, List.mem_map_of_mem hw, by rwa [sub w hw]⟩

/-- What comes after the folders. -/
theorem after_folders : ∃ s', s'.Ok ∧ s'.file = s.file ∧
    (∀ l, s'.dir l ↔ s.dir l ∨ ∃ w ∈ folderNames, l <+: place cwd fig ++ [w.toList]) ∧
    plotOverall spline str cwd d data fig vmax tnMax fr new s = (do
      let l ← lift (gather data)
      let imax ← lift (interpVal vmax (d.voltage.map (· * (d.dc.vgap * 1e3))) (d.current.map (· * (d.dc.igap * 1e6))))
      writeAll cwd (join fig "csv/".toList) (texts str d l)
      writeAll cwd (join fig "overall-results/".toList)
        ((figures spline d l vmax imax tnMax fr new).map fun x => (x.1, x.2.map .figure)) : Op Unit) s' := by
  obtain ⟨s', e1, e2, e3, e4⟩ := folders_all cwd fig s hs hfree
  refine ⟨s', e2, e3, e4, ?_⟩
  unfold plotOverall
  rw [bind_run_ok e1]
  rfl

/-- C117: without IF data of one of the measurements the call raises `AttributeError`, without its embedding circuit
`TypeError` (the first measurement that lacks something decides); the folders are made and no file is written. -/
theorem C117_lacking (pre post : List Entry) (e : Entry) (hdata : data = pre ++ e :: post)
    (hpre : ∀ x ∈ pre, x.p.ifs ≠ none ∧ x.p.zemb ≠ none) (he : e.p.ifs = none ∨ e.p.zemb = none) :
    ∃ s' err, plotOverall spline str cwd d data fig vmax tnMax fr new s = (.error (.py err), s') ∧ s'.file = s.file ∧
      (e.p.ifs = none → err = .attribute) ∧ (e.p.ifs ≠ none → err = .type) ∧
      ∀ l, s'.dir l ↔ s.dir l ∨ ∃ w ∈ folderNames, l <+: place cwd fig ++ [w.toList] := by
  obtain ⟨s', e2, e3, e4, e5⟩ := after_folders spline str cwd d data fig vmax tnMax fr new s hs hfree
  obtain ⟨g1, g2⟩ := gather_err pre post e hpre
  rw [hdata] at e5 ⊢
  by_cases h : e.p.ifs = none
  · refine ⟨s', .attribute, ?_, e3, fun _ => rfl, fun h' => absurd h h', e4⟩
    rw [e5, bind_run_err (lift_err (g1 h) s')]
  · refine ⟨s', .type, ?_, e3, fun h' => absurd h' h, fun _ => rfl, e4⟩
    rw [e5, bind_run_err (lift_err (g2 h (he.resolve_left h)) s')]

variable (l : List Point) (hdata : data = l.map Point.e) (hl : ∀ q ∈ l, q.e.p.ifs = some q.f ∧ q.e.p.zemb = some q.z)
  (hlen : d.current.length = d.voltage.length) (hne : d.voltage ≠ [])
  (hclear : ∀ n ∈ textNames, ¬ s.dir (fileIn cwd fig "csv" n))
  (hclear' : ∀ n ∈ figureNames, ¬ s.dir (fileIn cwd fig "overall-results" n))

include hdata hl hlen hne hclear in
/-- The text files. -/
theorem after_texts : ∃ s' imax, s'.Ok ∧
    (∀ l, s'.dir l ↔ s.dir l ∨ ∃ w ∈ folderNames, l <+: place cwd fig ++ [w.toList]) ∧
    s'.file (fileIn cwd fig "csv" "dciv-data.txt") = some (.table (d.voltage.zip d.current)) ∧
    s'.file (fileIn cwd fig "csv" "recovered-emb.txt") = some (.text (l.flatMap (embLine d))) ∧
    s'.file (fileIn cwd fig "csv" "dciv-info.txt") = some (.text (infoText d)) ∧
    s'.file (fileIn cwd fig "csv" "results.txt") = some (.text (resultsText str d l)) ∧
    (∀ p, (∀ n ∈ textNames, p ≠ fileIn cwd fig "csv" n) → s'.file p = s.file p) ∧
    plotOverall spline str cwd d data fig vmax tnMax fr new s =
      writeAll cwd (join fig "overall-results/".toList)
        ((figures spline d l vmax imax tnMax fr new).map fun x => (x.1, x.2.map .figure)) s' := by
  obtain ⟨s0, k0, f0, d0, e0⟩ := after_folders spline str cwd d data fig vmax tnMax fr new s hs hfree
  have hg : gather data = .ok l := gather_ok.2 ⟨hdata, hl⟩
  obtain ⟨imax, hi⟩ : ∃ imax, interpVal vmax (d.voltage.map (· * (d.dc.vgap * 1e3)))
      (d.current.map (· * (d.dc.igap * 1e6))) = .ok imax :=
    ⟨_, interpVal_ok.2 ⟨by simp [hlen], by simpa using hne, rfl⟩⟩
  have hpl : place cwd (join fig "csv/".toList) = place cwd fig ++ ["csv".toList] := by
    rw [place_join cwd fig (by decide)]
    congr 1
  have hin : ∀ n : String, place cwd (join fig "csv/".toList) ++ [n.toList] = fileIn cwd fig "csv" n := fun n => by
    rw [hpl]; rfl
  obtain ⟨s1, w1, w2, w3, w4, w5⟩ := writeAll_run cwd (join fig "csv/".toList)
    [("dciv-data.txt".toList, .table (d.voltage.zip d.current)), ("recovered-emb.txt".toList, .text (l.flatMap (embLine d))),
      ("dciv-info.txt".toList, .text (infoText d)), ("results.txt".toList, .text (resultsText str d l))] s0 k0
    (by rw [hpl, d0]; exact Or.inr ⟨"csv", by decide, List.prefix_refl _⟩)
    (by
      have nodir : ∀ n ∈ textNames, ¬ s0.dir (place cwd (join fig "csv/".toList) ++ [n.toList]) := by
        intro n hn
        rw [hin, d0]
        rintro (h | ⟨w, hw, h⟩)
        · exact hclear n hn h
        · have := h.length_le
          simp [fileIn] at this
      intro x hx
      simp only [List.mem_cons, List.not_mem_nil, or_false] at hx
      rcases hx with rfl | rfl | rfl | rfl
      · exact ⟨by simp, by simp, by simp, nodir _ (by decide)⟩
      · exact ⟨by simp, by simp, by simp, nodir _ (by decide)⟩
      · exact ⟨by simp, by simp, by simp, nodir _ (by decide)⟩
      · exact ⟨by simp, by simp, by simp, nodir _ (by decide)⟩)
    (by simp only [List.map_cons, List.map_nil]; decide)
  refine ⟨s1, imax, w2, by rw [w3]; exact d0, ?_, ?_, ?_, ?_, ?_, ?_⟩
  · rw [← hin]; exact w4 _ (.head _)
  · rw [← hin]; exact w4 _ (.tail _ (.head _))
  · rw [← hin]; exact w4 _ (.tail _ (.tail _ (.head _)))
  · rw [← hin]; exact w4 _ (.tail _ (.tail _ (.tail _ (.head _))))
  · intro p hp
    rw [w5 p ?_, f0]
    intro x hx
    simp only [List.mem_cons, List.not_mem_nil, or_false] at hx
    rcases hx with rfl | rfl | rfl | rfl
    · exact fun h => hp "dciv-data.txt" (by decide) (h.trans (hin _))
    · exact fun h => hp "recovered-emb.txt" (by decide) (h.trans (hin _))
    · exact fun h => hp "dciv-info.txt" (by decide) (h.trans (hin _))
    · exact fun h => hp "results.txt" (by decide) (h.trans (hin _))
  · have ht : texts str d l = [("dciv-data.txt".toList, Content.table (d.voltage.zip d.current)),
        ("recovered-emb.txt".toList, .text (l.flatMap (embLine d))), ("dciv-info.txt".toList, .text (infoText d)),
        ("results.txt".toList, .text (resultsText str d l))].map fun x => (x.1, Except.ok x.2) := by
      unfold texts columns raiseIf
      rw [if_neg (by simp [hlen])]
      rfl
    rw [e0, bind_run_ok (lift_ok hg s0), bind_run_ok (lift_ok hi s0), ht, bind_run_ok w1]

/-- What the four text files hold. -/
def TextsHold (file : List Name → Option Content) : Prop :=
  file (fileIn cwd fig "csv" "dciv-data.txt") = some (.table (d.voltage.zip d.current)) ∧
  (∃ t, file (fileIn cwd fig "csv" "recovered-emb.txt") = some (.text t) ∧ RecoveredTable d l t) ∧
  (∃ t, file (fileIn cwd fig "csv" "dciv-info.txt") = some (.text t) ∧ InfoTable d t) ∧
  ∃ t, file (fileIn cwd fig "csv" "results.txt") = some (.text t) ∧ ResultsTable str d l t

variable (hf : ∀ q ∈ l, ',' ∉ q.e.freqText ∧ '\t' ∉ q.e.freqText ∧ '\n' ∉ q.e.freqText ∧ q.e.freqText.head? ≠ some ' ')
  (hstr : ∀ x, ',' ∉ str x ∧ '\n' ∉ str x ∧ (str x).head? ≠ some ' ')

include hdata hl hlen hne hclear hclear' hf hstr in
/-- C117: what `plot_overall_results` makes of measurements that have IF data and an embedding circuit, when the spline
can be fitted (then there are measurements; `lo` and `hi` are their least and greatest frequency): the folders, the measured current and voltage, the three texts, and the twelve figures with their lines. All
other files stay as they are. -/
theorem C117_written (hp : ∀ q ∈ l, q.e.p.voltage.length = q.e.p.current.length) (sp : List ℝ → List Flt)
    (hsp : spline (l.map fun q => q.e.p.freq) (l.map fun q => q.f.tnBest) = .ok sp) (hsl : ∀ t, (sp t).length = t.length)
    (lo hi : ℝ) (hlo : IsLeast {y | y ∈ l.map fun q => q.e.p.freq} lo)
    (hhi : IsGreatest {y | y ∈ l.map fun q => q.e.p.freq} hi) :
    ∃ s', plotOverall spline str cwd d data fig vmax tnMax fr new s = (.ok (), s') ∧ s'.Ok ∧
      (∀ l, s'.dir l ↔ s.dir l ∨ ∃ w ∈ folderNames, l <+: place cwd fig ++ [w.toList]) ∧
      TextsHold str cwd d fig l s'.file ∧
      (∀ x ∈ shownFigures sp d l lo hi new, ∃ g, s'.file (fileIn cwd fig "overall-results" x.1) = some (.figure g) ∧
        curves g = x.2) ∧
      ∀ p, (∀ n ∈ textNames, p ≠ fileIn cwd fig "csv" n) → (∀ n ∈ figureNames, p ≠ fileIn cwd fig "overall-results" n) →
        s'.file p = s.file p := by
  obtain ⟨s1, imax, k1, d1, t1, t2, t3, t4, u1, e1⟩ :=
    after_texts spline str cwd d data fig vmax tnMax fr new s hs hfree l hdata hl hlen hne hclear
  obtain ⟨G, eG, nG, cG⟩ := figures_run spline d l vmax imax tnMax fr new hlen hne hp sp hsp hsl lo hi (extent_of hlo hhi)
  have hpl : place cwd (join fig "overall-results/".toList) = place cwd fig ++ ["overall-results".toList] := by
    rw [place_join cwd fig (by decide)]
    congr 1
  have hin : ∀ n : String, place cwd (join fig "overall-results/".toList) ++ [n.toList] = fileIn cwd fig "overall-results" n :=
    fun n => by rw [hpl]; rfl
  have hmem : ∀ x ∈ G, x.1 ∈ figureNames := fun x hx => nG ▸ List.mem_map_of_mem hx
  have hdiff : ∀ n m, fileIn cwd fig "csv" n ≠ fileIn cwd fig "overall-results" m := by
    intro n m h
    have h := List.append_inj_left' h rfl
    have h := List.append_inj_right' h rfl
    revert h
    decide
  obtain ⟨s2, w1, w2, w3, w4, w5⟩ := writeAll_run cwd (join fig "overall-results/".toList)
    (G.map fun x => (x.1.toList, Content.figure x.2)) s1 k1
    (by rw [hpl, d1]; exact Or.inr ⟨"overall-results", by decide, List.prefix_refl _⟩)
    (by
      intro x hx
      obtain ⟨y, hy, rfl⟩ := List.mem_map.1 hx
      have hn := hmem y hy
      have good : ∀ n ∈ figureNames, '/' ∉ n.toList ∧ n.toList ≠ [] ∧ n.toList ≠ ['.'] := by decide
      obtain ⟨g1, g2, g3⟩ := good _ hn
      refine ⟨g1, g2, g3, ?_⟩
      rw [hin, d1]
      rintro (h | ⟨w, hw, h⟩)
      · exact hclear' _ hn h
      · have := h.length_le
        simp [fileIn] at this)
    (by
      have : (G.map fun x => (x.1.toList, Content.figure x.2)).map Prod.fst = (G.map Prod.fst).map String.toList := by
        simp [List.map_map, Function.comp_def]
      rw [this, nG]
      decide)
  have hnew : ∀ p, (∀ n ∈ figureNames, p ≠ fileIn cwd fig "overall-results" n) → s2.file p = s1.file p := by
    intro p hp
    refine w5 p ?_
    intro x hx
    obtain ⟨y, hy, rfl⟩ := List.mem_map.1 hx
    rw [hin]
    exact hp _ (hmem y hy)
  have hcsv : ∀ n, s2.file (fileIn cwd fig "csv" n) = s1.file (fileIn cwd fig "csv" n) := fun n =>
    hnew _ fun m _ => hdiff n m
  refine ⟨s2, by rw [e1, eG, w1], w2, by rw [w3]; exact d1, ⟨by rw [hcsv, t1], ?_, ?_, ?_⟩, ?_, ?_⟩
  · exact ⟨_, (hcsv _).trans t2, C117_recovered d l fun q hq => ⟨(hf q hq).2.1, (hf q hq).2.2.1⟩⟩
  · exact ⟨_, (hcsv _).trans t3, C117_info d⟩
  · exact ⟨_, (hcsv _).trans t4, C117_results str d l (fun q hq => ⟨(hf q hq).1, (hf q hq).2.2⟩) hstr⟩
  · intro x hx
    rw [← cG] at hx
    obtain ⟨y, hy, rfl⟩ := List.mem_map.1 hx
    refine ⟨y.2, ?_, rfl⟩
    have := w4 _ (List.mem_map_of_mem hy)
    rw [← hin]
    exact this
  · intro p h1 h2
    rw [hnew p h2, u1 p h1]

include hdata hl hlen hne hclear hclear' hf hstr in
/-- C117 is false of the code when SciPy refuses the spline (fewer than four measurements, or frequencies that do not
increase): the call then raises after the texts and the first three figures, and the other nine figures are not written. -/
theorem C117_false_spline (hp : ∀ q ∈ l, q.e.p.voltage.length = q.e.p.current.length) (hl0 : l ≠ []) (err : PyErr)
    (hsp : spline (l.map fun q => q.e.p.freq) (l.map fun q => q.f.tnBest) = .error err) :
    ∃ s', plotOverall spline str cwd d data fig vmax tnMax fr new s = (.error (.py err), s') ∧
      TextsHold str cwd d fig l s'.file ∧
      (∀ (sp : List ℝ → List Flt) (lo hi : ℝ), ∀ x ∈ (shownFigures sp d l lo hi new).take 3, ∃ g,
        s'.file (fileIn cwd fig "overall-results" x.1) = some (.figure g) ∧ curves g = x.2) ∧
      ∀ n ∈ figureNames.drop 3, s'.file (fileIn cwd fig "overall-results" n) =
        s.file (fileIn cwd fig "overall-results" n) := by
  obtain ⟨s1, imax, k1, d1, t1, t2, t3, t4, u1, e1⟩ :=
    after_texts spline str cwd d data fig vmax tnMax fr new s hs hfree l hdata hl hlen hne hclear
  have r0 : ∀ ax, curves ⟨ax, []⟩ = [] := fun _ => rfl
  have r1 : ∀ ax, curves ⟨ax, rangeCmd new fr⟩ = [] := fun ax => curves_range ax new fr
  have r2 : ∀ ax, curves ⟨ax, rangeCmd new fr ++ tnCmd new tnMax⟩ = [] := fun ax => by
    rw [curves_append _ _ [new], curves_range, curves_tn]; rfl
  have r3 : ∀ ax, curves ⟨ax, [.ylim new (some 0) none]⟩ = [] := fun _ => rfl
  obtain ⟨g1, f1, c1⟩ := ivCurves_run d l vmax imax fr new hlen hne hp
  obtain ⟨g2, f2, c2⟩ := lineFig_run l (fun q => q.f.zjIf) "Dynamic resistance ($\\Omega$)" _ _ new r1 r3
  obtain ⟨g3, f3, c3⟩ := lineFig_run l (fun q => q.f.tnBest) "Noise Temperature (K)" _ _ new r0 r2
  have f4 : splineFig spline l fr tnMax new = .error err := by
    unfold splineFig
    obtain ⟨q, l', rfl⟩ := List.exists_cons_of_ne_nil hl0
    simp only [List.map_cons, extent, py_bind]
    rw [List.map_cons, List.map_cons] at hsp
    have : ∃ t, linspace (List.foldl min q.e.p.freq (l'.map fun q => q.e.p.freq))
      (List.foldl max q.e.p.freq (l'.map fun q => q.e.p.freq)) 1001 = .ok t := ⟨_, rfl⟩
    obtain ⟨t, ht⟩ := this
    rw [ht, py_bind, hsp]
    rfl
  have hpl : place cwd (join fig "overall-results/".toList) = place cwd fig ++ ["overall-results".toList] := by
    rw [place_join cwd fig (by decide)]
    congr 1
  have hin : ∀ n : String, place cwd (join fig "overall-results/".toList) ++ [n.toList] = fileIn cwd fig "overall-results" n :=
    fun n => by rw [hpl]; rfl
  have hdiff : ∀ n m, fileIn cwd fig "csv" n ≠ fileIn cwd fig "overall-results" m := by
    intro n m h
    have h := List.append_inj_left' h rfl
    have h := List.append_inj_right' h rfl
    revert h
    decide
  obtain ⟨s2, w1, w2, w3, w4, w5⟩ := writeAll_run cwd (join fig "overall-results/".toList)
    [("iv_curves.png".toList, Content.figure g1), ("rdyn.png".toList, .figure g2), ("noise_temperature.png".toList, .figure g3)]
    s1 k1
    (by rw [hpl, d1]; exact Or.inr ⟨"overall-results", by decide, List.prefix_refl _⟩)
    (by
      have nodir : ∀ n ∈ figureNames, ¬ s1.dir (place cwd (join fig "overall-results/".toList) ++ [n.toList]) := by
        intro n hn
        rw [hin, d1]
        rintro (h | ⟨w, hw, h⟩)
        · exact hclear' _ hn h
        · have := h.length_le
          simp [fileIn] at this
      intro x hx
      simp only [List.mem_cons, List.not_mem_nil, or_false] at hx
      rcases hx with rfl | rfl | rfl
      · exact ⟨by simp, by simp, by simp, nodir _ (by decide)⟩
      · exact ⟨by simp, by simp, by simp, nodir _ (by decide)⟩
      · exact ⟨by simp, by simp, by simp, nodir _ (by decide)⟩)
    (by simp only [List.map_cons, List.map_nil]; decide)
  have hnew : ∀ p, (∀ n ∈ figureNames.take 3, p ≠ fileIn cwd fig "overall-results" n) → s2.file p = s1.file p := by
    intro p hp
    refine w5 p ?_
    intro x hx
    simp only [List.mem_cons, List.not_mem_nil, or_false] at hx
    rcases hx with rfl | rfl | rfl
    · exact fun h => hp "iv_curves.png" (by decide) (h.trans (hin _))
    · exact fun h => hp "rdyn.png" (by decide) (h.trans (hin _))
    · exact fun h => hp "noise_temperature.png" (by decide) (h.trans (hin _))
  have hcsv : ∀ n, s2.file (fileIn cwd fig "csv" n) = s1.file (fileIn cwd fig "csv" n) := fun n =>
    hnew _ fun m _ => hdiff n m
  refine ⟨s2, ?_, ⟨by rw [hcsv, t1], ?_, ?_, ?_⟩, ?_, ?_⟩
  · rw [e1]
    unfold figures
    simp only [List.map_cons, f1, f2, f3, f4]
    exact (writeAll_append w1).trans (writeAll_err _ _ _ _ _ _)
  · exact ⟨_, (hcsv _).trans t2, C117_recovered d l fun q hq => ⟨(hf q hq).2.1, (hf q hq).2.2.1⟩⟩
  · exact ⟨_, (hcsv _).trans t3, C117_info d⟩
  · exact ⟨_, (hcsv _).trans t4, C117_results str d l (fun q hq => ⟨(hf q hq).1, (hf q hq).2.2⟩) hstr⟩
  · intro sp lo hi x hx
    simp only [shownFigures, List.take_succ_cons, List.take_zero, List.mem_cons, List.not_mem_nil, or_false] at hx
    rcases hx with rfl | rfl | rfl
    · exact ⟨g1, by rw [← hin]; exact w4 _ (.head _), c1⟩
    · exact ⟨g2, by rw [← hin]; exact w4 _ (.tail _ (.head _)), c2⟩
    · exact ⟨g3, by rw [← hin]; exact w4 _ (.tail _ (.tail _ (.head _))), c3⟩
  · intro n hn
    rw [hnew, u1]
    · exact fun m _ h => hdiff m n h.symm
    · intro m hm h
      have h := List.append_inj_right' h rfl
      have h : n = m := String.toList_inj.1 (List.singleton_inj.1 h)
      have : ∀ n ∈ figureNames.drop 3, n ∉ figureNames.take 3 := by decide
      exact this n hn (h ▸ hm)

end

end QMix.Results
