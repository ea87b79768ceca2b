import Verif.Props.FigureTexts
import Verif.Props.Figures8

/-! # C117: the texts on the axes of the summary figures -/

namespace QMix.Results

open QMix Np Fl IvData IfData Opt Exp Spec Files

/-- The names of the vertical axes of each of the figures of `plot_overall_results`. -/
def quantity : List (String × List String) :=
  [("iv_curves.png", ["Current (uA)"]), ("rdyn.png", ["Dynamic resistance ($\\Omega$)"]),
   ("noise_temperature.png", ["Noise Temperature (K)"]),
   ("noise_temperature_spline_fit.png", ["Noise Temperature (K)"]),
   ("noise_temperature_logy.png", ["Noise Temperature (K)"]),
   ("noise_temperature_and_gain.png", ["Noise Temperature (K)", "Gain (dB)"]),
   ("if_noise.png", ["IF Noise Contribution (K)"]), ("embedding_impedance.png", ["Embedding Impedance ($\\Omega$)"]),
   ("embedding_impedance_all.png", ["Embedding Impedance ($\\Omega$)"]),
   ("embedding_voltage.png", ["Embedding Voltage (mV)"]), ("drive_level.png", ["Drive Level, $\\alpha$"]),
   ("junction_impedance.png", ["Junction Impedance ($\\Omega$)"])]

theorem range_texts (a : ℕ) (fr : Option (ℝ × ℝ)) (f : Cmd → Option (ℕ × String))
    (hf : ∀ b lo hi, f (.xlim b lo hi) = none) : (rangeCmd a fr).filterMap f = [] := by
  cases fr <;> simp [rangeCmd, hf]

theorem tn_texts (a : ℕ) (t : Option ℝ) (f : Cmd → Option (ℕ × String))
    (hf : ∀ b lo hi, f (.ylim b lo hi) = none) : (tnCmd a t).filterMap f = [] := by
  cases t <;> simp [tnCmd, hf]

theorem mapM_draw (a : ℕ) (l : List Point) (u v : ℝ) (cs : List Cmd)
    (h : (l.mapM fun q => draw a (.text (String.ofList q.e.freqText)) (q.e.p.voltage.map (· * u))
      (q.e.p.current.map (· * v))) = .ok cs) (f : Cmd → Option (ℕ × String)) (hf : ∀ b t x y, f (.plot b t x y) = none) :
    cs.filterMap f = [] := by
  induction l generalizing cs with
  | nil => cases h; rfl
  | cons q l ih =>
    rw [List.mapM_cons] at h
    obtain ⟨c, hc, h⟩ := bind_ok_iff.1 h
    obtain ⟨cs', hcs, h⟩ := bind_ok_iff.1 h
    cases h
    rw [List.filterMap_cons, draw_plot hc, hf]
    exact ih _ hcs

theorem lineFig_texts {l : List Point} {ys : List Flt} {yl : String} {pre post : List Cmd} {a : ℕ} {g : Drawing}
    (h : lineFig l ys yl pre post a = .ok g)
    (hpp : ∀ c ∈ pre ++ post, (∃ b lo hi, c = .xlim b lo hi) ∨ ∃ b lo hi, c = .ylim b lo hi) :
    xlabels g = [(a, "Frequency (GHz)")] ∧ ylabels g = [(a, yl)] := by
  unfold lineFig at h
  follow h
  have none : ∀ f : Cmd → Option (ℕ × String), (∀ b lo hi, f (.xlim b lo hi) = none) →
      (∀ b lo hi, f (.ylim b lo hi) = none) → pre.filterMap f = [] ∧ post.filterMap f = [] := by
    intro f h1 h2
    constructor <;> rw [List.filterMap_eq_nil_iff] <;> intro c hc <;>
      rcases hpp c (by simp [hc]) with ⟨b, lo, hi, rfl⟩ | ⟨b, lo, hi, rfl⟩ <;> simp [h1, h2]
  unfold xlabels ylabels
  obtain ⟨x1, x2⟩ := none xlabelOf (fun _ _ _ => rfl) fun _ _ _ => rfl
  obtain ⟨y1, y2⟩ := none ylabelOf (fun _ _ _ => rfl) fun _ _ _ => rfl
  constructor
  · simp only [List.filterMap_append, List.filterMap_cons, List.filterMap_nil, x1, x2]
    rfl
  · simp only [List.filterMap_append, List.filterMap_cons, List.filterMap_nil, y1, y2]
    rfl

theorem zFig_texts {l : List Point} {z : Point → Flt × Flt} {n1 n2 yl : String} {fr : Option (ℝ × ℝ)} {a : ℕ}
    {g : Drawing} (h : zFig l z n1 n2 yl fr a = .ok g) :
    xlabels g = [(a, "Frequency (GHz)")] ∧ ylabels g = [(a, yl)] := by
  unfold zFig at h
  follow h
  unfold xlabels ylabels
  constructor
  · simp only [List.filterMap_append, List.filterMap_cons, List.filterMap_nil]
    rw [range_texts _ _ _ fun _ _ _ => rfl]
    rfl
  · simp only [List.filterMap_append, List.filterMap_cons, List.filterMap_nil]
    rw [range_texts _ _ _ fun _ _ _ => rfl]
    rfl

/-- C117: the axes of each of the twelve figures name the quantity that is drawn and its unit. The
horizontal axis is the frequency in GHz, or the voltage in mV in the figure of the I-V curves. -/
theorem C117_labels (spline : List ℝ → List Flt → Py (List ℝ → List Flt)) (d : DCData) (l : List Point)
    (vmax imax : ℝ) (tnMax : Option ℝ) (fr : Option (ℝ × ℝ)) (a : ℕ) (name : List Char) (r : Py Drawing)
    (hm : (name, r) ∈ figures spline d l vmax imax tnMax fr a) (g : Drawing) (h : r = .ok g) :
    (xlabels g).map Prod.snd = [if name = "iv_curves.png".toList then "Voltage (mV)" else "Frequency (GHz)"] ∧
    quantity.lookup (String.ofList name) = some ((ylabels g).map Prod.snd) := by
  have lim : ∀ c ∈ rangeCmd a fr ++ [Cmd.ylim a (some 0) none],
      (∃ b lo hi, c = .xlim b lo hi) ∨ ∃ b lo hi, c = .ylim b lo hi := by
    cases fr <;> simp [rangeCmd]
  have lim2 : ∀ c ∈ [] ++ (rangeCmd a fr ++ tnCmd a tnMax),
      (∃ b lo hi, c = .xlim b lo hi) ∨ ∃ b lo hi, c = .ylim b lo hi := by
    cases fr <;> cases tnMax <;> simp [rangeCmd, tnCmd]
  have lim3 : ∀ c ∈ [] ++ rangeCmd a fr,
      (∃ b lo hi, c = .xlim b lo hi) ∨ ∃ b lo hi, c = .ylim b lo hi := by
    cases fr <;> simp [rangeCmd]
  have lim4 : ∀ c ∈ rangeCmd a fr ++ [Cmd.ylim a (some 0) (some (num 1.2))],
      (∃ b lo hi, c = .xlim b lo hi) ∨ ∃ b lo hi, c = .ylim b lo hi := by
    cases fr <;> simp [rangeCmd]
  have close : ∀ (n : String) (y : List (ℕ × String)) (x : List (ℕ × String)) (w : String) (q : List String),
      x.map Prod.snd = [w] → y.map Prod.snd = q → quantity.lookup (String.ofList n.toList) = some q →
      w = (if n.toList = "iv_curves.png".toList then "Voltage (mV)" else "Frequency (GHz)") →
      x.map Prod.snd = [if n.toList = "iv_curves.png".toList then "Voltage (mV)" else "Frequency (GHz)"] ∧
      quantity.lookup (String.ofList n.toList) = some (y.map Prod.snd) := by
    intro n y x w q h1 h2 h3 h4
    rw [h1, h2, h3, h4]
    exact ⟨rfl, rfl⟩
  unfold figures at hm
  simp only [List.mem_cons, List.not_mem_nil, or_false, Prod.mk.injEq] at hm
  rcases hm with ⟨rfl, rfl⟩ | ⟨rfl, rfl⟩ | ⟨rfl, rfl⟩ | ⟨rfl, rfl⟩ | ⟨rfl, rfl⟩ | ⟨rfl, rfl⟩ | ⟨rfl, rfl⟩ | ⟨rfl, rfl⟩ |
    ⟨rfl, rfl⟩ | ⟨rfl, rfl⟩ | ⟨rfl, rfl⟩ | ⟨rfl, rfl⟩
  · unfold ivCurves at h
    obtain ⟨_, h1, h⟩ := bind_ok_iff.1 h
    obtain ⟨cs, h2, h⟩ := bind_ok_iff.1 h
    rw [draw_plot h1] at h
    cases h
    refine close _ _ _ "Voltage (mV)" ["Current (uA)"] ?_ ?_ rfl (by decide)
    · simp only [xlabels, List.cons_append, List.filterMap_append, List.filterMap_cons, List.filterMap_nil]
      rw [range_texts _ _ _ fun _ _ _ => rfl, mapM_draw _ _ _ _ _ h2 _ fun _ _ _ _ => rfl]
      rfl
    · simp only [ylabels, List.cons_append, List.filterMap_append, List.filterMap_cons, List.filterMap_nil]
      rw [range_texts _ _ _ fun _ _ _ => rfl, mapM_draw _ _ _ _ _ h2 _ fun _ _ _ _ => rfl]
      rfl
  · obtain ⟨h1, h2⟩ := lineFig_texts h lim
    exact close _ _ _ "Frequency (GHz)" _ (by rw [h1]; rfl) (congrArg (List.map Prod.snd) h2) rfl (by decide)
  · obtain ⟨h1, h2⟩ := lineFig_texts h lim2
    exact close _ _ _ "Frequency (GHz)" _ (by rw [h1]; rfl) (congrArg (List.map Prod.snd) h2) rfl (by decide)
  · unfold splineFig at h
    obtain ⟨_, -, h⟩ := bind_ok_iff.1 h
    obtain ⟨_, -, h⟩ := bind_ok_iff.1 h
    obtain ⟨_, -, h⟩ := bind_ok_iff.1 h
    obtain ⟨_, h1, h⟩ := bind_ok_iff.1 h
    obtain ⟨_, h2, h⟩ := bind_ok_iff.1 h
    rw [drawF_plot h1, drawF_plot h2] at h
    cases h
    refine close _ _ _ "Frequency (GHz)" ["Noise Temperature (K)"] ?_ ?_ rfl (by decide)
    · simp only [xlabels, List.cons_append, List.filterMap_append, List.filterMap_cons, List.filterMap_nil]
      rw [range_texts _ _ _ fun _ _ _ => rfl, tn_texts _ _ _ fun _ _ _ => rfl]
      rfl
    · simp only [ylabels, List.cons_append, List.filterMap_append, List.filterMap_cons, List.filterMap_nil]
      rw [range_texts _ _ _ fun _ _ _ => rfl, tn_texts _ _ _ fun _ _ _ => rfl]
      rfl
  · obtain ⟨h1, h2⟩ := lineFig_texts h lim3
    exact close _ _ _ "Frequency (GHz)" _ (by rw [h1]; rfl) (congrArg (List.map Prod.snd) h2) rfl (by decide)
  · unfold gainFig at h
    obtain ⟨_, h1, h⟩ := bind_ok_iff.1 h
    obtain ⟨_, h2, h⟩ := bind_ok_iff.1 h
    rw [drawF_plot h1, drawF_plot h2] at h
    cases h
    refine close _ _ _ "Frequency (GHz)" ["Noise Temperature (K)", "Gain (dB)"] ?_ ?_ rfl (by decide)
    · simp only [xlabels, List.cons_append, List.filterMap_append, List.filterMap_cons, List.filterMap_nil]
      rw [range_texts _ _ _ fun _ _ _ => rfl, tn_texts _ _ _ fun _ _ _ => rfl]
      rfl
    · simp only [ylabels, List.cons_append, List.filterMap_append, List.filterMap_cons, List.filterMap_nil]
      rw [range_texts _ _ _ fun _ _ _ => rfl, tn_texts _ _ _ fun _ _ _ => rfl]
      rfl
  · obtain ⟨h1, h2⟩ := lineFig_texts h lim
    exact close _ _ _ "Frequency (GHz)" _ (by rw [h1]; rfl) (congrArg (List.map Prod.snd) h2) rfl (by decide)
  · obtain ⟨h1, h2⟩ := zFig_texts h
    exact close _ _ _ "Frequency (GHz)" _ (by rw [h1]; rfl) (congrArg (List.map Prod.snd) h2) rfl (by decide)
  · obtain ⟨h1, h2⟩ := zFig_texts h
    exact close _ _ _ "Frequency (GHz)" _ (by rw [h1]; rfl) (congrArg (List.map Prod.snd) h2) rfl (by decide)
  · obtain ⟨h1, h2⟩ := lineFig_texts h lim
    exact close _ _ _ "Frequency (GHz)" _ (by rw [h1]; rfl) (congrArg (List.map Prod.snd) h2) rfl (by decide)
  · obtain ⟨h1, h2⟩ := lineFig_texts h lim4
    exact close _ _ _ "Frequency (GHz)" _ (by rw [h1]; rfl) (congrArg (List.map Prod.snd) h2) rfl (by decide)
  · obtain ⟨h1, h2⟩ := zFig_texts h
    exact close _ _ _ "Frequency (GHz)" _ (by rw [h1]; rfl) (congrArg (List.map Prod.snd) h2) rfl (by decide)

/-! ### Concrete cases -/

/-- A summary of four measurements: the figure of the noise temperatures is drawn and its texts are
those stated. -/
example (spline : List ℝ → List Flt → Py (List ℝ → List Flt)) (d : DCData) (q : Point) (a : ℕ) : ∃ g,
    lineFig [q, q, q, q] ([q, q, q, q].map fun q => q.f.tnBest) "Noise Temperature (K)" []
      (rangeCmd a none ++ tnCmd a none) a = .ok g ∧ ylabels g = [(a, "Noise Temperature (K)")] ∧
    (xlabels g).map Prod.snd = ["Frequency (GHz)"] := by
  refine ⟨_, rfl, rfl, ?_⟩
  exact (C117_labels spline d [q, q, q, q] 4 100 none none a "noise_temperature.png".toList _
    (.tail _ (.tail _ (.head _))) _ rfl).1

/-- The receiver of `Verif/Props/Figures8.lean`: the figure of its noise temperature is drawn. -/
example (S : RespFn.Splines) (vmax : ℝ) (new a b : ℕ) : ∃ d r g,
    (dcData ideal S [PARAMS] (.matrix tenOhm) (some (.matrix spike)) gapAndShot).1 = .ok d ∧
    plotNoiseTemp r vmax new (some (a, b)) = .ok g ∧
    ylabels g = [(a, "IF Power (K)"), (b, "Noise Temperature (K)")] := by
  obtain ⟨d, r, f, th, tc, x, out, hd, hr, hf, hx, h31⟩ := receiver_points S
  obtain ⟨-, -, -, -, -, -, h3, -⟩ := C113_returns ideal S [PARAMS] [PARAMS] (by simp) rfl (by simp) rfl _ _ _ _ _ d _ _ r
    hd hr rfl (delivered_wf _ _ _) rfl (delivered_wf _ _ _) f hf vmax new none (some (a, b))
  obtain ⟨g, h3⟩ := h3 h31
  exact ⟨d, r, g, hd, h3, (C113_noise_labels r vmax new _ g h3).2.1⟩

end QMix.Results
