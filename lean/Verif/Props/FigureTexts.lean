import Verif.Props.Figures3
import Verif.Model.Results

/-!
# C112-C117: the texts on the axes

The theorems about the figures state the numbers that are drawn: volts times 1000, amperes times a
million, noise temperatures as they are, and so on. Those here state that the axes say so: the names and
units that a reader finds beside the axes, and the title of the legend, for every figure that is drawn.
-/

namespace QMix.Exp

open Np Fl IvData IfData Opt

/-- The name of a horizontal axis. -/
def xlabelOf : Cmd → Option (ℕ × String)
  | .xlabel a s => some (a, s)
  | _ => none

/-- The name of a vertical axis. -/
def ylabelOf : Cmd → Option (ℕ × String)
  | .ylabel a s => some (a, s)
  | _ => none

/-- The title of a legend. -/
def titleOf : Cmd → Option (ℕ × List Label)
  | .title a s => some (a, s)
  | _ => none

/-- The names of the horizontal axes. -/
def xlabels (g : Drawing) : List (ℕ × String) := g.cmds.filterMap xlabelOf

/-- The names of the vertical axes. -/
def ylabels (g : Drawing) : List (ℕ × String) := g.cmds.filterMap ylabelOf

/-- The titles of the legends. -/
def titles (g : Drawing) : List (ℕ × List Label) := g.cmds.filterMap titleOf

theorem drawF_plot {a : ℕ} {l : Label} {xs ys : List Flt} {c : Cmd} (h : drawF a l xs ys = .ok c) :
    c = .plot a l xs ys := by
  unfold drawF at h
  obtain ⟨_, _, h⟩ := bind_ok_iff.1 h
  cases h
  rfl

theorem draw_plot {a : ℕ} {l : Label} {xs ys : List ℝ} {c : Cmd} (h : draw a l xs ys = .ok c) :
    c = .plot a l (xs.map num) (ys.map num) := drawF_plot h

/-- Follow a program that returns, step by step. -/
macro "follow" h:ident : tactic =>
  `(tactic| (repeat (obtain ⟨_, hstep, $h:ident⟩ := bind_ok_iff.1 $h:ident
                     try rw [draw_plot hstep] at $h:ident
                     try rw [drawF_plot hstep] at $h:ident)
             cases $h:ident))

/-- C112: the axes of the dc curve are in mV and uA. -/
theorem C112_labels (R : Routines) (d : DCData) (vmax : ℝ) (new : ℕ) (ax : Option ℕ) (g : Drawing)
    (h : plotDciv R d vmax new ax = .ok g) :
    xlabels g = [(ax.getD new, "Bias Voltage (mV)")] ∧ ylabels g = [(ax.getD new, "Current ($\\mu$A)")] ∧ titles g = [] := by
  unfold plotDciv at h
  follow h
  exact ⟨rfl, rfl, rfl⟩

/-- C113: the figure of the origin. -/
theorem C113_offset_labels (d : DCData) (new : ℕ) (ax : Option ℕ) (g : Drawing)
    (h : plotOffset d new ax = .ok g) :
    xlabels g = [(ax.getD new, "Bias Voltage (mV)")] ∧ ylabels g = [(ax.getD new, "Current ($\\mu$A)")] ∧ titles g = [] := by
  unfold plotOffset at h
  follow h
  exact ⟨rfl, rfl, rfl⟩

/-- C113: the figure of the IF noise: currents in uA above, powers in K below. -/
theorem C113_if_noise_labels (d : DCData) (new : ℕ) (ax : Option (ℕ × ℕ)) (g : Drawing)
    (h : plotIfNoise d new ax = .ok (some g)) :
    xlabels g = [((ax.getD (new, new + 1)).2, "Bias Voltage (mV)")] ∧
    ylabels g = [((ax.getD (new, new + 1)).1, "Current ($\\mu$A)"), ((ax.getD (new, new + 1)).2, "IF Power (K)")] ∧
    titles g = [] := by
  unfold plotIfNoise at h
  split at h
  · cases h
  · follow h
    exact ⟨rfl, rfl, rfl⟩

/-- C113: the pumped curve; the legend names the LO frequency of the data. -/
theorem C113_iv_labels (p : PumpedData) (d : DCData) (vmax : ℝ) (new : ℕ) (ax : Option ℕ) (g : Drawing)
    (h : plotIv p d vmax new ax = .ok g) :
    xlabels g = [(ax.getD new, "Bias Voltage (mV)")] ∧ ylabels g = [(ax.getD new, "DC Current (uA)")] ∧ titles g = [(ax.getD new, [.num "LO: " 1 (num p.freq) " GHz"])] := by
  unfold plotIv at h
  follow h
  exact ⟨rfl, rfl, rfl⟩

theorem noLo_plots {p : PumpedData} {d : DCData} {a : ℕ} {l : List Cmd} (h : noLo p d a = .ok l) :
    l = [] ∨ ∃ b t x y, l = [Cmd.plot b t x y] := by
  unfold noLo at h
  split at h
  · cases h; exact .inl rfl
  · follow h
    exact .inr ⟨_, _, _, _, rfl⟩

/-- C113: the IF powers; the legend names the LO frequency of the data. -/
theorem C113_if_labels (p : PumpedData) (d : DCData) (vmax : ℝ) (new : ℕ) (ax : Option ℕ) (g : Drawing)
    (h : plotIf p d vmax new ax = .ok g) :
    xlabels g = [(ax.getD new, "Bias Voltage (mV)")] ∧ ylabels g = [(ax.getD new, "IF Power (K)")] ∧
    titles g = [(ax.getD new, [.num "LO: " 1 (num p.freq) " GHz"])] := by
  unfold plotIf at h
  obtain ⟨_, -, h⟩ := bind_ok_iff.1 h
  obtain ⟨_, h1, h⟩ := bind_ok_iff.1 h
  obtain ⟨_, h2, h⟩ := bind_ok_iff.1 h
  obtain ⟨_, h3, h⟩ := bind_ok_iff.1 h
  rw [draw_plot h1, draw_plot h2] at h
  cases h
  rcases noLo_plots h3 with rfl | ⟨b, t, x, y, rfl⟩ <;> exact ⟨rfl, rfl, rfl⟩

/-- C113: the figure with both. -/
theorem C113_ivif_labels (p : PumpedData) (d : DCData) (vmax : ℝ) (new : ℕ) (ax : Option (ℕ × ℕ)) (g : Drawing)
    (h : plotIvif p d vmax new ax = .ok g) : ∃ a b, g.axes = [a, b] ∧
    xlabels g = [(a, "Bias Voltage (mV)")] ∧ ylabels g = [(a, "DC Current ($\\mu$A)"), (b, "IF Power (K)")] ∧
    titles g = [] := by
  unfold plotIvif at h
  follow h
  refine ⟨_, _, rfl, ?_⟩
  exact ⟨rfl, rfl, rfl⟩

/-- C113: the noise temperature. -/
theorem C113_noise_labels (p : PumpedData) (vmax : ℝ) (new : ℕ) (ax : Option (ℕ × ℕ)) (g : Drawing)
    (h : plotNoiseTemp p vmax new ax = .ok g) :
    xlabels g = [((ax.getD (new, new + 1)).1, "Bias Voltage (mV)")] ∧ ylabels g = [((ax.getD (new, new + 1)).1, "IF Power (K)"), ((ax.getD (new, new + 1)).2, "Noise Temperature (K)")] ∧ titles g = [] := by
  unfold plotNoiseTemp at h
  follow h
  exact ⟨rfl, rfl, rfl⟩

/-- C113: the Y factor. -/
theorem C113_yfac_labels (p : PumpedData) (vmax : ℝ) (new : ℕ) (ax : Option (ℕ × ℕ)) (g : Drawing)
    (h : plotYfac p vmax new ax = .ok g) :
    xlabels g = [((ax.getD (new, new + 1)).1, "Bias Voltage (mV)")] ∧ ylabels g = [((ax.getD (new, new + 1)).1, "Y-factor"), ((ax.getD (new, new + 1)).2, "Noise Temperature (K)")] ∧ titles g = [] := by
  unfold plotYfac at h
  follow h
  exact ⟨rfl, rfl, rfl⟩

/-- C113: gain and noise temperature; the gain is a factor. -/
theorem C113_gain_noise_labels (p : PumpedData) (vmax : ℝ) (new : ℕ) (ax : Option (ℕ × ℕ)) (g : Drawing)
    (h : plotGainNoise p vmax new ax = .ok g) :
    xlabels g = [((ax.getD (new, new + 1)).1, "Bias Voltage (mV)")] ∧ ylabels g = [((ax.getD (new, new + 1)).1, "Gain"), ((ax.getD (new, new + 1)).2, "Noise Temperature (K)")] ∧ titles g = [] := by
  unfold plotGainNoise at h
  follow h
  exact ⟨rfl, rfl, rfl⟩

/-- C113: the gain in per cent. -/
theorem C113_gain_labels (p : PumpedData) (vmax : ℝ) (new : ℕ) (ax : Option ℕ) (g : Drawing)
    (h : plotGain p vmax new ax = .ok g) :
    xlabels g = [(ax.getD new, "Bias Voltage (mV)")] ∧ ylabels g = [(ax.getD new, "Gain (%)")] ∧ titles g = [] := by
  unfold plotGain at h
  follow h
  exact ⟨rfl, rfl, rfl⟩

/-- C115: resistance and reactance in ohm. -/
theorem C115_labels (params kw : Dict) (p : PumpedData) (new : ℕ) (ax : Option ℕ) (g : Drawing)
    (h : plotErrorSurface params kw p new ax = .ok g) :
    xlabels g = [(ax.getD new, "$R_\\mathrm{{T}}$ ($\\Omega$)")] ∧ ylabels g = [(ax.getD new, "$X_\\mathrm{{T}}$ ($\\Omega$)")] ∧ titles g = [] := by
  unfold plotErrorSurface at h
  follow h
  exact ⟨rfl, rfl, rfl⟩

/-- C114: the simulated curve; the legend names the LO frequency, the photon voltage and the recovered
voltage (in mV) and impedance (in ohm). -/
theorem C114_labels (params kw : Dict) (p : PumpedData) (d : DCData) (vmax : ℝ) (new : ℕ) (ax : Option ℕ) (g : Drawing)
    (h : plotSimulated params kw p d vmax new ax = .ok g) : ∃ z vt, p.zemb = some z ∧ z.vt = some vt ∧
    xlabels g = [(ax.getD new, "Bias Voltage (mV)")] ∧ ylabels g = [(ax.getD new, "DC Current (uA)")] ∧
    titles g = [(ax.getD new, [.num "LO: " 1 (num p.freq) " GHz",
      .num "$V_{ph}$ = " 2 (num (p.vph * (p.dc.vgap * 1e3))) " mV", .num "$V_T$ = " 2 (num (vt * p.dc.vgap * 1e3)) " mV",
      .cnum "$Z_T$ = " 2 (z.zt * (p.dc.rn : ℂ)) " $\\Omega$"])] := by
  unfold plotSimulated at h
  obtain ⟨_, -, h⟩ := bind_ok_iff.1 h
  obtain ⟨_, -, h⟩ := bind_ok_iff.1 h
  obtain ⟨z, hz, h⟩ := bind_ok_iff.1 h
  obtain ⟨vt, hv, h⟩ := bind_ok_iff.1 h
  refine ⟨z, vt, getOpt_ok.1 hz, getOpt_ok.1 hv, ?_⟩
  follow h
  exact ⟨rfl, rfl, rfl⟩

end QMix.Exp
