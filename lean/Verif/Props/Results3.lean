import Verif.Props.Results2
import Verif.Props.Files2
import Verif.Props.Figures4

/-!
# C117: a receiver that is measured at four frequencies
-/

namespace QMix.Results

open QMix Np Fl IvData IfData Opt Exp Spec Files

/-- Four measurements of the same receiver, at 200, 210, 220 and 230 GHz. -/
noncomputable def scan (r : PumpedData) (f : PumpedIf) (z : Zemb.Result) : List Point :=
  [(200, "200.0"), (210, "210.0"), (220, "220.0"), (230, "230.0")].map fun x : ℝ × String =>
    { e := { p := { r with freq := x.1, ifs := some f, zemb := some z }, freqText := x.2.toList }, f := f, z := z }

/-- A recovered circuit. -/
noncomputable def recovered : Zemb.Result where
  zt := 0.3 - 0.1 * Complex.I
  vt := some 0.2
  fitGood := true
  zw := some 0.8
  alpha := num 0.9
  errSurf := []

theorem home_free : ∀ w ∈ folderNames, homeDisk.Free (place ["home".toList] "figs".toList ++ [w.toList]) := by
  intro w hw l hl
  simp only [homeDisk]
  rw [if_neg]
  rintro rfl
  revert hl
  revert w
  decide

theorem home_clear (sub : String) (n : String) : ¬ homeDisk.dir (fileIn ["home".toList] "figs".toList sub n) := by
  intro h
  have e : fileIn ["home".toList] "figs".toList sub n = ["home".toList, "figs".toList, sub.toList, n.toList] := rfl
  rw [e] at h
  rcases h with h | h <;> simp at h

theorem scan_text (r : PumpedData) (f : PumpedIf) (z : Zemb.Result) : ∀ q ∈ scan r f z,
    ',' ∉ q.e.freqText ∧ '\t' ∉ q.e.freqText ∧ '\n' ∉ q.e.freqText ∧ q.e.freqText.head? ≠ some ' ' := by
  intro q hq
  simp only [scan, List.map_cons, List.map_nil, List.mem_cons, List.not_mem_nil, or_false] at hq
  rcases hq with rfl | rfl | rfl | rfl
  · exact (by decide : ',' ∉ "200.0".toList ∧ '\t' ∉ "200.0".toList ∧ '\n' ∉ "200.0".toList ∧ "200.0".toList.head? ≠ some ' ')
  · exact (by decide : ',' ∉ "210.0".toList ∧ '\t' ∉ "210.0".toList ∧ '\n' ∉ "210.0".toList ∧ "210.0".toList.head? ≠ some ' ')
  · exact (by decide : ',' ∉ "220.0".toList ∧ '\t' ∉ "220.0".toList ∧ '\n' ∉ "220.0".toList ∧ "220.0".toList.head? ≠ some ' ')
  · exact (by decide : ',' ∉ "230.0".toList ∧ '\t' ∉ "230.0".toList ∧ '\n' ∉ "230.0".toList ∧ "230.0".toList.head? ≠ some ' ')

theorem scan_parts (r : PumpedData) (f : PumpedIf) (z : Zemb.Result) (P : PumpedData → Prop)
    (h : ∀ x, P { r with freq := x, ifs := some f, zemb := some z }) : ∀ q ∈ scan r f z,
    P q.e.p ∧ q.f = f ∧ q.z = z := by
  intro q hq
  obtain ⟨x, -, rfl⟩ := List.mem_map.1 hq
  exact ⟨h _, rfl, rfl⟩

/-- The hypotheses of `C117_written` are met. The recovered embedding impedance that is listed at 220 GHz is that of the
circuit, times the normal resistance. -/
example (S : RespFn.Splines) (str : ℝ → List Char) (hstr : ∀ x, ',' ∉ str x ∧ '\n' ∉ str x ∧ (str x).head? ≠ some ' ') :
    ∃ d r f s' g t line c, r.ifs = some f ∧
      plotOverall (fun _ _ => .ok fun t => t.map fun _ => num 100) str ["home".toList] d ((scan r f recovered).map Point.e)
        "figs".toList 4 none none 0 homeDisk = (.ok (), s') ∧
      s'.file (fileIn ["home".toList] "figs".toList "overall-results" "drive_level.png") = some (.figure g) ∧
      curves g = [(0, .text "", [(num 200, num 0.9), (num 210, num 0.9), (num 220, num 0.9), (num 230, num 0.9)])] ∧
      s'.file (fileIn ["home".toList] "figs".toList "csv" "results.txt") = some (.text t) ∧
      (linesOf t)[3]? = some line ∧ (fields line)[0]? = some "220.0".toList ∧ (fields line)[7]? = some c ∧
      ShowsJ c ((0.3 - 0.1 * Complex.I) * d.dc.rn) 4 ∧ d.dc.vgap = 2.8e-3 := by
  obtain ⟨d, r, f, th, tc, x, out, hd, hr, hf, hx, hg, -⟩ := receiver_returns S
  obtain ⟨hlen, hne, -⟩ := dc_facts (by simp) rfl hd
  obtain ⟨-, hpl⟩ := pumped_facts (by simp) rfl hr
  have hfr : (scan r f recovered).map (fun q => q.e.p.freq) = [200, 210, 220, 230] := rfl
  obtain ⟨s', e1, -, -, ⟨-, -, -, t, ht, htab⟩, hfig, -⟩ := C117_written (fun _ _ => .ok fun t => t.map fun _ => num 100) str
    ["home".toList] d _ "figs".toList 4 none none 0 homeDisk homeDisk_ok home_free (scan r f recovered) rfl
    (fun q hq => by
      obtain ⟨h, h1, h2⟩ := scan_parts r f recovered (fun p => p.ifs = some f ∧ p.zemb = some recovered)
        (fun _ => ⟨rfl, rfl⟩) q hq
      rw [h1, h2]
      exact h)
    hlen hne (fun n _ => home_clear _ n) (fun n _ => home_clear _ n) (scan_text r f recovered) hstr
    (fun q hq => (scan_parts r f recovered (fun p => p.voltage.length = p.current.length) (fun _ => hpl) q hq).1)
    (fun t => t.map fun _ => num 100) rfl (fun t => by simp) 200 230
    (by
      rw [hfr]
      refine ⟨by simp, fun y hy => ?_⟩
      simp only [List.mem_cons, List.not_mem_nil, or_false, Set.mem_setOf_eq] at hy
      rcases hy with rfl | rfl | rfl | rfl <;> norm_num)
    (by
      rw [hfr]
      refine ⟨by simp, fun y hy => ?_⟩
      simp only [List.mem_cons, List.not_mem_nil, or_false, Set.mem_setOf_eq] at hy
      rcases hy with rfl | rfl | rfl | rfl <;> norm_num)
  obtain ⟨g, hg1, hg2⟩ := hfig ("drive_level.png", _) (.tail _ (.tail _ (.tail _ (.tail _ (.tail _ (.tail _ (.tail _ (.tail _
    (.tail _ (.tail _ (.head _)))))))))))
  obtain ⟨line, hl, -, hl0, -, -, -, ⟨c, hc, hJ⟩, -⟩ := htab.2.2 2 _ rfl
  exact ⟨d, r, f, s', g, t, line, c, hf, e1, hg1, hg2, ht, hl, hl0, hc, hJ, hg⟩

/-- The hypotheses of `C117_false_spline` are met: SciPy fits no spline through a single point, and `if_noise.png` is then
not written. -/
example (S : RespFn.Splines) (str : ℝ → List Char) (hstr : ∀ x, ',' ∉ str x ∧ '\n' ∉ str x ∧ (str x).head? ≠ some ' ')
    (spline : List ℝ → List Flt → Py (List ℝ → List Flt)) (h3 : ∀ x y, x.length ≤ 3 → spline x y = .error .value) :
    ∃ d r f s', r.ifs = some f ∧
      plotOverall spline str ["home".toList] d (((scan r f recovered).take 1).map Point.e) "figs".toList 4 none none 0
        homeDisk = (.error (.py .value), s') ∧
      s'.file (fileIn ["home".toList] "figs".toList "overall-results" "if_noise.png") = none ∧
      ∃ t, s'.file (fileIn ["home".toList] "figs".toList "csv" "results.txt") = some (.text t) := by
  obtain ⟨d, r, f, th, tc, x, out, hd, hr, hf, hx, hg, -⟩ := receiver_returns S
  obtain ⟨hlen, hne, -⟩ := dc_facts (by simp) rfl hd
  obtain ⟨-, hpl⟩ := pumped_facts (by simp) rfl hr
  have sub : ∀ q ∈ (scan r f recovered).take 1, q ∈ scan r f recovered := fun q hq => List.mem_of_mem_take hq
  obtain ⟨s', e1, ⟨-, -, -, t, ht, -⟩, -, hn⟩ := C117_false_spline spline str
    ["home".toList] d _ "figs".toList 4 none none 0 homeDisk homeDisk_ok home_free ((scan r f recovered).take 1) rfl
    (fun q hq => by
      obtain ⟨h, h1, h2⟩ := scan_parts r f recovered (fun p => p.ifs = some f ∧ p.zemb = some recovered)
        (fun _ => ⟨rfl, rfl⟩) q (sub q hq)
      rw [h1, h2]
      exact h)
    hlen hne (fun n _ => home_clear _ n) (fun n _ => home_clear _ n) (fun q hq => scan_text r f recovered q (sub q hq)) hstr
    (fun q hq => (scan_parts r f recovered (fun p => p.voltage.length = p.current.length) (fun _ => hpl) q (sub q hq)).1)
    (by simp [scan]) .value (h3 _ _ (by simp))
  refine ⟨d, r, f, s', hf, e1, ?_, t, ht⟩
  rw [hn "if_noise.png" (by decide)]
  simp only [homeDisk]
  exact if_neg (by decide : ¬ fileIn ["home".toList] "figs".toList "overall-results" "if_noise.png" =
    ["home".toList, "notes".toList])

/-- The hypotheses of `C117_lacking` are met: a measurement without IF data, after one that has everything. -/
example (S : RespFn.Splines) (spline : List ℝ → List Flt → Py (List ℝ → List Flt)) (str : ℝ → List Char) :
    ∃ (d : DCData) (r : PumpedData) (f : PumpedIf) (s' : Disk Content), r.ifs = some f ∧
      plotOverall spline str ["home".toList] d [⟨{ r with zemb := some recovered }, "230.0".toList⟩,
        ⟨{ r with ifs := none }, "240.0".toList⟩] "figs".toList 4 none none 0 homeDisk = (.error (.py .attribute), s') ∧
      s'.file = homeDisk.file ∧ s'.dir ["home".toList, "figs".toList, "csv".toList] := by
  obtain ⟨d, r, f, th, tc, x, out, hd, hr, hf, hx, hg, -⟩ := receiver_returns S
  obtain ⟨s', err, e1, e2, e3, -, e5⟩ := C117_lacking spline str ["home".toList] d _ "figs".toList 4 none none 0 homeDisk
    homeDisk_ok home_free [⟨{ r with zemb := some recovered }, "230.0".toList⟩] [] ⟨{ r with ifs := none }, "240.0".toList⟩ rfl
    (by simp [hf]) (Or.inl rfl)
  obtain rfl := e3 rfl
  exact ⟨d, r, f, s', hf, e1, e2, (e5 _).2 (Or.inr ⟨"csv", by decide, List.prefix_refl _⟩)⟩

/-! ## C118 -/

/-- The names of the figures with all spectra. -/
def spectraNames : List String := ["if_spectra.png", "if_spectra2.png", "if_spectra_smooth.png", "if_spectra_smooth2.png"]

/-- C118 is false of the code: as soon as there is a file with a spectrum, `plot_if_spectrum` raises `ValueError` and
writes nothing, since `if_response` takes arrays and is given the name of the file. -/
theorem C118_false (th tc maxtn : ℝ) (cwd : List Name) (files : List (List Char)) (hf : files ≠ []) (fig : Option (List Char))
    (new : ℕ) (s : Disk Content) :
    plotIfSpectrum th tc maxtn cwd files fig new s = (.error (.py .value), s) := by
  obtain ⟨x, l, rfl⟩ := List.exists_cons_of_ne_nil hf
  rfl

/-- C118: without the folder for the figures, which is optional, it raises too. -/
theorem C118_false_folder (th tc maxtn : ℝ) (cwd : List Name) (files : List (List Char)) (new : ℕ) (s : Disk Content) :
    ∃ e, plotIfSpectrum th tc maxtn cwd files none new s = (.error (.py e), s) ∧ (files = [] → e = .type) := by
  cases files with
  | nil => exact ⟨.type, rfl, fun _ => rfl⟩
  | cons x l => exact ⟨.value, rfl, fun h => by simp at h⟩

/-- The highest noise temperature shown in each of these figures. -/
noncomputable def spectraTop (n : String) : ℝ := if n = "if_spectra2.png" ∨ n = "if_spectra_smooth2.png" then 2000 else 500

/-- The limits of the y axis that are in force in the end. -/
noncomputable def lastYlim (g : Drawing) : Option (Option ℝ × Option Flt) :=
  (g.cmds.filterMap fun c => match c with
    | .ylim _ lo hi => some (lo, hi)
    | _ => none).getLast?

/-- C118 (the part that holds): without spectra there are four figures without lines, with the intended range of noise temperatures.
Missing: any figure with a spectrum. -/
theorem C118_empty_partial (th tc maxtn : ℝ) (cwd : List Name) (fig : List Char) (new : ℕ) (s : Disk Content) (hs : s.Ok)
    (hd : s.dir (place cwd fig)) (hc : ∀ n ∈ spectraNames, ¬ s.dir (place cwd fig ++ [n.toList])) :
    ∃ s', plotIfSpectrum th tc maxtn cwd [] (some fig) new s = (.ok (), s') ∧ s'.dir = s.dir ∧
      (∀ n ∈ spectraNames, ∃ g, s'.file (place cwd fig ++ [n.toList]) = some (.figure g) ∧ curves g = [] ∧
        lastYlim g = some (some 0, some (num (spectraTop n)))) ∧
      ∀ p, (∀ n ∈ spectraNames, p ≠ place cwd fig ++ [n.toList]) → s'.file p = s.file p := by
  obtain ⟨s', w1, w2, w3, w4, w5⟩ := writeAll_run cwd fig
    [("if_spectra.png".toList, .figure (emptySpectrum new 500)), ("if_spectra2.png".toList, .figure (emptySpectrum new 2000)),
      ("if_spectra_smooth.png".toList, .figure (emptySpectrum (new + 1) 500)),
      ("if_spectra_smooth2.png".toList, .figure (emptySpectrum (new + 1) 2000))] s hs hd
    (by
      intro x hx
      simp only [List.mem_cons, List.not_mem_nil, or_false] at hx
      rcases hx with rfl | rfl | rfl | rfl
      · exact ⟨by simp, by simp, by simp, hc _ (by decide)⟩
      · exact ⟨by simp, by simp, by simp, hc _ (by decide)⟩
      · exact ⟨by simp, by simp, by simp, hc _ (by decide)⟩
      · exact ⟨by simp, by simp, by simp, hc _ (by decide)⟩)
    (by simp only [List.map_cons, List.map_nil]; decide)
  have none_ : ∀ a t, curves (emptySpectrum a t) = [] := by
    intro a t
    unfold emptySpectrum curves
    split <;> rfl
  have low : ∀ a, lastYlim (emptySpectrum a 500) = some (some 0, some (num 500)) := by
    intro a
    unfold emptySpectrum lastYlim
    rw [if_pos rfl]
    rfl
  have high : ∀ a, lastYlim (emptySpectrum a 2000) = some (some 0, some (num 2000)) := by
    intro a
    unfold emptySpectrum lastYlim
    rw [if_neg (by norm_num)]
    rfl
  have t1 : spectraTop "if_spectra.png" = 500 := if_neg (by decide)
  have t2 : spectraTop "if_spectra2.png" = 2000 := if_pos (by decide)
  have t3 : spectraTop "if_spectra_smooth.png" = 500 := if_neg (by decide)
  have t4 : spectraTop "if_spectra_smooth2.png" = 2000 := if_pos (by decide)
  refine ⟨s', ?_, w3, ?_, ?_⟩
  · rw [← w1]
    rfl
  · intro n hn
    simp only [spectraNames, List.mem_cons, List.not_mem_nil, or_false] at hn
    rcases hn with rfl | rfl | rfl | rfl
    · exact ⟨_, w4 _ (.head _), none_ _ _, by rw [t1]; exact low _⟩
    · exact ⟨_, w4 _ (.tail _ (.head _)), none_ _ _, by rw [t2]; exact high _⟩
    · exact ⟨_, w4 _ (.tail _ (.tail _ (.head _))), none_ _ _, by rw [t3]; exact low _⟩
    · exact ⟨_, w4 _ (.tail _ (.tail _ (.tail _ (.head _)))), none_ _ _, by rw [t4]; exact high _⟩
  · intro p hp
    refine w5 p fun x hx => ?_
    simp only [List.mem_cons, List.not_mem_nil, or_false] at hx
    rcases hx with rfl | rfl | rfl | rfl
    · exact hp _ (.head _)
    · exact hp _ (.tail _ (.head _))
    · exact hp _ (.tail _ (.tail _ (.head _)))
    · exact hp _ (.tail _ (.tail _ (.tail _ (.head _))))

/-- For example, in `/home`. -/
example : ∃ s' g, plotIfSpectrum 293 78.5 1000 ["home".toList] [] (some ".".toList) 0 homeDisk = (.ok (), s') ∧
    s'.file ["home".toList, "if_spectra.png".toList] = some (.figure g) ∧ curves g = [] := by
  obtain ⟨s', e1, -, e2, -⟩ := C118_empty_partial 293 78.5 1000 ["home".toList] ".".toList 0 homeDisk homeDisk_ok
    (Or.inr rfl) (by
      intro n hn h
      rcases h with h | h
      · exact absurd h (by simp)
      · have := congrArg List.length h
        have e : place ["home".toList] ".".toList = ["home".toList] := rfl
        rw [e] at this
        simp at this)
  obtain ⟨g, h1, h2, -⟩ := e2 "if_spectra.png" (by decide)
  exact ⟨s', g, e1, h1, h2⟩

example : plotIfSpectrum 293 78.5 1000 ["home".toList] ["f230_comb.dat".toList] (some "figs".toList) 0 homeDisk =
    (.error (.py .value), homeDisk) := C118_false _ _ _ _ _ (by simp) _ _ _

end QMix.Results
