import Verif.Lemmas.Files
import Verif.Props.Figures8
import Verif.Props.Figures7

/-!
# C116: the folders and files that `plot_all` and `initialize_dir` make
-/

namespace QMix.Files

open QMix Np Fl IvData IfData Opt Exp Spec

/-- The sub-folder that `file_struc` gives for a kind of figure. -/
def Chosen : Struc → String → List Char → Prop
  | .default, k, p => (k, String.ofList p) ∈ [("Pumped IV curve", "iv-curves/"), ("IV + IF", "iv-if/"),
      ("Impedance recovery", "impedance/"), ("Impedance recovery (sim)", "impedance-sim/"),
      ("Noise temperature", "noise-temp/")]
  | .flat, _, p => p = []
  | .dict f, k, p => f k = some p
  | .other, _, _ => False

/-- The file that a figure of one kind goes to. -/
def target (cwd : List Name) (fig sub freq : List Char) (ending : String) : List Name :=
  place cwd fig ++ parts sub ++ [freq ++ ending.toList]

theorem folders_of {struc : Struc} {iv if_ zr zs tn : List Char} (h1 : Chosen struc "Pumped IV curve" iv)
    (h2 : Chosen struc "IV + IF" if_) (h3 : Chosen struc "Impedance recovery" zr)
    (h4 : Chosen struc "Impedance recovery (sim)" zs) (h5 : Chosen struc "Noise temperature" tn) :
    pumpedFolders struc = .ok [iv, if_, zr, zs, tn] := by
  cases struc with
  | default =>
    simp [Chosen, ← String.toList_inj] at h1 h2 h3 h4 h5
    subst h1 h2 h3 h4 h5
    rfl
  | flat =>
    obtain rfl := h1
    obtain rfl := h2
    obtain rfl := h3
    obtain rfl := h4
    obtain rfl := h5
    rfl
  | dict f =>
    simp only [Chosen] at h1 h2 h3 h4 h5
    unfold pumpedFolders pumpedFolders.folders folderAt
    simp only [h1, h2, h3, h4, h5, getOpt, py_bind]
    rfl
  | other => exact h1.elim

theorem last_ne {q q' : List Name} {n n' : Name} (h : n ≠ n') : q ++ [n] ≠ q' ++ [n'] := fun hh =>
  h (by simpa using (List.append_inj' hh rfl).2)

section

variable (params kw : Dict) (cwd : List Name) (p : PumpedData) (d : DCData) (freq : List Char) (vmax : ℝ)
  (fig : List Char) (struc : Struc) (new : ℕ) (s : Disk Content) (hs : s.Ok) (hfreq : '/' ∉ freq)
  (iv if_ zr zs tn : List Char)
  (h1 : Chosen struc "Pumped IV curve" iv) (h2 : Chosen struc "IV + IF" if_) (h3 : Chosen struc "Impedance recovery" zr)
  (h4 : Chosen struc "Impedance recovery (sim)" zs) (h5 : Chosen struc "Noise temperature" tn)
  (hrel : ∀ sub ∈ [iv, if_, zr, zs, tn], sub.head? ≠ some '/')
  (hne : ∀ sub ∈ [iv, if_, zr, zs, tn], fig ≠ [] ∨ sub ≠ [])
  (hfree : ∀ sub ∈ [iv, if_, zr, zs, tn], s.Free (place cwd fig ++ parts sub))

include hs h1 h2 h3 h4 h5 hrel hne hfree in
/-- The part of `plot_all` that makes the folders. -/
theorem folders_made : ∃ s', s'.Ok ∧ s'.file = s.file ∧
    (∀ l, s'.dir l ↔ s.dir l ∨ ∃ sub ∈ [iv, if_, zr, zs, tn], l <+: place cwd fig ++ parts sub) ∧
    plotAllPumped params kw cwd p d freq vmax fig struc new s = (do
      let g ← lift (plotIv p d vmax new none)
      save cwd (join (join fig iv) (freq ++ "-iv.png".toList)) (.figure g)
      let g ← lift (plotIvif p d vmax new none)
      save cwd (join (join fig if_) (freq ++ "-iv-if.png".toList)) (.figure g)
      let g ← lift (plotNoiseTemp p vmax new none)
      save cwd (join (join fig tn) (freq ++ "-tn.png".toList)) (.figure g)
      if p.zemb.isSome then
        let g ← lift (plotErrorSurface params kw p new none)
        save cwd (join (join fig zr) (freq ++ "-err-surf.png".toList)) (.figure g)
        let g ← lift (plotSimulated params kw p d vmax new none)
        save cwd (join (join fig zs) (freq ++ "-sim.png".toList)) (.figure g) : Op Unit) s' := by
  have step : ∀ sub ∈ [iv, if_, zr, zs, tn], ∀ t : Disk Content, t.Ok → t.file = s.file →
      ensure cwd (join fig sub) t = (.ok (), withDir t (place cwd fig ++ parts sub)) ∧
      (withDir t (place cwd fig ++ parts sub)).Ok := by
    intro sub hsub t ht hf
    have hfr : t.Free (place cwd fig ++ parts sub) := fun l hl => by rw [hf]; exact hfree sub hsub l hl
    refine ⟨?_, ok_withDir ht hfr⟩
    rw [← place_join cwd fig (hrel sub hsub)] at hfr ⊢
    exact ensure_run ht cwd ((hne sub hsub).elim join_ne' join_ne) hfr
  obtain ⟨e1, k1⟩ := step iv (by simp) s hs rfl
  obtain ⟨e2, k2⟩ := step if_ (by simp) _ k1 rfl
  obtain ⟨e3, k3⟩ := step zr (by simp) _ k2 rfl
  obtain ⟨e4, k4⟩ := step zs (by simp) _ k3 rfl
  obtain ⟨e5, k5⟩ := step tn (by simp) _ k4 rfl
  refine ⟨_, k5, rfl, fun l => by simp [withDir, or_assoc], ?_⟩
  unfold plotAllPumped
  rw [bind_run_ok (lift_ok (folders_of h1 h2 h3 h4 h5) s)]
  simp only [List.getD_cons_zero, List.getD_cons_succ]
  rw [bind_run_ok e1, bind_run_ok e2, bind_run_ok e3, bind_run_ok e4, bind_run_ok e5]

include hs hfreq h1 h2 h3 h4 h5 hrel hne hfree

/-- C116: `PumpedData.plot_all` makes the folders that `fig_folder` and `file_struc` ask for, puts each figure into its
folder under the name made from the frequency, and changes no other file or directory. The two figures of the embedding
circuit are written if the circuit was recovered. -/
theorem C116_pumped
    (hclear : ∀ t ∈ [target cwd fig iv freq "-iv.png", target cwd fig if_ freq "-iv-if.png", target cwd fig tn freq "-tn.png",
        target cwd fig zr freq "-err-surf.png", target cwd fig zs freq "-sim.png"],
      ¬ s.dir t ∧ ∀ sub ∈ [iv, if_, zr, zs, tn], ¬ t <+: place cwd fig ++ parts sub)
    (g1 g2 g3 g4 g5 : Drawing) (p1 : plotIv p d vmax new none = .ok g1) (p2 : plotIvif p d vmax new none = .ok g2)
    (p3 : plotNoiseTemp p vmax new none = .ok g3)
    (p4 : p.zemb ≠ none → plotErrorSurface params kw p new none = .ok g4)
    (p5 : p.zemb ≠ none → plotSimulated params kw p d vmax new none = .ok g5) :
    ∃ s', plotAllPumped params kw cwd p d freq vmax fig struc new s = (.ok (), s') ∧ s'.Ok ∧
      (∀ l, s'.dir l ↔ s.dir l ∨ ∃ sub ∈ [iv, if_, zr, zs, tn], l <+: place cwd fig ++ parts sub) ∧
      s'.file (target cwd fig iv freq "-iv.png") = some (.figure g1) ∧
      s'.file (target cwd fig if_ freq "-iv-if.png") = some (.figure g2) ∧
      s'.file (target cwd fig tn freq "-tn.png") = some (.figure g3) ∧
      (p.zemb ≠ none → s'.file (target cwd fig zr freq "-err-surf.png") = some (.figure g4) ∧
        s'.file (target cwd fig zs freq "-sim.png") = some (.figure g5)) ∧
      ∀ l, l ≠ target cwd fig iv freq "-iv.png" → l ≠ target cwd fig if_ freq "-iv-if.png" →
        l ≠ target cwd fig tn freq "-tn.png" →
        (p.zemb ≠ none → l ≠ target cwd fig zr freq "-err-surf.png" ∧ l ≠ target cwd fig zs freq "-sim.png") →
        s'.file l = s.file l := by
  obtain ⟨s0, k0, f0, d0, e0⟩ := folders_made params kw cwd p d freq vmax fig struc new s hs iv if_ zr zs tn h1 h2 h3 h4 h5
    hrel hne hfree
  have step : ∀ sub ∈ [iv, if_, zr, zs, tn], ∀ ending : String,
      target cwd fig sub freq ending ∈ [target cwd fig iv freq "-iv.png", target cwd fig if_ freq "-iv-if.png",
        target cwd fig tn freq "-tn.png", target cwd fig zr freq "-err-surf.png", target cwd fig zs freq "-sim.png"] →
      '/' ∉ ending.toList → 1 < ending.toList.length → ∀ (t : Disk Content) (c : Content), t.Ok → t.dir = s0.dir →
      save cwd (join (join fig sub) (freq ++ ending.toList)) c t = (.ok (), withFile t (target cwd fig sub freq ending) c) ∧
      (withFile t (target cwd fig sub freq ending) c).Ok := by
    intro sub hsub ending ht he hl t c hok hd
    have hq : t.dir (place cwd fig ++ parts sub) := by
      rw [hd, d0]
      exact Or.inr ⟨sub, hsub, List.prefix_refl _⟩
    have hn : ¬ t.dir (place cwd fig ++ parts sub ++ [freq ++ ending.toList]) := by
      rw [hd, d0]
      rintro (h | ⟨x, hx, h⟩)
      · exact (hclear _ ht).1 h
      · exact (hclear _ ht).2 x hx h
    constructor
    · rw [← place_join cwd fig (hrel sub hsub)] at hq hn
      rw [save_run hok cwd _ _ _ c hq hn, place_join cwd fig (hrel sub hsub)]
      · rfl
      · simp only [List.mem_append, not_or]
        exact ⟨hfreq, he⟩
      · intro h
        have := congrArg List.length h
        simp only [List.length_append, List.length_nil] at this
        omega
      · intro h
        have := congrArg List.length h
        simp only [List.length_append, List.length_cons, List.length_nil] at this
        omega
    · exact ok_withFile hok (by unfold target; rw [List.dropLast_concat]; exact hq) hn
  obtain ⟨e1, k1⟩ := step iv (by simp) "-iv.png" (by simp) (by decide) (by decide) s0 (.figure g1) k0 rfl
  obtain ⟨e2, k2⟩ := step if_ (by simp) "-iv-if.png" (by simp) (by decide) (by decide) _ (.figure g2) k1 rfl
  obtain ⟨e3, k3⟩ := step tn (by simp) "-tn.png" (by simp) (by decide) (by decide) _ (.figure g3) k2 rfl
  rw [e0, bind_run_ok (lift_ok p1 _), bind_run_ok e1, bind_run_ok (lift_ok p2 _), bind_run_ok e2, bind_run_ok (lift_ok p3 _),
    bind_run_ok e3]
  have ne : ∀ a b : String, a ≠ b → ∀ x y, target cwd fig x freq a ≠ target cwd fig y freq b := by
    intro a b hab x y
    refine last_ne fun h => hab ?_
    rw [← String.toList_inj]
    exact List.append_cancel_left h
  by_cases hz : p.zemb = none
  · rw [if_neg (by simp [hz])]
    refine ⟨_, rfl, k3, d0, ?_, ?_, ?_, fun h => absurd hz h, ?_⟩
    · simp [withFile, ne]
    · simp [withFile, ne]
    · simp [withFile, ne]
    · intro l n1 n2 n3 _
      simp [withFile, n1, n2, n3, f0]
  · obtain ⟨e4, k4⟩ := step zr (by simp) "-err-surf.png" (by simp) (by decide) (by decide) _ (.figure g4) k3 rfl
    obtain ⟨e5, k5⟩ := step zs (by simp) "-sim.png" (by simp) (by decide) (by decide) _ (.figure g5) k4 rfl
    rw [if_pos (by rwa [Option.isSome_iff_ne_none]), bind_run_ok (lift_ok (p4 hz) _), bind_run_ok e4,
      bind_run_ok (lift_ok (p5 hz) _), e5]
    refine ⟨_, rfl, k5, d0, ?_, ?_, ?_, fun _ => ⟨?_, ?_⟩, ?_⟩
    · simp [withFile, ne]
    · simp [withFile, ne]
    · simp [withFile, ne]
    · simp [withFile, ne]
    · simp [withFile, ne]
    · intro l n1 n2 n3 n4
      simp [withFile, n1, n2, n3, n4 hz, f0]

/-- C116: data without IF measurements cannot be plotted by `plot_all`: the call raises `TypeError` after the figure of
the I-V curve has been written; the folders for the others are made and nothing is put into them. -/
theorem C116_no_if (R : Routines) (S : RespFn.Splines) (h h' : Heap) (hh : h ≠ []) (hP : deref h sharedAt = PARAMS)
    (hh' : h' ≠ []) (hP' : deref h' sharedAt = PARAMS) (dcdata data : IfResp.Input) (dcif : Option IfResp.Input)
    (kd kp : Dict) (hot cold : Option IfResp.Input) (ed : (dcData R S h' dcdata dcif kd).1 = .ok d)
    (e : (pumpedData R h data d hot cold kp).1 = .ok p) (hif : p.ifs = none)
    (hclear : ¬ s.dir (target cwd fig iv freq "-iv.png") ∧
      ∀ sub ∈ [iv, if_, zr, zs, tn], ¬ target cwd fig iv freq "-iv.png" <+: place cwd fig ++ parts sub) :
    ∃ s' g, plotAllPumped params kw cwd p d freq vmax fig struc new s = (.error (.py .type), s') ∧
      plotIv p d vmax new none = .ok g ∧
      (∀ sub ∈ [iv, if_, zr, zs, tn], s'.dir (place cwd fig ++ parts sub)) ∧
      s'.file (target cwd fig iv freq "-iv.png") = some (.figure g) ∧
      ∀ l, l ≠ target cwd fig iv freq "-iv.png" → s'.file l = s.file l := by
  obtain ⟨s0, k0, f0, d0, e0⟩ := folders_made params kw cwd p d freq vmax fig struc new s hs iv if_ zr zs tn h1 h2 h3 h4 h5
    hrel hne hfree
  obtain ⟨g, -, -, p1, -⟩ := C113_iv R S h h' hh hP hh' hP' dcdata data dcif kd kp d hot cold p ed e vmax new none
  obtain ⟨-, e2, -⟩ := C113_no_if R S h h' hh hP hh' hP' dcdata data dcif kd kp d hot cold p ed e hif vmax new none none
  have hq : s0.dir (place cwd fig ++ parts iv) := (d0 _).2 (Or.inr ⟨iv, by simp, List.prefix_refl _⟩)
  have hn : ¬ s0.dir (place cwd fig ++ parts iv ++ [freq ++ "-iv.png".toList]) := by
    rw [d0]
    rintro (h | ⟨x, hx, h⟩)
    · exact hclear.1 h
    · exact hclear.2 x hx h
  rw [← place_join cwd fig (hrel iv (by simp))] at hq hn
  have e1 := save_run k0 cwd (a := join fig iv) (n := freq ++ "-iv.png".toList)
    (by simp only [List.mem_append, not_or]; exact ⟨hfreq, by decide⟩) (by simp)
    (by intro h; have := congrArg List.length h; simp at this) (.figure g) hq hn
  rw [place_join cwd fig (hrel iv (by simp))] at e1
  rw [e0, bind_run_ok (lift_ok p1 _), bind_run_ok e1, bind_run_err (lift_err e2 _)]
  refine ⟨_, g, rfl, p1, fun sub hsub => (d0 _).2 (Or.inr ⟨sub, hsub, List.prefix_refl _⟩), ?_, ?_⟩
  · simp [withFile, target]
  · intro l hl
    exact (if_neg hl).trans (congrFun f0 l)

omit hs hne hfree in
/-- C116: however the call ends, it only adds folders that were asked for, and leaves every file as it was, except that
the five files may hold the figure of their kind. -/
theorem C116_kept (hs : s.Ok) (s' : Disk Content) (hs' : s' = (plotAllPumped params kw cwd p d freq vmax fig struc new s).2) :
    s'.Ok ∧ (∀ l, s.dir l → s'.dir l) ∧
    (∀ l, s'.dir l → s.dir l ∨ ∃ sub ∈ [iv, if_, zr, zs, tn], l <+: place cwd fig ++ parts sub) ∧
    ∀ l, s'.file l = s.file l ∨ ∃ g, s'.file l = some (.figure g) ∧
      ((l = target cwd fig iv freq "-iv.png" ∧ plotIv p d vmax new none = .ok g) ∨
       (l = target cwd fig if_ freq "-iv-if.png" ∧ plotIvif p d vmax new none = .ok g) ∨
       (l = target cwd fig tn freq "-tn.png" ∧ plotNoiseTemp p vmax new none = .ok g) ∨
       (l = target cwd fig zr freq "-err-surf.png" ∧ plotErrorSurface params kw p new none = .ok g) ∨
       (l = target cwd fig zs freq "-sim.png" ∧ plotSimulated params kw p d vmax new none = .ok g)) := by
  let D : List Name → Prop := fun l => ∃ sub ∈ [iv, if_, zr, zs, tn], l <+: place cwd fig ++ parts sub
  let T : List Name → Content → Prop := fun l c => ∃ g, c = .figure g ∧
      ((l = target cwd fig iv freq "-iv.png" ∧ plotIv p d vmax new none = .ok g) ∨
       (l = target cwd fig if_ freq "-iv-if.png" ∧ plotIvif p d vmax new none = .ok g) ∨
       (l = target cwd fig tn freq "-tn.png" ∧ plotNoiseTemp p vmax new none = .ok g) ∨
       (l = target cwd fig zr freq "-err-surf.png" ∧ plotErrorSurface params kw p new none = .ok g) ∨
       (l = target cwd fig zs freq "-sim.png" ∧ plotSimulated params kw p d vmax new none = .ok g))
  have hens : ∀ sub ∈ [iv, if_, zr, zs, tn], Within D T (ensure cwd (join fig sub)) := fun sub hsub =>
    within_ensure cwd fun l hl => ⟨sub, hsub, by rwa [← place_join cwd fig (hrel sub hsub)]⟩
  have hpl : ∀ sub ∈ [iv, if_, zr, zs, tn], ∀ ending : String, '/' ∉ ending.toList → 1 < ending.toList.length →
      place cwd (join (join fig sub) (freq ++ ending.toList)) = target cwd fig sub freq ending := by
    intro sub hsub ending he hl
    rw [place_file, place_join cwd fig (hrel sub hsub)]
    · rfl
    · simp only [List.mem_append, not_or]
      exact ⟨hfreq, he⟩
    · intro h
      have := congrArg List.length h
      simp only [List.length_append, List.length_nil] at this
      omega
    · intro h
      have := congrArg List.length h
      simp only [List.length_append, List.length_cons, List.length_nil] at this
      omega
  have main : Within D T (plotAllPumped params kw cwd p d freq vmax fig struc new) := by
    unfold plotAllPumped
    rw [folders_of h1 h2 h3 h4 h5]
    refine within_bind_lift fun f hf => ?_
    obtain rfl := Except.ok.inj hf
    simp only [List.getD_cons_zero, List.getD_cons_succ]
    refine within_bind (hens iv (by simp)) fun _ => ?_
    refine within_bind (hens if_ (by simp)) fun _ => ?_
    refine within_bind (hens zr (by simp)) fun _ => ?_
    refine within_bind (hens zs (by simp)) fun _ => ?_
    refine within_bind (hens tn (by simp)) fun _ => ?_
    refine within_bind_lift fun g hg => ?_
    refine within_bind (within_save cwd ⟨g, rfl, Or.inl ⟨hpl iv (by simp) _ (by decide) (by decide), hg⟩⟩) fun _ => ?_
    refine within_bind_lift fun g hg => ?_
    refine within_bind (within_save cwd ⟨g, rfl, Or.inr (Or.inl ⟨hpl if_ (by simp) _ (by decide) (by decide), hg⟩)⟩) fun _ => ?_
    refine within_bind_lift fun g hg => ?_
    refine within_bind (within_save cwd ⟨g, rfl, Or.inr (Or.inr (Or.inl ⟨hpl tn (by simp) _ (by decide) (by decide), hg⟩))⟩)
      fun _ => ?_
    split_ifs
    · refine within_bind_lift fun g hg => ?_
      refine within_bind (within_save cwd ⟨g, rfl, Or.inr (Or.inr (Or.inr (Or.inl
        ⟨hpl zr (by simp) _ (by decide) (by decide), hg⟩)))⟩) fun _ => ?_
      refine within_bind_lift fun g hg => ?_
      exact within_save cwd ⟨g, rfl, Or.inr (Or.inr (Or.inr (Or.inr ⟨hpl zs (by simp) _ (by decide) (by decide), hg⟩)))⟩
    · exact within_pure ()
  subst hs'
  obtain ⟨m1, m2, m3, m4⟩ := main s hs
  refine ⟨m1, m2, m3, fun l => (m4 l).imp id ?_⟩
  rintro ⟨c, ⟨g, rfl, hg⟩, hc⟩
  exact ⟨g, hc, hg⟩

end

/-- C116: a `file_struc` that is neither `None`, `""` nor a dictionary is refused, and so is a dictionary without one of
the five keys; nothing is written then. -/
theorem C116_refused (params kw : Dict) (cwd : List Name) (p : PumpedData) (d : DCData) (freq : List Char) (vmax : ℝ)
    (fig : List Char) (new : ℕ) (s : Disk Content) :
    plotAllPumped params kw cwd p d freq vmax fig .other new s = (.error (.py .value), s) ∧
    ∀ f k, k ∈ ["Pumped IV curve", "IV + IF", "Impedance recovery", "Impedance recovery (sim)", "Noise temperature"] →
      f k = none → plotAllPumped params kw cwd p d freq vmax fig (.dict f) new s = (.error (.py .key), s) := by
  constructor
  · rfl
  · intro f k hk hf
    have : pumpedFolders (.dict f) = .error .key := by
      show pumpedFolders.folders f = _
      unfold pumpedFolders.folders folderAt
      have cases1 : ∀ key, (∃ x, getOpt PyErr.key (f key) = .ok x) ∨ getOpt PyErr.key (f key) = .error .key := by
        intro key
        cases f key with
        | none => exact Or.inr rfl
        | some x => exact Or.inl ⟨x, rfl⟩
      have bad : getOpt PyErr.key (f k) = .error .key := by rw [hf]; rfl
      simp only [List.mem_cons, List.not_mem_nil, or_false] at hk
      rcases cases1 "Pumped IV curve" with ⟨x1, g1⟩ | g1
      swap
      · rw [g1]; rfl
      rcases cases1 "IV + IF" with ⟨x2, g2⟩ | g2
      swap
      · rw [g1, py_bind, g2]; rfl
      rcases cases1 "Impedance recovery" with ⟨x3, g3⟩ | g3
      swap
      · rw [g1, py_bind, g2, py_bind, g3]; rfl
      rcases cases1 "Impedance recovery (sim)" with ⟨x4, g4⟩ | g4
      swap
      · rw [g1, py_bind, g2, py_bind, g3, py_bind, g4]; rfl
      rcases cases1 "Noise temperature" with ⟨x5, g5⟩ | g5
      swap
      · rw [g1, py_bind, g2, py_bind, g3, py_bind, g4, py_bind, g5]; rfl
      rcases hk with rfl | rfl | rfl | rfl | rfl
      · rw [bad] at g1; cases g1
      · rw [bad] at g2; cases g2
      · rw [bad] at g3; cases g3
      · rw [bad] at g4; cases g4
      · rw [bad] at g5; cases g5
    unfold plotAllPumped
    rw [bind_run_err (lift_err this s)]

/-- C116: a dictionary with exactly the four keys that the documentation of `plot_all` lists is refused with `KeyError`. -/
theorem C116_false_keys (params kw : Dict) (cwd : List Name) (p : PumpedData) (d : DCData) (freq : List Char) (vmax : ℝ)
    (fig : List Char) (new : ℕ) (s : Disk Content) (f : Folders)
    (hf : ∀ k, f k ≠ none ↔ k ∈ ["Pumped IV curve", "IV + IF", "Impedance recovery", "Noise temperature"]) :
    plotAllPumped params kw cwd p d freq vmax fig (.dict f) new s = (.error (.py .key), s) :=
  (C116_refused params kw cwd p d freq vmax fig new s).2 f "Impedance recovery (sim)" (by simp)
    (not_not.1 fun h => absurd ((hf _).1 h) (by decide))

/-- There is such a dictionary. -/
example : ∃ f : Folders, ∀ k, f k ≠ none ↔ k ∈ ["Pumped IV curve", "IV + IF", "Impedance recovery", "Noise temperature"] :=
  ⟨fun k => if k ∈ ["Pumped IV curve", "IV + IF", "Impedance recovery", "Noise temperature"] then some [] else none,
    fun k => by dsimp only; split_ifs with h <;> simp [h]⟩

/-- C116: the empty string for the folder and for `file_struc`, that is "everything into the working directory", is
refused by the operating system: `os.makedirs("")` raises `FileNotFoundError`. -/
theorem C116_false_empty (params kw : Dict) (cwd : List Name) (p : PumpedData) (d : DCData) (freq : List Char) (vmax : ℝ)
    (new : ℕ) (s : Disk Content) : plotAllPumped params kw cwd p d freq vmax [] .flat new s = (.error .noEntry, s) := by
  unfold plotAllPumped
  rw [bind_run_ok (lift_ok (x := pumpedFolders .flat) (a := [[], [], [], [], []]) rfl s)]
  exact bind_run_err (ensure_empty cwd s) _

/-! ## Several measurements -/

/-- The endings of the five files. -/
def endings : List String := ["-iv.png", "-iv-if.png", "-tn.png", "-err-surf.png", "-sim.png"]

theorem ending_unique {a b : List Char} {x y : String} (hx : x ∈ endings) (hy : y ∈ endings)
    (h : a ++ x.toList = b ++ y.toList) : a = b ∧ x = y := by
  have h6 := congrArg (fun l => l.reverse.take 6) h
  have len : ∀ z ∈ endings, 6 ≤ z.toList.reverse.length := by decide
  have uni : ∀ z ∈ endings, ∀ w ∈ endings, z.toList.reverse.take 6 = w.toList.reverse.take 6 → z = w := by decide
  simp only [List.reverse_append] at h6
  rw [List.take_append_of_le_length (len x hx), List.take_append_of_le_length (len y hy)] at h6
  obtain rfl := uni x hx y hy h6
  exact ⟨List.append_cancel_right h, rfl⟩

/-- C116: measurements at different frequencies do not overwrite the figures of each other, even in one folder. -/
theorem C116_two_frequencies (params kw kw' : Dict) (cwd : List Name) (p p' : PumpedData) (d d' : DCData)
    (freq freq' : List Char) (vmax : ℝ) (fig : List Char) (struc : Struc) (new : ℕ) (s : Disk Content) (hs : s.Ok)
    (hfreq : '/' ∉ freq) (hfreq' : '/' ∉ freq') (hne : freq ≠ freq') (iv if_ zr zs tn : List Char)
    (h1 : Chosen struc "Pumped IV curve" iv) (h2 : Chosen struc "IV + IF" if_) (h3 : Chosen struc "Impedance recovery" zr)
    (h4 : Chosen struc "Impedance recovery (sim)" zs) (h5 : Chosen struc "Noise temperature" tn)
    (hrel : ∀ sub ∈ [iv, if_, zr, zs, tn], sub.head? ≠ some '/') (s1 s2 : Disk Content)
    (e1 : s1 = (plotAllPumped params kw cwd p d freq vmax fig struc new s).2)
    (e2 : s2 = (plotAllPumped params kw' cwd p' d' freq' vmax fig struc new s1).2) :
    ∀ sub, ∀ x ∈ endings, s2.file (target cwd fig sub freq x) = s1.file (target cwd fig sub freq x) := by
  intro sub x hx
  have hok := (C116_kept params kw cwd p d freq vmax fig struc new s hfreq iv if_ zr zs tn h1 h2 h3 h4 h5 hrel hs s1 e1).1
  obtain ⟨-, -, -, hf⟩ := C116_kept params kw' cwd p' d' freq' vmax fig struc new s1 hfreq' iv if_ zr zs tn h1 h2 h3 h4 h5
    hrel hok s2 e2
  have no : ∀ sub' : List Char, ∀ y ∈ endings, target cwd fig sub freq x ≠ target cwd fig sub' freq' y := by
    intro sub' y hy h
    refine last_ne (fun hh => hne ?_) h
    exact (ending_unique hx hy hh).1
  rcases hf (target cwd fig sub freq x) with h | ⟨g, -, h⟩
  · exact h
  · exfalso
    rcases h with ⟨h, -⟩ | ⟨h, -⟩ | ⟨h, -⟩ | ⟨h, -⟩ | ⟨h, -⟩ <;> exact no _ _ (by simp [endings]) h

/-- C116: two measurements at the same frequency share their files: afterwards the files hold the figures of the second,
those of the first are gone. -/
theorem C116_same_frequency (params kw kw' : Dict) (cwd : List Name) (p p' : PumpedData) (d d' : DCData)
    (freq : List Char) (vmax : ℝ) (fig : List Char) (struc : Struc) (new : ℕ) (s : Disk Content) (hs : s.Ok)
    (hfreq : '/' ∉ freq) (iv if_ zr zs tn : List Char)
    (h1 : Chosen struc "Pumped IV curve" iv) (h2 : Chosen struc "IV + IF" if_) (h3 : Chosen struc "Impedance recovery" zr)
    (h4 : Chosen struc "Impedance recovery (sim)" zs) (h5 : Chosen struc "Noise temperature" tn)
    (hrel : ∀ sub ∈ [iv, if_, zr, zs, tn], sub.head? ≠ some '/')
    (hne : ∀ sub ∈ [iv, if_, zr, zs, tn], fig ≠ [] ∨ sub ≠ [])
    (hfree : ∀ sub ∈ [iv, if_, zr, zs, tn], s.Free (place cwd fig ++ parts sub))
    (hclear : ∀ t ∈ [target cwd fig iv freq "-iv.png", target cwd fig if_ freq "-iv-if.png", target cwd fig tn freq "-tn.png",
        target cwd fig zr freq "-err-surf.png", target cwd fig zs freq "-sim.png"],
      ¬ s.dir t ∧ ∀ sub ∈ [iv, if_, zr, zs, tn], ¬ t <+: place cwd fig ++ parts sub)
    (g1 g2 g3 g4 g5 : Drawing) (q1 : plotIv p' d' vmax new none = .ok g1) (q2 : plotIvif p' d' vmax new none = .ok g2)
    (q3 : plotNoiseTemp p' vmax new none = .ok g3)
    (q4 : p'.zemb ≠ none → plotErrorSurface params kw' p' new none = .ok g4)
    (q5 : p'.zemb ≠ none → plotSimulated params kw' p' d' vmax new none = .ok g5) :
    ∃ s2, plotAllPumped params kw' cwd p' d' freq vmax fig struc new
        (plotAllPumped params kw cwd p d freq vmax fig struc new s).2 = (.ok (), s2) ∧
      s2.file (target cwd fig iv freq "-iv.png") = some (.figure g1) ∧
      s2.file (target cwd fig if_ freq "-iv-if.png") = some (.figure g2) ∧
      s2.file (target cwd fig tn freq "-tn.png") = some (.figure g3) ∧
      (p'.zemb ≠ none → s2.file (target cwd fig zr freq "-err-surf.png") = some (.figure g4) ∧
        s2.file (target cwd fig zs freq "-sim.png") = some (.figure g5)) := by
  obtain ⟨ok1, -, dir1, file1⟩ := C116_kept params kw cwd p d freq vmax fig struc new s hfreq iv if_ zr zs tn h1 h2 h3 h4 h5
    hrel hs _ rfl
  obtain ⟨s2, e2, -, -, a1, a2, a3, a4, -⟩ := C116_pumped params kw' cwd p' d' freq vmax fig struc new _ ok1 hfreq iv if_ zr zs
    tn h1 h2 h3 h4 h5 hrel hne
    (by
      intro sub hsub l hl
      rcases file1 l with h | ⟨g, -, h⟩
      · rw [h]
        exact hfree sub hsub l hl
      · exfalso
        rcases h with ⟨rfl, -⟩ | ⟨rfl, -⟩ | ⟨rfl, -⟩ | ⟨rfl, -⟩ | ⟨rfl, -⟩ <;> exact (hclear _ (by simp)).2 sub hsub hl)
    (by
      intro t ht
      refine ⟨fun hd => ?_, (hclear t ht).2⟩
      rcases dir1 t hd with h | ⟨sub, hsub, h⟩
      · exact (hclear t ht).1 h
      · exact (hclear t ht).2 sub hsub h)
    g1 g2 g3 g4 g5 q1 q2 q3 q4 q5
  exact ⟨s2, e2, a1, a2, a3, a4⟩

/-! ## A disk -/

/-- A disk with the directory `/home` and a file in it. -/
def homeDisk : Disk Content where
  dir l := l = [] ∨ l = ["home".toList]
  file l := if l = ["home".toList, "notes".toList] then some (.text "".toList) else none

theorem homeDisk_ok : homeDisk.Ok where
  root := Or.inl rfl
  up := by
    rintro l n (h | h)
    · simp at h
    · obtain rfl : l = [] := by simpa using (List.append_inj_left' (t₁ := [n]) (s₂ := []) h rfl)
      exact Or.inl rfl
  fileUp := by
    intro l n h
    simp only [homeDisk] at h ⊢
    split_ifs at h with hl
    · exact Or.inr (List.append_inj_left' (t₁ := [n]) (s₂ := ["home".toList]) hl rfl)
    · exact absurd rfl h
  apart := by
    rintro l (rfl | rfl) <;> rfl

/-- The hypotheses of `C116_pumped`, `C116_kept` and `C116_same_frequency` are met: the receiver of the examples, its
figures to be put into `figs` in the working directory `/home`, with the default folders. -/
example (S : RespFn.Splines) : ∃ d r s', (dcData ideal S [PARAMS] (.matrix tenOhm) (some (.matrix spike)) gapAndShot).1 = .ok d ∧
    plotAllPumped PARAMS (update PARAMS pumpedBoth) ["home".toList] r d "230.0".toList 4 "figs".toList .default 0 homeDisk =
      (.ok (), s') ∧
    s'.dir ["home".toList, "figs".toList, "impedance".toList] ∧
    s'.file ["home".toList, "figs".toList, "iv-curves".toList, "230.0-iv.png".toList] ≠ none ∧
    s'.file ["home".toList, "figs".toList, "iv-if".toList, "230.0-iv-if.png".toList] ≠ none ∧
    s'.file ["home".toList, "figs".toList, "noise-temp".toList, "230.0-tn.png".toList] ≠ none ∧
    s'.file ["home".toList, "notes".toList] = some (.text "".toList) := by
  obtain ⟨d, r, f, th, tc, x, out, hd, hr, hf, hx, h31⟩ := receiver_points S
  obtain ⟨⟨g2, p2⟩, -, -, -, -, -, h3, -⟩ := C113_returns ideal S [PARAMS] [PARAMS] (by simp) rfl (by simp) rfl _ _ _ _ _ d _ _ r
    hd hr rfl (delivered_wf _ _ _) rfl (delivered_wf _ _ _) f hf 4 0 none none
  obtain ⟨g3, p3⟩ := h3 h31
  obtain ⟨g1, -, -, p1, -⟩ := C113_iv ideal S [PARAMS] [PARAMS] (by simp) rfl (by simp) rfl _ _ _ _ _ d _ _ r hd hr 4 0 none
  have hz : r.zemb = none := by
    obtain ⟨-, -, -, -, -, -, -, h1, -⟩ := pumpedInit_parts (pumpedData_ok (by simp) rfl hr)
    simp only [pumpedZemb, bind_ok_iff] at h1
    obtain ⟨v, hv, h1⟩ := h1
    obtain rfl : .bool false = v := Except.ok.inj hv
    exact (pure_ok_iff.1 h1).symm
  have hpre : ∀ t : List Name, (∃ sub ∈ ["iv-curves/".toList, "iv-if/".toList, "impedance/".toList,
      "impedance-sim/".toList, "noise-temp/".toList], t <+: place ["home".toList] "figs".toList ++ parts sub) →
      t ∈ [[], ["home".toList], ["home".toList, "figs".toList], ["home".toList, "figs".toList, "iv-curves".toList],
        ["home".toList, "figs".toList, "iv-if".toList], ["home".toList, "figs".toList, "impedance".toList],
        ["home".toList, "figs".toList, "impedance-sim".toList], ["home".toList, "figs".toList, "noise-temp".toList]] := by
    rintro t ⟨sub, hsub, ht⟩
    rw [← List.mem_inits] at ht
    revert t
    revert sub
    decide
  obtain ⟨s', e, -, hdir, a1, a2, a3, -, hrest⟩ := C116_pumped PARAMS (update PARAMS pumpedBoth) ["home".toList] r d "230.0".toList 4
    "figs".toList .default 0 homeDisk homeDisk_ok (by decide) "iv-curves/".toList "iv-if/".toList "impedance/".toList
    "impedance-sim/".toList "noise-temp/".toList (by simp [Chosen]) (by simp [Chosen]) (by simp [Chosen]) (by simp [Chosen])
    (by simp [Chosen]) (by decide) (by decide)
    (by
      intro sub hsub l hl
      have := hpre l ⟨sub, hsub, hl⟩
      simp only [homeDisk]
      rw [if_neg]
      rintro rfl
      revert this
      decide)
    (by
      intro t ht
      constructor
      · have : ∀ t ∈ [target ["home".toList] "figs".toList "iv-curves/".toList "230.0".toList "-iv.png",
            target ["home".toList] "figs".toList "iv-if/".toList "230.0".toList "-iv-if.png",
            target ["home".toList] "figs".toList "noise-temp/".toList "230.0".toList "-tn.png",
            target ["home".toList] "figs".toList "impedance/".toList "230.0".toList "-err-surf.png",
            target ["home".toList] "figs".toList "impedance-sim/".toList "230.0".toList "-sim.png"],
            ¬ (t = [] ∨ t = ["home".toList]) := by decide
        exact this t ht
      · intro sub hsub h
        have := hpre t ⟨sub, hsub, h⟩
        clear h hsub
        revert t
        decide)
    g1 g2 g3 g1 g1 p1 p2 p3 (fun h => absurd hz h) (fun h => absurd hz h)
  refine ⟨d, r, s', hd, e, (hdir _).2 (Or.inr ⟨"impedance/".toList, by decide, by decide⟩), ?_, ?_, ?_, ?_⟩
  · have : target ["home".toList] "figs".toList "iv-curves/".toList "230.0".toList "-iv.png" =
      ["home".toList, "figs".toList, "iv-curves".toList, "230.0-iv.png".toList] := by decide
    rw [← this, a1]
    simp
  · have : target ["home".toList] "figs".toList "iv-if/".toList "230.0".toList "-iv-if.png" =
      ["home".toList, "figs".toList, "iv-if".toList, "230.0-iv-if.png".toList] := by decide
    rw [← this, a2]
    simp
  · have : target ["home".toList] "figs".toList "noise-temp/".toList "230.0".toList "-tn.png" =
      ["home".toList, "figs".toList, "noise-temp".toList, "230.0-tn.png".toList] := by decide
    rw [← this, a3]
    simp
  · rw [hrest _ (by decide) (by decide) (by decide) (fun h => absurd hz h)]
    rfl

end QMix.Files
