import Verif.Model.FilesPrint
import Verif.Props.Files2
import Verif.Props.Results3
import Verif.Lemmas.Report

/-!
# Property C172: what the functions that write files print
-/

namespace QMix.Props

open QMix Spec Files Results Exp Opt

namespace Say

theorem bind_run {α β : Type} (m : Talk α) (f : α → Talk β) (s : Disk Content) :
    (m >>= f) s = match m s with
      | ((.ok a, s'), t) => ((f a s').1, t ++ (f a s').2)
      | ((.error e, s'), t) => ((.error e, s'), t) := rfl

/-- Forgetting what is printed. -/
theorem bind_fst {α β : Type} {m : Talk α} {f : α → Talk β} {m' : Op α} {f' : α → Op β} (h : ∀ s, (m s).1 = m' s)
    (hf : ∀ a s, (f a s).1 = f' a s) (s : Disk Content) : ((m >>= f) s).1 = (m' >>= f') s := by
  rw [bind_run, Files.bind_run, ← h s]
  rcases hm : m s with ⟨⟨r, s'⟩, t⟩
  cases r with
  | ok a => exact hf a s'
  | error e => rfl

theorem header_run (text : List Char) (s : Disk Content) (h : Char.ofNat 27 ∉ text) :
    ∃ t, tellC text "HEADER".toList s = ((.ok (), s), t) ∧ ∀ r, Char.ofNat 27 ∉ r → shown (t ++ r) = text ++ '\n' :: r := by
  have e := Term.cprint_known (c := "HEADER".toList) (k := Term.esc :: "[95".toList ++ ['m']) (by decide) text
  refine ⟨_, by unfold tellC; rw [e], fun r hr => ?_⟩
  have k := Report.shown_coloured (e := "[95".toList) (by decide) h ('\n' :: r)
  have k2 : shown ('\n' :: r) = '\n' :: r := by
    have := Report.shown_plain (t := '\n' :: r) (by simp only [List.mem_cons, not_or]; exact ⟨by decide, hr⟩) []
    simpa [Report.shown_nil] using this
  rw [k2] at k
  rw [← k]
  congr 1
  simp

theorem forM_fst {α : Type} {g : α → Talk Unit} {g' : α → Op Unit} (h : ∀ a s, (g a s).1 = g' a s) (l : List α) (s : Disk Content) :
    (l.forM g s).1 = l.forM g' s := by
  induction l generalizing s with
  | nil => rfl
  | cons a l ih => exact bind_fst (h a) (fun _ s => ih s) s

theorem createSay_fst (cwd : List Name) (fig folder : List Char) (s : Disk Content) :
    (createSay cwd fig folder s).1 = ensure cwd (fig ++ folder) s := by
  unfold createSay ensure
  refine bind_fst (fun _ => rfl) (fun e t => ?_) s
  cases e with
  | true => rfl
  | false =>
    simp only [Bool.false_eq_true, if_false]
    rw [bind_run]
    simp only [quiet]
    rcases hm : makedirs cwd (fig ++ folder) t with ⟨r, t'⟩
    cases r <;> rfl

theorem tell_fst (text : List Char) (m : Talk Unit) (s : Disk Content) : ((m >>= fun _ => tell text) s).1 = (m s).1 := by
  rw [bind_run]
  rcases hm : m s with ⟨⟨r, s'⟩, t⟩
  cases r <;> rfl

theorem tellC_fst (text : List Char) (h : Char.ofNat 27 ∉ text) (m : Talk Unit) (s : Disk Content) :
    ((tellC text "HEADER".toList >>= fun _ => m) s).1 = (m s).1 := by
  obtain ⟨t, ht, -⟩ := header_run text s h
  rw [bind_run, ht]

open Classical in
theorem createSay_run {s : Disk Content} (hs : s.Ok) (cwd : List Name) {fig folder : List Char} (hp : fig ++ folder ≠ [])
    (hf : s.Free (place cwd (fig ++ folder))) :
    createSay cwd fig folder s = ((.ok (), withDir s (place cwd (fig ++ folder))),
      if s.dir (place cwd (fig ++ folder)) then [] else Report.line ("   - Created: ".toList ++ folder)) := by
  have hf0 : s.file (place cwd (fig ++ folder)) = none := hf _ (List.prefix_refl _)
  have e1 : pathExists cwd (fig ++ folder) s = (.ok (decide (s.dir (place cwd (fig ++ folder)))), s) := by
    unfold pathExists; simp [hp, hf0]
  unfold createSay
  rw [bind_run]
  simp only [quiet, e1]
  by_cases hd : s.dir (place cwd (fig ++ folder))
  · simp only [hd, decide_true, if_true, withDir_same hs hd]
    rfl
  · have e2 : makedirs cwd (fig ++ folder) s = (.ok (), withDir s (place cwd (fig ++ folder))) := by
      unfold makedirs
      rw [if_neg hp, if_neg (by simp [hd, hf0]), if_neg (by simp [hf])]
      rfl
    simp only [hd, decide_false, Bool.false_eq_true, if_false]
    rw [bind_run]
    simp only [quiet, e2]
    rfl

open Classical in
theorem create_each (cwd : List Name) (fig : List Char) (ps : List (List Char)) (s : Disk Content) (hs : s.Ok)
    (h0 : ∀ p ∈ ps, fig ++ p ≠ []) (hf : ∀ p ∈ ps, s.Free (place cwd (fig ++ p)))
    (hpw : ps.Pairwise fun a b => ¬ place cwd (fig ++ b) <+: place cwd (fig ++ a)) :
    ∃ s', ps.forM (createSay cwd fig) s = ((.ok (), s'),
      (ps.filter fun p => ¬ s.dir (place cwd (fig ++ p))).flatMap fun p => Report.line ("   - Created: ".toList ++ p)) := by
  induction ps generalizing s with
  | nil => exact ⟨s, rfl⟩
  | cons p ps ih =>
    have e := createSay_run hs cwd (h0 p (by simp)) (hf p (by simp))
    rw [List.pairwise_cons] at hpw
    obtain ⟨s', e1⟩ := ih (withDir s (place cwd (fig ++ p))) (ok_withDir hs (hf p (by simp)))
      (fun p hp => h0 p (by simp [hp])) (fun p hp => hf p (by simp [hp])) hpw.2
    refine ⟨s', ?_⟩
    have hfil : (ps.filter fun q => ¬ (withDir s (place cwd (fig ++ p))).dir (place cwd (fig ++ q))) =
        ps.filter fun q => ¬ s.dir (place cwd (fig ++ q)) := by
      refine List.filter_congr fun q hq => ?_
      have := hpw.1 q hq
      simp [withDir, this]
    rw [hfil] at e1
    change (createSay cwd fig p >>= fun _ => ps.forM (createSay cwd fig)) s = _
    rw [bind_run, e]
    simp only [e1]
    congr 1
    by_cases hd : s.dir (place cwd (fig ++ p))
    · rw [if_pos hd, List.filter_cons_of_neg (by simpa using hd)]
      rfl
    · rw [if_neg hd, List.filter_cons_of_pos (by simpa using hd)]
      rfl

end Say

open Say

/-- C172. Printing changes nothing: the three functions do to the disk, and return or raise, what the models without
text say (so that C116, C117 and C118 are about the same functions). -/
theorem C172_same (cwd : List Name) (fig : List Char) (s : Disk Content) :
    (initializeDirSay cwd fig s).1 = initializeDir cwd fig s ∧
    (∀ spline str d data vmax tnMax fr new,
      (plotOverallSay spline str cwd d data fig vmax tnMax fr new s).1 = plotOverall spline str cwd d data fig vmax tnMax fr new s) ∧
    ∀ th tc maxtn files figo new, (plotIfSpectrumSay th tc maxtn cwd files figo new s).1 = plotIfSpectrum th tc maxtn cwd files figo new s := by
  refine ⟨?_, ?_, ?_⟩
  · unfold initializeDirSay
    rw [tell_fst]
    exact forM_fst (fun a t => createSay_fst cwd fig a t) _ s
  · intro spline str d data vmax tnMax fr new
    unfold plotOverallSay
    rw [tellC_fst _ (by decide), tell_fst]
    rfl
  · intro th tc maxtn files figo new
    unfold plotIfSpectrumSay
    rw [tellC_fst _ (by decide)]
    cases files with
    | nil =>
      change ((quiet (saveSpectra cwd figo (emptySpectrum new) (emptySpectrum (new + 1))) >>= fun _ => tell []) s).1 = _
      rw [tell_fst]
      rfl
    | cons x l => rfl

open Classical in
/-- C172. `initialize_dir` (for a folder given with a slash at the end) lists the folders that it has created: those of the
default hierarchy that were not there, in the documented order, each on a line. A line with a blank ends the list. -/
theorem C172_initialize (cwd : List Name) (fig : List Char) (hfig : fig.getLast? = some '/') (s : Disk Content)
    (hs : s.Ok) (hf : ∀ w ∈ subFolders, s.Free (place cwd fig ++ parts w.toList)) :
    (initializeDirSay cwd fig s).2 =
      ((subFolders.filter fun w => ¬ s.dir (place cwd fig ++ parts w.toList)).flatMap fun w =>
        "   - Created: ".toList ++ w.toList ++ (if w = "" then [] else ['/']) ++ ['\n']) ++ [' ', '\n'] := by
  have hne : fig ≠ [] := by rintro rfl; simp at hfig
  have hpl : ∀ w : List Char, place cwd (fig ++ w) = place cwd fig ++ parts w := by
    intro w
    unfold place
    rw [parts_append hfig]
    cases fig with
    | nil => exact absurd rfl hne
    | cons c cs =>
      rw [List.cons_append, List.head?_cons, List.head?_cons]
      split_ifs <;> simp
  have hm : ([] :: structure_.map Prod.snd) = subFolders.map fun w => w.toList ++ (if w = "" then [] else ['/']) := by decide
  have hp : ∀ w ∈ subFolders, parts (w.toList ++ (if w = "" then [] else ['/'])) = parts w.toList := by decide
  obtain ⟨s', e⟩ := create_each cwd fig ([] :: structure_.map Prod.snd) s hs (by simp [hne])
    (by
      intro p hp'
      rw [hm] at hp'
      obtain ⟨w, hw, rfl⟩ := List.mem_map.1 hp'
      rw [hpl, hp w hw]
      exact hf w hw)
    (by
      simp only [hpl, List.prefix_append_right_inj]
      decide)
  unfold initializeDirSay
  rw [Say.bind_run]
  simp only [e, tell, Report.line]
  congr 1
  rw [hm, List.filter_map, List.flatMap_map]
  have hfil : (subFolders.filter ((fun p => decide (¬ s.dir (place cwd (fig ++ p)))) ∘ fun w => w.toList ++ (if w = "" then [] else ['/']))) =
      subFolders.filter fun w => ¬ s.dir (place cwd fig ++ parts w.toList) := by
    refine List.filter_congr fun w hw => ?_
    simp only [Function.comp, hpl, hp w hw]
  rw [hfil]
  simp only [List.append_assoc]

/-- C172. `plot_overall_results` announces itself, and says that it is done exactly if it returns. -/
theorem C172_overall (spline : List ℝ → List Fl.Flt → Py (List ℝ → List Fl.Flt)) (str : ℝ → List Char) (cwd : List Name) (d : DCData)
    (data : List Entry) (fig : List Char) (vmax : ℝ) (tnMax : Option ℝ) (fr : Option (ℝ × ℝ)) (new : ℕ) (s : Disk Content) :
    shown (plotOverallSay spline str cwd d data fig vmax tnMax fr new s).2 = "\nPlotting results.\n".toList ++
      match (plotOverall spline str cwd d data fig vmax tnMax fr new s).1 with
      | .ok _ => " -> Done\n\n".toList
      | .error _ => [] := by
  obtain ⟨t, ht, hsh⟩ := header_run "\nPlotting results.".toList s (by decide)
  unfold plotOverallSay
  rw [Say.bind_run, ht]
  simp only [Say.bind_run, quiet]
  rcases hm : plotOverall spline str cwd d data fig vmax tnMax fr new s with ⟨r, s'⟩
  cases r with
  | ok a =>
    simp only [tell, Report.line]
    rw [List.nil_append, hsh _ (by decide)]
    rfl
  | error e =>
    simp only
    rw [hsh [] (by simp)]
    rfl

/-- C172. `plot_if_spectrum` names the first spectrum it finds and raises; the other spectra are not named. Without
spectra it prints the headline, and an empty line if the figures could be saved. -/
theorem C172_spectrum (th tc maxtn : ℝ) (cwd : List Name) (fig : Option (List Char)) (new : ℕ) (s : Disk Content) :
    (∀ (dir name : List Char) (rest : List (List Char)), '/' ∉ name → Char.ofNat 27 ∉ name →
      shown (plotIfSpectrumSay th tc maxtn cwd ((dir ++ '/' :: (name ++ ".dat".toList)) :: rest) fig new s).2 =
        "\nImporting and plotting IF data:\n - ".toList ++ name ++ ['\n']) ∧
    shown (plotIfSpectrumSay th tc maxtn cwd [] fig new s).2 = "\nImporting and plotting IF data:\n".toList ++
      match (plotIfSpectrum th tc maxtn cwd [] fig new s).1 with
      | .ok _ => ['\n']
      | .error _ => [] := by
  obtain ⟨t, ht, hsh⟩ := header_run "\nImporting and plotting IF data:".toList s (by decide)
  constructor
  · intro dir name rest hn he
    have hb : basename (dir ++ '/' :: (name ++ ".dat".toList)) = name ++ ".dat".toList := by
      unfold basename
      rw [List.reverse_append, List.reverse_cons, List.append_assoc, List.takeWhile_append_of_pos, List.takeWhile_append]
      · simp
      · intro c hc
        rw [List.mem_reverse, List.mem_append] at hc
        have : '/' ∉ ".dat".toList := by decide
        simp only [ne_eq, decide_not, Bool.not_eq_eq_eq_not, Bool.not_true, decide_eq_false_iff_not]
        rintro rfl
        exact hc.elim hn this
    have ht' : (name ++ ".dat".toList).take ((name ++ ".dat".toList).length - 4) = name := by
      have : (".dat".toList).length = 4 := by decide
      rw [List.length_append, this, Nat.add_sub_cancel, List.take_left']
      rfl
    unfold plotIfSpectrumSay
    rw [Say.bind_run, ht]
    simp only [hb, ht']
    have hr : Char.ofNat 27 ∉ " - ".toList ++ name ++ ['\n'] := by
      simp only [List.mem_append, not_or]
      exact ⟨⟨by decide, he⟩, by decide⟩
    have := hsh _ hr
    rw [show "\nImporting and plotting IF data:\n - ".toList ++ name ++ ['\n'] =
      "\nImporting and plotting IF data:".toList ++ '\n' :: (" - ".toList ++ name ++ ['\n']) by
        rw [show "\nImporting and plotting IF data:\n - ".toList = "\nImporting and plotting IF data:".toList ++ '\n' :: " - ".toList by decide]
        simp, ← this]
    congr 2
    simp only [Say.bind_run, tell, quiet, Report.line]
    have e : IfResp.ifResponse .other th tc maxtn = .error .value := rfl
    simp only [lift, e, List.append_nil]
  · have hl : "\nImporting and plotting IF data:\n".toList = "\nImporting and plotting IF data:".toList ++ ['\n'] := by decide
    unfold plotIfSpectrumSay
    rw [Say.bind_run, ht]
    simp only
    change shown (t ++ ((quiet (saveSpectra cwd fig (emptySpectrum new) (emptySpectrum (new + 1))) >>= fun _ => tell []) s).2) = _
    change _ = _ ++ match (saveSpectra cwd fig (emptySpectrum new) (emptySpectrum (new + 1)) s).1 with
      | .ok _ => ['\n']
      | .error _ => []
    simp only [Say.bind_run, quiet]
    rcases hm : saveSpectra cwd fig (emptySpectrum new) (emptySpectrum (new + 1)) s with ⟨r, s'⟩
    cases r with
    | ok a =>
      simp only [tell, Report.line]
      rw [List.nil_append, hsh _ (by decide), hl, List.append_assoc]
      rfl
    | error e =>
      simp only
      rw [hsh [] (by simp), hl, List.append_nil]

/-- The hypotheses of `C172_initialize` are met: on a disk with the folders `home/figs/csv` all but the first and the last
folder are created. -/
example : ∃ s : Disk Content, s.Ok ∧ (∀ w ∈ subFolders, s.Free (place ["home".toList] "figs/".toList ++ parts w.toList)) ∧
    s.dir (place ["home".toList] "figs/".toList ++ parts "csv".toList) ∧ ¬ s.dir (place ["home".toList] "figs/".toList ++ parts "dciv".toList) := by
  refine ⟨{ dir := fun l => l <+: ["home".toList, "figs".toList, "csv".toList], file := fun _ => none }, ?_, fun _ _ _ _ => rfl, ?_, ?_⟩
  · refine ⟨List.nil_prefix, fun l n h => (List.prefix_append l [n]).trans h, fun l n h => absurd rfl h, fun _ _ => rfl⟩
  · change _ <+: _
    decide
  · change ¬ _ <+: _
    decide

end QMix.Props
