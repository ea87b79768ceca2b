import Verif.Props.Files

/-!
# C116: the figures of the dc data, `initialize_dir`, and data without IF
-/

namespace QMix.Files

open QMix Np Fl IvData IfData Opt Exp Spec

section

variable (R : Routines) (cwd : List Name) (d : DCData) (vmax : ℝ) (fig : List Char) (sub : Option (List Char)) (new : ℕ)
  (s : Disk Content) (hs : s.Ok) (q : List Char) (hq : sub = some q ∨ (sub = none ∧ q = "dciv/".toList))
  (hrel : q.head? ≠ some '/') (hne : fig ≠ [] ∨ q ≠ [])
  (hfree : s.Free (place cwd fig ++ parts q))
  (hclear : ∀ n ∈ ["dciv.png".toList, "dcif.png".toList], ¬ s.dir (place cwd fig ++ parts q ++ [n]))

include hs hq hrel hne hfree in
theorem dc_folder : (withDir s (place cwd fig ++ parts q)).Ok ∧
    plotAllDc R cwd d vmax fig sub new s = (do
      let g ← lift (plotDciv R d vmax new none)
      save cwd (join (join fig q) "dciv.png".toList) (.figure g)
      let g ← lift (plotIfNoise d new none)
      match g with
      | some g => save cwd (join (join fig q) "dcif.png".toList) (.figure g)
      | none => pure () : Op Unit) (withDir s (place cwd fig ++ parts q)) := by
  refine ⟨ok_withDir hs hfree, ?_⟩
  have e : ensure cwd (join fig q) s = (.ok (), withDir s (place cwd fig ++ parts q)) := by
    rw [← place_join cwd fig hrel] at hfree ⊢
    exact ensure_run hs cwd (hne.elim join_ne' join_ne) hfree
  unfold plotAllDc
  rcases hq with rfl | ⟨rfl, rfl⟩
  · dsimp only
    rw [bind_run_ok (pure_run q s), bind_run_ok e]
    rfl
  · dsimp only
    rw [bind_run_ok (lift_ok (x := folderAt defaultFolders "DC IV curve") (a := "dciv/".toList) rfl s), bind_run_ok e]
    rfl

include hs hq hrel hne hfree hclear

/-- C116: `DCData.plot_all` makes `fig_folder/sub_folder` (by default `dciv/`), writes `dciv.png` there and, if there are
IF data, `dcif.png`; no other file or directory changes. The documentation also lists the figures of `plot_offset` and
`plot_rdyn`; they are not made. -/
theorem C116_dc (g1 : Drawing) (g2 : Option Drawing) (p1 : plotDciv R d vmax new none = .ok g1)
    (p2 : plotIfNoise d new none = .ok g2) :
    ∃ s', plotAllDc R cwd d vmax fig sub new s = (.ok (), s') ∧ s'.Ok ∧
      (∀ l, s'.dir l ↔ s.dir l ∨ l <+: place cwd fig ++ parts q) ∧
      s'.file (place cwd fig ++ parts q ++ ["dciv.png".toList]) = some (.figure g1) ∧
      (∀ g, g2 = some g → s'.file (place cwd fig ++ parts q ++ ["dcif.png".toList]) = some (.figure g)) ∧
      ∀ l, l ≠ place cwd fig ++ parts q ++ ["dciv.png".toList] →
        (g2 ≠ none → l ≠ place cwd fig ++ parts q ++ ["dcif.png".toList]) → s'.file l = s.file l := by
  obtain ⟨k0, e0⟩ := dc_folder R cwd d vmax fig sub new s hs q hq hrel hne hfree
  have step : ∀ n ∈ ["dciv.png".toList, "dcif.png".toList], ∀ (t : Disk Content) (c : Content), t.Ok →
      t.dir = (withDir s (place cwd fig ++ parts q)).dir →
      save cwd (join (join fig q) n) c t = (.ok (), withFile t (place cwd fig ++ parts q ++ [n]) c) ∧
      (withFile t (place cwd fig ++ parts q ++ [n]) c).Ok := by
    intro n hn t c hok hd
    have h1 : t.dir (place cwd fig ++ parts q) := by rw [hd]; exact Or.inr (List.prefix_refl _)
    have h2 : ¬ t.dir (place cwd fig ++ parts q ++ [n]) := by
      rw [hd]
      rintro (h | h)
      · exact hclear n hn h
      · have := h.length_le
        simp at this
    have names : ∀ n ∈ ["dciv.png".toList, "dcif.png".toList], '/' ∉ n ∧ n ≠ [] ∧ n ≠ ['.'] := by decide
    obtain ⟨n1, n2, n3⟩ := names n hn
    refine ⟨?_, ok_withFile hok (by rw [List.dropLast_concat]; exact h1) h2⟩
    rw [← place_join cwd fig hrel] at h1 h2 ⊢
    exact save_run hok cwd n1 n2 n3 c h1 h2
  obtain ⟨e1, k1⟩ := step "dciv.png".toList (by simp) _ (.figure g1) k0 rfl
  rw [e0, bind_run_ok (lift_ok p1 _), bind_run_ok e1, bind_run_ok (lift_ok p2 _)]
  have nn : ∀ Q : List Name, Q ++ ["dciv.png".toList] ≠ Q ++ ["dcif.png".toList] := fun Q => last_ne (by decide)
  cases g2 with
  | none =>
    refine ⟨_, rfl, k1, fun l => Iff.rfl, if_pos rfl, fun g hg => (by cases hg), fun l hl _ => if_neg hl⟩
  | some g =>
    obtain ⟨e2, k2⟩ := step "dcif.png".toList (by simp) _ (.figure g) k1 rfl
    refine ⟨_, e2, k2, fun l => Iff.rfl, (if_neg (nn _)).trans (if_pos rfl), fun g' hg => ?_, fun l h1 h2 => ?_⟩
    · obtain rfl := Option.some.inj hg
      exact if_pos rfl
    · exact (if_neg (h2 (by simp))).trans (if_neg h1)

/-- C116: for data loaded by `DCData`, the first figure is written unless the leakage voltage is so far outside that there
is no point of the curve near it; then `TypeError` is raised and only the folder is made. -/
theorem C116_dc_loaded (S : RespFn.Splines) (h : Heap) (hh : h ≠ []) (hP : deref h sharedAt = PARAMS)
    (data : IfResp.Input) (dcif : Option IfResp.Input) (kw : Dict) (e : (dcData R S h data dcif kw).1 = .ok d) :
    (dcif = none → (∃ p ∈ siCurve d, |p.1 - d.vleak| < 0.2e-3) →
      ∃ s' g, plotAllDc R cwd d vmax fig sub new s = (.ok (), s') ∧ plotDciv R d vmax new none = .ok g ∧
        s'.file (place cwd fig ++ parts q ++ ["dciv.png".toList]) = some (.figure g) ∧
        ∀ l, l ≠ place cwd fig ++ parts q ++ ["dciv.png".toList] → s'.file l = s.file l) ∧
    ((∀ p ∈ siCurve d, ¬ |p.1 - d.vleak| < 0.2e-3) →
      plotAllDc R cwd d vmax fig sub new s = (.error (.py .type), withDir s (place cwd fig ++ parts q))) := by
  obtain ⟨r1, r2⟩ := C112_returns R S h hh hP data dcif kw d e vmax new none
  constructor
  · intro hif hp
    obtain ⟨g, hg⟩ := r1 hp
    obtain ⟨i1, i2, -⟩ := C113_if_noise R S h hh hP data dcif kw d e new none
    obtain ⟨s', a1, -, -, a2, -, a3⟩ := C116_dc R cwd d vmax fig sub new s hs q hq hrel hne hfree hclear g none hg
      (i2 (i1.2 hif))
    exact ⟨s', g, a1, hg, a2, fun l hl => a3 l hl (fun h => absurd rfl h)⟩
  · intro hp
    obtain ⟨k0, e0⟩ := dc_folder R cwd d vmax fig sub new s hs q hq hrel hne hfree
    rw [e0, bind_run_err (lift_err (r2 hp) _)]

end

/-! ## `initialize_dir` -/

/-- The sub-folders. -/
def subFolders : List String := ["", "dciv", "iv-curves", "iv-if", "impedance", "impedance-sim", "if-noise", "noise-temp",
  "if-spectrum", "overall-results", "csv"]

theorem ensure_each (cwd : List Name) (ps : List (List Char)) (s : Disk Content) (hs : s.Ok)
    (h0 : ∀ p ∈ ps, p ≠ []) (hf : ∀ p ∈ ps, s.Free (place cwd p)) :
    ∃ s', ps.forM (ensure cwd) s = (.ok (), s') ∧ s'.Ok ∧ s'.file = s.file ∧
      ∀ l, s'.dir l ↔ s.dir l ∨ ∃ p ∈ ps, l <+: place cwd p := by
  induction ps generalizing s with
  | nil => exact ⟨s, rfl, hs, rfl, by simp⟩
  | cons p ps ih =>
    have e := ensure_run hs cwd (h0 p (by simp)) (hf p (by simp))
    obtain ⟨s', e1, e2, e3, e4⟩ := ih (withDir s (place cwd p)) (ok_withDir hs (hf p (by simp)))
      (fun p hp => h0 p (by simp [hp])) (fun p hp => hf p (by simp [hp]))
    refine ⟨s', ?_, e2, e3, ?_⟩
    · exact (bind_run_ok e fun _ => ps.forM (ensure cwd)).trans e1
    · intro l
      rw [e4]
      simp [withDir, or_assoc]

/-- C116, what is true of `initialize_dir`: if the text of the folder ends with a slash, then it and all the sub-folders
of the default hierarchy exist afterwards, and nothing else has changed. Missing: a folder without a final slash, see
`C116_false_initialize`. -/
theorem C116_initialize_partial (cwd : List Name) (fig : List Char) (hfig : fig.getLast? = some '/') (s : Disk Content)
    (hs : s.Ok) (hf : ∀ w ∈ subFolders, s.Free (place cwd fig ++ parts w.toList)) :
    ∃ s', initializeDir cwd fig s = (.ok (), s') ∧ s'.Ok ∧ s'.file = s.file ∧
      (∀ w ∈ subFolders, s'.dir (place cwd fig ++ parts w.toList)) ∧
      ∀ l, s'.dir l → s.dir l ∨ ∃ w ∈ subFolders, l <+: place cwd fig ++ parts w.toList := by
  have hne : fig ≠ [] := by rintro rfl; simp at hfig
  have hpl : ∀ w : List Char, place cwd (fig ++ w) = place cwd fig ++ parts w := by
    intro w
    unfold place
    rw [parts_append hfig]
    cases fig with
    | nil => exact absurd rfl hne
    | cons c cs =>
      rw [List.cons_append, List.head?_cons, List.head?_cons]
      split_ifs <;> simp
  have hsub : ∀ q : List Name, (∃ p ∈ ([] :: structure_.map Prod.snd).map (fig ++ ·), q <+: place cwd p) ↔
      ∃ w ∈ subFolders, q <+: place cwd fig ++ parts w.toList := by
    intro q
    have hm : ([] :: structure_.map Prod.snd).map parts = subFolders.map fun w => parts w.toList := by decide
    constructor
    · rintro ⟨p, hp, h⟩
      obtain ⟨w, hw, rfl⟩ := List.mem_map.1 hp
      rw [hpl] at h
      have := List.mem_map_of_mem (f := parts) hw
      rw [hm] at this
      obtain ⟨w', hw', e⟩ := List.mem_map.1 this
      exact ⟨w', hw', by rw [e]; exact h⟩
    · rintro ⟨w, hw, h⟩
      have := List.mem_map_of_mem (f := fun w : String => parts w.toList) hw
      rw [← hm] at this
      obtain ⟨w', hw', e⟩ := List.mem_map.1 this
      exact ⟨fig ++ w', List.mem_map.2 ⟨w', hw', rfl⟩, by rw [hpl, e]; exact h⟩
  obtain ⟨s', e1, e2, e3, e4⟩ := ensure_each cwd (([] :: structure_.map Prod.snd).map (fig ++ ·)) s hs
    (by
      intro p hp
      obtain ⟨w, -, rfl⟩ := List.mem_map.1 hp
      simp [hne])
    (by
      intro p hp l hl
      obtain ⟨w, hw, h⟩ := (hsub l).1 ⟨p, hp, hl⟩
      exact hf w hw l h)
  refine ⟨s', ?_, e2, e3, ?_, ?_⟩
  · rw [← e1]
    rfl
  · intro w hw
    exact (e4 _).2 (Or.inr ((hsub _).2 ⟨w, hw, List.prefix_refl _⟩))
  · intro l hl
    exact ((e4 l).1 hl).imp id (hsub l).1

/-- C116: without the slash, the sub-folders are not made inside the folder but beside it, with the name of the folder in
front of their names. -/
theorem C116_false_initialize (cwd : List Name) (a n : List Char) (ha : a = [] ∨ a.getLast? = some '/') (hn : '/' ∉ n)
    (h0 : n ≠ []) (h1 : n ≠ ['.']) (s : Disk Content) (hs : s.Ok)
    (hf : ∀ w ∈ subFolders, s.Free (place cwd a ++ [n ++ w.toList])) :
    ∃ s', initializeDir cwd (a ++ n) s = (.ok (), s') ∧ s'.file = s.file ∧
      (∀ w ∈ subFolders, s'.dir (place cwd a ++ [n ++ w.toList])) ∧
      ∀ w ∈ subFolders, w ≠ "" → s'.dir (place cwd (a ++ n) ++ parts w.toList) →
        s.dir (place cwd (a ++ n) ++ parts w.toList) := by
  have hw : ∀ w ∈ subFolders, '/' ∉ w.toList := by decide
  have hpl : ∀ w ∈ subFolders, place cwd (a ++ (n ++ w.toList)) = place cwd a ++ [n ++ w.toList] := by
    intro w hws
    have hs : parts (n ++ w.toList) = [n ++ w.toList] := by
      refine parts_single ?_ (by simp [h0]) ?_
      · simp only [List.mem_append, not_or]
        exact ⟨hn, hw w hws⟩
      · intro h
        cases n with
        | nil => exact h0 rfl
        | cons c cs =>
          rw [List.cons_append] at h
          obtain ⟨rfl, h'⟩ := List.cons.inj h
          obtain ⟨rfl, -⟩ := List.append_eq_nil_iff.1 h'
          exact h1 rfl
    rcases ha with rfl | ha
    · have : (n ++ w.toList).head? ≠ some '/' := by
        cases n with
        | nil => exact absurd rfl h0
        | cons c cs =>
          intro h
          obtain rfl := Option.some.inj h
          exact hn List.mem_cons_self
      unfold place
      rw [List.nil_append, if_neg this, hs]
      simp [parts_nil]
    · unfold place
      rw [parts_append ha, hs]
      cases a with
      | nil => simp at ha
      | cons c cs =>
        rw [List.cons_append, List.head?_cons, List.head?_cons]
        split_ifs <;> simp
  have slash : ∀ p : List Char, place cwd (p ++ ['/']) = place cwd p ∨ p = [] := by
    intro p
    cases p with
    | nil => exact Or.inr rfl
    | cons c cs =>
      left
      unfold place
      rw [parts_slash, parts_nil, List.append_nil, List.cons_append, List.head?_cons, List.head?_cons]
  have hp1 : ∀ p ∈ [] :: structure_.map Prod.snd, ∃ w ∈ subFolders, p = w.toList ∨ p = w.toList ++ ['/'] := by decide
  have hp2 : ∀ w ∈ subFolders, ∃ p ∈ [] :: structure_.map Prod.snd, p = w.toList ∨ p = w.toList ++ ['/'] := by decide
  have hsame : ∀ (p : List Char) (w : String), w ∈ subFolders → p = w.toList ∨ p = w.toList ++ ['/'] →
      place cwd (a ++ n ++ p) = place cwd a ++ [n ++ w.toList] := by
    intro p w hws hp
    rcases hp with rfl | rfl
    · rw [List.append_assoc, hpl w hws]
    · rw [← List.append_assoc, (slash _).resolve_right (by simp [h0]), List.append_assoc, hpl w hws]
  have hsub : ∀ q : List Name, (∃ p ∈ ([] :: structure_.map Prod.snd).map (a ++ n ++ ·), q <+: place cwd p) ↔
      ∃ w ∈ subFolders, q <+: place cwd a ++ [n ++ w.toList] := by
    intro q
    constructor
    · rintro ⟨p, hp, h⟩
      obtain ⟨p, hp', rfl⟩ := List.mem_map.1 hp
      obtain ⟨w, hws, e⟩ := hp1 p hp'
      exact ⟨w, hws, by rw [← hsame p w hws e]; exact h⟩
    · rintro ⟨w, hws, h⟩
      obtain ⟨p, hp, e⟩ := hp2 w hws
      exact ⟨_, List.mem_map.2 ⟨p, hp, rfl⟩, by rw [hsame p w hws e]; exact h⟩
  obtain ⟨s', e1, e2, e3, e4⟩ := ensure_each cwd (([] :: structure_.map Prod.snd).map (a ++ n ++ ·)) s hs
    (by
      intro p hp
      obtain ⟨w, -, rfl⟩ := List.mem_map.1 hp
      simp [h0])
    (by
      intro p hp l hl
      obtain ⟨w, hw, h⟩ := (hsub l).1 ⟨p, hp, hl⟩
      exact hf w hw l h)
  refine ⟨s', ?_, e3, ?_, ?_⟩
  · rw [← e1]
    rfl
  · intro w hws
    exact (e4 _).2 (Or.inr ((hsub _).2 ⟨w, hws, List.prefix_refl _⟩))
  · intro w hws hw0 hd
    rcases (e4 _).1 hd with h | h
    · exact h
    · exfalso
      obtain ⟨w', -, h⟩ := (hsub _).1 h
      have h3 := h.length_le
      have h4 := hpl "" (by simp [subFolders])
      have h5 : ∀ w ∈ subFolders, w ≠ "" → (parts w.toList).length = 1 := by decide
      simp only [String.toList_empty, List.append_nil] at h4
      rw [h4, List.length_append, List.length_append, List.length_append, h5 w hws hw0] at h3
      simp at h3

/-- For example, `initialize_dir("figs")` in `/home`: the directory `/home/figsdciv` is made, `/home/figs/dciv` is not. -/
example : ∃ s', initializeDir ["home".toList] "figs".toList homeDisk = (.ok (), s') ∧
    s'.dir ["home".toList, "figs".toList] ∧ s'.dir ["home".toList, "figsdciv".toList] ∧
    ¬ s'.dir ["home".toList, "figs".toList, "dciv".toList] := by
  obtain ⟨s', e1, -, e2, e3⟩ := C116_false_initialize ["home".toList] [] "figs".toList (Or.inl rfl) (by decide) (by decide)
    (by decide) homeDisk homeDisk_ok
    (by
      intro w hw l hl
      simp only [homeDisk]
      rw [if_neg]
      rintro rfl
      revert hl
      revert w
      decide)
  refine ⟨s', e1, e2 "" (by decide), e2 "dciv" (by decide), fun h => ?_⟩
  have := e3 "dciv" (by decide) (by decide) h
  revert this
  exact (by decide : ¬ (([["home".toList], ["figs".toList, "dciv".toList]].flatten : List Name) = [] ∨
    ([["home".toList], ["figs".toList, "dciv".toList]].flatten : List Name) = ["home".toList]))

/-- With the slash, `/home/figs/dciv` is made. -/
example : ∃ s', initializeDir ["home".toList] "figs/".toList homeDisk = (.ok (), s') ∧
    s'.dir ["home".toList, "figs".toList, "dciv".toList] := by
  obtain ⟨s', e1, -, -, e2, -⟩ := C116_initialize_partial ["home".toList] "figs/".toList (by decide) homeDisk homeDisk_ok
    (by
      intro w hw l hl
      simp only [homeDisk]
      rw [if_neg]
      rintro rfl
      revert hl
      revert w
      decide)
  exact ⟨s', e1, e2 "dciv" (by decide)⟩

/-- C116: and the empty text is refused. -/
theorem C116_false_initialize_empty (cwd : List Name) (s : Disk Content) :
    initializeDir cwd [] s = (.error .noEntry, s) := by
  exact bind_run_err (ensure_empty cwd s) fun _ => (structure_.map Prod.snd).forM fun folder => ensure cwd ([] ++ folder)

/-! ## The ten ohm junction -/

/-- The hypotheses of `C116_no_if` are met: an unpumped and a pumped curve without IF data. -/
example (S : RespFn.Splines) (d : DCData) (r : PumpedData)
    (hd : (dcData ideal S [PARAMS] (.matrix tenOhm) none gapOnly).1 = .ok d)
    (hr : (pumpedData ideal [PARAMS] (.matrix twentyOhm) d none none pumpedOnly).1 = .ok r) (hif : r.ifs = none) :
    ∃ s' g, plotAllPumped PARAMS (update PARAMS pumpedOnly) ["home".toList] r d "230.0".toList 4 "figs".toList .flat 0
        homeDisk = (.error (.py .type), s') ∧
      s'.file ["home".toList, "figs".toList, "230.0-iv.png".toList] = some (.figure g) := by
  obtain ⟨s', g, e1, -, -, e2, -⟩ := C116_no_if PARAMS (update PARAMS pumpedOnly) ["home".toList] r d "230.0".toList 4 "figs".toList
    .flat 0 homeDisk homeDisk_ok (by decide) [] [] [] [] [] rfl rfl rfl rfl rfl (by decide) (by decide)
    (by
      intro sub hsub l hl
      simp only [homeDisk]
      rw [if_neg]
      rintro rfl
      revert hl
      revert sub
      decide)
    ideal S [PARAMS] [PARAMS] (by simp) rfl (by simp) rfl _ _ none gapOnly pumpedOnly none none hd hr hif
    ⟨(by decide : ¬ (target ["home".toList] "figs".toList [] "230.0".toList "-iv.png" = [] ∨
        target ["home".toList] "figs".toList [] "230.0".toList "-iv.png" = ["home".toList])), by decide⟩
  exact ⟨s', g, e1, e2⟩

/-- The hypotheses of `C116_dc_loaded` and `C116_dc` are met: the figure of the junction with a kink. -/
example (R : Routines) (S : RespFn.Splines) : ∃ d s' g, (dcData R S [PARAMS] (.matrix (sweep kinked)) none (kinkKw 2e-3)).1 = .ok d ∧
    plotAllDc R ["home".toList] d 4 "figs".toList none 0 homeDisk = (.ok (), s') ∧
    s'.file ["home".toList, "figs".toList, "dciv".toList, "dciv.png".toList] = some (.figure g) := by
  obtain ⟨d, hd, hr, -, hg, hl, hn, hs⟩ := kink_dc R S 2e-3
  have mem : ∀ k : ℕ, k < 121 → ((-6e-3 + k * 1e-4 : ℝ), interpAt kinkSi (-6e-3 + k * 1e-4)) ∈ siCurve d := by
    intro k hk
    rw [hs]
    exact List.mem_of_getElem? (by rw [tab_get?, if_pos hk])
  obtain ⟨s', g, e1, -, e2, -⟩ := (C116_dc_loaded R ["home".toList] d 4 "figs".toList none 0 homeDisk homeDisk_ok "dciv/".toList
    (Or.inr ⟨rfl, rfl⟩) (by decide) (by decide)
    (by
      intro l hl
      simp only [homeDisk]
      rw [if_neg]
      rintro rfl
      revert hl
      decide)
    (fun n _ h => by
      rcases h with h | h
      · simp at h
      · have := congrArg List.length h
        have e : (place ["home".toList] "figs".toList ++ parts "dciv/".toList).length = 3 := by decide
        rw [List.length_append, e] at this
        simp at this)
    S [PARAMS] (by simp) rfl _ none _ hd).1 rfl ⟨_, mem 80 (by norm_num), by rw [hl]; norm_num⟩
  exact ⟨d, s', g, hd, e1, e2⟩

end QMix.Files
