import Verif.Props.Report
import Verif.Props.ExpData2

/-!
# What `DCData` and `PumpedData` print (C125)
-/

namespace QMix.Report

open QMix Np Fl IvData IfData Opt Exp Results Spec

/-! ## Specification -/

/-- A table shows numbers: each row is a label, a numeral with two decimals and a unit. -/
def ShowsRows (rows : List (List (List Char))) (want : List (List Char × ℝ × List Char)) : Prop :=
  List.Forall₂ (fun row w => ∃ t, Shows t w.2.1 2 ∧
    row = (if w.1 = [] then [] else [w.1]) ++ t :: (if w.2.2 = [] then [] else [w.2.2])) rows want

/-- The quantities of the unpumped junction in the units of the report. The critical current density is in kA/cm^2, the gap
voltage over the resistance-area product being in A/m^2. -/
noncomputable def dcRows (vgap fgap rn rsg q jc ileak v0 i0 vint : ℝ) : List (List Char × ℝ × List Char) :=
  [("Vgap:  ".toList, vgap * 10 ^ 3, "mV".toList), ("fgap:  ".toList, fgap / 10 ^ 9, "GHz".toList),
   ("Rn:    ".toList, rn, "ohms".toList), ("Rsg:   ".toList, rsg, "ohms".toList), ("Q:     ".toList, q, []),
   ("Jc:    ".toList, jc / 10 ^ 3 / 10 ^ 4, "kA/cm^2".toList), ("Ileak: ".toList, ileak * 10 ^ 6, "uA".toList),
   ("Offset:".toList, v0 * 10 ^ 3, "mV".toList), ([], i0 * 10 ^ 6, "uA".toList), ("Vint:  ".toList, vint * 10 ^ 3, "mV".toList)]

/-! ## Lemmas -/

theorem report_blank (r : List Char) : report ("\n".toList ++ r) = [] :: report r :=
  report_line (w := []) (by simp) (by simp) r

/-- A row of the report of the unpumped junction. -/
theorem report_row (label unit : List Char) (w : ℝ) (rest : List Char) (L U : List (List Char)) (label' unit' : List Char)
    (hl' : label = label' ++ ['\t']) (hu' : unit = '\t' :: unit' ++ ['\n']) (hl : tabbed label' = L) (hu : tabbed unit' = U)
    (h : ∀ c ∈ label' ++ unit', c ≠ '\n' ∧ c ≠ Char.ofNat 27) :
    report (label ++ (fmt 6 2 (num w) ++ (unit ++ rest))) = (L ++ trim (fmt 6 2 (num w)) :: U) :: report rest := by
  subst hu'
  have := report_entry label' unit' L U rest (plain_fmt 6 2 (num w)) (fmt_ne 6 2 (num w)) hl' rfl hl hu h
  rw [← this]
  unfold line
  simp

theorem report_end (label : List Char) (w : ℝ) (rest : List Char) (L : List (List Char)) (label' : List Char)
    (hl' : label = label' ++ ['\t']) (hl : tabbed label' = L) (h : ∀ c ∈ label', c ≠ '\n' ∧ c ≠ Char.ofNat 27) :
    report (label ++ (fmt 6 2 (num w) ++ ("\n".toList ++ rest))) = (L ++ [trim (fmt 6 2 (num w))]) :: report rest := by
  have := report_last label' L rest (plain_fmt 6 2 (num w)) (fmt_ne 6 2 (num w)) hl' hl h
  rw [← this]
  unfold line
  simp

/-- C125. The text of a `DCData` is a heading with the comment and a table with the quantities in the units stated, rounded to
two decimals; the IF noise is there if it is known. -/
theorem C125_dc_text (str : Val → List Char) (d : DCData) {q jc : ℝ} (hq : d.q = num q) (hj : d.jc = num jc)
    (hc : ∀ c ∈ str d.comment, c ≠ '\n' ∧ c ≠ '\t' ∧ c ≠ Char.ofNat 27) :
    ∃ rows, report (dcText str d) = [] :: ["DC I-V data: ".toList ++ str d.comment] :: rows ∧
      ShowsRows (rows.filter fun r => !r.isEmpty) (dcRows d.dc.vgap d.dc.fgap d.dc.rn d.dc.rsg q jc d.ileak d.dc.offset.1
        d.dc.offset.2 d.dc.vint ++ match d.ifs with
          | none => []
          | some x => [("IF noise:".toList, x.2.ifNoise, "K".toList)]) := by
  have hhead : ∀ R : List Char, report (Term.esc :: "[35m\nDC I-V data:".toList ++ Term.esc :: "[0m ".toList ++ str d.comment ++
      "\n\n".toList ++ R) = [] :: ["DC I-V data: ".toList ++ str d.comment] :: [] :: report R := by
    intro R
    have h1 : shown (Term.esc :: "[35m\nDC I-V data:".toList ++ Term.esc :: "[0m ".toList ++ str d.comment ++ "\n\n".toList ++ R)
        = '\n' :: (("DC I-V data: ".toList ++ str d.comment) ++ '\n' :: '\n' :: shown R) := by
      have e : Term.esc :: "[35m\nDC I-V data:".toList ++ Term.esc :: "[0m ".toList ++ str d.comment ++ "\n\n".toList ++ R
          = Term.esc :: "[35".toList ++ 'm' :: ("\nDC I-V data:".toList ++ (Term.esc :: "[0".toList ++ 'm' ::
            ((' ' :: str d.comment ++ "\n\n".toList) ++ R))) := by simp
      rw [e, shown_code (by decide), shown_plain (by decide), shown_code (by decide), shown_plain]
      · simp
      · have := fun h => (hc _ h).2.2 rfl
        simp only [List.cons_append, List.mem_cons, List.mem_append, not_or]
        exact ⟨by decide, this, by decide⟩
    unfold report
    have hn : '\n' ∉ "DC I-V data: ".toList ++ str d.comment := by
      have := fun h => (hc _ h).1 rfl
      simp only [List.mem_append, not_or]
      exact ⟨by decide, this⟩
    rw [h1, ← List.nil_append ('\n' :: _), linesOf_cons (by simp), linesOf_cons hn, ← List.nil_append ('\n' :: shown R),
      linesOf_cons (by simp)]
    simp only [List.map_cons]
    rw [tabbed_word (t := "DC I-V data: ".toList ++ str d.comment)]
    · rfl
    · have := fun h => (hc _ h).2.1 rfl
      simp only [List.mem_append, not_or]
      exact ⟨by decide, this⟩
    · simp
  have hjc : Fl.fdiv d.jc (num 1e7) = num (jc / 1e7) := by rw [hj, fdiv_num _ (by norm_num)]
  unfold dcText
  rw [hjc, hq]
  simp only [List.append_assoc]
  have hhead' := hhead
  simp only [List.append_assoc] at hhead'
  rw [hhead']
  rw [report_row _ _ _ _ ["Vgap:  ".toList] ["mV".toList] "\tVgap:  \t".toList "mV".toList (by decide) (by decide) (by decide) (by decide) (by decide)]
  rw [report_row _ _ _ _ ["fgap:  ".toList] ["GHz".toList] "\tfgap:  \t".toList "GHz".toList (by decide) (by decide) (by decide) (by decide) (by decide)]
  rw [report_blank]
  rw [report_row _ _ _ _ ["Rn:    ".toList] ["ohms".toList] "\tRn:    \t".toList "ohms".toList (by decide) (by decide) (by decide) (by decide) (by decide)]
  rw [report_row _ _ _ _ ["Rsg:   ".toList] ["ohms".toList] "\tRsg:   \t".toList "ohms".toList (by decide) (by decide) (by decide) (by decide) (by decide)]
  rw [report_end _ _ _ ["Q:     ".toList] "\tQ:     \t".toList (by decide) (by decide) (by decide)]
  rw [report_blank]
  rw [report_row _ _ _ _ ["Jc:    ".toList] ["kA/cm^2".toList] "\tJc:    \t".toList "kA/cm^2".toList (by decide) (by decide) (by decide) (by decide) (by decide)]
  rw [report_row _ _ _ _ ["Ileak: ".toList] ["uA".toList] "\tIleak: \t".toList "uA".toList (by decide) (by decide) (by decide) (by decide) (by decide)]
  rw [report_blank]
  rw [report_row _ _ _ _ ["Offset:".toList] ["mV".toList] "\tOffset:\t".toList "mV".toList (by decide) (by decide) (by decide) (by decide) (by decide)]
  rw [report_row _ _ _ _ [] ["uA".toList] "\t       \t".toList "uA".toList (by decide) (by decide) (by decide) (by decide) (by decide)]
  rw [report_blank]
  rw [report_row _ _ _ _ ["Vint:  ".toList] ["mV".toList] "\tVint:  \t".toList "mV".toList (by decide) (by decide) (by decide) (by decide) (by decide)]
  have sh : ∀ x y : ℝ, x = y → Shows (trim (fmt 6 2 (num x))) y 2 := fun x y h => h ▸ shows_trim (shows_fmt 6 2 x)
  have hj7 : jc / 1e7 = jc / 10 ^ 3 / 10 ^ 4 := by norm_num [div_div]
  have h3 : ∀ x : ℝ, x * 1e3 = x * 10 ^ 3 := fun x => by norm_num
  have h6 : ∀ x : ℝ, x * 1e6 = x * 10 ^ 6 := fun x => by norm_num
  have h9 : ∀ x : ℝ, x / 1e9 = x / 10 ^ 9 := fun x => by norm_num
  cases d.ifs with
  | none =>
    refine ⟨_, rfl, ?_⟩
    unfold ShowsRows dcRows
    refine .cons ⟨_, sh _ _ (h3 _), rfl⟩ <| .cons ⟨_, sh _ _ (h9 _), rfl⟩ <| .cons ⟨_, sh _ _ rfl, rfl⟩ <|
      .cons ⟨_, sh _ _ rfl, rfl⟩ <| .cons ⟨_, sh _ _ rfl, rfl⟩ <| .cons ⟨_, sh _ _ hj7, rfl⟩ <| .cons ⟨_, sh _ _ (h6 _), rfl⟩ <|
      .cons ⟨_, sh _ _ (h3 _), rfl⟩ <| .cons ⟨_, sh _ _ (h6 _), rfl⟩ <| .cons ⟨_, sh _ _ (h3 _), rfl⟩ .nil
  | some x =>
    have := report_row "\tIF noise:\t".toList "\tK\n".toList x.2.ifNoise [] ["IF noise:".toList] ["K".toList]
      "\tIF noise:".toList "K".toList (by decide) (by decide) (by decide) (by decide) (by decide)
    rw [List.append_nil, report_nil] at this
    simp only [this]
    refine ⟨_, rfl, ?_⟩
    unfold ShowsRows dcRows
    refine .cons ⟨_, sh _ _ (h3 _), rfl⟩ <| .cons ⟨_, sh _ _ (h9 _), rfl⟩ <| .cons ⟨_, sh _ _ rfl, rfl⟩ <|
      .cons ⟨_, sh _ _ rfl, rfl⟩ <| .cons ⟨_, sh _ _ rfl, rfl⟩ <| .cons ⟨_, sh _ _ hj7, rfl⟩ <| .cons ⟨_, sh _ _ (h6 _), rfl⟩ <|
      .cons ⟨_, sh _ _ (h3 _), rfl⟩ <| .cons ⟨_, sh _ _ (h6 _), rfl⟩ <| .cons ⟨_, sh _ _ (h3 _), rfl⟩ <|
      .cons ⟨_, sh _ _ rfl, rfl⟩ .nil

/-! ## PumpedData -/

/-- The warning that the fit of the shot noise failed. -/
def shotRows : List (List (List Char)) :=
  [["Shot noise fit failed.".toList], ["Selecting all voltages above 2*Vgap.".toList]]

theorem shotWarning_rows {R : Routines} {o : IfOpts} {dc : DCIV} {x y : List ℝ} {out : List Char}
    (h : shotWarning R o dc x y = .ok out) :
    ∃ w, (w = [] ∨ w = shotRows) ∧ ∀ rest, report (out ++ rest) = w ++ report rest := by
  obtain ⟨a, ha, ha'⟩ := report_colour (c := "RED".toList) (e := "[91".toList) (w := "\t\tShot noise fit failed.".toList)
    (by decide) (by decide) (by decide) (by decide)
  obtain ⟨b, hb, hb'⟩ := report_colour (c := "RED".toList) (e := "[91".toList)
    (w := "\t\tSelecting all voltages above 2*Vgap.".toList) (by decide) (by decide) (by decide) (by decide)
  unfold shotWarning at h
  rw [bind_ok_iff] at h
  obtain ⟨m, -, h⟩ := h
  split_ifs at h
  · rw [ha, hb] at h
    simp only [py_bind] at h
    rw [pure_ok_iff] at h
    refine ⟨shotRows, Or.inr rfl, fun rest => ?_⟩
    rw [← h, List.append_assoc, ha', hb']
    rfl
  · rw [pure_ok_iff] at h
    exact ⟨[], Or.inl rfl, fun rest => by rw [← h]; rfl⟩

theorem report_code {e : List Char} (he : 'm' ∉ e) (r : List Char) : report (Term.esc :: e ++ 'm' :: r) = report r := by
  unfold report
  rw [shown_code he]

theorem ifHead (r : List Char) : report (line (Term.esc :: "[95m -> Analyze IF data:".toList ++ Term.esc :: "[0m".toList) ++ r)
    = ["-> Analyze IF data:".toList] :: report r := by
  have := Term.cprint_known (c := "HEADER".toList) (k := Term.esc :: "[95".toList ++ ['m']) (by decide) " -> Analyze IF data:".toList
  obtain ⟨t, ht, ht'⟩ := report_colour (c := "HEADER".toList) (e := "[95".toList) (w := " -> Analyze IF data:".toList)
    (by decide) (by decide) (by decide) (by decide)
  rw [this] at ht
  have := ht' r
  rw [← Except.ok.inj ht] at this
  exact this

/-- What `if_data` prints. -/
theorem ifPrint_rows {R : Routines} {o : IfOpts} {dc : DCIV} {dcif : Option DCIF} {hot cold : IfResp.Input} {verbose : Bool}
    {f : PumpedIf} {out : List Char} (h : ifPrint R o dc dcif hot cold verbose f = .ok out) :
    ∃ w, (w = [] ∨ w = shotRows) ∧ ∀ rest, report (out ++ rest) = ["-> Analyze IF data:".toList] :: w ++
      (if verbose then
        [["- noise temp:".toList, trim (fmt 6 1 f.tnBest) ++ " K".toList],
         ["- gain:".toList, trim (fmtS 6 2 (fmul (num 10) (flog10 f.gainBest))) ++ " dB".toList],
         ["- IF noise:".toList, trim (fmtS 6 2 (num f.dcif.ifNoise)) ++ " K".toList]] else []) ++ report rest := by
  unfold ifPrint at h
  simp only [bind_ok_iff] at h
  obtain ⟨hh, -, cc, -, s, hs, h⟩ := h
  rw [pure_ok_iff] at h
  have hw : ∃ w, (w = [] ∨ w = shotRows) ∧ ∀ rest, report (s ++ rest) = w ++ report rest := by
    have avg : averageWarning R o dc hh cc = .ok s → ∃ w, (w = [] ∨ w = shotRows) ∧ ∀ rest, report (s ++ rest) = w ++ report rest := by
      intro hs
      simp only [averageWarning, bind_ok_iff] at hs
      obtain ⟨_, -, _, -, hs⟩ := hs
      exact shotWarning_rows hs
    unfold ifWarning at hs
    split at hs
    · exact avg hs
    · split at hs
      · exact avg hs
      · exact ⟨[], Or.inl rfl, fun rest => by rw [← Except.ok.inj hs]; rfl⟩
  obtain ⟨w, hw1, hw2⟩ := hw
  refine ⟨w, hw1, fun rest => ?_⟩
  have entry : ∀ (label label' t u : List Char) (L : List (List Char)) (rest : List Char), Plain t → trim t ≠ [] →
      label = label' ++ ['\t'] → tabbed label' = L → (∀ c ∈ label' ++ u, c ≠ '\n' ∧ c ≠ Char.ofNat 27) → '\t' ∉ u →
      report (line (label ++ t ++ u) ++ rest) = (L ++ [trim t ++ u]) :: report rest := by
    intro label label' t u L rest ht hn hl' hl h hu
    subst hl'
    have h1 : ∀ c ∈ label', c ≠ '\n' ∧ c ≠ Char.ofNat 27 := fun c hc => h c (by simp [hc])
    have h2 : ∀ c ∈ u, c ≠ '\n' ∧ c ≠ Char.ofNat 27 := fun c hc => h c (by simp [hc])
    have htr : trim (t ++ u) = trim t ++ u := by
      unfold trim
      rw [List.dropWhile_append]
      have : (t.dropWhile (· == ' ')).isEmpty = false := by simpa using hn
      rw [this]
      rfl
    have htr' : (t ++ u).dropWhile (· == ' ') = trim t ++ u := htr
    rw [List.append_assoc, List.append_assoc, List.singleton_append, report_line, tabbed_append, hl,
      tabbed_word (t := t ++ u), htr']
    · simp only [List.mem_append, not_or]
      exact ⟨not_tab ht, hu⟩
    · rw [htr']
      simp [hn]
    · simp only [List.mem_append, List.mem_cons, not_or]
      exact ⟨fun h => (h1 _ h).1 rfl, by decide, not_nl ht, fun h => (h2 _ h).1 rfl⟩
    · simp only [List.mem_append, List.mem_cons, not_or]
      exact ⟨fun h => (h1 _ h).2 rfl, by decide, not_esc ht, fun h => (h2 _ h).2 rfl⟩
  rw [← h, List.append_assoc, List.append_assoc, ifHead, hw2]
  cases verbose
  · simp
  · simp only [if_true, List.append_assoc (bs := line _)]
    rw [List.append_assoc, List.append_assoc, entry _ "\t- noise temp:".toList _ _ ["- noise temp:".toList] _ (plain_fmt _ _ _)
      (fmt_ne _ _ _) (by decide) (by decide) (by decide) (by decide),
      entry _ "\t- gain:\t".toList _ _ ["- gain:".toList] _ (plain_fmtS _ _ _)
      (fmtS_ne _ _ _) (by decide) (by decide) (by decide) (by decide),
      entry _ "\t- IF noise:".toList _ _ ["- IF noise:".toList] _ (plain_fmtS _ _ _)
      (fmtS_ne _ _ _) (by decide) (by decide) (by decide) (by decide)]
    simp

/-- The report of the recovery begins with its title. -/
theorem recovery_head {bad : List Char} {other : Flt} {vph vgap rn : ℝ} {r : Zemb.Result} {out : List Char}
    (h : recovery bad other vph vgap rn r = .ok out) : ∀ rest, ∃ t, report (out ++ rest) = ["-> Impedance recovery:".toList] :: t := by
  obtain ⟨a, ha, ha'⟩ := report_colour (c := "HEADER".toList) (e := "[95".toList) (w := " -> Impedance recovery:".toList)
    (by decide) (by decide) (by decide) (by decide)
  intro rest
  unfold recovery at h
  rw [ha] at h
  simp only [py_bind] at h
  rw [bind_ok_iff] at h
  obtain ⟨b, -, h⟩ := h
  rw [pure_ok_iff] at h
  rw [← h, List.append_assoc, List.append_assoc, ha']
  exact ⟨_, rfl⟩

end QMix.Report
