import Verif.Lemmas.Results
import Verif.Props.Files2

/-!
# C117: the tables that `plot_overall_results` writes, and the folders and files it makes
-/

namespace QMix.Results

open QMix Np Fl IvData IfData Opt Exp Spec Files

/-! ## Tables -/

/-- The names of the columns of `results.txt`. -/
def columnNames : List String := ["Frequency (GHz)", "IV Filename", "IF Filename (Hot)", "IF Filename (Cold)",
  "Noise Temperature (K)", "Gain (dB)", "Drive Level", "Embedding Impedance (ohms)", "Embedding Voltage (mV)",
  "Embedding Circuit Recovered", "IF Noise (K)", "IF Noise Recovered"]

theorem header_fields : fields (commas headers) = columnNames.map String.toList := by decide

/-- The table of `results.txt`: a line of column names and then one line for each measurement, in the order of the list,
with an entry for each of the columns. Noise temperature, gain and drive level with two decimals; embedding impedance in ohm
and voltage in mV with four. -/
def ResultsTable (str : ℝ → List Char) (d : DCData) (l : List Point) (text : List Char) : Prop :=
    (linesOf text).length = l.length + 1 ∧
    (linesOf text)[0]?.map fields = some (columnNames.map String.toList) ∧
    ∀ (i : ℕ) (q : Point), l[i]? = some q → ∃ line, (linesOf text)[i + 1]? = some line ∧
      (fields line).length = columnNames.length ∧ (fields line)[0]? = some q.e.freqText ∧
      (∀ x, q.f.tnBest = num x → ∃ t, (fields line)[4]? = some t ∧ Shows t x 2) ∧
      (∀ x, q.f.gDb = num x → ∃ t, (fields line)[5]? = some t ∧ Shows t x 2) ∧
      (∀ x, q.z.alpha = num x → ∃ t, (fields line)[6]? = some t ∧ Shows t x 2) ∧
      (∃ t, (fields line)[7]? = some t ∧ ShowsJ t (q.z.zt * d.dc.rn) 4) ∧
      (∀ x, q.z.vt = some x → ∃ t, (fields line)[8]? = some t ∧ Shows t (x * d.dc.vgap * 1e3) 4) ∧
      (fields line)[9]? = some (if q.z.fitGood then "True".toList else "False".toList) ∧
      (fields line)[10]? = some (str q.f.dcif.ifNoise) ∧
      (fields line)[11]? = some (if q.f.dcif.ifFit then "True".toList else "False".toList) ∧
      ((q.f.tnBest = none → (fields line)[4]? = some "nan".toList) ∧ (q.f.gDb = none → (fields line)[5]? = some "nan".toList) ∧
        (q.z.alpha = none → (fields line)[6]? = some "nan".toList) ∧ (q.z.vt = none → (fields line)[8]? = some "nan".toList))

/-- The table of `recovered-emb.txt`: one line for each measurement, in the order of the list, with tabs between frequency,
embedding voltage in mV, embedding impedance in ohm and whether the fit is good. -/
def RecoveredTable (d : DCData) (l : List Point) (text : List Char) : Prop :=
    (linesOf text).length = l.length ∧
    ∀ (i : ℕ) (q : Point), l[i]? = some q → ∃ line v z, (linesOf text)[i]? = some line ∧
      cutAt '\t' line = [q.e.freqText, v, z, if q.z.fitGood then "True".toList else "False".toList] ∧
      (∀ x, q.z.vt = some x → Shows v (x * d.dc.vgap * 1e3) 2) ∧ (q.z.vt = none → v.dropWhile (· == ' ') = "nan".toList) ∧
      ShowsSum z (q.z.zt * d.dc.rn) 2

/-- The lines of `dciv-info.txt`: gap voltage in mV, normal resistance in ohm and gap frequency in GHz, with two decimals. -/
def InfoTable (d : DCData) (text : List Char) : Prop :=
    ∃ a b c, linesOf text = ["Gap voltage      \t".toList ++ a ++ " [mV]".toList,
      "Normal resistance\t".toList ++ b ++ " [ohms]".toList, "Gap frequency    \t".toList ++ c ++ " [GHz]".toList] ∧
    Shows a (d.dc.vgap * 1e3) 2 ∧ Shows b d.dc.rn 2 ∧ Shows c (d.dc.fgap / 1e9) 2

/-- C117: `results.txt` is a table with commas that can be read back. -/
theorem C117_results (str : ℝ → List Char) (d : DCData) (l : List Point)
    (hf : ∀ q ∈ l, ',' ∉ q.e.freqText ∧ '\n' ∉ q.e.freqText ∧ q.e.freqText.head? ≠ some ' ')
    (hs : ∀ x, ',' ∉ str x ∧ '\n' ∉ str x ∧ (str x).head? ≠ some ' ') :
    ResultsTable str d l (resultsText str d l) := by
  unfold ResultsTable
  have sep : ∀ q ∈ l, ∀ w ∈ cells str d q, ',' ∉ w ∧ '\n' ∉ w := by
    intro q hq w hw
    have two : ∀ {t}, Plain t → ',' ∉ t ∧ '\n' ∉ t := fun h => ⟨plain_not h (by decide), plain_not h (by decide)⟩
    have bt : ∀ b, ',' ∉ boolText b ∧ '\n' ∉ boolText b := by decide
    simp only [cells, List.mem_cons, List.not_mem_nil, or_false] at hw
    rcases hw with rfl | rfl | rfl | rfl | rfl | rfl | rfl | rfl | rfl | rfl | rfl | rfl
    · exact ⟨(hf q hq).1, (hf q hq).2.1⟩
    · decide
    · decide
    · decide
    · exact two (plain_fmt _ _ _)
    · exact two (plain_fmt _ _ _)
    · exact two (plain_fmt _ _ _)
    · exact two (plain_fmtC _ _)
    · exact two (plain_fmt _ _ _)
    · exact bt _
    · exact ⟨(hs _).1, (hs _).2.1⟩
    · exact bt _
  have nl : ∀ L : List (List Char), (∀ w ∈ L, '\n' ∉ w) → '\n' ∉ commas L := by
    intro L
    induction L with
    | nil => intro _; simp [commas]
    | cons w L ih =>
      intro h
      cases L with
      | nil => simpa [commas] using h w (by simp)
      | cons w' L =>
        rw [commas]
        · have := ih fun w hw => h w (by simp [hw])
          have h0 := h w (by simp)
          simp only [List.mem_append, not_or]
          exact ⟨⟨h0, by decide⟩, this⟩
        · simp
  have hlines : linesOf (resultsText str d l) = commas headers :: l.map fun q => commas (cells str d q) := by
    rw [← linesOf_lines (commas headers :: l.map fun q => commas (cells str d q))]
    · unfold resultsText
      rw [List.flatMap_cons, List.flatMap_map]
      simp
    · intro w hw
      rcases List.mem_cons.1 hw with rfl | hw
      · decide
      · obtain ⟨q, hq, rfl⟩ := List.mem_map.1 hw
        exact nl _ fun w hw => (sep q hq w hw).2
  rw [hlines]
  refine ⟨by simp, by rw [List.getElem?_cons_zero, Option.map_some, header_fields], ?_⟩
  intro i q hq
  have hm := List.mem_of_getElem? hq
  have trimB : ∀ b, (boolText b).dropWhile (· == ' ') = if b then "True".toList else "False".toList := by decide
  refine ⟨commas (cells str d q), by rw [List.getElem?_cons_succ, List.getElem?_map, hq]; rfl, ?_⟩
  rw [fields_commas _ (by simp [cells]) fun w hw => (sep q hm w hw).1]
  simp only [cells, List.map_cons, List.map_nil, List.getElem?_cons_zero, List.getElem?_cons_succ, trimB]
  refine ⟨rfl, by rw [dropWhile_fix (hf q hm).2.2], ?_, ?_, ?_, ?_, ?_, trivial, by rw [dropWhile_fix (hs _).2.2], trivial,
    ?_, ?_, ?_, ?_⟩
  · intro x hx
    exact ⟨_, rfl, by rw [hx]; exact shows_trim (shows_fmt 0 2 x)⟩
  · intro x hx
    exact ⟨_, rfl, by rw [hx]; exact shows_trim (shows_fmt 0 2 x)⟩
  · intro x hx
    exact ⟨_, rfl, by rw [hx]; exact shows_trim (shows_fmt 0 2 x)⟩
  · refine ⟨_, rfl, ?_⟩
    rw [dropWhile_fix]
    · exact showsJ_fmtC 4 _
    · exact fmtC_head 4 _
  · intro x hx
    exact ⟨_, rfl, by rw [scaledVt_num hx]; exact shows_trim (shows_fmt 0 4 _)⟩
  · intro h; rw [h, fmt_nan]
  · intro h; rw [h, fmt_nan]
  · intro h; rw [h, fmt_nan]
  · intro h; rw [scaledVt_nan h, fmt_nan]

/-- C117: `recovered-emb.txt` is a table with tabs that can be read back. -/
theorem C117_recovered (d : DCData) (l : List Point) (hf : ∀ q ∈ l, '\t' ∉ q.e.freqText ∧ '\n' ∉ q.e.freqText) :
    RecoveredTable d l (l.flatMap (embLine d)) := by
  unfold RecoveredTable
  set zs : Point → List Char := fun q =>
    fmt 6 2 (num (q.z.zt * d.dc.rn).re) ++ " + 1j * (".toList ++ fmt 6 2 (num (q.z.zt * d.dc.rn).im) ++ [')'] with hzs
  set vs : Point → List Char := fun q => fmt 5 2 (fmul (scaledVt q.z d.dc.vgap) (num 1e3)) with hvs
  set body : Point → List Char := fun q =>
    q.e.freqText ++ '\t' :: (vs q ++ '\t' :: (zs q ++ '\t' :: boolText q.z.fitGood)) with hbody
  have hline : ∀ q, embLine d q = body q ++ ['\n'] := by
    intro q
    simp only [hbody, hvs, hzs, embLine, List.append_assoc, List.cons_append]
  have no : ∀ c : Char, c = '\t' ∨ c = '\n' → ∀ q, c ∉ vs q ∧ c ∉ zs q ∧ c ∉ boolText q.z.fitGood := by
    intro c hc q
    have hp : IO.isDigit c = false ∧ c ∉ ['.', '-', '+', ' ', 'j', 'n', 'a', 'i', 'f'] := by
      rcases hc with rfl | rfl <;> decide
    refine ⟨plain_not (plain_fmt _ _ _) hp, ?_, ?_⟩
    · simp only [hzs, List.mem_append, not_or]
      refine ⟨⟨⟨plain_not (plain_fmt _ _ _) hp, ?_⟩, plain_not (plain_fmt _ _ _) hp⟩, ?_⟩ <;>
        rcases hc with rfl | rfl <;> decide
    · cases q.z.fitGood <;> rcases hc with rfl | rfl <;> decide
  have hlines : linesOf (l.flatMap (embLine d)) = l.map body := by
    rw [← linesOf_lines (l.map body), List.flatMap_map]
    · congr 2
      funext q
      exact hline q
    · intro w hw
      obtain ⟨q, hq, rfl⟩ := List.mem_map.1 hw
      obtain ⟨n1, n2, n3⟩ := no '\n' (Or.inr rfl) q
      simp only [hbody, List.mem_append, List.mem_cons, not_or]
      exact ⟨(hf q hq).2, by decide, n1, by decide, n2, by decide, n3⟩
  rw [hlines]
  refine ⟨by simp, fun i q hq => ⟨body q, vs q, zs q, by rw [List.getElem?_map, hq]; rfl, ?_, ?_, ?_, showsSum_fmt 6 2 _⟩⟩
  · obtain ⟨n1, n2, n3⟩ := no '\t' (Or.inl rfl) q
    simp only [hbody]
    rw [cutAt_word (hf q (List.mem_of_getElem? hq)).1, cutAt_word n1, cutAt_word n2, cutAt_single n3]
    rfl
  · intro x hx
    simp only [hvs]
    rw [scaledVt_num hx]
    exact shows_fmt 5 2 _
  · intro h
    simp only [hvs]
    rw [scaledVt_nan h, fmt_nan]

/-- C117: the lines of `dciv-info.txt`. -/
theorem C117_info (d : DCData) : InfoTable d (infoText d) := by
  unfold InfoTable
  have hp : ∀ x, '\n' ∉ fmt 6 2 x := fun x => plain_not (plain_fmt _ _ _) (by decide)
  have e1 : " [mV]\n".toList = " [mV]".toList ++ ['\n'] := by decide
  have e2 : " [ohms]\n".toList = " [ohms]".toList ++ ['\n'] := by decide
  have e3 : " [GHz]\n".toList = " [GHz]".toList ++ ['\n'] := by decide
  refine ⟨_, _, _, ?_, shows_fmt 6 2 _, shows_fmt 6 2 _, shows_fmt 6 2 _⟩
  unfold infoText
  have n1 := hp (num (d.dc.vgap * 1e3))
  have n2 := hp (num d.dc.rn)
  have n3 := hp (num (d.dc.fgap / 1e9))
  generalize fmt 6 2 (num (d.dc.vgap * 1e3)) = a at *
  generalize fmt 6 2 (num d.dc.rn) = b at *
  generalize fmt 6 2 (num (d.dc.fgap / 1e9)) = c at *
  rw [e1, e2, e3, ← linesOf_lines ["Gap voltage      \t".toList ++ a ++ " [mV]".toList,
      "Normal resistance\t".toList ++ b ++ " [ohms]".toList, "Gap frequency    \t".toList ++ c ++ " [GHz]".toList]]
  · simp only [List.flatMap_cons, List.flatMap_nil, List.append_assoc, List.append_nil]
  · intro w hw
    simp only [List.mem_cons, List.not_mem_nil, or_false] at hw
    rcases hw with rfl | rfl | rfl <;> simp only [List.mem_append, not_or]
    · exact ⟨⟨by decide, n1⟩, by decide⟩
    · exact ⟨⟨by decide, n2⟩, by decide⟩
    · exact ⟨⟨by decide, n3⟩, by decide⟩

end QMix.Results
