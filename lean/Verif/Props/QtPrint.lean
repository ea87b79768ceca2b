import Verif.Model.QtPrint
import Verif.Lemmas.HbPrint3
import Verif.Lemmas.HbPrint4
import Verif.Props.Tol

/-!
# C139: what `qtcurrent` prints
-/

namespace QMix.QtPrint

open QMix Np Fl Qt Spec Results Report Props

variable {ι : Type}

theorem bind_two {α β : Type} (x : Said α) (f : α → Said β) : (x.bind f).2 = x.2 >>= fun a => (f a).2 := by
  unfold Said.bind
  cases x.2 <;> rfl

theorem interpolate_two (cct : Cct ι) (resp : ℝ → ℂ) (nb : NumB) :
    (interpolateRespfn cct resp nb).2 = Qt.interpolateRespfn cct resp nb := by
  unfold interpolateRespfn
  cases h : unpackNumB nb cct.numF with
  | error e =>
    unfold Qt.interpolateRespfn
    rw [h]
    rfl
  | ok l =>
    dsimp only
    split
    · rfl
    · rename_i hn
      unfold Qt.interpolateRespfn
      rw [h, py_bind]
      dsimp only
      split
      all_goals first | rfl | (exfalso; omega)

/-- C139. Neither the printing nor the clock has an influence on the result of `qtcurrent`, or on the exception it raises. -/
theorem C139_same_result (verbose : Bool) (time : ℝ) (vj : ℕ → ℕ → Arr ι) (cct : Cct ι) (resp : ℝ → ℂ) (freqs : List ℝ) (nb : NumB)
    (m : Option (RespMat ι)) :
    (qtcurrentList verbose time vj cct resp freqs nb m).2 = Qt.qtcurrentList vj cct resp freqs nb m := by
  unfold qtcurrentList Qt.qtcurrentList
  simp only [bind_two, quiet, tell]
  by_cases hf : freqPos cct.numF cct.freq
  · simp only [hf, if_true, not_true, if_false, py_bind]
    cases unpackNumB nb cct.numF with
    | error e => rfl
    | ok nbl =>
      simp only [py_bind]
      cases phaseFactorCoeff vj cct.freq cct.numF cct.numP nb with
      | error e => rfl
      | ok ccc =>
        simp only [py_bind]
        have last : ∀ x : Py (List (Arr ι)), (do let rows ← x; Except.ok rows) = x := fun x => by cases x <;> rfl
        cases m with
        | none =>
          dsimp only [matrix]
          rw [interpolate_two]
          cases Qt.interpolateRespfn cct resp nb with
          | error e => rfl
          | ok r => exact last _
        | some m =>
          dsimp only [matrix, quiet]
          by_cases hm : m.ndim = cct.numF + 1
          · simp only [hm, if_true, py_bind]
            exact last _
          · simp only [hm, if_false]
            rfl
  · simp only [hf, if_false, not_false_iff, if_true]
    rfl

theorem interpolate_one (cct : Cct ι) (resp : ℝ → ℂ) (nb : NumB) (h1 : 1 ≤ cct.numF) (h4 : cct.numF ≤ 4) :
    (interpolateRespfn cct resp nb).1 = [] := by
  unfold interpolateRespfn
  split
  · rfl
  · rw [if_pos (by omega)]
    rfl

/-- The lines before the calculation. -/
def heading (numF numP : ℕ) : List (List Char) :=
  ["Calculating tunneling current...".toList, " - ".toList ++ IO.natChars numF ++ " tone(s)".toList,
    " - ".toList ++ IO.natChars numP ++ " harmonic(s)".toList]

theorem unpack_ok {nb : NumB} {n : ℕ} (h : n ≤ (nb.toTup n).length) : ∃ l, unpackNumB nb n = .ok l := by
  cases nb with
  | int k => exact ⟨_, rfl⟩
  | tup l => exact ⟨_, if_pos h⟩

theorem unpack_error {nb : NumB} {n : ℕ} (h : (nb.toTup n).length < n) : unpackNumB nb n = .error .assertion := by
  cases nb with
  | int k => simp [NumB.toTup] at h
  | tup l => exact if_neg (not_le.2 h)

theorem bind_ok {α β : Type} (t : List Char) (a : α) (f : α → Said β) : Said.bind (t, .ok a) f = (t ++ (f a).1, (f a).2) := rfl

theorem bind_error {α β : Type} (t : List Char) (e : PyErr) (f : α → Said β) : Said.bind (t, .error e) f = (t, .error e) := rfl

/-- Calls that are refused at once. -/
theorem text_refused (verbose : Bool) (time : ℝ) (vj : ℕ → ℕ → Arr ι) (cct : Cct ι) (resp : ℝ → ℂ) (freqs : List ℝ) (nb : NumB)
    (m : Option (RespMat ι)) (h : ¬ freqPos cct.numF cct.freq ∨ (nb.toTup cct.numF).length < cct.numF) :
    qtcurrentList verbose time vj cct resp freqs nb m = ([], .error .assertion) := by
  unfold qtcurrentList
  by_cases hf : freqPos cct.numF cct.freq
  · rw [if_pos hf, unpack_error (h.resolve_left (not_not.2 hf))]
    rfl
  · rw [if_neg hf]
    rfl

/-- Other calls. -/
theorem text (time : ℝ) (vj : ℕ → ℕ → Arr ι) (cct : Cct ι) (resp : ℝ → ℂ) (freqs : List ℝ) (nb : NumB)
    (m : Option (RespMat ι)) (h1 : 1 ≤ cct.numF) (h4 : cct.numF ≤ 4) (hf : freqPos cct.numF cct.freq)
    (hn : cct.numF ≤ (nb.toTup cct.numF).length) :
    (qtcurrentList true time vj cct resp freqs nb m).1 =
      (heading cct.numF cct.numP ++
        if (Qt.qtcurrentList vj cct resp freqs nb m).isOk then
          ["Done.".toList, "Time: ".toList ++ fmt 0 4 (num time) ++ " s".toList, []] else []).flatMap line := by
  obtain ⟨nbl, hl⟩ := unpack_ok hn
  have head : ∀ r : List Char, ∀ L : List (List Char), r = L.flatMap line →
      (line "Calculating tunneling current...".toList ++
        line (" - ".toList ++ IO.natChars cct.numF ++ " tone(s)".toList) ++
        line (" - ".toList ++ IO.natChars cct.numP ++ " harmonic(s)".toList)) ++ r = (heading cct.numF cct.numP ++ L).flatMap line := by
    rintro r L rfl
    rw [List.flatMap_append]
    congr 1
    unfold heading
    simp only [List.flatMap_cons, List.flatMap_nil, List.append_nil, List.append_assoc]
  rw [← C139_same_result true time]
  let Q : Said (List (Arr ι)) → Prop := fun x => x.1 = (heading cct.numF cct.numP ++
        if x.2.isOk then ["Done.".toList, "Time: ".toList ++ fmt 0 4 (num time) ++ " s".toList, []] else []).flatMap line
  change Q _
  unfold qtcurrentList
  rw [if_pos hf, hl]
  unfold tell quiet
  simp only [bind_ok, List.nil_append, if_true]
  cases phaseFactorCoeff vj cct.freq cct.numF cct.numP nb with
  | error e => exact head _ _ rfl
  | ok ccc =>
    simp only [bind_ok, List.nil_append]
    have hR1 : (matrix cct resp nb m).1 = [] := by
      cases m with
      | none => exact interpolate_one cct resp nb h1 h4
      | some m => rfl
    cases hR : matrix cct resp nb m with
    | mk t x =>
    rw [hR] at hR1
    cases hR1
    cases x with
    | error e => exact head _ _ rfl
    | ok r =>
      simp only [bind_ok, List.nil_append]
      cases List.mapM (currentAt cct.numF cct.numP cct.freq ccc r nbl) (freqs.map round4) with
      | error e => exact head _ _ rfl
      | ok rows =>
        simp only [bind_ok, List.nil_append]
        refine head _ _ ?_
        change _ = (["Done.".toList, "Time: ".toList ++ fmt 0 4 (num time) ++ " s".toList, []] : List (List Char)).flatMap line
        simp only [line, List.flatMap_cons, List.flatMap_nil, List.append_nil, List.append_assoc]
        rfl

/-- C139. With `verbose=False` nothing is printed, whether the call returns or raises an exception. (A circuit has 1 to 4 tones.) -/
theorem C139_quiet (time : ℝ) (vj : ℕ → ℕ → Arr ι) (cct : Cct ι) (resp : ℝ → ℂ) (freqs : List ℝ) (nb : NumB)
    (m : Option (RespMat ι)) (h1 : 1 ≤ cct.numF) (h4 : cct.numF ≤ 4) :
    (qtcurrentList false time vj cct resp freqs nb m).1 = [] := by
  have key : ∀ {α β : Type} (x : Said α) (f : α → Said β), x.1 = [] → (∀ a, (f a).1 = []) → (x.bind f).1 = [] := by
    rintro α β ⟨t, x⟩ f rfl h
    cases x with
    | error e => rfl
    | ok a => exact h a
  unfold qtcurrentList
  refine key _ _ rfl fun _ => key _ _ rfl fun _ => key _ _ rfl fun _ => key _ _ rfl fun _ => key _ _ ?_ fun _ => key _ _ rfl fun _ =>
    key _ _ rfl fun _ => rfl
  cases m with
  | none => exact interpolate_one cct resp nb h1 h4
  | some m => rfl

theorem heading_nl (a b : ℕ) : ∀ w ∈ heading a b, '\n' ∉ w := by
  have nn : ∀ {u w : List Char}, '\n' ∉ u → '\n' ∉ w → '\n' ∉ u ++ w := fun h1 h2 h => (List.mem_append.1 h).elim h1 h2
  intro w hw
  unfold heading at hw
  simp only [List.mem_cons, List.not_mem_nil, or_false] at hw
  rcases hw with rfl | rfl | rfl
  · decide
  · exact nn (nn (by decide) (not_nl (HbPrint.plain_nat a))) (by decide)
  · exact nn (nn (by decide) (not_nl (HbPrint.plain_nat b))) (by decide)

/-- C139. A call that returns prints six lines: what is calculated, the number of tones and harmonics, that it is done, the time in
seconds to four decimals, and an empty line. -/
theorem C139_report (time : ℝ) (vj : ℕ → ℕ → Arr ι) (cct : Cct ι) (resp : ℝ → ℂ) (freqs : List ℝ) (nb : NumB)
    (m : Option (RespMat ι)) (h1 : 1 ≤ cct.numF) (h4 : cct.numF ≤ 4) {rows : List (Arr ι)}
    (h : Qt.qtcurrentList vj cct resp freqs nb m = .ok rows) : ∃ tones harmonics t : List Char,
      linesOf (qtcurrentList true time vj cct resp freqs nb m).1 = ["Calculating tunneling current...".toList,
        " - ".toList ++ tones ++ " tone(s)".toList, " - ".toList ++ harmonics ++ " harmonic(s)".toList, "Done.".toList,
        "Time: ".toList ++ t ++ " s".toList, []] ∧
      Count tones cct.numF ∧ Count harmonics cct.numP ∧ Shows t time 4 := by
  have hf : freqPos cct.numF cct.freq ∧ cct.numF ≤ (nb.toTup cct.numF).length := by
    by_contra hc
    have := text_refused true time vj cct resp freqs nb m (by
      rcases not_and_or.1 hc with h | h
      · exact .inl h
      · exact .inr (not_le.1 h))
    have h2 := C139_same_result true time vj cct resp freqs nb m
    rw [this, h] at h2
    cases h2
  refine ⟨_, _, _, ?_, HbPrint.count_nat _, HbPrint.count_nat _, shows_fmt 0 4 time⟩
  rw [text time vj cct resp freqs nb m h1 h4 hf.1 hf.2, h, HbPrint.linesOf_lines]
  · rfl
  · have nn : ∀ {u w : List Char}, '\n' ∉ u → '\n' ∉ w → '\n' ∉ u ++ w := fun h1 h2 h => (List.mem_append.1 h).elim h1 h2
    intro w hw
    rcases List.mem_append.1 hw with hw | hw
    · exact heading_nl _ _ w hw
    · change w ∈ ["Done.".toList, "Time: ".toList ++ fmt 0 4 (num time) ++ " s".toList, []] at hw
      simp only [List.mem_cons, List.not_mem_nil, or_false] at hw
      rcases hw with rfl | rfl | rfl
      · decide
      · exact nn (nn (by decide) (not_nl (plain_fmt 0 4 _))) (by decide)
      · decide

/-- C139. A call that raises an exception never reports that it is done: it prints the first three lines or, if the frequencies or
`num_b` are refused, nothing. -/
theorem C139_raised (time : ℝ) (vj : ℕ → ℕ → Arr ι) (cct : Cct ι) (resp : ℝ → ℂ) (freqs : List ℝ) (nb : NumB)
    (m : Option (RespMat ι)) (h1 : 1 ≤ cct.numF) (h4 : cct.numF ≤ 4) {e : PyErr}
    (h : Qt.qtcurrentList vj cct resp freqs nb m = .error e) :
    ((∀ f, 1 ≤ f → f ≤ cct.numF → 0 < cct.freq f) ∧ cct.numF ≤ (nb.toTup cct.numF).length → ∃ tones harmonics : List Char,
      linesOf (qtcurrentList true time vj cct resp freqs nb m).1 = ["Calculating tunneling current...".toList,
        " - ".toList ++ tones ++ " tone(s)".toList, " - ".toList ++ harmonics ++ " harmonic(s)".toList] ∧
      Count tones cct.numF ∧ Count harmonics cct.numP) ∧
    (¬ ((∀ f, 1 ≤ f → f ≤ cct.numF → 0 < cct.freq f) ∧ cct.numF ≤ (nb.toTup cct.numF).length) →
      (qtcurrentList true time vj cct resp freqs nb m).1 = []) := by
  refine ⟨fun hf => ⟨_, _, ?_, HbPrint.count_nat _, HbPrint.count_nat _⟩, fun hc => ?_⟩
  · rw [text time vj cct resp freqs nb m h1 h4 hf.1 hf.2, h, HbPrint.linesOf_lines]
    · rfl
    · intro w hw
      rcases List.mem_append.1 hw with hw | hw
      · exact heading_nl _ _ w hw
      · exact absurd hw (by simp [Except.isOk, Except.toBool])
  · rw [text_refused true time vj cct resp freqs nb m]
    rcases not_and_or.1 hc with h | h
    · exact .inl h
    · exact .inr (not_le.1 h)

/-- C139. A single frequency: the same text as for a list of this frequency, and the result does not depend on the printing. -/
theorem C139_scalar (verbose : Bool) (time : ℝ) (vj : ℕ → ℕ → Arr ι) (cct : Cct ι) (resp : ℝ → ℂ) (f : ℝ) (nb : NumB)
    (m : Option (RespMat ι)) :
    (qtcurrentScalar verbose time vj cct resp f nb m).1 = (qtcurrentList verbose time vj cct resp [f] nb m).1 ∧
    (qtcurrentScalar verbose time vj cct resp f nb m).2 = Qt.qtcurrentScalar vj cct resp f nb m := by
  constructor
  · unfold qtcurrentScalar
    cases hq : qtcurrentList verbose time vj cct resp [f] nb m with
    | mk t x =>
    cases x with
    | error e => rfl
    | ok rows =>
      rw [bind_ok]
      unfold quiet
      cases pyGet rows 0 with
      | error e => exact List.append_nil t
      | ok row => exact List.append_nil t
  · unfold qtcurrentScalar Qt.qtcurrentScalar
    rw [bind_two, C139_same_result]
    cases Qt.qtcurrentList vj cct resp [f] nb m with
    | error e => rfl
    | ok rows =>
      rw [py_bind, py_bind, bind_two]
      unfold quiet
      dsimp only
      cases pyGet rows 0 with
      | error e => rfl
      | ok row =>
        rw [py_bind, py_bind]
        split <;> rfl

/-- The hypotheses of `C139_report` can be met: the current of a circuit that can be simulated is returned. -/
example (resp : ℝ → ℂ) (vj : ℕ → ℕ → Arr (Fin 1)) (freqs : List ℝ) :
    ∃ rows, Qt.qtcurrentList vj tie resp freqs (.tup [3]) none = .ok rows :=
  ⟨_, qtcurrentList_eq _ _ _ _ _ (tie_valid 3)⟩

/-- The hypotheses of `C139_raised` can be met, with an exception after the heading: one tone, and a matrix for two tones. -/
example (resp : ℝ → ℂ) (vj : ℕ → ℕ → Arr (Fin 1)) (freqs : List ℝ) :
    Qt.qtcurrentList vj tie resp freqs (.tup [3]) (some (.m2 [])) = .error .assertion ∧
    (∀ f, 1 ≤ f → f ≤ tie.numF → 0 < tie.freq f) ∧ tie.numF ≤ ((NumB.tup [3]).toTup tie.numF).length := by
  have hV := tie_valid 3
  refine ⟨?_, hV.freq_pos, hV.limits⟩
  have h := qtcurrentList_eq vj tie resp freqs _ hV
  unfold Qt.qtcurrentList at h ⊢
  have hf : freqPos tie.numF tie.freq := hV.freq_pos
  simp only [hf, not_true, if_false, py_bind, hV.unpack] at h ⊢
  cases hp : phaseFactorCoeff vj tie.freq tie.numF tie.numP (.tup [3]) with
  | error e =>
    rw [hp] at h
    cases h
  | ok ccc => rfl

/-- And an exception before it: frequencies must be positive. -/
example (resp : ℝ → ℂ) (vj : ℕ → ℕ → Arr (Fin 1)) (freqs : List ℝ) :
    Qt.qtcurrentList vj { tie with freq := fun _ => 0 } resp freqs (.tup [3]) none = .error .assertion := by
  have h : ¬ freqPos 1 (fun _ => 0) := fun h => lt_irrefl _ (h 1 le_rfl le_rfl)
  simp only [Qt.qtcurrentList, tie, h, not_false_iff, if_true]
  rfl

end QMix.QtPrint
