import Verif.Lemmas.HbPrint3
import Verif.Props.HarmonicBalance

/-!
# C128: what harmonic balance prints
-/

namespace QMix.HbPrint

open QMix Np Fl HB Qt Spec Results Report Props

variable {N : ℕ}

/-! ## Printing changes nothing -/

/-- C128. The value returned, the effects on the arguments and the exceptions are those of the model without output, whether or not
anything is printed. -/
theorem C128_same_result {str : ℝ → List Char} (hstr : ∀ x, '\n' ∉ str x) (verbose : Bool) (clock : Clock) (cct : HCct N)
    (hF : 1 ≤ cct.numF) (hP : 1 ≤ cct.numP) (resp : ℝ → ℂ) (nb : NumB) (maxIt : ℤ) (stop : ℝ)
    (vjInit : Option (ℕ → ℕ → Arr (Fin N))) (damp : ℝ) (mode : Mode) (zj : ℂ) :
    (harmonicBalance verbose str clock cct resp nb maxIt stop vjInit damp mode zj).map Prod.fst =
      HB.harmonicBalance cct resp nb maxIt stop vjInit damp mode zj := by
  have hn : 0 < cct.numF * cct.numP := Nat.mul_pos hF hP
  unfold harmonicBalance HB.harmonicBalance
  rw [say_ok, py_bind]
  by_cases h0 : ztZero cct
  · rw [if_pos h0, if_pos h0, say_ok, py_bind]
    rfl
  · rw [if_neg h0, if_neg h0]
    cases startVj cct vjInit zj with
    | error e => rfl
    | ok start =>
      rw [py_bind, py_bind, say_ok, py_bind]
      cases interpolateRespfn cct.toCct resp nb with
      | error e => rfl
      | ok m =>
        rw [py_bind, py_bind]
        unfold iterate
        dsimp only
        rw [← loop_fst cct.numP str clock.call _ _ _ _ _ hstr hn hP verbose]
        generalize loop verbose cct.numP str clock.call (currentForHb cct resp nb m) _ _ stop maxIt (maxIt + 1).toNat 0 _ = L
        cases L with
        | error e => rfl
        | ok s =>
          rw [py_bind, say_ok, py_bind]
          show _ = (Except.ok s.1 >>= _)
          rw [py_bind]
          cases result cct.numF cct.numP mode maxIt s.1 with
          | error e => rfl
          | ok r => rfl

/-- A call that returns prints something. -/
theorem printed {str : ℝ → List Char} (hstr : ∀ x, '\n' ∉ str x) (verbose : Bool) (clock : Clock) {cct : HCct N}
    (hF : 1 ≤ cct.numF) (hP : 1 ≤ cct.numP) {resp : ℝ → ℂ} {nb : NumB} {maxIt : ℤ} {stop : ℝ}
    {vjInit : Option (ℕ → ℕ → Arr (Fin N))} {damp : ℝ} {mode : Mode} {zj : ℂ} {run : Run N (cct.numF * cct.numP)}
    (h : HB.harmonicBalance cct resp nb maxIt stop vjInit damp mode zj = .ok run) :
    ∃ out, harmonicBalance verbose str clock cct resp nb maxIt stop vjInit damp mode zj = .ok (run, out) := by
  rw [← C128_same_result hstr verbose clock cct hF hP] at h
  cases hx : harmonicBalance verbose str clock cct resp nb maxIt stop vjInit damp mode zj with
  | error e => rw [hx] at h; cases h
  | ok x =>
    rw [hx] at h
    cases h
    exact ⟨x.2, rfl⟩

/-- The parts of a call that enters the loop. -/
theorem parts {str : ℝ → List Char} {verbose : Bool} {clock : Clock} {cct : HCct N} {resp : ℝ → ℂ} {nb : NumB} {maxIt : ℤ} {stop : ℝ}
    {vjInit : Option (ℕ → ℕ → Arr (Fin N))} {damp : ℝ} {mode : Mode} {zj : ℂ} {run : Run N (cct.numF * cct.numP)} {out : List Char}
    (h : harmonicBalance verbose str clock cct resp nb maxIt stop vjInit damp mode zj = .ok (run, out))
    {s : Stopped (Sig (cct.numF * cct.numP) N) N} (hs : run.stopped = some s) :
    ∃ start m text, startVj cct vjInit zj = .ok start ∧ interpolateRespfn cct.toCct resp nb = .ok m ∧
      loop verbose cct.numP str clock.call (currentForHb cct resp nb m) (relErr cct.sigVt cct.sigZt)
        (update (currentForHb cct resp nb m) cct.sigVt cct.sigZt damp) stop maxIt (maxIt + 1).toNat 0
        { vj := to2d cct.numF cct.numP start, iteration := 0, exit := .exhausted, mask := none, evals := 0, updates := 0 } = .ok (s, text) ∧
      result cct.numF cct.numP mode maxIt s = .ok run.res ∧ run.cct = cct.clamp ∧
      out = (if verbose then line "Running harmonic balance:".toList ++ headText cct.numF cct.numP maxIt else []) ++ text ++
        if verbose then tailText s.iteration clock.total else [] := by
  unfold harmonicBalance at h
  rw [say_ok, py_bind] at h
  by_cases h0 : ztZero cct
  · rw [if_pos h0, say_ok, py_bind] at h
    cases h
    cases hs
  · rw [if_neg h0] at h
    obtain ⟨start, hst, h⟩ := bind_ok_iff.1 h
    rw [say_ok, py_bind] at h
    obtain ⟨m, hm, h⟩ := bind_ok_iff.1 h
    obtain ⟨⟨s', text⟩, hl, h⟩ := bind_ok_iff.1 h
    rw [say_ok, py_bind] at h
    obtain ⟨r, hr, h⟩ := bind_ok_iff.1 h
    cases h
    cases hs
    refine ⟨start, m, text, hst, hm, hl, hr, rfl, ?_⟩
    cases verbose <;> simp

/-! ## `verbose=False` -/

/-- C128, `verbose=False`: nothing is printed, except that the target was not achieved if it was not. -/
theorem C128_quiet_partial {str : ℝ → List Char} (hstr : ∀ x, '\n' ∉ str x) (clock : Clock) (cct : HCct N) (resp : ℝ → ℂ) (nb : NumB)
    (maxIt : ℤ) (stop : ℝ) (vjInit : Option (ℕ → ℕ → Arr (Fin N))) (damp : ℝ) (mode : Mode) (zj : ℂ)
    (run : Run N (cct.numF * cct.numP)) (out : List Char)
    (h : harmonicBalance false str clock cct resp nb maxIt stop vjInit damp mode zj = .ok (run, out)) :
    linesOf out = if ∃ s, run.stopped = some s ∧ s.exit = .limit then ["*** DID NOT ACHIEVE TARGET ERROR VALUE ***".toList, []] else [] := by
  cases hs : run.stopped with
  | none =>
    rw [if_neg (by simp)]
    unfold harmonicBalance at h
    rw [say_ok, py_bind] at h
    by_cases h0 : ztZero cct
    · rw [if_pos h0, say_ok, py_bind] at h
      cases h
      rfl
    · rw [if_neg h0] at h
      obtain ⟨start, hst, h⟩ := bind_ok_iff.1 h
      rw [say_ok, py_bind] at h
      obtain ⟨m, hm, h⟩ := bind_ok_iff.1 h
      obtain ⟨⟨s', text⟩, hl, h⟩ := bind_ok_iff.1 h
      rw [say_ok, py_bind] at h
      obtain ⟨r, hr, h⟩ := bind_ok_iff.1 h
      cases h
      cases hs
  | some s =>
    obtain ⟨start, m, text, -, -, hl, -, -, rfl⟩ := parts h hs
    rw [loop_quiet _ _ _ _ _ _ _ _ hstr _ _ _ _ _ rfl hl]
    by_cases he : s.exit = .limit
    · rw [if_pos he, if_pos (⟨s, rfl, he⟩ : ∃ s', some s = some s' ∧ s'.exit = Exit.limit)]
      simp only [Bool.false_eq_true, if_false, List.append_nil, List.nil_append]
      have : ∀ t ∈ ["*** DID NOT ACHIEVE TARGET ERROR VALUE ***".toList, []], '\n' ∉ t := by decide
      exact linesOf_lines this
    · rw [if_neg he, if_neg (show ¬ ∃ s', some s = some s' ∧ s'.exit = Exit.limit by rintro ⟨s', h1, h2⟩; cases h1; exact he h2)]
      rfl

/-! ## `verbose=True` -/

theorem relErr_resid (cct : HCct N) (resp : ℝ → ℂ) (nb : NumB) (vj : Sig (cct.numF * cct.numP) N) (k : Fin (cct.numF * cct.numP))
    (i : Fin N) : relErr cct.sigVt cct.sigZt vj (to2d cct.numF cct.numP (specCur cct resp nb (to3d cct.numF cct.numP vj))) k i =
      relDiv ‖resid cct.clamp resp nb (to3d cct.numF cct.numP vj) (k / cct.numP + 1) (k % cct.numP + 1) i‖
        ‖to3d cct.numF cct.numP vj (k / cct.numP + 1) (k % cct.numP + 1) i‖ := by
  unfold relErr
  rw [errVec_resid]
  congr 2
  conv_lhs => rw [← to2d_to3d vj]
  rfl

theorem opening_spec (F P : ℕ) (maxIt : ℤ) : ∃ L, Opening L F P maxIt ∧ (∀ t ∈ L, '\n' ∉ t) ∧
    line "Running harmonic balance:".toList ++ headText F P maxIt = L.flatMap line := by
  refine ⟨_, ⟨IO.natChars F, IO.natChars P, IO.natChars (F * P * 2 + 1), intChars maxIt, rfl, count_nat _, count_nat _, ?_, count_int _⟩, ?_, ?_⟩
  · have := count_nat (F * P * 2 + 1)
    rwa [mul_comm (F * P) 2] at this ⊢
  · intro t ht
    simp only [List.mem_cons, List.not_mem_nil, or_false] at ht
    rcases ht with rfl | rfl | rfl | rfl <;> try simp only [List.mem_append, not_or]
    · decide
    · exact ⟨⟨⟨⟨by decide, not_nl (plain_nat _)⟩, by decide⟩, not_nl (plain_nat _)⟩, by decide⟩
    · exact ⟨⟨by decide, not_nl (plain_nat _)⟩, by decide⟩
    · exact ⟨by decide, not_nl (plain_int _)⟩
  · unfold headText
    simp only [List.flatMap_cons, List.flatMap_nil, List.append_nil, List.append_assoc]

theorem closing_spec (it : ℕ) (total : ℝ) : ∃ L, Closing L it total ∧ (∀ t ∈ L, '\n' ∉ t) ∧ tailText it total = L.flatMap line := by
  by_cases h : 1 ≤ it
  · refine ⟨_, ⟨_, _, rfl, timeText_spec _, fun h0 => absurd h0 (by omega), fun _ => ⟨_, _, rfl, count_nat it, timeText_spec _⟩⟩, ?_, ?_⟩
    · intro t ht
      simp only [List.mem_cons, List.not_mem_nil, or_false] at ht
      rcases ht with rfl | rfl | rfl <;> simp only [List.mem_append, not_or]
      · exact ⟨by decide, timeText_line _⟩
      · exact ⟨⟨by decide, not_nl (plain_nat _)⟩, by decide⟩
      · exact ⟨by decide, timeText_line _⟩
    · unfold tailText
      rw [if_pos h]
      simp only [List.flatMap_cons, List.flatMap_nil, List.append_nil]
  · refine ⟨_, ⟨_, [], rfl, timeText_spec _, fun _ => rfl, fun h0 => absurd h0 h⟩, ?_, ?_⟩
    · intro t ht
      simp only [List.mem_cons, List.not_mem_nil, or_false] at ht
      subst ht
      simp only [List.mem_append, not_or]
      exact ⟨by decide, timeText_line _⟩
    · unfold tailText
      rw [if_neg h]
      simp

/-- C128, `verbose=True`. For the sequence of voltages `w` from the starting point to the result, each a correction of the one before:
the output consists of the opening, the estimated times, the lines of every pass (with the median and the greatest relative error of each
signal at these voltages, and how many per cent of the points are done), the verdict and the closing. -/
theorem C128_report_partial {str : ℝ → List Char} (hstr : ∀ x, '\n' ∉ str x) (clock : Clock) (cct : HCct N) (resp : ℝ → ℂ) (nb : NumB)
    (hV : Valid cct.toCct nb) (maxIt : ℤ) (stop : ℝ) (vjInit : Option (ℕ → ℕ → Arr (Fin N))) (damp : ℝ) (mode : Mode) (zj : ℂ)
    (run : Run N (cct.numF * cct.numP)) (out : List Char)
    (h : harmonicBalance true str clock cct resp nb maxIt stop vjInit damp mode zj = .ok (run, out))
    (s : Stopped (Sig (cct.numF * cct.numP) N) N) (hs : run.stopped = some s) :
    ∃ (start : ℕ → ℕ → Arr (Fin N)) (m : RespMat (Fin N)) (w : ℕ → ℕ → ℕ → Arr (Fin N)) (op est cl : List (List Char))
      (B : ℕ → List (List Char)),
      startVj cct vjInit zj = .ok start ∧ interpolateRespfn cct.toCct resp nb = .ok m ∧
      (∀ f p, 1 ≤ f → f ≤ cct.numF → 1 ≤ p → p ≤ cct.numP → w 0 f p = start f p) ∧
      (∀ v, voltage run.res = some v → w s.updates = v) ∧ s.updates ≤ s.evals ∧
      (∀ j < s.updates, ∃ ij, currentForHb cct resp nb m (to2d cct.numF cct.numP (w j)) = .ok ij ∧
        update (currentForHb cct resp nb m) cct.sigVt cct.sigZt damp (to2d cct.numF cct.numP (w j)) ij =
          .ok (to2d cct.numF cct.numP (w (j + 1)))) ∧
      linesOf out = op ++ est ++ (List.range s.evals).flatMap B ++
        (match s.exit with
          | .target => ["Done: Minimum error target was achieved.".toList]
          | .limit => ["*** DID NOT ACHIEVE TARGET ERROR VALUE ***".toList, []]
          | .exhausted => []) ++ cl ∧
      Opening op cct.numF cct.numP maxIt ∧ (s.evals = 0 → est = []) ∧
      (1 ≤ s.evals → Estimate est cct.numF cct.numP maxIt clock.call) ∧
      (∀ j < s.evals, PassLines (B j) j cct.numF cct.numP
        (fun f p i => relError (resid run.cct resp nb (w j) f p i) (w j f p i)) stop (j < s.updates)) ∧
      Closing cl s.iteration clock.total := by
  have hn : 0 < cct.numF * cct.numP := Nat.mul_pos hV.tones_pos hV.harmonics
  obtain ⟨start, m, text, hst, hm, hl, hres, hcct, hout⟩ := parts h hs
  obtain ⟨pre, hpre, hU⟩ := updateText_spec hstr hn
  obtain ⟨w, R, h1, h2, -, h4, h5, rfl⟩ := loop_text cct.numP clock.call (currentForHb cct resp nb m) (relErr cct.sigVt cct.sigZt) _ stop
    maxIt hU hn hV.harmonics (fun v e k i => relDiv_nonneg (norm_nonneg _) (norm_nonneg _)) _ 0 _ s text rfl rfl rfl hl
  obtain ⟨op, hop, hopn, hope⟩ := opening_spec cct.numF cct.numP maxIt
  obtain ⟨cl, hcl, hcln, hcle⟩ := closing_spec s.iteration clock.total
  dsimp only at h1
  have hcur := currentForHb_eq cct resp nb hV hm
  set est : List (List Char) := if s.evals = 0 then [] else ["Estimated time:".toList, " - time per qtc call:  ".toList ++ timeText clock.call,
      " - time per iteration: ".toList ++ timeText (clock.call * ((cct.numF * cct.numP * 2 + 1 : ℕ) : ℝ)),
      " - max sim time:       ".toList ++ timeText (clock.call * ((cct.numF * cct.numP * 2 + 1 : ℕ) : ℝ) * maxIt)] with hest
  set B : ℕ → List (List Char) := fun j => (headLine j :: R j) ++
    if j < s.updates then [pre ++ barEnd str, "Applying correction".toList] else [] with hB
  have hest0 : ∀ t ∈ est, '\n' ∉ t := by
    intro t ht
    rw [hest] at ht
    split_ifs at ht
    · cases ht
    · simp only [List.mem_cons, List.not_mem_nil, or_false] at ht
      rcases ht with rfl | rfl | rfl | rfl
      · decide
      all_goals
        simp only [List.mem_append, not_or]
        exact ⟨by decide, timeText_line _⟩
  have hBn : ∀ j < s.evals, ∀ t ∈ B j, '\n' ∉ t := by
    intro j hj t ht
    obtain ⟨e, -, -, -, hnl, -⟩ := h5 j (Nat.zero_le _) hj
    rw [hB] at ht
    simp only [List.mem_append, List.mem_cons] at ht
    rcases ht with (rfl | ht) | ht
    · exact headLine_nl j
    · exact (hnl t ht).1
    · split_ifs at ht
      · simp only [List.mem_cons, List.not_mem_nil, or_false] at ht
        rcases ht with rfl | rfl
        · exact hpre
        · decide
      · cases ht
  have hblocks : ((List.range' 0 (s.evals - 0)).flatMap fun j => blockLines str clock.call maxIt (cct.numF * cct.numP) (R j) pre j s.updates) =
      est ++ (List.range s.evals).flatMap B := by
    rw [Nat.sub_zero, ← List.range_eq_range']
    cases hE : s.evals with
    | zero => rw [hest, hE]; rfl
    | succ E =>
      rw [List.range_succ_eq_map, List.flatMap_cons, List.flatMap_cons, hest, hE, if_neg (by omega), ← List.append_assoc]
      congr 1
      rw [List.flatMap_map, List.flatMap_map]
      rfl
  have hver : verdict s.exit = match s.exit with
      | .target => ["Done: Minimum error target was achieved.".toList]
      | .limit => ["*** DID NOT ACHIEVE TARGET ERROR VALUE ***".toList, []]
      | .exhausted => [] := by
    cases s.exit <;> rfl
  refine ⟨start, m, fun j => to3d cct.numF cct.numP (w j), op, est, cl, B, hst, hm, ?_, ?_, h4, ?_, ?_, hop, ?_, ?_, ?_, hcl⟩
  · intro f p f1 f2 p1 p2
    beta_reduce
    rw [h1, to3d_to2d start f1 f2 p1 p2]
  · intro v hv
    beta_reduce
    rw [h2]
    exact (voltage_result hres hv).symm
  · intro j hj
    obtain ⟨e, he, hu, -⟩ := h5 j (Nat.zero_le _) (by omega)
    beta_reduce
    rw [to2d_to3d, to2d_to3d]
    exact ⟨e, he, hu hj⟩
  · rw [hout, if_pos rfl, if_pos rfl, hope, hcle, ← List.flatMap_append, ← List.flatMap_append, hblocks, hver]
    have : op ++ (est ++ (List.range s.evals).flatMap B ++ (match s.exit with
          | .target => ["Done: Minimum error target was achieved.".toList]
          | .limit => ["*** DID NOT ACHIEVE TARGET ERROR VALUE ***".toList, []]
          | .exhausted => [])) ++ cl = op ++ est ++ (List.range s.evals).flatMap B ++ (match s.exit with
          | .target => ["Done: Minimum error target was achieved.".toList]
          | .limit => ["*** DID NOT ACHIEVE TARGET ERROR VALUE ***".toList, []]
          | .exhausted => []) ++ cl := by simp only [List.append_assoc]
    rw [this]
    apply linesOf_lines
    intro t ht
    simp only [List.mem_append] at ht
    rcases ht with (((ht | ht) | ht) | ht) | ht
    · exact hopn t ht
    · exact hest0 t ht
    · obtain ⟨j, hj, ht⟩ := List.mem_flatMap.1 ht
      exact hBn j (List.mem_range.1 hj) t ht
    · revert ht
      cases s.exit
      all_goals
        revert t
        decide
    · exact hcln t ht
  · intro he
    rw [hest, if_pos he]
  · intro he
    rw [hest, if_neg (by omega)]
    refine ⟨_, _, _, rfl, timeText_spec _, ?_, ?_⟩
    · have := timeText_spec (clock.call * ((cct.numF * cct.numP * 2 + 1 : ℕ) : ℝ))
      convert this using 2
      push_cast
      ring
    · have := timeText_spec (clock.call * ((cct.numF * cct.numP * 2 + 1 : ℕ) : ℝ) * maxIt)
      convert this using 3
      push_cast
      ring
  · intro j hj
    obtain ⟨e, he, hu, hlen, hnl, hsig⟩ := h5 j (Nat.zero_le _) hj
    rw [hcur] at he
    cases he
    refine ⟨IO.natChars j, R j, _, rfl, count_nat j, hlen, ?_, ?_, ?_⟩
    · intro f p f1 f2 p1 p2
      obtain ⟨k, hk, hkf, hkp⟩ := signal_index f1 f2 p1 p2
      have hk' : (k : ℕ) < (R j).length := by rw [hlen]; exact k.2
      refine ⟨(R j)[(k : ℕ)], ?_, ?_⟩
      · rw [← hk]
        exact List.getElem?_eq_getElem hk'
      · have := hsig k hk'
        rw [hkf, hkp] at this
        convert this using 2 with i
        rw [relErr_resid, toFlt_relDiv, hkf, hkp, hcct]
    · intro hj'
      rw [if_pos hj']
      exact ⟨pre, str 100, by unfold barEnd; simp only [List.append_assoc]⟩
    · intro hj'
      rw [if_neg hj']

end QMix.HbPrint
