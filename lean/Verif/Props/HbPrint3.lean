import Verif.Lemmas.HbPrint4
import Verif.Props.HarmonicBalance

/-!
# C129: what `check_hb_error` prints
-/

namespace QMix.HbPrint

open QMix Np Fl HB Qt Spec Results Report Props

variable {N : ℕ}

theorem checkLine_spec {sci : Flt → List Char} {rel : Fin N → Rel} {m : Rel} (hm : npMax (List.ofFn rel) = .ok m) (f p : ℕ)
    (answer : List Char) : CheckLine sci (checkText sci m (f, p) answer) f p (fun i => toFlt (rel i)) answer := by
  refine ⟨_, _, _, rfl, count_nat f, count_nat p, ?_, ?_⟩
  · rintro ⟨i, hi⟩
    rw [toFlt_nan] at hi ⊢
    rw [npMax_nan hm, ← hi]
    exact List.mem_ofFn.2 ⟨i, rfl⟩
  · intro h
    have hn : ∀ y ∈ List.ofFn rel, y ≠ .nan := by
      intro y hy
      obtain ⟨i, rfl⟩ := List.mem_ofFn.1 hy
      exact fun h' => h i (toFlt_nan.2 h')
    obtain ⟨h1, h2, y, hy, h3⟩ := npMax_ev hm hn
    obtain ⟨i, rfl⟩ := List.mem_ofFn.1 hy
    refine ⟨ev m, toFlt_ev h1, ⟨i, ?_⟩, ?_⟩
    · rw [h3]
      exact toFlt_ev (hn _ hy)
    · rintro y ⟨j, hj⟩
      beta_reduce at hj
      rw [toFlt_ev (hn _ (List.mem_ofFn.2 ⟨j, rfl⟩))] at hj
      cases hj
      exact h2 _ (List.mem_ofFn.2 ⟨j, rfl⟩)

theorem passes_iff {rel : Fin N → Rel} {stop : ℝ} :
    (∀ i, (rel i).lt (.fin stop)) ↔ Passes (fun i => toFlt (rel i)) stop := by
  refine forall_congr' fun i => ?_
  beta_reduce
  by_cases h : rel i = .nan
  · rw [h]
    simp [Rel.lt, toFlt]
  · rw [ev_lt h, toFlt_ev h]
    simp

/-- The relative errors that are checked. -/
theorem check_eq (sci : Flt → List Char) (vj : ℕ → ℕ → Arr (Fin N)) (cct : HCct N) (resp : ℝ → ℂ) (nb : NumB)
    (hV : Valid cct.toCct nb) (stop : ℝ) : ∃ rel : ℕ → ℕ → Fin N → Rel,
      (∀ f p, 1 ≤ f → f ≤ cct.numF → 1 ≤ p → p ≤ cct.numP → ∀ i, toFlt (rel f p i) = relError (resid cct resp nb vj f p i) (vj f p i)) ∧
      checkHbError sci vj cct resp nb stop = (line "Double-checking harmonic balance error:".toList ++
        (checkSignals sci stop rel (signals cct.numF cct.numP)).1 ++
          (if (checkSignals sci stop rel (signals cct.numF cct.numP)).2 = none then line [] else []),
        (checkSignals sci stop rel (signals cct.numF cct.numP)).2) := by
  unfold checkHbError
  rw [qtcurrentList_eq _ _ _ _ _ hV, py_bind, allFreqs, flatMap_range, List.map_map, rowsToSig_map]
  dsimp only
  refine ⟨_, ?_, rfl⟩
  intro f p f1 f2 p1 p2 i
  rw [toFlt_relDiv]
  congr 1
  have : to3d cct.numF cct.numP
      (fun k : Fin (cct.numF * cct.numP) => ((fun f i =>
        Spec.qt resp (fun f p => vj f p i) cct.freq cct.numF cct.numP (nb.toTup cct.numF) (cct.vb i) f)
        ∘ fun k => cct.freq (k / cct.numP + 1) * ((k % cct.numP + 1 : ℕ) : ℝ)) k) f p
      = specCur cct resp nb vj f p :=
    to3d_to2d (F := cct.numF) (P := cct.numP) (specCur cct resp nb vj) f1 f2 p1 p2
  rw [this]
  rfl

/-- C129. If every signal passes, nothing is raised, and there is a line for every signal. -/
theorem C129_pass (sci : Flt → List Char) (hsci : ∀ x, '\n' ∉ sci x) (vj : ℕ → ℕ → Arr (Fin N)) (hN : 0 < N) (cct : HCct N)
    (resp : ℝ → ℂ) (nb : NumB) (hV : Valid cct.toCct nb) (stop : ℝ)
    (hpass : ∀ f p, 1 ≤ f → f ≤ cct.numF → 1 ≤ p → p ≤ cct.numP →
      Passes (fun i => relError (resid cct resp nb vj f p i) (vj f p i)) stop) :
    (checkHbError sci vj cct resp nb stop).2 = none ∧
    ∃ R, linesOf (checkHbError sci vj cct resp nb stop).1 = "Double-checking harmonic balance error:".toList :: R ++ [[]] ∧
      R.length = cct.numF * cct.numP ∧ ∀ f p, 1 ≤ f → f ≤ cct.numF → 1 ≤ p → p ≤ cct.numP → ∃ t,
        R[(f - 1) * cct.numP + (p - 1)]? = some t ∧
        CheckLine sci t f p (fun i => relError (resid cct resp nb vj f p i) (vj f p i)) "Yes".toList := by
  obtain ⟨rel, hrel, he⟩ := check_eq sci vj cct resp nb hV stop
  have hr : ∀ f p, 1 ≤ f → f ≤ cct.numF → 1 ≤ p → p ≤ cct.numP → (fun i => relError (resid cct resp nb vj f p i) (vj f p i)) =
      fun i => toFlt (rel f p i) := fun f p f1 f2 p1 p2 => funext fun i => (hrel f p f1 f2 p1 p2 i).symm
  have hsig : ∀ k < cct.numF * cct.numP, 1 ≤ k / cct.numP + 1 ∧ k / cct.numP + 1 ≤ cct.numF ∧ 1 ≤ k % cct.numP + 1 ∧
      k % cct.numP + 1 ≤ cct.numP := by
    intro k hk
    obtain ⟨h1, h2⟩ := signal_range (⟨k, hk⟩ : Fin (cct.numF * cct.numP))
    exact ⟨Nat.le_add_left 1 _, h1, Nat.le_add_left 1 _, h2⟩
  obtain ⟨m, hm, hc⟩ := (checkSignals_all sci stop rel hN (signals cct.numF cct.numP)).1 (by
    intro x hx
    rw [signals_eq] at hx
    obtain ⟨k, hk, rfl⟩ := List.mem_map.1 hx
    obtain ⟨h1, h2, h3, h4⟩ := hsig k (List.mem_range.1 hk)
    have := hpass _ _ h1 h2 h3 h4
    rw [hr _ _ h1 h2 h3 h4, ← passes_iff] at this
    exact this)
  rw [he, hc]
  refine ⟨rfl, (signals cct.numF cct.numP).map fun x => checkText sci (m x) x "Yes".toList, ?_, by simp [signals_eq], ?_⟩
  · dsimp only
    rw [if_pos rfl]
    refine (congrArg linesOf ?_).trans (linesOf_lines (L := "Double-checking harmonic balance error:".toList ::
      ((signals cct.numF cct.numP).map fun x => checkText sci (m x) x "Yes".toList) ++ [[]]) ?_)
    · simp [List.flatMap_map]
    · intro t ht
      simp only [List.cons_append, List.mem_cons, List.mem_append, List.not_mem_nil, or_false, List.mem_map] at ht
      rcases ht with rfl | ⟨x, -, rfl⟩ | rfl
      · decide
      · exact checkText_nl hsci _ _ (by decide)
      · decide
  · intro f p f1 f2 p1 p2
    obtain ⟨k, hk, hkf, hkp⟩ := signal_index f1 f2 p1 p2
    have hs : (signals cct.numF cct.numP)[(k : ℕ)]? = some (f, p) := by
      rw [signals_eq, List.getElem?_map, List.getElem?_range k.2, Option.map_some, hkf, hkp]
    refine ⟨checkText sci (m (f, p)) (f, p) "Yes".toList, ?_, ?_⟩
    · rw [← hk, List.getElem?_map, hs]
      rfl
    · rw [hr f p f1 f2 p1 p2]
      exact checkLine_spec (hm (f, p) (List.mem_of_getElem? hs)) f p _

/-- C129. If a signal does not pass, an `AssertionError` is raised, and there is a line for every signal up to the first such one. -/
theorem C129_fail (sci : Flt → List Char) (hsci : ∀ x, '\n' ∉ sci x) (vj : ℕ → ℕ → Arr (Fin N)) (hN : 0 < N) (cct : HCct N)
    (resp : ℝ → ℂ) (nb : NumB) (hV : Valid cct.toCct nb) (stop : ℝ) (f p : ℕ) (f1 : 1 ≤ f) (f2 : f ≤ cct.numF) (p1 : 1 ≤ p)
    (p2 : p ≤ cct.numP) (hfail : ¬ Passes (fun i => relError (resid cct resp nb vj f p i) (vj f p i)) stop)
    (hpass : ∀ f' p', 1 ≤ f' → f' ≤ cct.numF → 1 ≤ p' → p' ≤ cct.numP → f' < f ∨ f' = f ∧ p' < p →
      Passes (fun i => relError (resid cct resp nb vj f' p' i) (vj f' p' i)) stop) :
    (checkHbError sci vj cct resp nb stop).2 = some .assertion ∧
    ∃ R t, linesOf (checkHbError sci vj cct resp nb stop).1 = "Double-checking harmonic balance error:".toList :: R ++ [t] ∧
      R.length = (f - 1) * cct.numP + (p - 1) ∧
      (∀ f' p', 1 ≤ f' → f' ≤ cct.numF → 1 ≤ p' → p' ≤ cct.numP → f' < f ∨ f' = f ∧ p' < p → ∃ t,
        R[(f' - 1) * cct.numP + (p' - 1)]? = some t ∧
        CheckLine sci t f' p' (fun i => relError (resid cct resp nb vj f' p' i) (vj f' p' i)) "Yes".toList) ∧
      CheckLine sci t f p (fun i => relError (resid cct resp nb vj f p i) (vj f p i)) "No".toList := by
  obtain ⟨rel, hrel, he⟩ := check_eq sci vj cct resp nb hV stop
  have hr : ∀ f p, 1 ≤ f → f ≤ cct.numF → 1 ≤ p → p ≤ cct.numP → (fun i => relError (resid cct resp nb vj f p i) (vj f p i)) =
      fun i => toFlt (rel f p i) := fun f p f1 f2 p1 p2 => funext fun i => (hrel f p f1 f2 p1 p2 i).symm
  have hsig : ∀ k < cct.numF * cct.numP, 1 ≤ k / cct.numP + 1 ∧ k / cct.numP + 1 ≤ cct.numF ∧ 1 ≤ k % cct.numP + 1 ∧
      k % cct.numP + 1 ≤ cct.numP := by
    intro k hk
    obtain ⟨h1, h2⟩ := signal_range (⟨k, hk⟩ : Fin (cct.numF * cct.numP))
    exact ⟨Nat.le_add_left 1 _, h1, Nat.le_add_left 1 _, h2⟩
  obtain ⟨⟨k, hkn⟩, hk, hkf, hkp⟩ := signal_index f1 f2 p1 p2
  dsimp only at hk hkf hkp
  obtain ⟨r, hkr⟩ : ∃ r, cct.numF * cct.numP = k + (r + 1) := ⟨cct.numF * cct.numP - k - 1, by omega⟩
  have hsplit : signals cct.numF cct.numP = ((List.range k).map fun k => (k / cct.numP + 1, k % cct.numP + 1)) ++ (f, p) ::
      (((List.range r).map fun j => k + (j + 1)).map fun k => (k / cct.numP + 1, k % cct.numP + 1)) := by
    rw [signals_eq, hkr, List.range_add, List.map_append]
    congr 1
    rw [List.range_succ_eq_map, List.map_cons, List.map_cons, add_zero, hkf, hkp, List.map_map, List.map_map, List.map_map]
    rfl
  have hbefore : ∀ j < k, j / cct.numP + 1 < f ∨ j / cct.numP + 1 = f ∧ j % cct.numP + 1 < p := by
    intro j hj
    rw [← hkf, ← hkp]
    rcases (Nat.div_le_div_right (c := cct.numP) hj.le).lt_or_eq with h | h
    · exact .inl (by omega)
    · refine .inr ⟨by omega, ?_⟩
      have e1 := Nat.div_add_mod j cct.numP
      have e2 := Nat.div_add_mod k cct.numP
      rw [h] at e1
      omega
  obtain ⟨m, hm, hc⟩ := (checkSignals_all sci stop rel hN (signals cct.numF cct.numP)).2 _ (f, p) _ hsplit (by
    intro x hx
    obtain ⟨j, hj, rfl⟩ := List.mem_map.1 hx
    rw [List.mem_range] at hj
    obtain ⟨h1, h2, h3, h4⟩ := hsig j (by omega)
    have := hpass _ _ h1 h2 h3 h4 (hbefore j hj)
    rw [hr _ _ h1 h2 h3 h4, ← passes_iff] at this
    exact this) (by
    rw [hr _ _ f1 f2 p1 p2, ← passes_iff] at hfail
    exact hfail)
  rw [he, hc]
  refine ⟨rfl, ((List.range k).map fun k => (k / cct.numP + 1, k % cct.numP + 1)).map fun x => checkText sci (m x) x "Yes".toList,
    checkText sci (m (f, p)) (f, p) "No".toList, ?_, by simp [hk], ?_, ?_⟩
  · dsimp only
    rw [if_neg (by simp)]
    refine (congrArg linesOf ?_).trans (linesOf_lines (L := "Double-checking harmonic balance error:".toList ::
      (((List.range k).map fun k => (k / cct.numP + 1, k % cct.numP + 1)).map fun x => checkText sci (m x) x "Yes".toList) ++
        [checkText sci (m (f, p)) (f, p) "No".toList]) ?_)
    · simp [List.flatMap_map]
    · intro t ht
      simp only [List.cons_append, List.mem_cons, List.mem_append, List.not_mem_nil, or_false, List.mem_map] at ht
      rcases ht with rfl | ⟨x, -, rfl⟩ | rfl
      · decide
      · exact checkText_nl hsci _ _ (by decide)
      · exact checkText_nl hsci _ _ (by decide)
  · intro f' p' h1 h2 h3 h4 hlt
    obtain ⟨j, hj, hjf, hjp⟩ := signal_index h1 h2 h3 h4
    have hjk : (j : ℕ) < k := by
      by_contra hn
      rw [not_lt] at hn
      rcases hn.lt_or_eq with hn | hn
      · rcases (Nat.div_le_div_right (c := cct.numP) hn.le).lt_or_eq with h | h
        · omega
        · have e1 := Nat.div_add_mod j cct.numP
          have e2 := Nat.div_add_mod k cct.numP
          rw [h] at e2
          omega
      · rw [hn] at hkf hkp
        omega
    refine ⟨checkText sci (m (f', p')) (f', p') "Yes".toList, ?_, ?_⟩
    · rw [← hj, List.getElem?_map, List.getElem?_map, List.getElem?_range hjk, Option.map_some, Option.map_some, hjf, hjp]
    · rw [hr f' p' h1 h2 h3 h4]
      refine checkLine_spec (hm (f', p') (List.mem_append.2 (.inl (List.mem_map.2 ⟨j, List.mem_range.2 hjk, ?_⟩)))) f' p' _
      rw [hjf, hjp]
  · rw [hr f p f1 f2 p1 p2]
    exact checkLine_spec (hm (f, p) (by simp)) f p _

/-- C129. What is raised is what the model without output raises. -/
theorem C129_same_result (sci : Flt → List Char) (vj : ℕ → ℕ → Arr (Fin N)) (cct : HCct N) (resp : ℝ → ℂ) (nb : NumB) (stop : ℝ) :
    ((checkHbError sci vj cct resp nb stop).2 = none ↔ HB.checkHbError vj cct resp nb stop = .ok ()) ∧
    ∀ e, (checkHbError sci vj cct resp nb stop).2 = some e ↔ HB.checkHbError vj cct resp nb stop = .error e := by
  have key : (checkHbError sci vj cct resp nb stop).2 = raised (HB.checkHbError vj cct resp nb stop) := by
    unfold checkHbError HB.checkHbError
    cases qtcurrentList vj cct.toCct resp (allFreqs cct) nb none with
    | error e => rfl
    | ok rows =>
      rw [py_bind, py_bind]
      cases rowsToSig (n := cct.numF * cct.numP) rows with
      | error e => rfl
      | ok ij =>
        rw [py_bind, pyFor_nested]
        dsimp only
        have := checkSignals_raised sci stop (fun f p i => relDiv ‖cct.vt f p - cct.zt f p * to3d cct.numF cct.numP ij f p i - vj f p i‖
          ‖vj f p i‖) ((List.range cct.numF).flatMap fun f => (List.range cct.numP).map fun p => (f, p))
        rw [← this]
        congr 2
        unfold signals
        rw [List.map_flatMap]
        congr 1
        funext f
        rw [List.map_map]
        rfl
  rw [key]
  cases HB.checkHbError vj cct resp nb stop with
  | error e => simp [raised]
  | ok u => simp [raised]

/-- The hypotheses of `C129_fail` can be met: the first signal fails. -/
example : ¬ Passes (fun i => relError (resid (cct1 1) (fun _ => 0) (.int 1) (volt1 5) 1 1 i) (volt1 5 1 1 i)) 0.001 := by
  intro h
  obtain ⟨y, h1, h2⟩ := h 0
  beta_reduce at h1
  rw [resid_zero] at h1
  simp [relError, volt1, cct1] at h1
  rw [← h1] at h2
  norm_num at h2

/-- C129. The heading is printed before anything is calculated: if the current cannot be calculated, it is all that is
printed before the exception. -/
theorem C129_heading (sci : Flt → List Char) (vj : ℕ → ℕ → Arr (Fin N)) (cct : HCct N) (resp : ℝ → ℂ) (nb : NumB) (stop : ℝ)
    {e : PyErr} (h : qtcurrentList vj cct.toCct resp (allFreqs cct) nb none = .error e) :
    checkHbError sci vj cct resp nb stop = ("Double-checking harmonic balance error:\n".toList, some e) := by
  unfold checkHbError
  rw [h]
  rfl

/-- Frequencies must be positive. -/
example : qtcurrentList (volt1 5) { (cct1 1).toCct with freq := fun _ => 0 } (fun _ => 0) [0] (.int 1) none = .error .assertion := by
  have h : ¬ freqPos 1 (fun _ => 0) := fun h => lt_irrefl _ (h 1 le_rfl le_rfl)
  simp only [qtcurrentList, cct1, h, not_false_iff, if_true]
  rfl

/-- The hypotheses of `C129_pass` can be met. -/
example : ∀ f p, 1 ≤ f → f ≤ (cct1 1).numF → 1 ≤ p → p ≤ (cct1 1).numP →
    Passes (fun i => relError (resid (cct1 1) (fun _ => 0) (.int 1) (volt1 1) f p i) (volt1 1 f p i)) 0.001 := by
  intro f p f1 f2 p1 p2 i
  obtain rfl : f = 1 := le_antisymm f2 f1
  obtain rfl : p = 1 := le_antisymm p2 p1
  refine ⟨0, ?_, ?_⟩
  · beta_reduce
    rw [resid_zero]
    simp [relError, volt1, cct1]
  · have : (0 : ℝ) < 0.001 := by norm_num
    exact_mod_cast this

end QMix.HbPrint
