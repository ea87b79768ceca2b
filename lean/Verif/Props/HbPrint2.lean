import Verif.Props.HbPrint
import Mathlib.LinearAlgebra.Matrix.Charpoly.Coeff

/-!
# C128: the verdict and the number of iterations
-/

namespace QMix.HbPrint

open QMix Np Fl HB Qt Spec Results Report Props

variable {N : ℕ}

/-! ## The verdict -/

/-- No line of a pass is a given line without commas and carriage returns, except the last one. -/
theorem pass_mem {L : List (List Char)} {j F P : ℕ} {x : ℕ → ℕ → Fin N → Option EReal} {stop : ℝ} {next : Prop}
    (hP : 1 ≤ P) (h : PassLines L j F P x stop next) {t : List Char} (ht : t ∈ L) (h1 : t.head? ≠ some 'E') (h2 : (fields t).length ≠ 5)
    (h3 : '\r' ∉ t) (h4 : t ≠ "Applying correction".toList) : False := by
  obtain ⟨a, R, C, rfl, -, hR, hS, hn, hnn⟩ := h
  simp only [List.cons_append, List.mem_cons, List.mem_append] at ht
  rcases ht with rfl | ht | ht
  · exact h1 rfl
  · obtain ⟨k, hk, rfl⟩ := List.mem_iff_getElem.1 ht
    rw [hR] at hk
    obtain ⟨h5, h6⟩ := signal_range (⟨k, hk⟩ : Fin (F * P))
    obtain ⟨t, h7, h8⟩ := hS _ _ (Nat.le_add_left 1 _) h5 (Nat.le_add_left 1 _) h6
    dsimp only at h7
    rw [Nat.add_sub_cancel, Nat.add_sub_cancel, Nat.div_add_mod', List.getElem?_eq_getElem (by rw [hR]; exact hk), Option.some_inj] at h7
    obtain ⟨_, _, _, _, _, _, _, h9, -⟩ := h8
    rw [h7, h9] at h2
    exact h2 rfl
  · by_cases hq : next
    · obtain ⟨pre, pct, rfl⟩ := hn hq
      simp only [List.mem_cons, List.not_mem_nil, or_false] at ht
      rcases ht with rfl | rfl
      · apply h3
        simp only [List.mem_append]
        exact .inl (.inl (.inr (by decide)))
      · exact h4 rfl
    · rw [hnn hq] at ht
      cases ht

theorem space_mem {L : List (List Char)} {a : List Char} {t : List Char} (h : ∀ s ∈ L, s = a ∨ s.head? = some ' ') (ht : t ∈ L)
    (h1 : t ≠ a) (h2 : t.head? ≠ some ' ') : False :=
  (h t ht).elim h1 h2

/-- C128, `verbose=True`: the line that the target was achieved is printed if and only if the iteration stopped for that reason, and the
line that it was not achieved if and only if it stopped at the limit. -/
theorem C128_verdict {str : ℝ → List Char} (hstr : ∀ x, '\n' ∉ str x) (clock : Clock) (cct : HCct N) (resp : ℝ → ℂ) (nb : NumB)
    (hV : Valid cct.toCct nb) (maxIt : ℤ) (stop : ℝ) (vjInit : Option (ℕ → ℕ → Arr (Fin N))) (damp : ℝ) (mode : Mode) (zj : ℂ)
    (run : Run N (cct.numF * cct.numP)) (out : List Char)
    (h : harmonicBalance true str clock cct resp nb maxIt stop vjInit damp mode zj = .ok (run, out))
    (s : Stopped (Sig (cct.numF * cct.numP) N) N) (hs : run.stopped = some s) :
    ("Done: Minimum error target was achieved.".toList ∈ linesOf out ↔ s.exit = .target) ∧
    ("*** DID NOT ACHIEVE TARGET ERROR VALUE ***".toList ∈ linesOf out ↔ s.exit = .limit) := by
  obtain ⟨start, m, w, op, est, cl, B, -, -, -, -, -, -, hl, hop, he0, he1, hB, hcl⟩ :=
    C128_report_partial hstr clock cct resp nb hV maxIt stop vjInit damp mode zj run out h s hs
  have key : ∀ t : List Char, t ∈ linesOf out → t ≠ [] → t.head? ≠ some 'E' → t.head? ≠ some ' ' → t ≠ "Running harmonic balance:".toList →
      (fields t).length ≠ 5 → '\r' ∉ t → t ≠ "Applying correction".toList →
      (t = "Done: Minimum error target was achieved.".toList ∧ s.exit = .target) ∨
      (t = "*** DID NOT ACHIEVE TARGET ERROR VALUE ***".toList ∧ s.exit = .limit) := by
    intro t ht h0 h1 h2 h3 h4 h5 h6
    rw [hl] at ht
    simp only [List.mem_append] at ht
    rcases ht with (((ht | ht) | ht) | ht) | ht
    · obtain ⟨a, b, c, d, rfl, -⟩ := hop
      exact (space_mem (a := "Running harmonic balance:".toList) (by
        intro s hs
        simp only [List.mem_cons, List.not_mem_nil, or_false] at hs
        rcases hs with rfl | rfl | rfl | rfl
        · exact .inl rfl
        all_goals exact .inr rfl) ht h3 h2).elim
    · rcases Nat.eq_zero_or_pos s.evals with he | he
      · rw [he0 he] at ht
        cases ht
      · obtain ⟨a, b, c, rfl, -⟩ := he1 he
        exact (space_mem (a := "Estimated time:".toList) (by
          intro s hs
          simp only [List.mem_cons, List.not_mem_nil, or_false] at hs
          rcases hs with rfl | rfl | rfl | rfl
          · exact .inl rfl
          all_goals exact .inr rfl) ht (by rintro rfl; exact h1 rfl) h2).elim
    · obtain ⟨j, hj, ht⟩ := List.mem_flatMap.1 ht
      exact (pass_mem hV.harmonics (hB j (List.mem_range.1 hj)) ht h1 h4 h5 h6).elim
    · cases hx : s.exit with
      | target =>
        rw [hx] at ht
        simp only [List.mem_cons, List.not_mem_nil, or_false] at ht
        exact .inl ⟨ht, rfl⟩
      | limit =>
        rw [hx] at ht
        simp only [List.mem_cons, List.not_mem_nil, or_false] at ht
        rcases ht with ht | ht
        · exact .inr ⟨ht, rfl⟩
        · exact (h0 ht).elim
      | exhausted =>
        rw [hx] at ht
        cases ht
    · obtain ⟨a, L', rfl, -, hc0, hc1⟩ := hcl
      simp only [List.mem_cons] at ht
      rcases ht with rfl | ht
      · exact (h2 rfl).elim
      · rcases Nat.eq_zero_or_pos s.iteration with he | he
        · rw [hc0 he] at ht
          cases ht
        · obtain ⟨b, c, rfl, -⟩ := hc1 he
          simp only [List.mem_cons, List.not_mem_nil, or_false] at ht
          rcases ht with rfl | rfl
          all_goals exact (h2 rfl).elim
  constructor
  · constructor
    · intro ht
      rcases key _ ht (by decide) (by decide) (by decide) (by decide) (by decide) (by decide) (by decide) with h | h
      · exact h.2
      · exact absurd h.1 (by decide)
    · intro hx
      rw [hl, hx]
      simp
  · constructor
    · intro ht
      rcases key _ ht (by decide) (by decide) (by decide) (by decide) (by decide) (by decide) (by decide) with h | h
      · exact absurd h.1 (by decide)
      · exact h.2
    · intro hx
      rw [hl, hx]
      simp

/-- C128, no embedding impedance: the two lines printed. -/
theorem C128_direct (str : ℝ → List Char) (clock : Clock) (cct : HCct N) (resp : ℝ → ℂ) (nb : NumB)
    (maxIt : ℤ) (stop : ℝ) (vjInit : Option (ℕ → ℕ → Arr (Fin N))) (damp : ℝ) (mode : Mode) (zj : ℂ)
    (hz : ∀ f p, f ≤ cct.numF → p ≤ cct.numP → cct.zt f p = 0) :
    ∃ run out, harmonicBalance true str clock cct resp nb maxIt stop vjInit damp mode zj = .ok (run, out) ∧
      linesOf out = ["Running harmonic balance:".toList, "Done.".toList, []] := by
  refine ⟨{ res := .vj fun f p _ => cct.vt f p, cct := cct, vjInit := vjInit, stopped := none },
    line "Running harmonic balance:".toList ++ line "Done.\n".toList, ?_, by decide⟩
  unfold harmonicBalance
  rw [say_ok, py_bind, if_pos (show ztZero cct from hz), say_ok, py_bind]
  rfl

/-! ## The number of iterations -/

/-- C128 (partial). The number of iterations printed is the number of corrections, if the iteration ended with one of the two verdicts.
Missing: the case of a last signal with an undefined error, `C128_false_iterations`. -/
theorem C128_iterations_partial {str : ℝ → List Char} (hstr : ∀ x, '\n' ∉ str x) (clock : Clock) (cct : HCct N) (resp : ℝ → ℂ) (nb : NumB)
    (hV : Valid cct.toCct nb) (maxIt : ℤ) (stop : ℝ) (vjInit : Option (ℕ → ℕ → Arr (Fin N))) (damp : ℝ) (mode : Mode) (zj : ℂ)
    (run : Run N (cct.numF * cct.numP)) (out : List Char)
    (h : harmonicBalance true str clock cct resp nb maxIt stop vjInit damp mode zj = .ok (run, out))
    (s : Stopped (Sig (cct.numF * cct.numP) N) N) (hs : run.stopped = some s)
    (hx : "Done: Minimum error target was achieved.".toList ∈ linesOf out ∨
      "*** DID NOT ACHIEVE TARGET ERROR VALUE ***".toList ∈ linesOf out) :
    ∃ L cl, linesOf out = L ++ cl ∧ Closing cl s.updates clock.total := by
  have hv := C128_verdict hstr clock cct resp nb hV maxIt stop vjInit damp mode zj run out h s hs
  rw [hv.1, hv.2] at hx
  obtain ⟨start, m, w, op, est, cl, B, -, -, -, -, -, -, hl, -, -, -, -, hcl⟩ :=
    C128_report_partial hstr clock cct resp nb hV maxIt stop vjInit damp mode zj run out h s hs
  refine ⟨_, cl, hl, ?_⟩
  have hrun := C128_same_result hstr true clock cct hV.tones_pos hV.harmonics resp nb maxIt stop vjInit damp mode zj
  rw [h] at hrun
  by_cases h0 : ztZero cct
  · rw [hb_zero _ _ _ _ _ _ _ _ h0] at hrun
    cases hrun; cases hs
  obtain ⟨start, m, s', hE⟩ := hb_entered h0 hrun.symm
  rw [hE.stopped] at hs
  cases hs
  obtain ⟨-, hc⟩ := iterate_post _ _ _ _ _ _ _ hE.loop
  rcases hc with hc | hc | hc
  · rwa [← hc.2.1]
  · rwa [← hc.2.1]
  · rw [hc.1] at hx
    rcases hx with hx | hx <;> cases hx

/-- The hypotheses of `C128_report_partial`, `C128_verdict` and `C128_iterations_partial` can be met. -/
example (clock : Clock) : ∃ run out s, harmonicBalance true (fun _ => "100.0".toList) clock (cct1 1) (fun _ => 0) (.int 1) 10 0.001
      (some (volt1 2)) 1 .o 0.67 = .ok (run, out) ∧ run.stopped = some s ∧ Valid (cct1 1).toCct (.int 1) ∧
      "Done: Minimum error target was achieved.".toList ∈ linesOf out ∧ s.updates = 1 := by
  have hstr : ∀ x : ℝ, '\n' ∉ (fun _ : ℝ => "100.0".toList) x := fun _ => by
    show '\n' ∉ "100.0".toList
    decide
  obtain ⟨m, hm, mask, hit⟩ := cct1_one_update
  have hrun := hb_run (mode := .o) (zj := 0.67) (cct1_zt 1) hm hit rfl
  obtain ⟨out, ho⟩ := printed hstr true clock le_rfl le_rfl hrun
  refine ⟨_, out, _, ho, rfl, cct1_valid 1, ?_, rfl⟩
  rw [(C128_verdict hstr clock _ _ _ (cct1_valid 1) _ _ _ _ _ _ _ _ ho _ rfl).1]

/-! ## Output with `verbose=False` -/

/-- The run that stops at the limit at once. -/
theorem iterate_limit {S E : Type} {n N : ℕ} (ev : S → Py E) (rel : S → E → Fin n → Fin N → Rel) (upd : S → E → Py S) (stop : ℝ)
    {v : S} {r : Rel × (Fin N → Prop)} (hr : Evaluated ev rel stop v r) (hle : ¬ r.1.le (.fin stop)) (hlt : (Rel.fin stop).lt r.1) :
    iterate ev rel upd stop 0 v = .ok
      { vj := v, iteration := 0, exit := .limit, mask := some r.2, evals := 1, updates := 0 } := by
  obtain ⟨e, he, hr⟩ := hr
  show HB.loop ev rel upd stop 0 1 0 _ = _
  unfold HB.loop
  dsimp only
  rw [he, py_bind, hr, py_bind, if_neg hle, if_pos ⟨hlt, rfl⟩]
  rfl

/-- C128 is false of `verbose=False`: a call prints two lines. -/
theorem C128_false_quiet (str : ℝ → List Char) (hstr : ∀ x, '\n' ∉ str x) (clock : Clock) :
    ∃ (cct : HCct 1) (resp : ℝ → ℂ) (v0 : ℕ → ℕ → Arr (Fin 1)) (run : Run 1 (cct.numF * cct.numP)) (out : List Char),
      Valid cct.toCct (.int 1) ∧ harmonicBalance false str clock cct resp (.int 1) 0 0.001 (some v0) 1 .o 0.67 = .ok (run, out) ∧
      linesOf out = ["*** DID NOT ACHIEVE TARGET ERROR VALUE ***".toList, []] := by
  obtain ⟨m, hm, -⟩ := matrix_same (cct1 1) (fun _ => 0) (.int 1) (cct1_valid 1)
  obtain ⟨r, hr, hle⟩ := cct1_evaluated 1 1 5 (cct1_clamp 1 (by simp)) (by norm_num) hm 0.001
  have hle' : ¬ r.1.le (.fin 0.001) := by
    rw [hle]
    norm_num
  have hnan : r.1 ≠ .nan := by
    obtain ⟨e, he, hs⟩ := hr
    refine (signalLoop_le_iff hs (fun k i => ?_) 0).1
    unfold relErr
    rw [Ne, relDiv_nan]
    rintro ⟨-, h5⟩
    obtain ⟨h1, h2⟩ := signal_range k
    have e1 : (k : ℕ) / (cct1 1).numP + 1 = 1 := le_antisymm h1 (Nat.le_add_left 1 _)
    have e2 : (k : ℕ) % (cct1 1).numP + 1 = 1 := le_antisymm h2 (Nat.le_add_left 1 _)
    simp only [to2d, e1, e2] at h5
    simp [volt1] at h5
  have hit := iterate_limit _ _ (update (currentForHb (cct1 1) (fun _ => 0) (.int 1) m) (cct1 1).sigVt (cct1 1).sigZt 1) _ hr hle'
    ((le_or_lt hnan _).resolve_left hle')
  have hrun := hb_run (mode := .o) (zj := 0.67) (cct1_zt 1) hm hit rfl
  obtain ⟨out, ho⟩ := printed hstr false clock le_rfl le_rfl hrun
  refine ⟨cct1 1, _, volt1 5, _, out, cct1_valid 1, ho, ?_⟩
  rw [C128_quiet_partial hstr _ _ _ _ _ _ _ _ _ _ _ _ ho, if_pos ⟨_, rfl, rfl⟩]

/-! ## A wrong number of iterations -/

/-- A loop that stays at a point whose error is undefined. -/
theorem loop_nan {S E : Type} {n N : ℕ} (ev : S → Py E) (rel : S → E → Fin n → Fin N → Rel) (upd : S → E → Py S) (stop : ℝ)
    (maxIt : ℤ) {v : S} {e : E} {mask : Fin N → Prop} (he : ev v = .ok e) (hr : signalLoop stop (rel v e) = .ok (.nan, mask))
    (hu : upd v e = .ok v) (left it : ℕ) (st : Stopped S N) (hv : st.vj = v) (hit : st.updates = it) (hev : st.evals = it)
    (hx : st.exit = .exhausted) :
    HB.loop ev rel upd stop maxIt (left + 1) it st = .ok
      { vj := v, iteration := it + left, exit := .exhausted, mask := some mask, evals := it + left + 1, updates := it + left + 1 } := by
  induction left generalizing it st with
  | zero =>
    unfold HB.loop
    subst hv
    rw [he, py_bind, hr, py_bind, if_neg (by simp [Rel.le]), if_neg (by simp [Rel.lt]), hu, py_bind]
    subst hit
    show Except.ok _ = _
    rw [hx, hev]
    rfl
  | succ left ih =>
    unfold HB.loop
    subst hv
    rw [he, py_bind, hr, py_bind, if_neg (by simp [Rel.le]), if_neg (by simp [Rel.lt]), hu, py_bind]
    refine (ih (it + 1)
      { vj := st.vj, iteration := it, exit := st.exit, mask := some mask, evals := st.evals + 1, updates := st.updates + 1 } rfl (congrArg (· + 1) hit) (congrArg (· + 1) hev) hx).trans ?_
    have : it + 1 + left = it + (left + 1) := by omega
    rw [this]

/-- Of the matrices `tB - 1` with `t ≥ 1` one is regular. -/
theorem exists_regular {ι : Type} [Fintype ι] [DecidableEq ι] (B : Matrix ι ι ℝ) : ∃ t : ℝ, 1 ≤ t ∧ (t • B - 1).det ≠ 0 := by
  have h0 : B.charpolyRev ≠ 0 := by
    intro h
    have := Matrix.eval_charpolyRev (M := B)
    rw [h] at this
    simp at this
  obtain ⟨t, ht, hr⟩ := (Set.Ici_infinite (1 : ℝ)).exists_notMem_finset B.charpolyRev.roots.toFinset
  refine ⟨t, ht, fun hd => hr ?_⟩
  rw [Multiset.mem_toFinset, Polynomial.mem_roots h0, Polynomial.IsRoot.def]
  have e : Polynomial.eval t B.charpolyRev = (1 - t • B).det := by
    rw [Matrix.charpolyRev, ← Polynomial.coe_evalRingHom, RingHom.map_det]
    congr 1
    ext i j
    simp only [RingHom.mapMatrix_apply, Matrix.map_apply, Matrix.sub_apply, Matrix.smul_apply, smul_eq_mul, Polynomial.coe_evalRingHom]
    simp [Matrix.one_apply, apply_ite, mul_comm t]
  rw [e, ← neg_sub, Matrix.det_neg, hd, mul_zero]

/-- An update at a solution succeeds for some scale of the impedances, and changes nothing. -/
theorem exists_update {n : ℕ} (C : Sig n 1 → Sig n 1) (z : Fin n → ℂ) (vj : Sig n 1) : ∃ t : ℝ, 1 ≤ t ∧
    ∀ (cur : Sig n 1 → Py (Sig n 1)) (vt zt : Fin n → ℂ) (d : ℝ), (∀ v, cur v = .ok (C v)) → (∀ k, zt k = t * z k) →
      (∀ k i, errVec vt zt (C vj) vj k i = 0) → update cur vt zt d vj (C vj) = .ok vj := by
  let unit : Fin 2 → ℂ := fun b => if b = 0 then 1 else Complex.I
  let part : Fin 2 → ℂ → ℝ := fun a w => if a = 0 then w.re else w.im
  obtain ⟨t, ht, hdet⟩ := exists_regular (Matrix.of fun pa qb : JIx n =>
    part pa.2 (-(z pa.1 * (C (bump vj qb.1 (unit qb.2)) pa.1 0 - C vj pa.1 0)) / dv))
  refine ⟨t, ht, fun cur vt zt d hcur hzt herr => ?_⟩
  have hJ : ∀ i, jacobian (errVec vt zt (C vj) vj) (fun q => errVec vt zt (C (bump vj q 1)) (bump vj q 1))
      (fun q => errVec vt zt (C (bump vj q Complex.I)) (bump vj q Complex.I)) i = t • (Matrix.of fun pa qb : JIx n =>
    part pa.2 (-(z pa.1 * (C (bump vj qb.1 (unit qb.2)) pa.1 0 - C vj pa.1 0)) / dv)) - 1 := by
    intro i
    obtain rfl : i = 0 := Subsingleton.elim _ _
    ext ⟨p, a⟩ ⟨q, b⟩
    have hz : ∀ w : ℂ, (errVec vt zt (C (bump vj q w)) (bump vj q w) p 0 - errVec vt zt (C vj) vj p 0) / dv =
        t * (-(z p * (C (bump vj q w) p 0 - C vj p 0)) / dv) - if p = q then w else 0 := by
      intro w
      have h := dv_ne
      unfold errVec
      rw [hzt]
      have : bump vj q w p 0 = vj p 0 + (if p = q then w else 0) * dv := by
        unfold bump
        split_ifs <;> ring
      rw [this]
      field_simp
      ring
    simp only [jacobian, Matrix.sub_apply, Matrix.smul_apply, Matrix.of_apply, Matrix.one_apply, Prod.mk.injEq, smul_eq_mul]
    fin_cases a <;> fin_cases b <;> simp [hz, unit, part] <;> split_ifs <;> simp
  have hinv : invJacobian cur vt zt (errVec vt zt (C vj) vj) vj = .ok fun _ => (t • (Matrix.of fun pa qb : JIx n =>
    part pa.2 (-(z pa.1 * (C (bump vj qb.1 (unit qb.2)) pa.1 0 - C vj pa.1 0)) / dv)) - 1)⁻¹ := by
    unfold invJacobian
    rw [pyTab_ok_iff (g := fun q => (errVec vt zt (C (bump vj q 1)) (bump vj q 1),
      errVec vt zt (C (bump vj q Complex.I)) (bump vj q Complex.I))) |>.2 (by
        intro q; rw [hcur, py_bind, hcur, py_bind]; rfl), py_bind]
    dsimp only
    simp only [hJ]
    rw [raiseIf_neg (by rintro ⟨i, hi⟩; exact hdet hi)]
    rfl
  unfold update
  dsimp only
  rw [hinv, py_bind]
  congr 1
  funext k i
  simp [correction, herr]

/-- Two tones of frequency 1, one bias point; the first without impedance. -/
noncomputable def cct2 (t : ℝ) : HCct 1 :=
  { numF := 2, numP := 1, freq := fun _ => 1, vb := fun _ => 0,
    vt := fun f p => if p = 1 then if f = 1 then 1 else t else 0,
    zt := fun f p => if p = 1 then if f = 2 then t else 0 else 0 }

theorem cct2_valid (t : ℝ) : Valid (cct2 t).toCct (.int 1) :=
  ⟨by simp [cct2], by simp [cct2], by simp [cct2], by intro f _ _; simp [cct2], by simp [cct2, NumB.toTup]⟩

/-- Only the first tone has a junction voltage. -/
noncomputable def volt2 : ℕ → ℕ → Arr (Fin 1) := fun f p _ => if f = 1 ∧ p = 1 then 1 else 0

theorem cct2_current : Spec.qt resp3 (fun f p => volt2 f p 0) (fun _ => 1) 2 1 [1, 1] 0 1 = 1 := by
  unfold Spec.qt
  simp only [List.take, Spec.tonesFrom]
  rw [Spec.current_perm _ _ (List.Perm.swap _ _ _), Spec.current_undriven _ _ (Spec.undriven_of_zero _ _ _ _ _ (by
    intro p _ _
    simp [volt2]))]
  have hc : ∀ k : ℤ, |k| ≤ 1 → Spec.toneCoeff (fun p => volt2 1 p 0) 1 1 1 (List.foldr max 0 [1, 1]) k = (besselJ k 1 : ℂ) := by
    intro k hk
    unfold Spec.toneCoeff
    rw [show List.foldr max 0 [1, 1] = 1 by decide, Spec.harmonicConv_one (fun p => volt2 1 p 0) 1 1 1 le_rfl k]
    unfold Spec.jacobiAnger
    rw [if_pos (by simpa using hk)]
    simp [volt2]
  generalize Spec.toneCoeff (fun p => volt2 1 p 0) 1 1 1 (List.foldr max 0 [1, 1]) = C at hc
  have hI : Finset.Icc (-((1 : ℕ) : ℤ)) ((1 : ℕ) : ℤ) = {-1, 0, 1} := by decide
  have r1 : round4 1 = 1 := by simpa using round4_int 1
  have rm : round4 (-1) = -1 := by simpa using round4_int (-1)
  have b0' : (besselJ 0 1 : ℂ) ≠ 0 := by exact_mod_cast bessel_zero_pos.ne'
  have b1' : (besselJ 1 1 : ℂ) ≠ 0 := by exact_mod_cast (besselJ_one_pos one_pos (by linarith [Real.pi_gt_three])).ne'
  have c0 := hc 0 (by norm_num)
  have c1 := hc 1 (by norm_num)
  have n1 : ¬ (-1 : ℝ) = 1 := by norm_num
  simp only [Spec.current, Spec.boxSum, hI, Spec.mixFreq, Spec.mixProduct, Spec.corr]
  simp [rm, r1, round4_zero, n1, resp3, c1]
  rw [Spec.corr]
  simp only [hI]
  simp [c0, c1, Spec.corr, resp3]
  field_simp
  rw [Complex.I_sq]
  norm_num

theorem cct2_resid {t : ℝ} (ht : 1 ≤ t) (f : ℕ) (hf : 1 ≤ f) (h2 : f ≤ 2) (i : Fin 1) :
    resid (cct2 t).clamp resp3 (.int 1) volt2 f 1 i = 0 := by
  obtain rfl : i = 0 := Subsingleton.elim _ _
  unfold resid Spec.residual
  have e : Spec.qt resp3 (fun f p => volt2 f p 0) (cct2 t).clamp.freq (cct2 t).clamp.numF (cct2 t).clamp.numP
      ((NumB.int 1).toTup (cct2 t).clamp.numF) ((cct2 t).clamp.vb 0) ((cct2 t).clamp.freq f * ((1 : ℕ) : ℝ)) = 1 := by
    have : (cct2 t).clamp.freq f * ((1 : ℕ) : ℝ) = 1 := by
      show (1 : ℝ) * ((1 : ℕ) : ℝ) = 1
      norm_num
    rw [this]
    exact cct2_current
  rw [e]
  have hc : (cct2 t).clamp.vt f 1 = if f = 1 then 1 else (t : ℂ) := by
    show clampVt (cct2 t).vt f 1 = _
    unfold clampVt
    rw [if_neg (by omega)]
    simp only [cct2, if_true]
    by_cases h : f = 1
    · rw [if_pos h, if_neg]; norm_num
    · rw [if_neg h, if_neg]
      rw [not_lt, Complex.norm_real, Real.norm_of_nonneg (by linarith)]
      norm_num
      linarith
  rw [hc]
  interval_cases f <;> simp [cct2, volt2, HCct.clamp]

/-- C128 is false of the number of iterations: a start that solves the equations exactly is corrected `max_it + 1` times, then `max_it`
iterations are reported, and no verdict. -/
theorem C128_false_iterations (str : ℝ → List Char) (hstr : ∀ x, '\n' ∉ str x) (clock : Clock) :
    ∃ (cct : HCct 1) (resp : ℝ → ℂ) (v0 : ℕ → ℕ → Arr (Fin 1)), Valid cct.toCct (.int 1) ∧
      (∀ f p i, 1 ≤ f → f ≤ cct.numF → 1 ≤ p → p ≤ cct.numP → resid cct.clamp resp (.int 1) v0 f p i = 0) ∧
      ∀ (maxIt : ℕ) (stop : ℝ), 1 ≤ maxIt → ∃ (run : Run 1 (cct.numF * cct.numP)) (out : List Char) (s : _) (L cl : List (List Char)),
        harmonicBalance true str clock cct resp (.int 1) maxIt stop (some v0) 1 .o 0.67 = .ok (run, out) ∧
        run.stopped = some s ∧ s.updates = maxIt + 1 ∧ linesOf out = L ++ cl ∧ Closing cl maxIt clock.total ∧
        "Done: Minimum error target was achieved.".toList ∉ linesOf out ∧
        "*** DID NOT ACHIEVE TARGET ERROR VALUE ***".toList ∉ linesOf out := by
  obtain ⟨t, ht, hup⟩ := exists_update (n := 2 * 1) (fun v => to2d 2 1 (specCur (cct2 1) resp3 (.int 1) (to3d 2 1 v)))
    (fun k => if (k : ℕ) = 1 then 1 else 0) (to2d 2 1 volt2)
  have hres : ∀ f p i, 1 ≤ f → f ≤ (cct2 t).numF → 1 ≤ p → p ≤ (cct2 t).numP → resid (cct2 t).clamp resp3 (.int 1) volt2 f p i = 0 := by
    intro f p i f1 f2 p1 p2
    obtain rfl : p = 1 := le_antisymm p2 p1
    exact cct2_resid ht f f1 f2 i
  refine ⟨cct2 t, resp3, volt2, cct2_valid t, hres, fun maxIt stop hmax => ?_⟩
  obtain ⟨m, hm, -⟩ := matrix_same (cct2 t) resp3 (.int 1) (cct2_valid t)
  have hcur := currentForHb_eq (cct2 t) resp3 (.int 1) (cct2_valid t) hm
  have hrange : ∀ k : Fin ((cct2 t).numF * (cct2 t).numP), ∀ i, resid (cct2 t).clamp resp3 (.int 1) (to3d (cct2 t).numF (cct2 t).numP
      (to2d (cct2 t).numF (cct2 t).numP volt2)) (k / (cct2 t).numP + 1) (k % (cct2 t).numP + 1) i = 0 := by
    intro k i
    obtain ⟨h1, h2⟩ := signal_range k
    rw [resid_round _ _ _ _ (Nat.le_add_left 1 _) h1 (Nat.le_add_left 1 _) h2]
    exact hres _ _ _ (Nat.le_add_left 1 _) h1 (Nat.le_add_left 1 _) h2
  have hU := hup (currentForHb (cct2 t) resp3 (.int 1) m) (cct2 t).sigVt (cct2 t).sigZt 1 hcur (by
    intro k
    fin_cases k <;> simp [to1d, cct2]) (fun k i => by
    have := errVec_resid (cct2 t) resp3 (.int 1) (to2d (cct2 t).numF (cct2 t).numP volt2) k i
    rw [hrange k i] at this
    exact this)
  obtain ⟨r, hr⟩ := signalLoop_total (n := (cct2 t).numF * (cct2 t).numP) (N := 1) (stop := stop)
    (rel := relErr (cct2 t).sigVt (cct2 t).sigZt (to2d (cct2 t).numF (cct2 t).numP volt2)
      (to2d (cct2 t).numF (cct2 t).numP (specCur (cct2 t) resp3 (.int 1) (to3d _ _ (to2d (cct2 t).numF (cct2 t).numP volt2))))) (by norm_num)
  have hnan : r.1 = .nan := by
    let rel : Fin ((cct2 t).numF * (cct2 t).numP) → Fin 1 → Rel := fun k _ => if (k : ℕ) = 0 then .fin 0 else .nan
    have hrel : relErr (cct2 t).sigVt (cct2 t).sigZt (to2d (cct2 t).numF (cct2 t).numP volt2)
      (to2d (cct2 t).numF (cct2 t).numP (specCur (cct2 t) resp3 (.int 1) (to3d _ _ (to2d (cct2 t).numF (cct2 t).numP volt2)))) = rel := by
      funext k i
      rw [relErr_resid, hrange k i]
      obtain ⟨h1, h2⟩ := signal_range k
      rw [to3d_to2d _ (Nat.le_add_left 1 _) h1 (Nat.le_add_left 1 _) h2]
      have e2 : (k : ℕ) % (cct2 t).numP + 1 = 1 := le_antisymm h2 (Nat.le_add_left 1 _)
      have e1 : (k : ℕ) / (cct2 t).numP = k := Nat.div_one _
      have hk : (k : ℕ) < 2 := k.2
      rw [e1, e2]
      simp only [rel, volt2]
      generalize (k : ℕ) = n at hk
      interval_cases n <;> norm_num [relDiv]
    rw [hrel] at hr
    have hmax : ∀ k, npMax (List.ofFn (rel k)) = .ok (rel k 0) := by
      intro k
      rw [List.ofFn_succ]
      rfl
    have hfin : List.finRange ((cct2 t).numF * (cct2 t).numP) = [⟨0, Nat.zero_lt_two⟩, ⟨1, Nat.one_lt_two⟩] := rfl
    change sigFor stop rel (List.finRange ((cct2 t).numF * (cct2 t).numP)) _ = _ at hr
    rw [hfin, sigFor_step (hmax _), sigFor_step (hmax _)] at hr
    cases hr
    simp [rel, pyMax2]
  obtain ⟨r1, mask⟩ := r
  cases hnan
  have hit := loop_nan (currentForHb (cct2 t) resp3 (.int 1) m) (relErr (cct2 t).sigVt (cct2 t).sigZt) _ stop maxIt (hcur _) hr hU maxIt 0
    { vj := to2d (cct2 t).numF (cct2 t).numP volt2, iteration := 0, exit := .exhausted, mask := none, evals := 0, updates := 0 } rfl rfl rfl rfl
  have hzt : ¬ ztZero (cct2 t) := by
    intro h
    have := h 2 1 le_rfl le_rfl
    simp [cct2] at this
    linarith
  have hrun := hb_run (mode := .o) (zj := 0.67) (maxIt := maxIt) hzt hm (by unfold iterate; exact hit) rfl
  obtain ⟨out, ho⟩ := printed hstr true clock one_le_two le_rfl hrun
  have hv := C128_verdict hstr clock _ _ _ (cct2_valid t) _ _ _ _ _ _ _ _ ho _ rfl
  obtain ⟨start, m', w, op, est, cl, B, -, -, -, -, -, -, hl, -, -, -, -, hcl⟩ :=
    C128_report_partial hstr clock _ _ _ (cct2_valid t) _ _ _ _ _ _ _ _ ho _ rfl
  refine ⟨_, out, _, _, cl, ho, rfl, by simp, hl, by simpa using hcl, ?_, ?_⟩
  · rw [hv.1]
    simp
  · rw [hv.2]
    simp

end QMix.HbPrint
