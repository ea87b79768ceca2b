import Verif.Lemmas.HbPrint2

/-!
# The text of the loop of harmonic balance
-/

namespace QMix.HbPrint

open QMix Np Fl HB Qt Spec Results Report

/-! ## Lines -/

theorem linesOf_lines {L : List (List Char)} (h : ∀ w ∈ L, '\n' ∉ w) : linesOf (L.flatMap line) = L := by
  unfold linesOf
  have : cutAt '\n' (L.flatMap line) = L ++ [[]] := cutAt_lines L h
  rw [this, List.dropLast_concat]

theorem pyFor_lines {κ : Type} (g : κ → Py (List Char)) (l : List κ) (s R : List Char)
    (h : pyFor l s (fun out k => do
      let t ← g k
      pure (out ++ line t)) = .ok R) :
    ∃ ls, List.Forall₂ (fun k t => g k = .ok t) l ls ∧ R = s ++ ls.flatMap line := by
  induction l generalizing s with
  | nil => cases h; exact ⟨[], .nil, by simp⟩
  | cons k l ih =>
    unfold pyFor at h
    cases hg : g k with
    | error e => rw [hg] at h; cases h
    | ok t =>
      rw [hg] at h
      obtain ⟨ls, h1, h2⟩ := ih _ h
      exact ⟨t :: ls, .cons hg h1, by rw [h2]; simp [List.append_assoc]⟩

theorem pyFor_total {κ σ : Type} (body : σ → κ → Py σ) (l : List κ) (s : σ) (h : ∀ s, ∀ k ∈ l, ∃ t, body s k = .ok t) :
    ∃ R, pyFor l s body = .ok R := by
  induction l generalizing s with
  | nil => exact ⟨s, rfl⟩
  | cons k l ih =>
    obtain ⟨t, ht⟩ := h s k (by simp)
    unfold pyFor
    rw [ht]
    exact ih t fun s k hk => h s k (by simp [hk])

section

variable {n N : ℕ} {numP : ℕ} {stop : ℝ} {rel : Fin n → Fin N → Rel} {it : ℕ}

theorem reportText_ok (hP : 1 ≤ numP) (hN : 0 < N) : ∃ R, reportText numP stop rel it = .ok R := by
  refine pyFor_total _ _ _ fun s k _ => ?_
  obtain ⟨t, ht⟩ := signalText_ok (stop := stop) (rel := rel k) (k := k) hP hN
  rw [ht]
  exact ⟨_, rfl⟩

/-- The heading of a report. -/
def headLine (it : ℕ) : List Char := "Error after ".toList ++ IO.natChars it ++ " iteration(s):".toList

theorem headLine_nl (it : ℕ) : '\n' ∉ headLine it := by
  unfold headLine
  simp only [List.mem_append, not_or]
  exact ⟨⟨by decide, not_nl (plain_nat _)⟩, by decide⟩

theorem reportText_spec (hP : 1 ≤ numP) (hN : 0 < N) (hpos : ∀ k i y, toFlt (rel k i) = some y → 0 ≤ y) {R : List Char}
    (h : reportText numP stop rel it = .ok R) :
    ∃ ls, R = (headLine it :: ls).flatMap line ∧ ls.length = n ∧ (∀ t ∈ ls, '\n' ∉ t ∧ t.head? = some '\t') ∧
      ∀ (k : Fin n) (hk : (k : ℕ) < ls.length),
        SignalLine ls[(k : ℕ)] (k / numP + 1) (k % numP + 1) (fun i => toFlt (rel k i)) stop := by
  obtain ⟨ls, h1, h2⟩ := pyFor_lines (fun k : Fin n => signalText numP stop (rel k) k) _ _ _ h
  have hlen : ls.length = n := by rw [← h1.length_eq, List.length_finRange]
  have hget : ∀ (k : Fin n) (hk : (k : ℕ) < ls.length), signalText numP stop (rel k) k = .ok ls[(k : ℕ)] := by
    intro k hk
    have := (List.forall₂_iff_get.1 h1).2 k (by simp) hk
    simpa using this
  refine ⟨ls, ?_, hlen, ?_, fun k hk => (signalText_spec hP hN (hpos k) (hget k hk)).2⟩
  · rw [h2]; rfl
  · intro t ht
    obtain ⟨j, hj, rfl⟩ := List.mem_iff_getElem.1 ht
    exact (signalText_spec hP hN (hpos ⟨j, hlen ▸ hj⟩) (hget ⟨j, hlen ▸ hj⟩ hj)).1

end

/-! ## The progress bar -/

/-- The line with the progress bar, as it stands in the end. -/
def barEnd (str : ℝ → List Char) : List Char :=
  "\rCalculating inverse Jacobian |--------------------| ".toList ++ str 100 ++ "% Complete".toList

theorem pyFor_bars {κ : Type} (g : κ → List Char) (l : List κ) (s : List Char) :
    pyFor l s (fun out k => do
      let t ← (.ok (g k) : Py (List Char))
      pure (out ++ t)) = .ok (s ++ l.flatMap g) := by
  induction l generalizing s with
  | nil => simp [pyFor]
  | cons k l ih =>
    unfold pyFor
    rw [py_bind]
    show pyFor l (s ++ g k) _ = _
    rw [ih]
    simp [List.append_assoc]

theorem pyFor_congr {κ σ : Type} {b b' : σ → κ → Py σ} (l : List κ) (s : σ) (h : ∀ s, ∀ k ∈ l, b s k = b' s k) :
    pyFor l s b = pyFor l s b' := by
  induction l generalizing s with
  | nil => rfl
  | cons k l ih =>
    unfold pyFor
    rw [h s k (by simp)]
    cases b' s k with
    | error e => rfl
    | ok t => exact ih t fun s k hk => h s k (by simp [hk])

theorem updateText_spec {str : ℝ → List Char} (hstr : ∀ x, '\n' ∉ str x) {n : ℕ} (hn : 0 < n) :
    ∃ pre, '\n' ∉ pre ++ barEnd str ∧ updateText str n = .ok ([pre ++ barEnd str, "Applying correction".toList].flatMap line) := by
  have hbar : ∀ q : ℕ, q ≤ n → ∃ t, Term.progressBar str q n "Calculating inverse Jacobian".toList "Complete".toList 2 20 = .ok t ∧
      (q < n → '\n' ∉ t) ∧ (q = n → t = line (barEnd str)) := by
    intro q hq
    obtain ⟨k, x, h1, -, -, -, -, -, -, h2⟩ := Term.C108_bar str "Calculating inverse Jacobian".toList "Complete".toList 2 20 q n hn hq
    refine ⟨_, h1, ?_, ?_⟩
    · intro hlt
      unfold barLine
      rw [decide_eq_false (by omega)]
      simp only [List.mem_append, List.mem_cons, not_or, List.mem_replicate]
      simp [hstr]
    · intro he
      obtain ⟨rfl, rfl⟩ := h2 he
      rw [decide_eq_true he]
      unfold barLine line barEnd
      simp
  choose! t ht using hbar
  have e1 : updateText str n = .ok ((List.range (n + 1)).flatMap t ++ line "Applying correction".toList) := by
    unfold updateText
    rw [pyFor_congr (b' := fun out (q : ℕ) => do
      let x ← (.ok (t q) : Py (List Char))
      pure (out ++ x)), pyFor_bars, py_bind]
    · rfl
    · intro s k hk
      rw [(ht k (by simp at hk; omega)).1]
  refine ⟨(List.range n).flatMap t, ?_, ?_⟩
  · rw [List.mem_append, not_or]
    constructor
    · rw [List.mem_flatMap]
      rintro ⟨q, hq, hm⟩
      simp only [List.mem_range] at hq
      exact (ht q hq.le).2.1 hq hm
    · unfold barEnd
      simp only [List.mem_append, not_or]
      exact ⟨⟨by decide, hstr _⟩, by decide⟩
  · rw [e1, List.range_succ, List.flatMap_append, List.flatMap_singleton, (ht n le_rfl).2.2 rfl]
    unfold line
    simp [List.append_assoc]

/-! ## The loop -/

theorem say_ok (b : Bool) (t : List Char) : say b (.ok t) = .ok (if b then t else []) := by
  cases b <;> rfl

section Loop

variable {S E : Type} {n N : ℕ} (numP : ℕ) (str : ℝ → List Char) (call : ℝ) (ev : S → Py E)
  (rel : S → E → Fin n → Fin N → Rel) (upd : S → E → Py S) (stop : ℝ) (maxIt : ℤ)

theorem signalLoop_points {rel : Fin n → Fin N → Rel} {stop : ℝ} {r : Rel × (Fin N → Prop)} (hn : 0 < n)
    (h : signalLoop stop rel = .ok r) : 0 < N := by
  obtain ⟨n, rfl⟩ : ∃ m, n = m + 1 := ⟨n - 1, by omega⟩
  have h' : sigFor stop rel (List.finRange (n + 1)) (Rel.fin 0, fun _ => True) = .ok r := h
  rw [List.finRange_succ] at h'
  obtain ⟨m, hm, -⟩ := sigFor_cons h'
  rcases Nat.eq_zero_or_pos N with rfl | h0
  · cases hm
  · exact h0

theorem loop_fst (hstr : ∀ x, '\n' ∉ str x) (hn : 0 < n) (hP : 1 ≤ numP) (verbose : Bool) (left it : ℕ) (st : Stopped S N) :
    (loop verbose numP str call ev rel upd stop maxIt left it st).map Prod.fst = HB.loop ev rel upd stop maxIt left it st := by
  induction left generalizing it st with
  | zero => rfl
  | succ left ih =>
    unfold loop HB.loop
    cases he : ev st.vj with
    | error e => rfl
    | ok e =>
      rw [py_bind, py_bind, say_ok, py_bind]
      cases hr : signalLoop stop (rel st.vj e) with
      | error e => rfl
      | ok r =>
        rw [py_bind, py_bind]
        obtain ⟨R, hR⟩ := reportText_ok (stop := stop) (rel := rel st.vj e) (it := it) hP (signalLoop_points hn hr)
        rw [hR, say_ok, py_bind]
        dsimp only
        by_cases h1 : r.1.le (.fin stop)
        · rw [if_pos h1, if_pos h1, say_ok, py_bind]
          rfl
        · rw [if_neg h1, if_neg h1]
          by_cases h2 : (Rel.fin stop).lt r.1 ∧ (it : ℤ) = maxIt
          · rw [if_pos h2, if_pos h2]
            rfl
          · rw [if_neg h2, if_neg h2]
            cases hu : upd st.vj e with
            | error e => rfl
            | ok w =>
              rw [py_bind, py_bind]
              obtain ⟨pre, -, hU⟩ := updateText_spec hstr hn
              rw [hU, say_ok, py_bind, ← ih]
              cases loop verbose numP str call ev rel upd stop maxIt left (it + 1) _ with
              | error e => rfl
              | ok x => rfl

/-- What is printed in the end of the loop, in lines. -/
def verdict : Exit → List (List Char)
  | .target => ["Done: Minimum error target was achieved.".toList]
  | .limit => ["*** DID NOT ACHIEVE TARGET ERROR VALUE ***".toList, []]
  | .exhausted => []

theorem loop_quiet (hstr : ∀ x, '\n' ∉ str x) (left it : ℕ) (st s : Stopped S N) (out : List Char) (hex : st.exit = .exhausted)
    (h : loop false numP str call ev rel upd stop maxIt left it st = .ok (s, out)) :
    out = if s.exit = .limit then (verdict .limit).flatMap line else [] := by
  induction left generalizing it st out with
  | zero =>
    cases h
    rw [if_neg (by rw [hex]; decide)]
  | succ left ih =>
    unfold loop at h
    obtain ⟨e, he, h⟩ := bind_ok_iff.1 h
    rw [say, if_neg (by simp), py_bind] at h
    obtain ⟨r, hr, h⟩ := bind_ok_iff.1 h
    rw [say, if_neg (by simp), py_bind] at h
    dsimp only at h
    by_cases h1 : r.1.le (.fin stop)
    · rw [if_pos h1] at h
      cases h
      rfl
    · rw [if_neg h1] at h
      by_cases h2 : (Rel.fin stop).lt r.1 ∧ (it : ℤ) = maxIt
      · rw [if_pos h2] at h
        cases h
        rfl
      · rw [if_neg h2] at h
        obtain ⟨w, hw, h⟩ := bind_ok_iff.1 h
        rw [say, if_neg (by simp), py_bind] at h
        obtain ⟨x, hx, h⟩ := bind_ok_iff.1 h
        cases h
        exact ih _ _ _ (by exact hex) hx

/-- The lines printed in pass `j`, where `R` are those about the errors and `pre` is what the progress bar shows before the end. -/
noncomputable def blockLines (n : ℕ) (R : List (List Char)) (pre : List Char) (j u : ℕ) : List (List Char) :=
  (if j = 0 then ["Estimated time:".toList, " - time per qtc call:  ".toList ++ timeText call,
      " - time per iteration: ".toList ++ timeText (call * ((n * 2 + 1 : ℕ) : ℝ)),
      " - max sim time:       ".toList ++ timeText (call * ((n * 2 + 1 : ℕ) : ℝ) * maxIt)] else []) ++
    (headLine j :: R) ++ if j < u then [pre ++ barEnd str, "Applying correction".toList] else []

theorem blockLines_head (R : List (List Char)) (pre : List Char) (j u : ℕ) :
    (blockLines str call maxIt n R pre j u).flatMap line = (if j = 0 then estimate n maxIt call else []) ++
      (headLine j :: R).flatMap line ++ (if j < u then [pre ++ barEnd str, "Applying correction".toList].flatMap line else []) := by
  unfold blockLines
  rw [List.flatMap_append, List.flatMap_append]
  congr 1
  · congr 1
    split_ifs
    · unfold estimate
      simp only [List.flatMap_cons, List.flatMap_nil, List.append_nil, List.append_assoc]
    · rfl
  · split_ifs <;> rfl

theorem loop_text {str : ℝ → List Char} {pre : List Char} (hU : updateText str n = .ok ([pre ++ barEnd str, "Applying correction".toList].flatMap line))
    (hn : 0 < n) (hP : 1 ≤ numP) (hpos : ∀ w e k i y, toFlt (rel w e k i) = some y → 0 ≤ y)
    (left it : ℕ) (st s : Stopped S N) (out : List Char) (hex : st.exit = .exhausted) (hit : st.updates = it) (hev : st.evals = it)
    (h : loop true numP str call ev rel upd stop maxIt left it st = .ok (s, out)) :
    ∃ (w : ℕ → S) (R : ℕ → List (List Char)), w it = st.vj ∧ w s.updates = s.vj ∧ it ≤ s.updates ∧ s.updates ≤ s.evals ∧
      (∀ j, it ≤ j → j < s.evals → ∃ e, ev (w j) = .ok e ∧ (j < s.updates → upd (w j) e = .ok (w (j + 1))) ∧
        (R j).length = n ∧ (∀ t ∈ R j, '\n' ∉ t ∧ t.head? = some '\t') ∧
        ∀ (k : Fin n) (hk : (k : ℕ) < (R j).length), SignalLine (R j)[(k : ℕ)] (k / numP + 1) (k % numP + 1)
          (fun i => toFlt (rel (w j) e k i)) stop) ∧
      out = (((List.range' it (s.evals - it)).flatMap fun j => blockLines str call maxIt n (R j) pre j s.updates) ++ verdict s.exit).flatMap line := by
  induction left generalizing it st out with
  | zero =>
    cases h
    refine ⟨fun _ => s.vj, fun _ => [], rfl, rfl, by omega, by omega, fun j h1 h2 => by omega, ?_⟩
    rw [hev, hex]
    simp [verdict]
  | succ left ih =>
    unfold loop at h
    obtain ⟨e, he, h⟩ := bind_ok_iff.1 h
    rw [say_ok, py_bind] at h
    obtain ⟨r, hr, h⟩ := bind_ok_iff.1 h
    have hN := signalLoop_points hn hr
    obtain ⟨b, hb, h⟩ := bind_ok_iff.1 h
    rw [say, if_pos rfl] at hb
    obtain ⟨ls, rfl, hlen, hnl, hsig⟩ := reportText_spec hP hN (hpos st.vj e) hb
    dsimp only at h
    have hest : (if (true && it == 0) then estimate n maxIt call else []) = if it = 0 then estimate n maxIt call else [] := by
      simp
    rw [hest] at h
    by_cases h1 : r.1.le (.fin stop)
    · rw [if_pos h1, say_ok, py_bind] at h
      cases h
      refine ⟨fun _ => st.vj, fun _ => ls, rfl, rfl, hit.ge, by simp [hit, hev], ?_, ?_⟩
      · intro j h1 h2
        exact ⟨e, he, fun h3 => by simp only at h2 h3; omega, hlen, hnl, hsig⟩
      · simp only [hev, Nat.add_sub_cancel_left, List.range'_one, List.flatMap_singleton, List.flatMap_append]
        rw [blockLines_head, if_neg (show ¬ it < st.updates by omega)]
        simp [verdict]
    · rw [if_neg h1] at h
      by_cases h2 : (Rel.fin stop).lt r.1 ∧ (it : ℤ) = maxIt
      · rw [if_pos h2] at h
        cases h
        refine ⟨fun _ => st.vj, fun _ => ls, rfl, rfl, hit.ge, by simp [hit, hev], ?_, ?_⟩
        · intro j h1 h2
          exact ⟨e, he, fun h3 => by simp only at h2 h3; omega, hlen, hnl, hsig⟩
        · simp only [hev, Nat.add_sub_cancel_left, List.range'_one, List.flatMap_singleton, List.flatMap_append]
          rw [blockLines_head, if_neg (show ¬ it < st.updates by omega)]
          simp [verdict, line]
      · rw [if_neg h2] at h
        obtain ⟨v, hv, h⟩ := bind_ok_iff.1 h
        rw [say, if_pos rfl, hU, py_bind] at h
        obtain ⟨⟨s', out'⟩, hx, h⟩ := bind_ok_iff.1 h
        cases h
        obtain ⟨w, R, i1, i2, i3, i4, i5, i6⟩ := ih (it + 1) _ _ (by exact hex) (congrArg (· + 1) hit) (congrArg (· + 1) hev) hx
        dsimp only at i1 i2 i3 i4 i5 i6 ⊢
        obtain ⟨w', hw0, hw1⟩ : ∃ w' : ℕ → S, w' it = st.vj ∧ ∀ j, j ≠ it → w' j = w j :=
          ⟨fun j => if j = it then st.vj else w j, if_pos rfl, fun j hj => if_neg hj⟩
        obtain ⟨R', hR0, hR1⟩ : ∃ R' : ℕ → List (List Char), R' it = ls ∧ ∀ j, j ≠ it → R' j = R j :=
          ⟨fun j => if j = it then ls else R j, if_pos rfl, fun j hj => if_neg hj⟩
        refine ⟨w', R', hw0, ?_, by omega, i4, ?_, ?_⟩
        · rw [hw1 _ (by omega)]; exact i2
        · intro j hj1 hj2
          by_cases hj : j = it
          · subst hj
            rw [hw1 (j + 1) (by omega), i1]
            simp only [hw0, hR0]
            exact ⟨e, he, fun _ => hv, hlen, hnl, hsig⟩
          · rw [hw1 (j + 1) (by omega)]
            simp only [hw1 j hj, hR1 j hj]
            exact i5 j (by omega) hj2
        · have hc : ((List.range' (it + 1) (s'.evals - (it + 1))).flatMap fun j => blockLines str call maxIt n (R' j) pre j s'.updates) =
              (List.range' (it + 1) (s'.evals - (it + 1))).flatMap fun j => blockLines str call maxIt n (R j) pre j s'.updates := by
            apply List.flatMap_congr
            intro j hj
            rw [List.mem_range'] at hj
            obtain ⟨q, -, rfl⟩ := hj
            rw [hR1 _ (by omega)]
          have hu : it < s'.updates := by omega
          have hcons : ((List.range' it (s'.evals - it)).flatMap fun j => blockLines str call maxIt n (R' j) pre j s'.updates) =
              blockLines str call maxIt n ls pre it s'.updates ++
                (List.range' (it + 1) (s'.evals - (it + 1))).flatMap fun j => blockLines str call maxIt n (R j) pre j s'.updates := by
            rw [show s'.evals - it = (s'.evals - (it + 1)) + 1 by omega, List.range'_succ, List.flatMap_cons, hc, hR0]
          rw [i6, hcons]
          simp only [List.flatMap_append, blockLines_head, if_pos hu, List.append_assoc]

end Loop

end QMix.HbPrint
