import Verif.Lemmas.HbPrint
import Verif.Lemmas.HarmonicBalance2
import Verif.Props.Terminal

/-!
# The lines that harmonic balance prints
-/

namespace QMix.HbPrint

open QMix Np Fl HB Qt Spec Results Report

/-! ## Relative errors -/

theorem toFlt_relDiv (e v : ℂ) : toFlt (relDiv ‖e‖ ‖v‖) = relError e v := by
  unfold relDiv relError
  simp only [norm_eq_zero]
  split_ifs <;> rfl

theorem toFlt_nan {r : Rel} : toFlt r = none ↔ r = .nan := by
  cases r <;> simp [toFlt, num]

/-- The value of a relative error that is not NaN. -/
noncomputable def ev : Rel → EReal
  | .nan => 0
  | .fin x => (x : EReal)
  | .inf => ⊤

theorem toFlt_ev {r : Rel} (h : r ≠ .nan) : toFlt r = some (ev r) := by
  cases r <;> simp [toFlt, ev, num] at *

theorem ev_lt {r : Rel} (h : r ≠ .nan) (c : ℝ) : r.lt (.fin c) ↔ ev r < (c : EReal) := by
  cases r <;> simp [Rel.lt, ev] at *

theorem npMax2_cases {a b : Rel} (ha : a ≠ .nan) (hb : b ≠ .nan) :
    ev (npMax2 a b) = max (ev a) (ev b) ∧ npMax2 a b ≠ .nan := by
  cases a <;> cases b <;> simp [npMax2, ite_fin, ev] at *
  exact Monotone.map_max (f := fun x : ℝ => (x : EReal)) (fun a b h => EReal.coe_le_coe_iff.2 h)

theorem foldl_npMax2_ev (l : List Rel) (x : Rel) (hx : x ≠ .nan) (hl : ∀ y ∈ l, y ≠ .nan) :
    (l.foldl npMax2 x) ≠ .nan ∧ (∀ y ∈ x :: l, ev y ≤ ev (l.foldl npMax2 x)) ∧ ∃ y ∈ x :: l, ev (l.foldl npMax2 x) = ev y := by
  induction l generalizing x with
  | nil => exact ⟨hx, by simp, x, by simp⟩
  | cons y l ih =>
    obtain ⟨h1, h2⟩ := npMax2_cases hx (hl y (by simp))
    obtain ⟨h3, h4, z, hz, h5⟩ := ih (npMax2 x y) h2 fun w hw => hl w (by simp [hw])
    rw [List.foldl_cons]
    have h6 := h4 (npMax2 x y) (by simp)
    rw [h1] at h6
    refine ⟨h3, ?_, ?_⟩
    · intro w hw
      rcases List.mem_cons.1 hw with rfl | hw
      · exact (le_max_left _ _).trans h6
      · rcases List.mem_cons.1 hw with rfl | hw
        · exact (le_max_right _ _).trans h6
        · exact h4 w (by simp [hw])
    · rcases List.mem_cons.1 hz with rfl | hz
      · rw [h1] at h5
        rcases max_choice (ev x) (ev y) with h | h
        · exact ⟨x, by simp, by rw [h5, h]⟩
        · exact ⟨y, by simp, by rw [h5, h]⟩
      · exact ⟨z, by simp [hz], h5⟩

theorem npMax_ev {l : List Rel} {m : Rel} (h : npMax l = .ok m) (hl : ∀ y ∈ l, y ≠ .nan) :
    m ≠ .nan ∧ (∀ y ∈ l, ev y ≤ ev m) ∧ ∃ y ∈ l, ev m = ev y := by
  cases l with
  | nil => cases h
  | cons x l =>
    cases h
    exact foldl_npMax2_ev l x (hl x (by simp)) fun y hy => hl y (by simp [hy])

theorem relDiv_nonneg {a b : ℝ} (ha : 0 ≤ a) (hb : 0 ≤ b) : ∀ y, toFlt (relDiv a b) = some y → 0 ≤ y := by
  intro y h
  unfold relDiv at h
  split_ifs at h
  · cases h
  · cases h; exact le_top
  · cases h
    exact EReal.coe_nonneg.2 (by positivity)

/-! ## Tone and harmonic of a signal -/

theorem kToFp_eq {k numP : ℕ} (h : 1 ≤ numP) : kToFp k numP = .ok (((k / numP + 1 : ℕ) : ℝ), k % numP + 1) := by
  have h0 : numP ≠ 0 := by omega
  unfold kToFp
  rw [raiseIf_neg h0]
  refine congrArg Except.ok (Prod.ext ?_ rfl)
  have hP : (numP : ℝ) ≠ 0 := by exact_mod_cast h0
  have e : (k : ℝ) = numP * (k / numP : ℕ) + (k % numP : ℕ) := by exact_mod_cast (Nat.div_add_mod k numP).symm
  show ((k : ℝ) + numP - ((k % numP + 1 : ℕ) : ℝ) + 1) / numP = _
  rw [div_eq_iff hP]
  push_cast
  linear_combination e

/-! ## One line -/

section Line

variable {N : ℕ} {numP : ℕ} {stop : ℝ} {rel : Fin N → Rel} {k : ℕ}

theorem signalText_ok (hP : 1 ≤ numP) (hN : 0 < N) : ∃ t, signalText numP stop rel k = .ok t := by
  obtain ⟨m, hm⟩ := npMax_ok (l := List.ofFn rel) (by intro h; have := congrArg List.length h; simp at this; omega)
  unfold signalText
  rw [hm, py_bind, kToFp_eq hP, py_bind]
  exact ⟨_, rfl⟩

theorem map_ofFn_some {y : Fin N → EReal} (h : ∀ i, toFlt (rel i) = some (y i)) :
    (List.ofFn rel).map toFlt = (List.ofFn y).map some := by
  rw [List.map_ofFn, List.map_ofFn]
  congr 1
  funext i
  exact h i

theorem median_nonneg {l : List EReal} (hl : ∀ y ∈ l, 0 ≤ y) {m : EReal} (hm : npMedian (l.map some) = some m) : 0 ≤ m := by
  unfold npMedian at hm
  rw [if_neg (by simp)] at hm
  have e : ((l.map some).filterMap id) = l := by
    rw [List.filterMap_map]
    simp
  simp only [e, Option.some.injEq] at hm
  rw [← hm]
  have h2 : ∀ j, 0 ≤ (l.mergeSort fun a b => decide (a ≤ b)).getD j 0 := by
    intro j
    generalize hs : (l.mergeSort fun a b => decide (a ≤ b)) = s
    by_cases hj : j < s.length
    · have : s.getD j 0 = s[j] := by simp [List.getD, hj]
      rw [this]
      refine hl _ ((List.mergeSort_perm l fun a b => decide (a ≤ b)).mem_iff.1 ?_)
      rw [hs]
      exact List.getElem_mem hj
    · have : s.getD j 0 = 0 := by
        simp only [not_lt] at hj
        simp [List.getD, List.getElem?_eq_none hj]
      rw [this]
  exact EReal.div_nonneg (add_nonneg (h2 _) (h2 _)) (by norm_num)

theorem trim_append {e r : List Char} (h : e.dropWhile (· == ' ') ≠ []) :
    (e ++ r).dropWhile (· == ' ') = e.dropWhile (· == ' ') ++ r := by
  rw [List.dropWhile_append]
  cases he : e.dropWhile (· == ' ') with
  | nil => exact absurd he h
  | cons x l => rfl

theorem fields_signal {a b c d e : List Char} (pa : Plain a) (pb : Plain b) (pc : Plain c) (pd : Plain d) (pe : Plain e)
    (hne : e.dropWhile (· == ' ') ≠ []) :
    fields ("\tf:".toList ++ a ++ ", p:".toList ++ b ++ ",   med. rel. error: ".toList ++ c ++
      ",   max. rel. error: ".toList ++ d ++ ",   ".toList ++ e ++ " % complete".toList) =
      ["\tf:".toList ++ a, "p:".toList ++ b, "med. rel. error: ".toList ++ c, "max. rel. error: ".toList ++ d,
        e.dropWhile (· == ' ') ++ " % complete".toList] := by
  have nc : ∀ {w : List Char}, Plain w → ',' ∉ w := fun h => plain_not h (by decide)
  have e1 : "\tf:".toList ++ a ++ ", p:".toList ++ b ++ ",   med. rel. error: ".toList ++ c ++
      ",   max. rel. error: ".toList ++ d ++ ",   ".toList ++ e ++ " % complete".toList =
      ("\tf:".toList ++ a) ++ ',' :: ((" p:".toList ++ b) ++ ',' :: (("   med. rel. error: ".toList ++ c) ++ ',' ::
        (("   max. rel. error: ".toList ++ d) ++ ',' :: ("   ".toList ++ e ++ " % complete".toList)))) := by
    simp [List.append_assoc]
  have na : ',' ∉ "\tf:".toList ++ a := by simp only [List.mem_append, not_or]; exact ⟨by decide, nc pa⟩
  have nb : ',' ∉ " p:".toList ++ b := by simp only [List.mem_append, not_or]; exact ⟨by decide, nc pb⟩
  have n3 : ',' ∉ "   med. rel. error: ".toList ++ c := by simp only [List.mem_append, not_or]; exact ⟨by decide, nc pc⟩
  have n4 : ',' ∉ "   max. rel. error: ".toList ++ d := by simp only [List.mem_append, not_or]; exact ⟨by decide, nc pd⟩
  have n5 : ',' ∉ "   ".toList ++ e ++ " % complete".toList := by
    simp only [List.mem_append, not_or]; exact ⟨⟨by decide, nc pe⟩, by decide⟩
  unfold fields
  rw [e1, cutAt_word na, cutAt_word nb, cutAt_word n3, cutAt_word n4, cutAt_single n5]
  have hd : (("   ".toList ++ e ++ " % complete".toList).dropWhile (· == ' ')) = e.dropWhile (· == ' ') ++ " % complete".toList := by
    rw [List.append_assoc]
    exact trim_append hne
  simp only [List.map_cons, List.map_nil, hd]
  rfl

theorem signalText_spec (hP : 1 ≤ numP) (hN : 0 < N) (hpos : ∀ i y, toFlt (rel i) = some y → 0 ≤ y) {t : List Char}
    (h : signalText numP stop rel k = .ok t) :
    ('\n' ∉ t ∧ t.head? = some '\t') ∧ SignalLine t (k / numP + 1) (k % numP + 1) (fun i => toFlt (rel i)) stop := by
  classical
  obtain ⟨m, hm⟩ := npMax_ok (l := List.ofFn rel) (by intro h; have := congrArg List.length h; simp at this; omega)
  unfold signalText at h
  rw [hm, py_bind, kToFp_eq hP, py_bind] at h
  cases h
  dsimp only
  rw [Nat.floor_natCast]
  generalize hq : ((Finset.univ.filter fun i => (rel i).lt (.fin stop)).card : ℝ) / N * 100 = q
  have pa := plain_nat (k / numP + 1)
  have pb := plain_nat (k % numP + 1)
  have pc := plain_fmt 9 3 (clip (npMedian ((List.ofFn rel).map toFlt)))
  have pd := plain_fmt 9 3 (clip (toFlt m))
  have pe := plain_fmt 5 1 (num q)
  have hf := fields_signal pa pb pc pd pe (fmt_ne 5 1 (num q))
  have hcard : q = 100 * ((Finset.univ.filter fun i => ∃ y, toFlt (rel i) = some y ∧ y < (stop : EReal)).card : ℝ) / N := by
    rw [← hq, mul_div_assoc, mul_comm]
    congr 4
    ext i
    simp only [Finset.mem_filter, Finset.mem_univ, true_and]
    by_cases hi : rel i = .nan
    · simp [hi, toFlt]
    · rw [ev_lt hi, toFlt_ev hi]
      simp
  refine ⟨⟨?_, rfl⟩, ?_⟩
  · simp only [List.mem_append, not_or]
    refine ⟨⟨⟨⟨⟨⟨⟨⟨⟨⟨?_, not_nl pa⟩, ?_⟩, not_nl pb⟩, ?_⟩, not_nl pc⟩, ?_⟩, not_nl pd⟩, ?_⟩, not_nl (plain_fmt _ _ _)⟩, ?_⟩ <;> decide
  have hmax : (∀ i, toFlt (rel i) ≠ none) → ∃ M, toFlt m = some M ∧ IsGreatest (Set.range fun i => ev (rel i)) M := by
    intro hn
    obtain ⟨h1, h2, y, hy, h3⟩ := npMax_ev hm (by
      intro y hy
      obtain ⟨i, rfl⟩ := List.mem_ofFn.1 hy
      exact fun h => hn i (toFlt_nan.2 h))
    refine ⟨ev m, toFlt_ev h1, ?_, ?_⟩
    · obtain ⟨i, rfl⟩ := List.mem_ofFn.1 hy
      exact ⟨i, h3.symm⟩
    · rintro _ ⟨i, rfl⟩
      exact h2 _ (List.mem_ofFn.2 ⟨i, rfl⟩)
  have hval : (∀ i, toFlt (rel i) ≠ none) → ∀ i, toFlt (rel i) = some (ev (rel i)) := fun hn i =>
    toFlt_ev fun h => hn i (toFlt_nan.2 h)
  have hnonneg : (∀ i, toFlt (rel i) ≠ none) → ∀ i, 0 ≤ ev (rel i) := fun hn i => hpos i _ (hval hn i)
  have hmed : (∀ i, toFlt (rel i) ≠ none) → ∃ M, npMedian ((List.ofFn rel).map toFlt) = some M ∧
      IsMedian (List.ofFn fun i => ev (rel i)) M ∧ 0 ≤ M := by
    intro hn
    rw [map_ofFn_some (hval hn)]
    obtain ⟨M, h1, h2⟩ := npMedian_spec (l := List.ofFn fun i => ev (rel i)) (by
      intro h; have := congrArg List.length h; simp at this; omega)
    exact ⟨M, h1, h2, median_nonneg (by
      intro y hy
      obtain ⟨i, rfl⟩ := List.mem_ofFn.1 hy
      exact hnonneg hn i) h1⟩
  have hbad : (∃ i, toFlt (rel i) = none) → npMedian ((List.ofFn rel).map toFlt) = none ∧ toFlt m = none := by
    rintro ⟨i, hi⟩
    refine ⟨npMedian_nan (List.mem_map.2 ⟨rel i, List.mem_ofFn.2 ⟨i, rfl⟩, hi⟩), toFlt_nan.2 ((npMax_nan hm).2 ?_)⟩
    rw [List.mem_ofFn]
    exact ⟨i, toFlt_nan.1 hi⟩
  have hdisp : Displays (fmt 9 3 (clip (npMedian ((List.ofFn rel).map toFlt)))) (npMedian ((List.ofFn rel).map toFlt)) ∧
      Displays (fmt 9 3 (clip (toFlt m))) (toFlt m) := by
    by_cases hn : ∀ i, toFlt (rel i) ≠ none
    · obtain ⟨M, h1, -, h2⟩ := hmed hn
      obtain ⟨M', h3, ⟨i, h4⟩, -⟩ := hmax hn
      refine ⟨displays_clip fun y hy => ?_, displays_clip fun y hy => ?_⟩
      · rw [h1] at hy; cases hy; exact h2
      · rw [h3] at hy; cases hy; rw [← h4]; exact hnonneg hn i
    · obtain ⟨h1, h2⟩ := hbad (by simpa using hn)
      refine ⟨displays_clip fun y hy => ?_, displays_clip fun y hy => ?_⟩
      · rw [h1] at hy; cases hy
      · rw [h2] at hy; cases hy
  refine ⟨_, _, _, _, _, _, _, hf, count_nat _, count_nat _, hdisp.1, hdisp.2, ?_, hbad, ?_⟩
  · exact hcard ▸ shows_trim (shows_fmt 5 1 q)
  · intro hn
    obtain ⟨M, h1, h2, -⟩ := hmed hn
    obtain ⟨M', h3, h4⟩ := hmax hn
    exact ⟨fun i => ev (rel i), hval hn, ⟨M, h1, h2⟩, M', h3, h4⟩

end Line

end QMix.HbPrint
