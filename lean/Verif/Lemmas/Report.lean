import Verif.Model.Report
import Verif.Lemmas.Results
import Verif.Spec.Report

/-!
# Lemmas about reports
-/

namespace QMix.Report

open QMix Np Fl IvData IfData Opt Exp Results Spec

/-! ## What is shown -/

theorem paint_chars (t : List Char) : ∀ (cur cur' : List Char) (e : Option (List Char)),
    (paint cur e t).1.map Prod.fst = (paint cur' e t).1.map Prod.fst := by
  induction t with
  | nil => intro cur cur' e; simp [paint]
  | cons c cs ih =>
    intro cur cur' e
    cases e with
    | none =>
      unfold paint
      split_ifs
      · exact ih _ _ _
      · simp [ih cur cur' none]
    | some e =>
      unfold paint
      by_cases hc : c = 'm'
      · simp only [if_pos hc]
      · simp only [if_neg hc]
        exact ih _ _ _

theorem shown_plain {t : List Char} (h : Char.ofNat 27 ∉ t) (r : List Char) : shown (t ++ r) = t ++ shown r := by
  unfold shown
  rw [Term.paint_plain [] h]
  simp [Function.comp_def]

theorem shown_code {e : List Char} (h : 'm' ∉ e) (r : List Char) : shown (Term.esc :: e ++ 'm' :: r) = shown r := by
  unfold shown
  have := Term.paint_code [] h r
  simp only [Term.esc] at this ⊢
  rw [this]
  exact paint_chars _ _ _ _

theorem shown_nil : shown [] = [] := rfl

theorem shown_coloured {e t : List Char} (he : 'm' ∉ e) (ht : Char.ofNat 27 ∉ t) (r : List Char) :
    shown (Term.esc :: e ++ 'm' :: (t ++ (Term.esc :: "[0m".toList ++ r))) = t ++ shown r := by
  rw [shown_code he, shown_plain ht]
  exact congrArg (t ++ ·) (shown_code (e := ['[', '0']) (by decide) r)

/-! ## Fields -/

theorem tabbed_append (a b : List Char) : tabbed (a ++ '\t' :: b) = tabbed a ++ tabbed b := by
  unfold tabbed
  rw [cutAt_append, List.map_append, List.filter_append]

theorem tabbed_word {t : List Char} (h : '\t' ∉ t) (hn : t.dropWhile (· == ' ') ≠ []) :
    tabbed t = [t.dropWhile (· == ' ')] := by
  unfold tabbed
  rw [cutAt_single h]
  simp only [List.map_singleton]
  rw [List.filter_cons_of_pos]
  · rfl
  · simpa using hn

/-- Not a blank text. -/
theorem shows_ne {t : List Char} {x : ℝ} {d : ℕ} (h : Shows t x d) : t.dropWhile (· == ' ') ≠ [] := by
  intro h'
  obtain ⟨v, hv, -⟩ := shows_trim h
  rw [h'] at hv
  simp [numeral] at hv

theorem writtenJ_trim {t : List Char} {z : ℂ} (h : WrittenJ t z) : WrittenJ (t.dropWhile (· == ' ')) z := by
  obtain ⟨a, b, rfl, hb, h1, h2⟩ := h
  refine ⟨a.dropWhile (· == ' '), b, ?_, hb, by rw [numeral_trim]; exact h1, h2⟩
  have ha : a.dropWhile (· == ' ') ≠ [] := by
    intro h'
    rw [← numeral_trim, h'] at h1
    simp [numeral] at h1
  rw [List.append_assoc, List.dropWhile_append]
  have : (a.dropWhile (· == ' ')).isEmpty = false := by simpa using ha
  rw [this]
  simp

theorem showsJ_trim {t : List Char} {z : ℂ} {d : ℕ} (h : ShowsJ t z d) : ShowsJ (t.dropWhile (· == ' ')) z d := by
  obtain ⟨w, h1, h2⟩ := h
  exact ⟨w, writtenJ_trim h1, h2⟩

theorem showsJ_ne {t : List Char} {z : ℂ} {d : ℕ} (h : ShowsJ t z d) : t.dropWhile (· == ' ') ≠ [] := by
  intro h'
  obtain ⟨w, ⟨a, b, e, -⟩, -⟩ := showsJ_trim h
  rw [h'] at e
  simp at e

/-! ## Formats -/

theorem plain_signed (w d : ℕ) (x : IO.Flt) : Plain (Term.fmtSigned w d x) := by
  unfold Term.fmtSigned
  apply plain_pad
  refine plain_cons ?_ (plain_dec _ _)
  split_ifs <;> simp

theorem plain_fmtS (w d : ℕ) (x : Flt) : Plain (fmtS w d x) := by
  unfold fmtS
  apply plain_pad
  split
  · intro c hc; right; revert c; decide
  · split_ifs
    · intro c hc; right; revert c; decide
    · intro c hc; right; revert c; decide
    · exact plain_signed _ _ _

theorem plain_fmtCS (bad : List Char) (w d : ℕ) (z : ℂ) : Plain (fmtCS bad w d (some z)) := by
  unfold fmtCS
  apply plain_pad
  exact plain_append (plain_append (plain_signed _ _ _) (plain_signed _ _ _)) (plain_cons (by simp) plain_nil)

theorem shows_fmtS (w d : ℕ) (x : ℝ) : Shows (fmtS w d (num x)) x d := by
  have : fmtS w d (num x) = Term.padLeft w (Term.fmtSigned 0 d (signed x)) := by
    unfold fmtS num
    simp
  rw [this]
  have e : Term.padLeft w (Term.fmtSigned 0 d (signed x)) = Term.fmtSigned w d (signed x) := by
    simp [Term.fmtSigned, Term.padLeft]
  rw [e]
  refine ⟨_, Term.numeral_signed w d (signed x), ?_⟩
  have := Term.fmt_near d (x := signed x) (abs_nonneg x)
  rwa [signed_toReal] at this

theorem numeral_blank (k : ℕ) (t : List Char) : numeral (List.replicate k ' ' ++ t) = numeral t := by
  rw [← numeral_trim]
  have : (List.replicate k ' ' ++ t).dropWhile (· == ' ') = t.dropWhile (· == ' ') := by
    induction k with
    | zero => simp
    | succ k ih => simp [List.replicate_succ, ih]
  rw [this, numeral_trim]

theorem showsJ_fmtCS (bad : List Char) (w d : ℕ) (z : ℂ) : ShowsJ (fmtCS bad w d (some z)) z d := by
  have h1 := Term.fmt_near d (x := signed z.re) (abs_nonneg _)
  have h2 := Term.fmt_near d (x := signed z.im) (abs_nonneg _)
  rw [signed_toReal] at h1 h2
  refine ⟨⟨Term.fmtVal d (signed z.re), Term.fmtVal d (signed z.im)⟩, ⟨List.replicate (w -
      (Term.fmtSigned 0 d (signed z.re) ++ Term.fmtSigned 0 d (signed z.im) ++ ['j']).length) ' ' ++
      Term.fmtSigned 0 d (signed z.re), Term.fmtSigned 0 d (signed z.im), ?_, ?_, ?_, ?_⟩, h1, h2⟩
  · simp [fmtCS, Term.padLeft]
  · simp only [Term.fmtSigned, Term.padLeft]
    split_ifs <;> simp
  · rw [numeral_blank]
    exact Term.numeral_signed 0 d (signed z.re)
  · exact Term.numeral_signed 0 d (signed z.im)

/-- A text without the blanks in front. -/
abbrev trim (t : List Char) : List Char := t.dropWhile (· == ' ')

theorem trim_ne {t : List Char} {c : Char} (hc : c ∈ t) (h : c ≠ ' ') : trim t ≠ [] := by
  induction t with
  | nil => cases hc
  | cons x t ih =>
    by_cases hx : x = ' '
    · rcases List.mem_cons.1 hc with rfl | hc
      · exact absurd hx h
      · simpa [trim, hx] using ih hc
    · simp [trim, hx]

theorem mem_pad {w : ℕ} {t : List Char} {c : Char} (h : c ∈ t) : c ∈ Term.padLeft w t :=
  List.mem_append_right _ h

theorem fmtS_ne (w d : ℕ) (x : Flt) : trim (fmtS w d x) ≠ [] := by
  have : '+' ∈ fmtS w d x ∨ '-' ∈ fmtS w d x := by
    unfold fmtS
    split
    · exact Or.inl (mem_pad (by decide))
    · split_ifs
      · exact Or.inl (mem_pad (by decide))
      · exact Or.inr (mem_pad (by decide))
      · rename_i x _ _
        unfold Term.fmtSigned
        by_cases h : (signed x.toReal).neg
        · right; exact mem_pad (mem_pad (by simp [h]))
        · left; exact mem_pad (mem_pad (by simp [h]))
  rcases this with h | h
  · exact trim_ne h (by decide)
  · exact trim_ne h (by decide)

theorem fmt_ne (w d : ℕ) (x : Flt) : trim (fmt w d x) ≠ [] := by
  have : 'n' ∈ fmt w d x ∨ '.' ∈ fmt w d x := by
    unfold fmt
    split
    · exact Or.inl (mem_pad (by decide))
    · split_ifs
      · exact Or.inl (mem_pad (by decide))
      · exact Or.inl (mem_pad (by decide))
      · right
        exact mem_pad (List.mem_append_right _ (by simp [IO.decChars]))
  rcases this with h | h
  · exact trim_ne h (by decide)
  · exact trim_ne h (by decide)

/-! ## Lines -/

theorem not_esc {t : List Char} (h : Plain t) : Char.ofNat 27 ∉ t := plain_not h (by decide)
theorem not_nl {t : List Char} (h : Plain t) : '\n' ∉ t := plain_not h (by decide)
theorem not_tab {t : List Char} (h : Plain t) : '\t' ∉ t := plain_not h (by decide)

theorem linesOf_cons {w : List Char} (h : '\n' ∉ w) (r : List Char) : linesOf (w ++ '\n' :: r) = w :: linesOf r := by
  unfold linesOf
  rw [cutAt_word h, List.dropLast_cons_of_ne_nil (cutAt_ne _ _)]

theorem report_nil : report [] = [] := rfl

/-- A line without colours. -/
theorem report_line {w : List Char} (h : '\n' ∉ w) (he : Char.ofNat 27 ∉ w) (r : List Char) :
    report (line w ++ r) = tabbed w :: report r := by
  unfold report line
  rw [shown_plain (by simpa using he), List.append_assoc, List.singleton_append, linesOf_cons h, List.map_cons]

/-- A line in colour. -/
theorem report_colour {c e w : List Char} (hc : Term.colours.lookup (Term.upper c) = some (Term.esc :: e ++ ['m'])) (hm : 'm' ∉ e)
    (h : '\n' ∉ w) (he : Char.ofNat 27 ∉ w) : ∃ t, Term.cprint w (some c) = .ok t ∧ ∀ r, report (t ++ r) = tabbed w :: report r := by
  refine ⟨_, Term.cprint_known hc w, fun r => ?_⟩
  unfold report
  have := shown_coloured hm he ('\n' :: r)
  simp only [List.append_assoc, List.cons_append, List.nil_append] at this ⊢
  have h2 : shown ('\n' :: r) = '\n' :: shown r := shown_plain (t := ['\n']) (by decide) r
  rw [h2] at this
  rw [← List.map_cons, ← linesOf_cons h, ← this]
  rfl

/-- A line `label <tab> text <tab> unit`. -/
theorem tabbed_entry {label t unit : List Char} {L U : List (List Char)} (hl : tabbed label = L) (ht : '\t' ∉ t)
    (hn : t.dropWhile (· == ' ') ≠ []) (hu : tabbed unit = U) :
    tabbed (label ++ '\t' :: (t ++ '\t' :: unit)) = L ++ t.dropWhile (· == ' ') :: U := by
  rw [tabbed_append, tabbed_append, hl, hu, tabbed_word ht hn]
  rfl

theorem report_entry {label unit : List Char} (label' unit' : List Char) {t : List Char} (L U : List (List Char)) (rest : List Char)
    (ht : Plain t) (hn : trim t ≠ []) (hl' : label = label' ++ ['\t']) (hu' : unit = '\t' :: unit') (hl : tabbed label' = L)
    (hu : tabbed unit' = U) (h : ∀ c ∈ label' ++ unit', c ≠ '\n' ∧ c ≠ Char.ofNat 27) :
    report (line (label ++ t ++ unit) ++ rest) = (L ++ trim t :: U) :: report rest := by
  subst hl' hu'
  have h1 : ∀ c ∈ label', c ≠ '\n' ∧ c ≠ Char.ofNat 27 := fun c hc => h c (by simp [hc])
  have h2 : ∀ c ∈ unit', c ≠ '\n' ∧ c ≠ Char.ofNat 27 := fun c hc => h c (by simp [hc])
  rw [List.append_assoc, List.append_assoc, List.singleton_append, report_line, tabbed_entry hl (not_tab ht) hn hu]
  · simp only [List.mem_append, List.mem_cons, not_or]
    exact ⟨fun h => (h1 _ h).1 rfl, by decide, not_nl ht, by decide, fun h => (h2 _ h).1 rfl⟩
  · simp only [List.mem_append, List.mem_cons, not_or]
    exact ⟨fun h => (h1 _ h).2 rfl, by decide, not_esc ht, by decide, fun h => (h2 _ h).2 rfl⟩

theorem report_last {label : List Char} (label' : List Char) {t : List Char} (L : List (List Char)) (rest : List Char)
    (ht : Plain t) (hn : trim t ≠ []) (hl' : label = label' ++ ['\t']) (hl : tabbed label' = L)
    (h : ∀ c ∈ label', c ≠ '\n' ∧ c ≠ Char.ofNat 27) : report (line (label ++ t) ++ rest) = (L ++ [trim t]) :: report rest := by
  subst hl'
  rw [List.append_assoc, List.singleton_append, report_line, tabbed_append, tabbed_word (not_tab ht) hn, hl]
  · simp only [List.mem_append, List.mem_cons, not_or]
    exact ⟨fun h' => (h _ h').1 rfl, by decide, not_nl ht⟩
  · simp only [List.mem_append, List.mem_cons, not_or]
    exact ⟨fun h' => (h _ h').2 rfl, by decide, not_esc ht⟩

theorem fmtCS_ne (bad : List Char) (w d : ℕ) (z : ℂ) : trim (fmtCS bad w d (some z)) ≠ [] :=
  trim_ne (c := 'j') (mem_pad (by simp)) (by decide)

end QMix.Report
