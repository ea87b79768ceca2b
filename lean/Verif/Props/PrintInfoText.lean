import Verif.Model.PrintInfoText
import Verif.Props.PrintInfo
import Verif.Spec.PrintInfo
import Verif.Lemmas.HbPrint
import Verif.Lemmas.RespPrint

/-!
# The characters that `print_info` prints (C167)
-/

namespace QMix.Cct

open QMix QMix.Spec Fl Report Results HbPrint

/-- A text of one line without colours. -/
def OneLine (t : List Char) : Prop := '\n' ∉ t ∧ Char.ofNat 27 ∉ t

instance (t : List Char) : Decidable (OneLine t) := inferInstanceAs (Decidable (_ ∧ _))

theorem oneLine_append {a b : List Char} (ha : OneLine a) (hb : OneLine b) : OneLine (a ++ b) :=
  ⟨by simp [ha.1, hb.1], by simp [ha.2, hb.2]⟩

theorem oneLine_plain {a : List Char} (ha : Plain a) : OneLine a := ⟨not_nl ha, not_esc ha⟩

theorem report_one {w : List Char} (h : OneLine w) (r : List Char) : report (line w ++ r) = tabbed w :: report r :=
  report_line h.1 h.2 r

/-- If no signal fails, the text is that of the signals in order. -/
theorem printInfoText_eq {c : Circuit} {g : ℕ → ℕ → List Char}
    (h : ∀ f p, 1 ≤ f → f ≤ c.numF → 1 ≤ p → p ≤ c.numP → textOf c f p = .ok (g f p)) :
    printInfoText c = .ok (line (headText c) ++ ((signals c.numF c.numP).flatMap fun s => g s.1 s.2) ++ line []) := by
  have inner : ∀ k ∈ pyRange 1 ((c.numF : ℤ) + 1), ∀ out : List Char,
      (pyFor (pyRange 1 ((c.numP : ℤ) + 1)) out fun out p => do
        let block ← textOf c k p
        pure (out ++ block)) =
      .ok (out ++ (List.range c.numP).flatMap fun j => g k.toNat (j + 1)) := by
    intro k hk out
    rw [pyRange_one, List.mem_map] at hk
    obtain ⟨i, hi, rfl⟩ := hk
    rw [List.mem_range] at hi
    rw [pyFor_append (g := fun p => g (i + 1) p.toNat), pyRange_one, List.flatMap_map]
    · rfl
    · intro p hp out
      rw [pyRange_one, List.mem_map] at hp
      obtain ⟨j, hj, rfl⟩ := hp
      rw [List.mem_range] at hj
      rw [h (i + 1) (j + 1) (by omega) (by omega) (by omega) (by omega)]
      rfl
  have outer := pyFor_append inner (line (headText c))
  unfold printInfoText
  rw [outer, pyRange_one, List.flatMap_map, ← flatMap_signals]
  rfl

theorem report_flatMap {α : Type} (l : List α) (g : α → List Char) (b : α → List (List (List Char)))
    (h : ∀ s ∈ l, ∀ r, report (g s ++ r) = b s ++ report r) (r : List Char) :
    report (l.flatMap g ++ r) = l.flatMap b ++ report r := by
  induction l with
  | nil => rfl
  | cons s l ih =>
    rw [List.flatMap_cons, List.flatMap_cons, List.append_assoc, h s (by simp), ih fun t ht => h t (by simp [ht]), List.append_assoc]

theorem tabbed_trim3 (t : List Char) : tabbed (' ' :: ' ' :: ' ' :: t) = tabbed t := by
  have key : ∀ t : List Char, tabbed (' ' :: t) = tabbed t := by
    intro t
    unfold tabbed
    have e : cutAt '\t' (' ' :: t) = match cutAt '\t' t with
      | [] => [[' ']]
      | w :: ws => (' ' :: w) :: ws := by
      rw [cutAt, if_neg (by decide)]
      rfl
    rw [e]
    cases h : cutAt '\t' t with
    | nil => exact absurd h (cutAt_ne _ _)
    | cons w ws => simp
  rw [key, key, key]

theorem green (w : List Char) (h : OneLine w) :
    ∃ t, Term.cprint w (some "GREEN".toList) = .ok t ∧ ∀ r, report (t ++ r) = tabbed w :: report r :=
  report_colour (e := "[92".toList) (by decide) (by decide) h.1 h.2

/-- The green line of a signal. -/
theorem signal_line (f p : ℕ) (m : List Char) (comment : List Char) (hm : '\t' ∉ m) (hn : trim m ≠ []) :
    tabbed ("   f=".toList ++ intChars f ++ ", p=".toList ++ intChars p ++ "\t\t\t".toList ++ m ++ "\t\t".toList ++ comment)
      = ("f=".toList ++ intChars f ++ ", p=".toList ++ intChars p) :: trim m :: tabbed comment := by
  have h1 : ("   f=".toList ++ intChars f ++ ", p=".toList ++ intChars p ++ "\t\t\t".toList ++ m ++ "\t\t".toList ++ comment)
      = ' ' :: ' ' :: ' ' :: (("f=".toList ++ intChars f ++ ", p=".toList ++ intChars p) ++ '\t' :: ([] ++ '\t' :: ([] ++ '\t' ::
        (m ++ '\t' :: ([] ++ '\t' :: comment))))) := by simp
  have ht : tabbed [] = [] := rfl
  rw [h1, tabbed_trim3, tabbed_append, tabbed_append, tabbed_append, tabbed_append, tabbed_append, ht, tabbed_word hm hn, tabbed_word]
  · simp
  · simp only [List.mem_append, not_or]
    exact ⟨⟨⟨by decide, not_tab (plain_int _)⟩, by decide⟩, not_tab (plain_int _)⟩
  · simp

theorem trim_append {a : List Char} (h : trim a ≠ []) (b : List Char) : trim (a ++ b) = trim a ++ b := by
  unfold trim at *
  rw [List.dropWhile_append, if_neg (by simpa using h)]

/-- A line whose last entry is a number with a unit. -/
theorem tabbed_last {pre : List Char} (pre' : List Char) (hp : pre = pre' ++ ['\t']) {t : List Char} (ht : '\t' ∉ t)
    (hn : trim t ≠ []) {unit : List Char} (hu : '\t' ∉ unit) : tabbed (pre ++ t ++ unit) = tabbed pre' ++ [trim t ++ unit] := by
  rw [hp, List.append_assoc, List.append_assoc, List.singleton_append, tabbed_append, tabbed_word (t := t ++ unit)]
  · exact congrArg (fun y => tabbed pre' ++ [y]) (trim_append hn unit)
  · simp [ht, hu]
  · show trim (t ++ unit) ≠ []
    rw [trim_append hn]
    simp [hn]

theorem oneLine_nat (n : ℕ) : OneLine (intChars n) := oneLine_plain (plain_int _)
theorem oneLine_fmt (w d : ℕ) (x : Flt) : OneLine (fmt w d x) := oneLine_plain (plain_fmt w d x)

theorem sci_form (d : ℕ) (x : ℝ) : ∃ y sg pre n, RespPrint.fmtSci d x = IO.fmtFloat d y ++ 'E' :: sg :: (pre ++ IO.natChars n) ∧
    (sg = '-' ∨ sg = '+') ∧ (pre = ['0'] ∨ pre = []) := by
  refine ⟨_, _, _, _, rfl, ?_, ?_⟩
  · split_ifs <;> simp
  · split_ifs <;> simp

theorem sci_no (d : ℕ) (x : ℝ) {c : Char} (hd : digit c = false) (hc : c ∉ ['.', '-', '+', ' ', 'j', 'n', 'a', 'i', 'f', 'E', '0']) :
    c ∉ RespPrint.fmtSci d x := by
  obtain ⟨y, sg, pre, n, e, h1, h2⟩ := sci_form d x
  have hc' : IO.isDigit c = false ∧ c ∉ ['.', '-', '+', ' ', 'j', 'n', 'a', 'i', 'f'] := by
    refine ⟨by rw [← Term.digit_eq]; exact hd, fun h => hc ?_⟩
    simp only [List.mem_cons, List.not_mem_nil, or_false] at h ⊢
    tauto
  have a1 := plain_not (plain_fmtFloat d y) hc'
  have a2 := plain_not (plain_nat n) hc'
  simp only [List.mem_cons, List.not_mem_nil, or_false, not_or] at hc
  rw [e]
  rcases h1 with rfl | rfl <;> rcases h2 with rfl | rfl <;> simp [a1, a2] <;> tauto

theorem oneLine_sci (d : ℕ) (x : ℝ) : OneLine (RespPrint.fmtSci d x) :=
  ⟨sci_no d x (by decide) (by decide), sci_no d x (by decide) (by decide)⟩

theorem sci_head (d : ℕ) (x : ℝ) : (RespPrint.fmtSci d x).head? ≠ some ' ' := by
  obtain ⟨y, sg, pre, n, e, -, -⟩ := sci_form d x
  rw [e]
  obtain ⟨c, r, hc⟩ : ∃ c r, IO.fmtFloat d y = c :: r := by
    unfold IO.fmtFloat IO.decChars
    obtain ⟨c, r, hc, -⟩ := IO.natChars_cons (IO.scaled d y / 10 ^ d)
    rw [hc]
    split_ifs <;> simp
  have hs := IO.solid_fmtFloat d y c (by rw [hc]; simp)
  rw [hc]
  simp only [List.cons_append, List.head?_cons, ne_eq, Option.some.injEq]
  rintro rfl
  exact absurd hs (by decide)

theorem trim_fmt_ne (d : ℕ) (x : Flt) : trim (fmt 0 d x) ≠ [] := fmt_ne 0 d x

theorem fmtC_trim (z : ℂ) : trim (fmtC 2 z) = fmtC 2 z := dropWhile_fix (fmtC_head 2 z)

theorem fmtC_ne (z : ℂ) : trim (fmtC 2 z) ≠ [] := showsJ_ne (showsJ_fmtC 2 z)

/-- `pre` ends with a tab; before it the labels `L` are written. -/
structure Labels (pre : List Char) (L : List (List Char)) : Prop where
  one : OneLine pre
  cut : ∃ pre', pre = pre' ++ ['\t'] ∧ tabbed pre' = L

theorem tabbed_unit {pre t unit : List Char} {L : List (List Char)} (hp : Labels pre L) (ht : '\t' ∉ t) (hn : trim t ≠ [])
    (hu : '\t' ∉ unit) : tabbed (pre ++ t ++ unit) = L ++ [trim t ++ unit] := by
  obtain ⟨pre', e, rfl⟩ := hp.cut
  exact tabbed_last pre' e ht hn hu

theorem report_unit {pre t unit : List Char} {L : List (List Char)} (hp : Labels pre L) (h1 : OneLine t) (ht : '\t' ∉ t)
    (hn : trim t ≠ []) (h2 : OneLine unit) (hu : '\t' ∉ unit) (r : List Char) :
    report (line (pre ++ t ++ unit) ++ r) = (L ++ [trim t ++ unit]) :: report r := by
  rw [report_one (oneLine_append (oneLine_append hp.one h1) h2), tabbed_unit hp ht hn hu]

theorem report_str3 (x : ℝ) (r : List Char) :
    report (line (str3 x) ++ r) = ["Thev. voltage:".toList, trim (fmt 0 4 (num x)) ++ " * Vgap".toList] :: report r :=
  report_unit (L := ["Thev. voltage:".toList]) ⟨by decide, "\tThev. voltage:\t".toList, by decide, by decide⟩ (oneLine_fmt _ _ _)
    (not_tab (plain_fmt _ _ _)) (trim_fmt_ne _ _) (by decide) (by decide) r

theorem report_str6 (x : Flt) (r : List Char) :
    report (line (str6 x) ++ r) = [trim (fmt 0 4 x) ++ " * Vph".toList] :: report r :=
  report_unit (L := []) ⟨by decide, "\t              \t".toList, by decide, by decide⟩ (oneLine_fmt _ _ _)
    (not_tab (plain_fmt _ _ _)) (trim_fmt_ne _ _) (by decide) (by decide) r

theorem report_str4 (z : ℂ) (r : List Char) :
    report (line (str4 z) ++ r) = ["Thev. impedance:".toList, fmtC 2 z ++ " * Rn".toList] :: report r := by
  have := report_unit (pre := "\tThev. impedance:\t".toList) (t := fmtC 2 z) (unit := " * Rn".toList) (L := ["Thev. impedance:".toList])
    ⟨by decide, "\tThev. impedance:".toList, by decide, by decide⟩ (oneLine_plain (plain_fmtC _ _))
    (not_tab (plain_fmtC _ _)) (fmtC_ne _) (by decide) (by decide) r
  rw [fmtC_trim] at this
  exact this

theorem report_str7 (x : ℝ) (r : List Char) :
    report (line (str7 x) ++ r) = ["Avail. power:   ".toList, RespPrint.fmtSci 2 x ++ " W".toList] :: report r := by
  have ht : trim (RespPrint.fmtSci 2 x) = RespPrint.fmtSci 2 x := dropWhile_fix (sci_head 2 x)
  have hn : trim (RespPrint.fmtSci 2 x) ≠ [] := by
    rw [ht]
    obtain ⟨y, sg, pre, n, e, -, -⟩ := sci_form 2 x
    rw [e]
    simp
  have := report_unit (pre := "\tAvail. power:   \t".toList) (t := RespPrint.fmtSci 2 x) (unit := " W".toList)
    (L := ["Avail. power:   ".toList]) ⟨by decide, "\tAvail. power:   ".toList, by decide, by decide⟩ (oneLine_sci _ _)
    (sci_no _ _ (by decide) (by decide)) hn (by decide) (by decide) r
  rw [ht] at this
  exact this

theorem report_str8 (x : Flt) (r : List Char) :
    report (line (str8 x) ++ r) = [trim (fmt 0 3 x) ++ " dBm".toList] :: report r :=
  report_unit (L := []) ⟨by decide, "\t                ".toList, by decide, by decide⟩ (oneLine_fmt _ _ _)
    (not_tab (plain_fmt _ _ _)) (trim_fmt_ne _ _) (by decide) (by decide) r

theorem report_head (c : Circuit) (hn : OneLine c.name.toList) (ht : '\t' ∉ c.name.toList) (r : List Char) :
    report (line (headText c) ++ r) = [headText c] :: report r := by
  have hl : OneLine (headText c) ∧ '\t' ∉ headText c := by
    unfold headText
    refine ⟨oneLine_append (oneLine_append (oneLine_append (oneLine_append (oneLine_append (by decide) (oneLine_plain (plain_nat _)))
      (by decide)) (oneLine_plain (plain_nat _))) (by decide)) ?_, ?_⟩
    · split_ifs
      · exact oneLine_append (by decide) hn
      · decide
    · simp only [List.mem_append, not_or]
      refine ⟨⟨⟨⟨⟨by decide, not_tab (plain_nat _)⟩, by decide⟩, not_tab (plain_nat _)⟩, by decide⟩, ?_⟩
      split_ifs
      · simp only [List.mem_append, not_or]
        exact ⟨by decide, ht⟩
      · decide
  have hh : (headText c).head? ≠ some ' ' := by
    unfold headText
    simp
  rw [report_one hl.1, tabbed_word hl.2, dropWhile_fix hh]
  rw [dropWhile_fix hh]
  unfold headText
  simp

theorem oneLine_str {f p : ℕ} {m comment : List Char} (hm : OneLine m) (hc : OneLine comment) :
    OneLine ("   f=".toList ++ intChars f ++ ", p=".toList ++ intChars p ++ "\t\t\t".toList ++ m ++ "\t\t".toList ++ comment) :=
  oneLine_append (oneLine_append (oneLine_append (oneLine_append (oneLine_append (oneLine_append (oneLine_append (by decide)
    (oneLine_nat f)) (by decide)) (oneLine_nat p)) (by decide)) hm) (by decide)) hc

theorem str1_eq (f p : ℕ) (x : ℝ) (s : String) : str1 f p x s = "   f=".toList ++ intChars f ++ ", p=".toList ++ intChars p ++
    "\t\t\t".toList ++ ("freq = ".toList ++ fmt 0 4 (num x) ++ " x ".toList ++ intChars p) ++ "\t\t".toList ++ s.toList := by
  unfold str1
  simp

theorem str2_eq (f p : ℕ) (x : ℝ) (s : String) : str2 f p x s = "   f=".toList ++ intChars f ++ ", p=".toList ++ intChars p ++
    "\t\t\t".toList ++ (fmt 0 1 (num x) ++ (" GHz x ".toList ++ intChars p)) ++ "\t\t".toList ++ s.toList := by
  unfold str2
  simp

/-- C167, without physical units. The text that `print_info` prints, as seen on the terminal: the head line, then for every tone and
harmonic in order the three lines with its numbers and labels, then an empty line. -/
theorem C167_normalised {c : Circuit} (h : Shape c) (hn : c.fgap = none ∨ c.vgap = none ∨ c.rn = none)
    (hname : OneLine c.name.toList ∧ '\t' ∉ c.name.toList)
    (hc : ∀ f p, 1 ≤ f → f ≤ c.numF → 1 ≤ p → p ≤ c.numP → OneLine (at2 "" c.comment f p).toList) :
    ∃ out nf np, ∃ block : ℕ × ℕ → List (List (List Char)), printInfoText c = .ok out ∧
      report out = [["Embedding circuit (Tones:".toList ++ nf ++ ", Harmonics:".toList ++ np ++ ")".toList ++
        (if c.name = "" then [] else ": ".toList ++ c.name.toList)]] ++ (signals c.numF c.numP).flatMap block ++ [[]] ∧
      Count nf c.numF ∧ Count np c.numP ∧
      ∀ f p, 1 ≤ f → f ≤ c.numF → 1 ≤ p → p ≤ c.numP →
        SignalBlock (block (f, p)) f p (at2 "" c.comment f p).toList (c.freq.getD f 0) (at2 0 c.vt f p).re (at2 0 c.zt f p) := by
  have hb : ∀ f p : ℤ, textOf c f p = textNorm c f p := by
    intro f p
    unfold textOf
    rcases hn with e | e | e
    · rw [e]
    · rw [e]; cases c.fgap <;> rfl
    · rw [e]; cases c.fgap <;> cases c.vgap <;> rfl
  have hm : ∀ x : ℝ, ∀ p : ℕ, OneLine ("freq = ".toList ++ fmt 0 4 (num x) ++ " x ".toList ++ intChars p) := fun x p =>
    oneLine_append (oneLine_append (oneLine_append (by decide) (oneLine_fmt _ _ _)) (by decide)) (oneLine_nat p)
  have key : ∀ f p, 1 ≤ f → f ≤ c.numF → 1 ≤ p → p ≤ c.numP → ∃ t, textOf c f p = .ok t ∧ ∀ r, report (t ++ r) =
      [("f=".toList ++ intChars f ++ ", p=".toList ++ intChars p) :: ("freq = ".toList ++ fmt 0 4 (num (c.freq.getD f 0)) ++
          " x ".toList ++ intChars p) :: tabbed (at2 "" c.comment f p).toList,
        ["Thev. voltage:".toList, trim (fmt 0 4 (num (at2 0 c.vt f p).re)) ++ " * Vgap".toList],
        ["Thev. impedance:".toList, fmtC 2 (at2 0 c.zt f p) ++ " * Rn".toList]] ++ report r := by
    intro f p h1 h2 h3 h4
    have ol : OneLine (str1 f p (c.freq.getD f 0) (at2 "" c.comment f p)) := by
      rw [str1_eq]
      exact oneLine_str (hm _ _) (hc f p h1 h2 h3 h4)
    obtain ⟨a, ha, hr⟩ := green _ ol
    refine ⟨a ++ line (str3 (at2 0 c.vt f p).re) ++ line (str4 (at2 0 c.zt f p)), ?_, fun r => ?_⟩
    · rw [hb]
      unfold textNorm
      rw [get_freq h (by omega), get2_rect h.vt 0 (by omega) (by omega), get2_rect h.zt 0 (by omega) (by omega),
        get2_rect h.comment "" (by omega) (by omega)]
      simp only [bind, Except.bind, ha]
      rfl
    · rw [List.append_assoc, List.append_assoc, hr, report_str3, report_str4, str1_eq, signal_line]
      · rfl
      · simp only [List.mem_append, not_or]
        exact ⟨⟨⟨by decide, not_tab (plain_fmt _ _ _)⟩, by decide⟩, not_tab (plain_int _)⟩
      · simp [trim]
  choose! g hg hr using key
  refine ⟨_, IO.natChars c.numF, IO.natChars c.numP, fun s => [("f=".toList ++ intChars s.1 ++ ", p=".toList ++ intChars s.2) ::
    ("freq = ".toList ++ fmt 0 4 (num (c.freq.getD s.1 0)) ++ " x ".toList ++ intChars s.2) :: tabbed (at2 "" c.comment s.1 s.2).toList,
        ["Thev. voltage:".toList, trim (fmt 0 4 (num (at2 0 c.vt s.1 s.2).re)) ++ " * Vgap".toList],
        ["Thev. impedance:".toList, fmtC 2 (at2 0 c.zt s.1 s.2) ++ " * Rn".toList]], printInfoText_eq hg, ?_, count_nat _, count_nat _,
    fun f p h1 h2 h3 h4 => ⟨_, _, _, _, _, rfl, count_int _, count_int _, shows_fmt _ _ _, shows_trim (shows_fmt _ _ _),
      showsJ_fmtC _ _⟩⟩
  have hf := report_flatMap (signals c.numF c.numP) (fun s => g s.1 s.2) _ (fun s hs r => by
    obtain ⟨h1, h2, h3, h4⟩ := mem_signals.1 (show (s.1, s.2) ∈ signals c.numF c.numP from hs)
    exact hr s.1 s.2 h1 h2 h3 h4 r) (line [])
  rw [List.append_assoc, report_head c hname.1 hname.2, hf]
  unfold headText
  by_cases e : c.name = ""
  · simp only [ne_eq, e, not_true_eq_false, if_false, if_true]
    rfl
  · simp only [ne_eq, e, not_false_eq_true, if_false, if_true]
    rfl

theorem fmt_none (d : ℕ) : trim (fmt 0 d none) = "nan".toList := fmt_nan 0 d

theorem fmt_top (d : ℕ) : trim (fmt 0 d (some ⊤)) = "inf".toList := by
  have : fmt 0 d (some ⊤) = "inf".toList := by simp [fmt, Term.padLeft]
  rw [this]
  decide

theorem fmt_bot (d : ℕ) : trim (fmt 0 d (some ⊥)) = "-inf".toList := by
  have : fmt 0 d (some ⊥) = "-inf".toList := by simp [fmt, Term.padLeft]
  rw [this]
  decide

theorem shows_quot (x y : ℝ) (d : ℕ) : ShowsQuot (trim (fmt 0 d (Fl.fdiv (num x) (num y)))) x y d := by
  refine ⟨fun h => ?_, ?_, ?_, ?_⟩
  · rw [fdiv_num _ h]
    exact shows_trim (shows_fmt _ _ _)
  · rintro rfl h
    rw [fdiv_zero_pos h, fmt_top]
  · rintro rfl h
    rw [fdiv_zero_neg h, fmt_bot]
  · rintro rfl rfl
    rw [fdiv_zero_zero, fmt_none]

theorem shows_dbm (w : ℝ) : ShowsDbm (trim (fmt 0 3 (dbmFlt w (if 0 < w * 1e3 then some (10 * Real.logb 10 (w * 1e3)) else none)))) w 3 := by
  refine ⟨fun h => ?_, ?_, fun h => ?_⟩
  · have h0 : 0 < w * 1e3 := by positivity
    rw [if_pos h0]
    refine ⟨10 * Real.logb 10 (w * 1e3), ?_, shows_trim (shows_fmt _ _ _)⟩
    rw [mul_div_cancel_left₀ _ (by norm_num : (10 : ℝ) ≠ 0), Real.rpow_logb (by norm_num) (by norm_num) h0]
    norm_num
  · rintro rfl
    rw [if_neg (by norm_num)]
    simp only [dbmFlt, if_true]
    exact fmt_bot 3
  · rw [if_neg (by norm_num; exact h.le)]
    simp only [dbmFlt, if_neg h.ne]
    exact fmt_none 3

/-- C167, with physical units: the frequency in GHz, the voltage in units of the gap and of the photon voltage, the impedance, and
the available power in W and dBm; numbers that are not finite are shown as such. -/
theorem C167_physical {c : Circuit} (h : Shape c) {g vg rn : ℝ} (hg : c.fgap = some g) (hv : c.vgap = some vg) (hrn : c.rn = some rn)
    (hname : OneLine c.name.toList ∧ '\t' ∉ c.name.toList)
    (hc : ∀ f p, 1 ≤ f → f ≤ c.numF → 1 ≤ p → p ≤ c.numP → OneLine (at2 "" c.comment f p).toList) :
    ∃ out nf np, ∃ block : ℕ × ℕ → List (List (List Char)), printInfoText c = .ok out ∧
      report out = [["Embedding circuit (Tones:".toList ++ nf ++ ", Harmonics:".toList ++ np ++ ")".toList ++
        (if c.name = "" then [] else ": ".toList ++ c.name.toList)]] ++ (signals c.numF c.numP).flatMap block ++ [[]] ∧
      Count nf c.numF ∧ Count np c.numP ∧
      ∀ f p, 1 ≤ f → f ≤ c.numF → 1 ≤ p → p ≤ c.numP →
        SignalBlockSI (block (f, p)) f p (at2 "" c.comment f p).toList (c.freq.getD f 0 * g) (at2 0 c.vt f p).re
          (c.freq.getD f 0 * p) (at2 0 c.zt f p)
          (if (at2 0 c.zt f p).re * rn = 0 then 0 else sourcePower (at2 0 c.vt f p * vg) ((at2 0 c.zt f p).re * rn)) := by
  have hb : ∀ f p : ℤ, textOf c f p = textPhys c g f p := by
    intro f p; unfold textOf; rw [hg, hv, hrn]
  have hm : ∀ x : ℝ, ∀ p : ℕ, OneLine (fmt 0 1 (num x) ++ (" GHz x ".toList ++ intChars p)) := fun x p =>
    oneLine_append (oneLine_fmt _ _ _) (oneLine_append (by decide) (oneLine_nat p))
  set W : ℕ → ℕ → ℝ := fun f p => powerOf vg rn (at2 0 c.vt f p) (at2 0 c.zt f p) with hW
  have key : ∀ f p, 1 ≤ f → f ≤ c.numF → 1 ≤ p → p ≤ c.numP → ∃ t, textOf c f p = .ok t ∧ ∀ r, report (t ++ r) =
      [("f=".toList ++ intChars f ++ ", p=".toList ++ intChars p) :: (trim (fmt 0 1 (num (c.freq.getD f 0 * g / 1e9))) ++
          " GHz x ".toList ++ intChars p) :: tabbed (at2 "" c.comment f p).toList,
        ["Thev. voltage:".toList, trim (fmt 0 4 (num (at2 0 c.vt f p).re)) ++ " * Vgap".toList],
        [trim (fmt 0 4 (Fl.fdiv (num (at2 0 c.vt f p).re) (num (c.freq.getD f 0 * p)))) ++ " * Vph".toList],
        ["Thev. impedance:".toList, fmtC 2 (at2 0 c.zt f p) ++ " * Rn".toList],
        ["Avail. power:   ".toList, RespPrint.fmtSci 2 (W f p) ++ " W".toList],
        [trim (fmt 0 3 (dbmFlt (W f p) (if 0 < W f p * 1e3 then some (10 * Real.logb 10 (W f p * 1e3)) else none)))
          ++ " dBm".toList]] ++ report r := by
    intro f p h1 h2 h3 h4
    have ol : OneLine (str2 f p (c.freq.getD f 0 * g / 1e9) (at2 "" c.comment f p)) := by
      rw [str2_eq]
      exact oneLine_str (hm _ _) (hc f p h1 h2 h3 h4)
    obtain ⟨a, ha, hr⟩ := green _ ol
    have e1 := get2_rect h.vt 0 (show f < c.numF + 1 by omega) (show p < c.numP + 1 by omega)
    have e2 := get2_rect h.zt 0 (show f < c.numF + 1 by omega) (show p < c.numP + 1 by omega)
    obtain ⟨ew, ed⟩ := availablePower_W hv hrn e1 e2
    refine ⟨a ++ line (str3 (at2 0 c.vt f p).re) ++ line (str6 (Fl.fdiv (num (at2 0 c.vt f p).re) (num (c.freq.getD f 0 * p)))) ++
      line (str4 (at2 0 c.zt f p)) ++ line (str7 (W f p)) ++
      line (str8 (dbmFlt (W f p) (if 0 < W f p * 1e3 then some (10 * Real.logb 10 (W f p * 1e3)) else none))), ?_, fun r => ?_⟩
    · rw [hb]
      unfold textPhys
      rw [get_freq h (by omega), e1, e2, ew, ed, orInf_decibel, get2_rect h.comment "" (by omega) (by omega)]
      simp only [bind, Except.bind, ha]
      rfl
    · simp only [List.append_assoc]
      rw [hr, report_str3, report_str6, report_str4, report_str7, report_str8, str2_eq, signal_line, trim_append (trim_fmt_ne _ _)]
      · simp only [List.append_assoc, List.cons_append, List.nil_append]
      · simp only [List.mem_append, not_or]
        exact ⟨not_tab (plain_fmt _ _ _), by decide, not_tab (plain_int _)⟩
      · rw [trim_append (trim_fmt_ne _ _)]
        simp
  choose! t ht hr using key
  refine ⟨_, IO.natChars c.numF, IO.natChars c.numP, fun s => [("f=".toList ++ intChars s.1 ++ ", p=".toList ++ intChars s.2) ::
        (trim (fmt 0 1 (num (c.freq.getD s.1 0 * g / 1e9))) ++ " GHz x ".toList ++ intChars s.2) ::
          tabbed (at2 "" c.comment s.1 s.2).toList,
        ["Thev. voltage:".toList, trim (fmt 0 4 (num (at2 0 c.vt s.1 s.2).re)) ++ " * Vgap".toList],
        [trim (fmt 0 4 (Fl.fdiv (num (at2 0 c.vt s.1 s.2).re) (num (c.freq.getD s.1 0 * s.2)))) ++ " * Vph".toList],
        ["Thev. impedance:".toList, fmtC 2 (at2 0 c.zt s.1 s.2) ++ " * Rn".toList],
        ["Avail. power:   ".toList, RespPrint.fmtSci 2 (W s.1 s.2) ++ " W".toList],
        [trim (fmt 0 3 (dbmFlt (W s.1 s.2) (if 0 < W s.1 s.2 * 1e3 then some (10 * Real.logb 10 (W s.1 s.2 * 1e3)) else none)))
          ++ " dBm".toList]], printInfoText_eq ht, ?_, count_nat _, count_nat _,
    fun f p h1 h2 h3 h4 => ⟨_, _, _, _, _, _, _, _, rfl, count_int _, count_int _, ?_, shows_trim (shows_fmt _ _ _),
      shows_quot _ _ _, showsJ_fmtC _ _, RespPrint.fmtSci_sci _ _, shows_dbm _⟩⟩
  · have hf := report_flatMap (signals c.numF c.numP) (fun s => t s.1 s.2) _ (fun s hs r => by
      obtain ⟨h1, h2, h3, h4⟩ := mem_signals.1 (show (s.1, s.2) ∈ signals c.numF c.numP from hs)
      exact hr s.1 s.2 h1 h2 h3 h4 r) (line [])
    rw [List.append_assoc, report_head c hname.1 hname.2, hf]
    unfold headText
    by_cases e : c.name = ""
    · simp only [ne_eq, e, not_true_eq_false, if_false, if_true]
      rfl
    · simp only [ne_eq, e, not_false_eq_true, if_false, if_true]
      rfl
  · have := shows_trim (shows_fmt 0 1 (c.freq.getD f 0 * g / 1e9))
    have e9 : (1e9 : ℝ) = 10 ^ 9 := by norm_num
    rw [e9] at this ⊢
    exact this

/-- C167: whatever was done to a circuit, the printing never raises. -/
theorem C167_total {numF numP npts : ℤ} {lo hi : ℝ} {fg vg rn : Option ℝ} {name : String} {c : Circuit}
    (h : Cct.new numF numP lo hi npts fg vg rn name = .ok c) (l : List Op) : ∃ out, printInfoText (run c l) = .ok out := by
  have hs := shape_run (shape_new h) l
  set c' := run c l
  have hcp : ∀ w : List Char, ∃ t, Term.cprint w (some "GREEN".toList) = .ok t := fun w =>
    ⟨_, Term.cprint_known (k := Term.esc :: "[92".toList ++ ['m']) (by decide) w⟩
  have key : ∀ f p, 1 ≤ f → f ≤ c'.numF → 1 ≤ p → p ≤ c'.numP → ∃ t, textOf c' f p = .ok t := by
    intro f p h1 h2 h3 h4
    have e1 := get2_rect hs.vt 0 (show f < c'.numF + 1 by omega) (show p < c'.numP + 1 by omega)
    have e2 := get2_rect hs.zt 0 (show f < c'.numF + 1 by omega) (show p < c'.numP + 1 by omega)
    have e3 := get2_rect hs.comment "" (show f < c'.numF + 1 by omega) (show p < c'.numP + 1 by omega)
    have norm : ∃ t, textNorm c' f p = .ok t := by
      unfold textNorm
      rw [get_freq hs (by omega), e1, e2, e3]
      obtain ⟨a, ha⟩ := hcp (str1 f p (c'.freq.getD f 0) (at2 "" c'.comment f p))
      simp only [bind, Except.bind, ha]
      exact ⟨_, rfl⟩
    unfold textOf
    cases h1 : c'.fgap with
    | none => exact norm
    | some g =>
      cases h2 : c'.vgap with
      | none => exact norm
      | some v =>
        cases h3 : c'.rn with
        | none => exact norm
        | some r =>
          obtain ⟨ew, ed⟩ := availablePower_W h2 h3 e1 e2
          dsimp only
          unfold textPhys
          rw [get_freq hs (by omega), e1, e2, ew, ed, orInf_decibel, e3]
          obtain ⟨a, ha⟩ := hcp (str2 f p (c'.freq.getD f 0 * g / 1e9) (at2 "" c'.comment f p))
          simp only [bind, Except.bind, ha]
          exact ⟨_, rfl⟩
  choose! t ht using key
  exact ⟨_, printInfoText_eq ht⟩

/-- The hypotheses can be met: the circuit of C111 with one tone. -/
example : ∃ out nf np, ∃ block : ℕ × ℕ → List (List (List Char)), printInfoText (oneTone ⟨1, 1⟩) = .ok out ∧
    report out = [["Embedding circuit (Tones:".toList ++ nf ++ ", Harmonics:".toList ++ np ++ ")".toList]] ++ block (1, 1) ++ [[]] ∧
    Count nf 1 ∧ Count np 1 ∧ SignalBlock (block (1, 1)) 1 1 "LO".toList (3 / 10) 1 1 := by
  obtain ⟨out, nf, np, block, h1, h2, h3, h4, h5⟩ := C167_normalised (oneTone_shape ⟨1, 1⟩) (.inl rfl)
    ⟨by simp [oneTone, OneLine], by simp [oneTone]⟩ (fun f p a b c d => by
      have : f = 1 := le_antisymm b a
      have : p = 1 := le_antisymm d c
      subst_vars
      show OneLine "LO".toList
      decide)
  refine ⟨out, nf, np, block, h1, ?_, h3, h4, h5 1 1 le_rfl le_rfl le_rfl le_rfl⟩
  rw [h2]
  simp [oneTone, signals]

/-- The same circuit with physical units: 210 GHz. -/
example : ∃ out nf np, ∃ block : ℕ × ℕ → List (List (List Char)),
    printInfoText { oneTone ⟨1, 1⟩ with fgap := some 700000000000, vgap := some 0.0028, rn := some 14 } = .ok out ∧
    report out = [["Embedding circuit (Tones:".toList ++ nf ++ ", Harmonics:".toList ++ np ++ ")".toList]] ++ block (1, 1) ++ [[]] ∧
    SignalBlockSI (block (1, 1)) 1 1 "LO".toList 210000000000 1 (3 / 10) 1 (sourcePower (⟨1, 1⟩ * (0.0028 : ℝ)) 14) := by
  obtain ⟨out, nf, np, block, h1, h2, -, -, h5⟩ := C167_physical
    (c := { oneTone ⟨1, 1⟩ with fgap := some 700000000000, vgap := some 0.0028, rn := some 14 })
    (by obtain ⟨a, b, c, d⟩ := oneTone_shape ⟨1, 1⟩; exact ⟨a, b, c, d⟩) rfl rfl rfl
    ⟨by simp [oneTone, OneLine], by simp [oneTone]⟩ (fun f p a b c d => by
      have : f = 1 := le_antisymm b a
      have : p = 1 := le_antisymm d c
      subst_vars
      show OneLine "LO".toList
      decide)
  refine ⟨out, nf, np, block, h1, ?_, ?_⟩
  · rw [h2]
    simp [oneTone, signals]
  · have := h5 1 1 le_rfl le_rfl le_rfl le_rfl
    have e1 : (oneTone ⟨1, 1⟩).freq.getD 1 0 * 700000000000 = 210000000000 := by
      simp [oneTone]
      norm_num
    have e2 : (oneTone ⟨1, 1⟩).freq.getD 1 0 * ((1 : ℕ) : ℝ) = 3 / 10 := by simp [oneTone]
    have e3 : at2 (0 : ℂ) (oneTone ⟨1, 1⟩).zt 1 1 = 1 := by simp [oneTone, at2]
    have e4 : at2 (0 : ℂ) (oneTone ⟨1, 1⟩).vt 1 1 = ⟨1, 1⟩ := by simp [oneTone, at2]
    dsimp only at this
    rw [e1, e2, e3, e4] at this
    simpa [oneTone, at2] using this

end QMix.Cct
