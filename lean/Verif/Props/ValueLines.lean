import Verif.Props.Terminal
import Verif.Props.Pvale

/-! # C109, C195: the columns of the lines of `pvalf` and `pvale`

The theorems of `Props/Terminal.lean` and `Props/Pvale.lean` describe the number of a line; here the name, the units and the comment. -/

namespace QMix.Term

open QMix IO

/-! ## Specification -/

/-- `f` is the text `s` in a column of (at least) `n` characters, at the left. -/
def Column (n : ℕ) (s f : List Char) : Prop :=
  f.length = max n s.length ∧ f.take s.length = s ∧ ∀ c ∈ f.drop s.length, c = ' '

/-- A line with a name, a number, units and a comment: the name is in a column of 15 characters after a tabulator, then comes an equals sign;
the units, if there are any, are in brackets, the comment, if there is one, follows `# ` and ends the line. -/
def ValueLine (name units comment t line : List Char) : Prop :=
  ∃ f u c, Column 15 name f ∧ line = '\t' :: f ++ " = ".toList ++ t ++ u ++ c ++ ['\n'] ∧
    (units = [] → ∀ x ∈ u, x = ' ' ∨ x = '\t') ∧
    (units ≠ [] → ∃ a b, u = a ++ '[' :: units ++ ']' :: b ∧ (∀ x ∈ a, x = '\t') ∧ ∀ x ∈ b, x = ' ') ∧
    (comment = [] → c = []) ∧
    (comment ≠ [] → ∃ a, c = a ++ "# ".toList ++ comment ∧ ∀ x ∈ a, x = ' ' ∨ x = '\t')

/-! ## Lemmas -/

theorem padRight_column (n : ℕ) (s : List Char) : Column n s (padRight n s) := by
  unfold padRight
  refine ⟨by simp; omega, List.take_left' rfl, fun c hc => ?_⟩
  rw [List.drop_left' rfl] at hc
  exact List.eq_of_mem_replicate hc

theorem padRight_blank (n : ℕ) : ∀ x ∈ padRight n [], x = ' ' := fun x hx => by
  unfold padRight at hx
  exact List.eq_of_mem_replicate (by simpa using hx)

/-! ## C109, C195 -/

/-- C109: the line of `pvalf`, whatever the value. -/
theorem C109_line (name units comment : List Char) (val : Val) :
    ∃ t line, pvalf name val units comment none = .ok line ∧ ValueLine name units comment t line := by
  have hu : ∀ tabs : List Char, (∀ x ∈ tabs, x = '\t') →
      (units = [] → ∀ x ∈ tabs ++ padRight 15 (unitsText units), x = ' ' ∨ x = '\t') ∧
      (units ≠ [] → ∃ a b, tabs ++ padRight 15 (unitsText units) = a ++ '[' :: units ++ ']' :: b ∧ (∀ x ∈ a, x = '\t') ∧
        ∀ x ∈ b, x = ' ') := fun tabs ht => by
    refine ⟨fun h x hx => ?_, fun h => ?_⟩
    · rw [unitsText, if_pos h, List.mem_append] at hx
      exact hx.symm.imp (padRight_blank 15 x) (ht x)
    · refine ⟨tabs ++ ['\t'], List.replicate (15 - (unitsText units).length) ' ', ?_, ?_, fun x hx => List.eq_of_mem_replicate hx⟩
      · unfold padRight
        rw [show unitsText units = "\t[".toList ++ units ++ [']'] from if_neg h]
        simp
      · intro x hx
        rcases List.mem_append.1 hx with hx | hx
        · exact ht x hx
        · simpa using hx
  have hc : (comment = [] → commentText comment = []) ∧
      (comment ≠ [] → ∃ a, commentText comment = a ++ "# ".toList ++ comment ∧ ∀ x ∈ a, x = ' ' ∨ x = '\t') := by
    refine ⟨fun h => if_pos h, fun h => ⟨[' ', ' '], by rw [commentText, if_neg h]; rfl, by simp⟩⟩
  cases val with
  | real x =>
    obtain ⟨h1, h2⟩ := hu ['\t'] (by simp)
    refine ⟨padLeft 7 (fmtFloat 3 x), _, rfl, padRight 15 name, ['\t'] ++ padRight 15 (unitsText units), commentText comment,
      padRight_column 15 name, ?_, h1, h2, hc.1, hc.2⟩
    simp [List.append_assoc]
  | cplx z =>
    obtain ⟨re, im⟩ := z
    obtain ⟨h1, h2⟩ := hu [] (by simp)
    refine ⟨padLeft 7 (fmtFloat 3 re) ++ (if im.toReal < 0 then " - j".toList else " + j".toList) ++ padLeft 7 (fmtFloat 3 (fabs im)),
      _, rfl, padRight 15 name, [] ++ padRight 15 (unitsText units), commentText comment,
      padRight_column 15 name, ?_, h1, h2, hc.1, hc.2⟩
    simp [List.append_assoc]

/-- C195: the line of `pvale`, whatever the format and the value. -/
theorem C195_line (sci : Val → List Char) (name units comment : List Char) (val : Val) :
    ∃ line, pvale sci name val units comment none = .ok line ∧ ValueLine name units comment (sci val) line := by
  have hu : ∀ v : List Char, ∀ tabs : List Char, (∀ x ∈ tabs, x = '\t') → v = (if units = [] then [] else tabs ++ '[' :: units ++ [']']) →
      (units = [] → ∀ x ∈ padRight 15 v, x = ' ' ∨ x = '\t') ∧
      (units ≠ [] → ∃ a b, padRight 15 v = a ++ '[' :: units ++ ']' :: b ∧ (∀ x ∈ a, x = '\t') ∧ ∀ x ∈ b, x = ' ') := by
    rintro v tabs ht rfl
    refine ⟨fun h x hx => ?_, fun h => ?_⟩
    · rw [if_pos h] at hx
      exact .inl (padRight_blank 15 x hx)
    · rw [if_neg h]
      exact ⟨tabs, List.replicate (15 - (tabs ++ '[' :: units ++ [']']).length) ' ', by simp [padRight], ht,
        fun x hx => List.eq_of_mem_replicate hx⟩
  have hc : (comment = [] → (if comment = [] then [] else "\t\t# ".toList ++ comment) = []) ∧
      (comment ≠ [] → ∃ a, (if comment = [] then [] else "\t\t# ".toList ++ comment) = a ++ "# ".toList ++ comment ∧
        ∀ x ∈ a, x = ' ' ∨ x = '\t') := by
    refine ⟨fun h => if_pos h, fun h => ⟨['\t', '\t'], by rw [if_neg h]; rfl, by simp⟩⟩
  cases val with
  | real x =>
    obtain ⟨h1, h2⟩ := hu _ ['\t', '\t'] (by simp) rfl
    refine ⟨_, rfl, padRight 15 name, padRight 15 _, _, padRight_column 15 name, ?_, h1, h2, hc.1, hc.2⟩
    simp [List.append_assoc]
  | cplx z =>
    obtain ⟨h1, h2⟩ := hu _ ['\t'] (by simp) rfl
    refine ⟨_, rfl, padRight 15 name, padRight 15 _, _, padRight_column 15 name, ?_, h1, h2, hc.1, hc.2⟩
    simp [List.append_assoc]

/-- The equals signs of lines with names of up to 15 characters stand under each other. -/
theorem C109_aligned (name units comment : List Char) (val : Val) (h : name.length ≤ 15) :
    ∃ line, pvalf name val units comment none = .ok line ∧ line.getD 17 ' ' = '=' ∧ name <+: line.drop 1 := by
  obtain ⟨t, line, e, f, u, c, ⟨hl, hn, -⟩, rfl, -⟩ := C109_line name units comment val
  refine ⟨_, e, ?_, ?_⟩
  · rw [max_eq_left h] at hl
    simp only [List.append_assoc, List.cons_append, List.getD_eq_getElem?_getD, List.getElem?_cons_succ]
    rw [List.getElem?_append_right (by omega), hl]
    rfl
  · simp only [List.append_assoc, List.cons_append, List.drop_succ_cons, List.drop_zero]
    exact (hn ▸ List.take_prefix _ f : name <+: f).trans (List.prefix_append _ _)

/-- A critical current with its units and a comment. -/
example (x : Flt) : ∃ line, pvalf "Igap".toList (.real x) "uA".toList "measured".toList none = .ok line ∧ line.getD 17 ' ' = '=' ∧
    "Igap".toList <+: line.drop 1 := C109_aligned _ _ _ _ (by decide)

example (sci : Val → List Char) (x : Flt) := C195_line sci "Igap".toList "uA".toList [] (.real x)

end QMix.Term
