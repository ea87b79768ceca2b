import Verif.Spec.Terminal

/-!
# Specification: tables in text files

Nothing here refers to the model of the code.
-/

namespace QMix.Spec

/-- A text cut at every occurrence of a character. -/
def cutAt (c : Char) : List Char → List (List Char)
  | [] => [[]]
  | x :: xs =>
    if x = c then [] :: cutAt c xs
    else match cutAt c xs with
      | [] => [[x]]
      | w :: ws => (x :: w) :: ws

/-- The lines of a text in which every line is ended. -/
def linesOf (t : List Char) : List (List Char) := (cutAt '\n' t).dropLast

/-- The fields of a line with commas; blanks at the front of a field do not count. -/
def fields (line : List Char) : List (List Char) := (cutAt ',' line).map fun w => w.dropWhile (· == ' ')

/-- The text stands for a complex number in the notation `1.50-2.25j`. -/
def WrittenJ (t : List Char) (z : ℂ) : Prop :=
  ∃ a b : List Char, t = a ++ b ++ ['j'] ∧ (b.head? = some '+' ∨ b.head? = some '-') ∧
    numeral a = some z.re ∧ numeral b = some z.im

/-- The text stands for a complex number in the notation `1.50 + 1j * (-2.25)`. -/
def WrittenSum (t : List Char) (z : ℂ) : Prop :=
  ∃ a b : List Char, t = a ++ " + 1j * (".toList ++ b ++ [')'] ∧ numeral a = some z.re ∧ numeral b = some z.im

/-- The text is a numeral whose value is that of `x` rounded to `d` decimals. -/
def Shows (t : List Char) (x : ℝ) (d : ℕ) : Prop := ∃ v, numeral t = some v ∧ |v - x| ≤ 5 / 10 ^ (d + 1)

/-- The text stands for `z` rounded to `d` decimals, in the notation `1.50-2.25j`. -/
def ShowsJ (t : List Char) (z : ℂ) (d : ℕ) : Prop :=
  ∃ w, WrittenJ t w ∧ |w.re - z.re| ≤ 5 / 10 ^ (d + 1) ∧ |w.im - z.im| ≤ 5 / 10 ^ (d + 1)

/-- The text stands for `z` rounded to `d` decimals, in the notation `1.50 + 1j * (-2.25)`. -/
def ShowsSum (t : List Char) (z : ℂ) (d : ℕ) : Prop :=
  ∃ w, WrittenSum t w ∧ |w.re - z.re| ≤ 5 / 10 ^ (d + 1) ∧ |w.im - z.im| ≤ 5 / 10 ^ (d + 1)

end QMix.Spec
