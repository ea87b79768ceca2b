import Mathlib.Data.Complex.Basic

/-!
# Specification: what a reader sees on a terminal

Nothing here refers to the model of the code.
-/

namespace QMix.Spec

/-- What a terminal makes of a stream of characters: every character shown, with the style it is
shown in, and the style left behind. An escape character starts a control sequence that ends with the
letter `m`; the sequence `[0` restores the default style (`[]`); any other sequence is the new style.
`cur` is the current style and `seq` the control sequence being received. (A real terminal keeps
bold and colour side by side; here the last sequence counts.) -/
def paint : List Char → Option (List Char) → List Char → List (Char × List Char) × List Char
  | cur, _, [] => ([], cur)
  | cur, none, c :: cs =>
    if c = Char.ofNat 27 then paint cur (some []) cs
    else ((c, cur) :: (paint cur none cs).1, (paint cur none cs).2)
  | cur, some e, c :: cs =>
    if c = 'm' then paint (if e = ['[', '0'] then [] else e) none cs
    else paint cur (some (e ++ [c])) cs

/-- The text shown on a terminal whose style is the default one. -/
def shown (out : List Char) : List Char := (paint [] none out).1.map Prod.fst

/-- The styles that the documented colour names stand for (ANSI select-graphic-rendition codes). -/
def styles : List (List Char × List Char) :=
  [("CYAN".toList, "[36".toList), ("MAGENTA".toList, "[35".toList), ("PINK".toList, "[95".toList),
   ("BLUE".toList, "[94".toList), ("GREEN".toList, "[92".toList), ("YELLOW".toList, "[93".toList),
   ("RED".toList, "[91".toList), ("BOLD".toList, "[1".toList), ("UNDERLINE".toList, "[4".toList),
   ("INVERSE".toList, "[7".toList), ("BLINK".toList, "[5".toList)]

/-- A line with a progress bar of `n` cells of which `k` are filled. -/
def barLine (pre pct suf : List Char) (n k : ℕ) (done : Bool) : List Char :=
  '\r' :: pre ++ [' ', '|'] ++ List.replicate k '-' ++ List.replicate (n - k) ' ' ++ ['|', ' '] ++
    pct ++ ['%', ' '] ++ suf ++ (if done then ['\n'] else [])

/-- A decimal digit. -/
def digit (c : Char) : Bool := 48 ≤ c.toNat && c.toNat ≤ 57

/-- The number written by a string of digits. -/
def digitsNum (l : List Char) : ℕ := l.foldl (fun a c => 10 * a + (c.toNat - 48)) 0

/-- The number that a text such as `"  -12.50"` stands for: blanks, an optional sign, digits, a point
and digits. -/
noncomputable def numeral (t : List Char) : Option ℝ :=
  let u := t.dropWhile (· == ' ')
  let b := if u.head? = some '-' ∨ u.head? = some '+' then u.tail else u
  let ds := b.takeWhile digit
  let r := b.dropWhile digit
  if ds = [] ∨ r.head? ≠ some '.' ∨ r.tail.all digit = false then none
  else some ((if u.head? = some '-' then -1 else 1) * (digitsNum (ds ++ r.tail) / 10 ^ r.tail.length))

/-- The complex number that a text such as `"1.00 - j 0.50"` stands for: the real part, a sign between
blanks, the letter `j` and the number that the sign applies to. -/
noncomputable def complexNumeral (t : List Char) : Option ℂ :=
  let a := t.takeWhile (· != 'j')
  let b := (t.dropWhile (· != 'j')).tail
  match a.reverse with
  | ' ' :: s :: ' ' :: r =>
    match numeral r.reverse, numeral b with
    | some x, some y => if s = '+' then some ⟨x, y⟩ else if s = '-' then some ⟨x, -y⟩ else none
    | _, _ => none
  | _ => none

end QMix.Spec
