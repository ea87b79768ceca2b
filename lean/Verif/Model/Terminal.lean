import Verif.Model.CircuitIO

/-!
# Model of the terminal output: `qmix/misc/terminal.py` and `qmix/misc/progbar.py`

What a call writes to standard output is a list of characters (`print` adds a newline). `print_intro`
(a fixed banner after `os.system('clear')`) is not modelled. The exponent format `'{:7.1e}'` is a
parameter of `pvale` here and is given in `Verif/Model/Pvale.lean`.
-/

namespace QMix.Term

open QMix.IO

/-- The escape character, `'\033'`. -/
def esc : Char := Char.ofNat 27

/-- `s * n` for a one-character string and an integer: a negative count gives the empty string. -/
def times (c : Char) (n : ℤ) : List Char := List.replicate n.toNat c

/-- `_terminal_colors`, `qmix/misc/terminal.py:154-179`. -/
def colours : List (List Char × List Char) :=
  [("CYAN".toList, esc :: "[36m".toList), ("MAGENTA".toList, esc :: "[35m".toList),
   ("PINK".toList, esc :: "[95m".toList), ("BLUE".toList, esc :: "[94m".toList),
   ("GREEN".toList, esc :: "[92m".toList), ("YELLOW".toList, esc :: "[93m".toList),
   ("RED".toList, esc :: "[91m".toList), ("HEADER".toList, esc :: "[95m".toList),
   ("HEADER1".toList, esc :: "[95m".toList), ("HEADER2".toList, esc :: "[36m".toList),
   ("HEADER3".toList, esc :: "[92m".toList), ("OKBLUE".toList, esc :: "[94m".toList),
   ("OKGREEN".toList, esc :: "[92m".toList), ("WARNING".toList, esc :: "[93m".toList),
   ("FAIL".toList, esc :: "[91m".toList), ("BOLD".toList, esc :: "[1m".toList),
   ("UNDERLINE".toList, esc :: "[4m".toList), ("INVERSE".toList, esc :: "[7m".toList),
   ("BLINK".toList, esc :: "[5m".toList), ("ENDC".toList, esc :: "[0m".toList)]

/-- `_terminal_colors[key]`. -/
def lookup (key : List Char) : Py (List Char) := getOpt .key (colours.lookup key)

/-- `color.upper()`, for ASCII names. -/
def upper (s : List Char) : List Char := s.map Char.toUpper

/-- `str(sorted(_terminal_colors.keys()))`. -/
def keysText : List Char :=
  ("['BLINK', 'BLUE', 'BOLD', 'CYAN', 'ENDC', 'FAIL', 'GREEN', 'HEADER', 'HEADER1', 'HEADER2', " ++
    "'HEADER3', 'INVERSE', 'MAGENTA', 'OKBLUE', 'OKGREEN', 'PINK', 'RED', 'UNDERLINE', " ++
    "'WARNING', 'YELLOW']").toList

/-- `cprint`, `qmix/misc/terminal.py:33-52`, for text and a colour that is a string or `None`. Only
`KeyError` is caught. -/
def cprint (text : List Char) (color : Option (List Char)) : Py (List Char) :=
  match color with
  | none => .ok (text ++ ['\n'])
  | some c =>
    let body : Py (List Char) := do
      let tcolour ← lookup (upper c)
      let endc ← lookup "ENDC".toList
      pure (tcolour ++ text ++ endc ++ ['\n'])
    match body with
    | .ok out => .ok out
    | .error .key =>
      .ok ("'color' must be one of:\n".toList ++ keysText ++ ['\n'] ++ text ++ ' ' :: c ++ ['\n'])
    | .error e => .error e

/-- `title`, `qmix/misc/terminal.py:57-79`. `//` and `%` by 2 are Lean's `/` and `%` on integers. -/
def title (s : List Char) (color : Option (List Char)) (totalLen : ℤ) : Py (List Char) :=
  let minus_title := totalLen - s.length - 2
  let left := minus_title / 2
  let right := if minus_title % 2 = 0 then minus_title / 2 else minus_title / 2 + 1
  let s' := ' ' :: s ++ [' ']
  cprint (times '*' left ++ s' ++ times '*' right ++ ['\n']) color

/-- `header`, `qmix/misc/terminal.py:82-92`: the rule is printed in the default colour, `'HEADER'`. -/
def header (s : List Char) (color : Option (List Char)) : Py (List Char) := do
  let a ← cprint ('\t' :: s ++ [':']) color
  let b ← cprint ('\t' :: times '-' 50) (some "HEADER".toList)
  pure (a ++ b)

/-- Right alignment to a width (numbers), `'{:7...}'`. -/
def padLeft (n : ℕ) (s : List Char) : List Char := List.replicate (n - s.length) ' ' ++ s

/-- Left alignment to a width (strings), `'{:15s}'`. -/
def padRight (n : ℕ) (s : List Char) : List Char := s ++ List.replicate (n - s.length) ' '

/-- `abs(x)`. -/
def fabs (x : Flt) : Flt := ⟨false, x.mag⟩

/-- `'{:+w.df}'.format(x)`. -/
noncomputable def fmtSigned (w d : ℕ) (x : Flt) : List Char :=
  padLeft w ((if x.neg then '-' else '+') :: decChars d (scaled d x))

/-- A number to be printed: a `float` or a `complex`. -/
inductive Val
  | real (x : Flt)
  | cplx (z : Flt × Flt)

/-- The units as printed by `pvalf`, `qmix/misc/terminal.py:109-110`. -/
def unitsText (units : List Char) : List Char :=
  if units = [] then [] else "\t[".toList ++ units ++ [']']

/-- The comment as printed by `pvalf`, `qmix/misc/terminal.py:111-112`. -/
def commentText (comment : List Char) : List Char :=
  if comment = [] then [] else "  # ".toList ++ comment

open Classical in
/-- `pvalf`, `qmix/misc/terminal.py:97-125`. -/
noncomputable def pvalf (name : List Char) (val : Val) (units comment : List Char)
    (color : Option (List Char)) : Py (List Char) :=
  match val with
  | .cplx (re, im) =>
    let mid := if im.toReal < 0 then " - j".toList else " + j".toList
    cprint ('\t' :: padRight 15 name ++ " = ".toList ++ padLeft 7 (fmtFloat 3 re) ++ mid ++
      padLeft 7 (fmtFloat 3 (fabs im)) ++ padRight 15 (unitsText units) ++ commentText comment) color
  | .real x =>
    cprint ('\t' :: padRight 15 name ++ " = ".toList ++ padLeft 7 (fmtFloat 3 x) ++ '\t' ::
      padRight 15 (unitsText units) ++ commentText comment) color

/-- `pvale`, `qmix/misc/terminal.py:128-149`; `sci` is `'{:7.1e}'.format`. -/
def pvale (sci : Val → List Char) (name : List Char) (val : Val) (units comment : List Char)
    (color : Option (List Char)) : Py (List Char) :=
  let u := if units = [] then [] else
    match val with
    | .cplx _ => "\t[".toList ++ units ++ [']']
    | .real _ => "\t\t[".toList ++ units ++ [']']
  let c := if comment = [] then [] else "\t\t# ".toList ++ comment
  cprint ('\t' :: padRight 15 name ++ " = ".toList ++ sci val ++ padRight 15 u ++ c) color

open Classical in
/-- `printc`, `qmix/misc/terminal.py:184-198` (it returns the text): the imaginary part is formatted
with its own sign after the sign has been printed. -/
noncomputable def printc (z : Flt × Flt) : List Char :=
  let sign := if z.2.toReal ≥ 0 then '+' else '-'
  fmtSigned 6 2 z.1 ++ [' ', sign, ' ', 'j'] ++ padLeft 5 (fmtFloat 2 z.2)

/-- `round(x, d)` for a float and `d ≥ 0` (Python rounds the exact value to the nearest decimal, ties
to even; the final conversion to a double is not modelled). -/
noncomputable def roundTo (d : ℕ) (x : ℝ) : ℝ := roundHalfEven (x * 10 ^ d) / 10 ^ d

/-- `progress_bar`, `qmix/misc/progbar.py:13-35`, for integers `iteration`, `total`, `bar_length` and
`decimals ≥ 0`; `str` is Python's conversion of a float to text. Real arithmetic in the quotients. -/
noncomputable def progressBar (str : ℝ → List Char) (iteration total : ℤ)
    (pre suf : List Char) (decimals : ℕ) (barLength : ℤ) : Py (List Char) :=
  if total = 0 then .error .zeroDiv
  else
    let filled : ℤ := roundHalfEven ((barLength * iteration : ℤ) / (total : ℝ))
    let pcent : ℝ := roundTo decimals (100 * ((iteration : ℝ) / total))
    let pbar := times '-' filled ++ times ' ' (barLength - filled)
    let out := '\r' :: pre ++ " |".toList ++ pbar ++ "| ".toList ++ str pcent ++ '%' :: ' ' :: suf
    .ok (if iteration = total then out ++ ['\n'] else out)

end QMix.Term
