import Verif.Py.Basic
import Mathlib.Data.Set.Basic

/-!
# Model of saving and reading an embedding circuit

`EmbeddingCircuit.save_info` and `read_circuit` of `qmix/circuit.py`, character by character. A text
file is a list of characters.

A finite binary floating-point number is a sign and a magnitude, so that `-0.0` exists. The set of
magnitudes and the rounding of decimal strings to the nearest of them are parameters (`FloatFormat`):
nothing below depends on the precision or the exponent range.
-/

namespace QMix.IO

/-- A finite floating-point number: sign bit and magnitude. -/
structure Flt where
  neg : Bool
  mag : ℝ

/-- The real number it stands for. -/
def Flt.toReal (x : Flt) : ℝ := if x.neg then -x.mag else x.mag

/-- A floating-point format: the representable magnitudes and a rounding to a nearest one (which of
two equally near ones is left open). -/
structure FloatFormat where
  mags : Set ℝ
  nonneg : ∀ x ∈ mags, 0 ≤ x
  zero : (0 : ℝ) ∈ mags
  rnd : ℝ → ℝ
  rnd_mem : ∀ x, rnd x ∈ mags
  nearest : ∀ x, 0 ≤ x → ∀ y ∈ mags, |rnd x - x| ≤ |y - x|

/-- The part of an `EmbeddingCircuit` that is written to a file, `qmix/circuit.py:210-213,237-240`.
An entry of `vt` or `zt` is a pair of real and imaginary part. -/
structure Circuit where
  numF : ℕ
  numP : ℕ
  freq : List Flt
  vt : List (List (Flt × Flt))
  zt : List (List (Flt × Flt))

/-- A two-dimensional array read, `a[f, p]`. -/
def get2 {α : Type} (a : List (List α)) (f p : ℤ) : Py α := do
  let row ← pyGet a f
  pyGet row p

/-- A two-dimensional array write, `a[f, p] = x`. -/
def set2 {α : Type} (a : List (List α)) (f p : ℤ) (x : α) : Py (List (List α)) := do
  let row ← pyGet a f
  let row' ← pySet row p x
  pySet a f row'

/-! ## Formatting -/

/-- The character of a decimal digit. -/
def digitChar (d : ℕ) : Char := Char.ofNat (48 + d)

/-- `str(n)` for a natural number. -/
def natChars (n : ℕ) : List Char :=
  if n < 10 then [digitChar n] else natChars (n / 10) ++ [digitChar (n % 10)]

/-- The last `d` decimal digits of `m`. -/
def fixChars : ℕ → ℕ → List Char
  | 0, _ => []
  | d + 1, m => fixChars d (m / 10) ++ [digitChar (m % 10)]

/-- The digits that `'{:.df}'` prints: the magnitude in units of `10^-d`,
    rounded half to even (Python
formats the exact value of the double). -/
noncomputable def scaled (d : ℕ) (x : Flt) : ℕ := (roundHalfEven (x.mag * 10 ^ d)).toNat

/-- Unsigned decimal notation of `m / 10^d`. -/
def decChars (d m : ℕ) : List Char := natChars (m / 10 ^ d) ++ '.' :: fixChars d (m % 10 ^ d)

/-- `'{:.df}'.format(x)`; the sign bit is printed also for zero. -/
noncomputable def fmtFloat (d : ℕ) (x : Flt) : List Char :=
  (if x.neg then ['-'] else []) ++ decChars d (scaled d x)

/-- `'{:.df}'.format(z)` for a complex number: the imaginary part with explicit sign. -/
noncomputable def fmtComplex (d : ℕ) (z : Flt × Flt) : List Char :=
  fmtFloat d z.1 ++ (if z.2.neg then '-' else '+') :: decChars d (scaled d z.2) ++ ['j']

/-- The first line of a signal, `str1` of `save_info`, `qmix/circuit.py:527`. -/
noncomputable def line1 (f p : ℕ) (freq : Flt) : List Char :=
  [' ', ' ', ' ', 'f', '='] ++ natChars f ++ [',', ' ', 'p', '='] ++ natChars p ++ ['\t', '\t',
      '\t', 'f', 'r', 'e', 'q', ' ', '=', ' '] ++
    fmtFloat 4 freq ++ [' ', 'x', ' '] ++ natChars p ++ ['\n']

/-- `str2`, `qmix/circuit.py:528`. -/
noncomputable def line2 (vt : Flt × Flt) : List Char :=
  ['\t', 'T', 'h', 'e', 'v', '.', ' ', 'v', 'o', 'l', 't', 'a', 'g', 'e', ':', '\t',
      '\t'] ++ fmtComplex 4 vt ++ [' ', 'V', ' ', '/', ' ', 'V', '_', 'g', 'a', 'p', '\n']

/-- `str3`, `qmix/circuit.py:529`. -/
noncomputable def line3 (zt : Flt × Flt) : List Char :=
  ['\t', 'T', 'h', 'e', 'v', '.', ' ', 'i', 'm', 'p', 'e', 'd', 'a', 'n', 'c', 'e', ':',
      '\t'] ++ fmtComplex 2 zt ++ [' ', 'o', 'h', 'm', 's', ' ', '/', ' ', 'R', '_', 'N', '\n']

/-- `save_info`, `qmix/circuit.py:516-543`: the text written to the file. -/
noncomputable def save (c : Circuit) : Py (List Char) :=
  let head := ['E', 'm', 'b', 'e', 'd', 'd', 'i', 'n', 'g', ' ', 'C', 'i', 'r', 'c', 'u', 'i',
      't', ':', '\n'] ++
    (['\t', 'N', 'u', 'm', 'b', 'e', 'r', ' ', 'o', 'f', ' ', 't', 'o', 'n', 'e', 's', ':', ' ',
        ' ', ' ', ' ', ' '] ++ natChars c.numF ++ ['\n']) ++
    (['\t', 'N', 'u', 'm', 'b', 'e', 'r', ' ', 'o', 'f', ' ', 'h', 'a', 'r', 'm', 'o', 'n', 'i',
        'c', 's', ':', ' '] ++ natChars c.numP ++ ['\n'])
  pyFor (pyRange 1 (c.numF + 1)) head fun out f =>
    pyFor (pyRange 1 (c.numP + 1)) out fun out p => do
      let freq ← pyGet c.freq f
      let vt ← get2 c.vt f p
      let zt ← get2 c.zt f p
      pure (out ++ line1 f.toNat p.toNat freq ++ line2 vt ++ line3 zt)

/-! ## Parsing -/

/-- `str.isspace` on ASCII characters. -/
def isSpace (c : Char) : Bool :=
  c = ' ' || (9 ≤ c.toNat && c.toNat ≤ 13) || (28 ≤ c.toNat && c.toNat ≤ 31)

/-- ASCII digits (`\d` and `float` also accept other Unicode digits). -/
def isDigit (c : Char) : Bool := 48 ≤ c.toNat && c.toNat ≤ 57

/-- `str.split()`; `cur` is the word being collected. -/
def wordsAux : List Char → List Char → List (List Char)
  | cur, [] => if cur = [] then [] else [cur]
  | cur, c :: cs =>
    if isSpace c then
      if cur = [] then wordsAux [] cs else cur :: wordsAux [] cs
    else wordsAux (cur ++ [c]) cs

/-- `line.split()`. -/
def words (l : List Char) : List (List Char) := wordsAux [] l

/-- `fin.readlines()` (newline translation aside); `cur` is the line being collected. -/
def linesAux : List Char → List Char → List (List Char)
  | cur, [] => if cur = [] then [] else [cur]
  | cur, c :: cs => if c = '\n' then (cur ++ [c]) :: linesAux [] cs else linesAux (cur ++ [c]) cs

/-- `fin.readlines()`. -/
def lines (l : List Char) : List (List Char) := linesAux [] l

/-- Value of a list of decimal digits. -/
def digitsVal (l : List Char) : ℕ := l.foldl (fun a c => 10 * a + (c.toNat - 48)) 0

/-- `int(s)` for a string of digits; signs, blanks and underscores, which `save_info` never writes,
are refused here. -/
def parseInt (l : List Char) : Py ℤ :=
  if l ≠ [] ∧ l.all isDigit then .ok (digitsVal l) else .error .value

/-- `re.search(r'\d+', s).group()`; no match is `None.group`, an `AttributeError`. -/
def searchDigits (l : List Char) : Py (List Char) :=
  let ds := (l.dropWhile fun c => !isDigit c).takeWhile isDigit
  if ds = [] then .error .attribute else .ok ds

/-- The longest prefix that is a decimal number without exponent: sign, value and rest. Exponents,
`inf`, `nan` and underscores, which `save_info` never writes, are not read. -/
noncomputable def scanFloat (F : FloatFormat) (l : List Char) : Py (Flt × List Char) :=
  let body := if l.head? = some '-' ∨ l.head? = some '+' then l.tail else l
  let ds := body.takeWhile isDigit
  let r := body.dropWhile isDigit
  let fs := if r.head? = some '.' then r.tail.takeWhile isDigit else []
  let rest := if r.head? = some '.' then r.tail.dropWhile isDigit else r
  if ds = [] ∧ fs = [] then .error .value
  else .ok (⟨l.head? = some '-', F.rnd ((digitsVal (ds ++ fs) : ℝ) / 10 ^ fs.length)⟩, rest)

/-- `float(s)`. -/
noncomputable def parseFloat (F : FloatFormat) (l : List Char) : Py Flt := do
  let r ← scanFloat F l
  if r.2 = [] then pure r.1 else throw .value

/-- The zero of the format. -/
def zeroFlt : Flt := ⟨false, 0⟩

/-- `complex(s)` for a string with both parts, `a±bj`, or with one of them, `a` or `bj`. (Brackets, an imaginary part without digits
and a capital `J` are never written by `save_info` and are refused here.) -/
noncomputable def parseComplex (F : FloatFormat) (l : List Char) : Py (Flt × Flt) := do
  let re ← scanFloat F l
  if re.2 = [] then pure (re.1, zeroFlt)
  else if re.2 = ['j'] then pure (zeroFlt, re.1)
  else if re.2.head? = some '+' ∨ re.2.head? = some '-' then do
    let im ← scanFloat F re.2
    if im.2 = ['j'] then pure (re.1, im.1) else throw .value
  else throw .value

/-- The constructor as called by `read_circuit`,
    `qmix/circuit.py:197-249` (only the saved fields). -/
def new (numF numP : ℤ) : Py Circuit := do
  pyAssert (numF = 1 ∨ numF = 2 ∨ numF = 3 ∨ numF = 4)
  pyAssert (numP ≥ 1)
  let nf := numF.toNat
  let np := numP.toNat
  pure
    { numF := nf, numP := np
      freq := List.replicate (nf + 1) zeroFlt
      vt := List.replicate (nf + 1) (List.replicate (np + 1) (zeroFlt, zeroFlt))
      zt := List.replicate (nf + 1) (List.replicate (np + 1) (zeroFlt, zeroFlt)) }

/-- One iteration of the loop of `read_circuit`, `qmix/circuit.py:606-616`. -/
noncomputable def readStep (F : FloatFormat) (data : List (List Char)) (c : Circuit) (i : ℤ) :
    Py Circuit := do
  let line ← pyGet data i
  let split_line := words line
  let w0 ← pyGet split_line 0
  let ch ← pyGet w0 0
  if ch = 'f' then do
    let sf ← searchDigits w0
    let f ← parseInt sf
    let w1 ← pyGet split_line 1
    let sp ← searchDigits w1
    let p ← parseInt sp
    let w4 ← pyGet split_line 4
    let freq ← parseFloat F w4
    let l2 ← pyGet data (i + 1)
    let wv ← pyGet (words l2) 2
    let vt ← parseComplex F wv
    let l3 ← pyGet data (i + 2)
    let wz ← pyGet (words l3) 2
    let zt ← parseComplex F wz
    let freq' ← pySet c.freq f freq
    let vt' ← set2 c.vt f p vt
    let zt' ← set2 c.zt f p zt
    pure { c with freq := freq', vt := vt', zt := zt' }
  else pure c

/-- `read_circuit`, `qmix/circuit.py:581-618`. -/
noncomputable def read (F : FloatFormat) (file : List Char) : Py Circuit := do
  let data := lines file
  let l1 ← pyGet data 1
  let wf ← pyGet (words l1) (-1)
  let num_f ← parseInt wf
  let l2 ← pyGet data 2
  let wp ← pyGet (words l2) (-1)
  let num_p ← parseInt wp
  let cct ← new num_f num_p
  let data' := data.drop 3
  pyFor (pyRange 0 data'.length) cct (readStep F data')

end QMix.IO
