import Mathlib.Data.Int.Log
import Verif.Model.Terminal

/-!
# The exponent format of `pvale`

`'{:7.1e}'.format` for finite numbers, real and complex, as used by `pvale` of `qmix/misc/terminal.py:128-149`.
-/

namespace QMix.Term

open QMix.IO

open Classical in
/-- The exponent: the place of the first digit, one more if rounding to `d` decimals gives ten. -/
noncomputable def expoOf (d : ℕ) (X : ℝ) : ℤ :=
  let e := if X = 0 then 0 else Int.log 10 X
  if roundHalfEven (X / 10 ^ e * 10 ^ d) = 10 ^ (d + 1) then e + 1 else e

/-- The exponent part: a sign and at least two digits. -/
def expoText (e : ℤ) : List Char :=
  'e' :: (if e < 0 then '-' else '+') :: ((if e.natAbs < 10 then ['0'] else []) ++ natChars e.natAbs)

/-- `'{:.de}'.format(x)`. -/
noncomputable def fmtExp (d : ℕ) (x : Flt) : List Char :=
  fmtFloat d ⟨x.neg, x.mag / 10 ^ expoOf d x.mag⟩ ++ expoText (expoOf d x.mag)

/-- `'{:+.de}'.format(x)`. -/
noncomputable def fmtExpSigned (d : ℕ) (x : Flt) : List Char :=
  fmtSigned 0 d ⟨x.neg, x.mag / 10 ^ expoOf d x.mag⟩ ++ expoText (expoOf d x.mag)

/-- `'{:7.1e}'.format(val)`: a complex number is the real part, the imaginary part with its sign, and `j`. -/
noncomputable def exp7 : Val → List Char
  | .real x => padLeft 7 (fmtExp 1 x)
  | .cplx z => padLeft 7 (fmtExp 1 z.1 ++ fmtExpSigned 1 z.2 ++ ['j'])

end QMix.Term
