import Verif.Spec.Binary64

/-!
# Matching of frequencies in double precision

`qtcurrent` rounds the requested frequencies and the mixing frequencies to four decimals and compares the results. `round` is Python's own
for a Python float and NumPy's for a NumPy float, and the two are different functions.
-/

namespace QMix.FreqRound

open QMix.Spec

/-- `round(x, 4)` of a Python float: the decimal number with four places that is nearest to the exact value of `x`, as a float
(`qmix/qtcurrent.py:90` for Python floats). Simplification: exponents are not bounded. -/
noncomputable def pyRound (x : ℝ) : ℝ := fl (round4 x)

/-- `round(x, 4)` of a NumPy float (since NumPy 1.19): `rint(x * 10000.) / 10000.`, every operation rounded
(`qmix/qtcurrent.py:90`, `470`; `qmix/harmonic_balance.py:395`). Simplification: exponents are not bounded. -/
noncomputable def npRound (x : ℝ) : ℝ := fl ((roundHalfEven (fl (x * 10 ^ 4)) : ℝ) / 10 ^ 4)

/-- A float that remembers its type: Python's or NumPy's. -/
inductive PFloat
  | py (x : ℝ)
  | np (x : ℝ)

/-- `round(x, ROUND_FREQ)`. The result has the type of the argument. -/
noncomputable def PFloat.round : PFloat → PFloat
  | .py x => .py (pyRound x)
  | .np x => .np (npRound x)

/-- The number, as `==` compares it. -/
def PFloat.val : PFloat → ℝ
  | .py x => x
  | .np x => x

/-- The request as `qtcurrent` prepares it, `qmix/qtcurrent.py:81-90`: `freq_list = [float(freq_list)]` for a scalar makes a Python float
of it, the entries of a list keep their type; then each is rounded. -/
noncomputable def prepare (isList : Bool) (x : PFloat) : PFloat :=
  if isList then x.round else (PFloat.py x.val).round

/-- `a * freq[1] + b * freq[2] + ...`, `qmix/qtcurrent.py:470`, `548`, `643`, `768`: products and sums from left to right, each rounded. -/
noncomputable def mixFreq : List ℝ → List ℤ → ℝ
  | f :: fs, k :: ks => (fs.zip ks).foldl (fun s x => fl (s + fl (x.2 * x.1))) (fl (k * f))
  | _, _ => 0

/-- The comparison that decides whether a product of orders is added to the current, `qmix/qtcurrent.py:465-472`, `542-550`, `636-645`,
`760-770`: `freq_out` is rounded again, and the sum is a NumPy float because `freq` is an array. To be used for `hit` in `Rnd.qtcurrent`. -/
noncomputable def hit (freqs : List ℝ) (out : PFloat) (ks : List ℤ) : Prop := npRound (mixFreq freqs ks) = out.round.val

/-- The requests of the harmonic balance for one tone, `qmix/harmonic_balance.py:392-395`: `round(cct.freq[ft] * pt, ROUND_FREQ)` with a
NumPy float. -/
noncomputable def hbRequest (freq : ℝ) (p : ℕ) : PFloat := (PFloat.np (fl (freq * p))).round

end QMix.FreqRound
