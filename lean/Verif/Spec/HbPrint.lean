import Verif.Spec.Table
import Mathlib.Analysis.Complex.Norm
import Mathlib.Data.EReal.Operations
import Mathlib.Data.EReal.Inv

/-!
# Specification: what a report on the accuracy of a solution says

Relative errors are numbers, infinite, or undefined (`none`). Nothing here refers to the model of the code.
-/

namespace QMix.Spec

open Classical in
/-- The relative error of an equation with unknown `v` that is violated by `err`. -/
noncomputable def relError (err v : ℂ) : Option EReal :=
  if v = 0 then if err = 0 then none else some ⊤ else some ((‖err‖ / ‖v‖ : ℝ) : EReal)

open Classical in
/-- The median: halfway between the least number that at least half of the values do not exceed and the greatest number that at
least half of the values reach. -/
def IsMedian (l : List EReal) (m : EReal) : Prop :=
  ∃ lo hi, IsLeast {x | l.length ≤ 2 * l.countP fun y => decide (y ≤ x)} lo ∧
    IsGreatest {x | l.length ≤ 2 * l.countP fun y => decide (x ≤ y)} hi ∧ m = (lo + hi) / 2

/-- The text is the number in decimal notation. -/
def Count (t : List Char) (n : ℤ) : Prop :=
  ∃ sg ds, t = sg ++ ds ∧ ds ≠ [] ∧ ds.all digit = true ∧ (sg = [] ∧ (digitsNum ds : ℤ) = n ∨ sg = ['-'] ∧ -(digitsNum ds : ℤ) = n)

/-- The text is the number to three decimals, or 99999.999 if it is greater, or `nan`. -/
def Displays (t : List Char) : Option EReal → Prop
  | none => t.dropWhile (· == ' ') = "nan".toList
  | some x => Shows t (min x (99999.999 : ℝ)).toReal 3

open Classical in
/-- The line about one signal, tone `f` and harmonic `p`: the median and the greatest of the relative errors `x`, and how many per
cent of them are less than `stop`. -/
def SignalLine {N : ℕ} (t : List Char) (f p : ℕ) (x : Fin N → Option EReal) (stop : ℝ) : Prop :=
  ∃ a b c d e med mx, fields t = ["\tf:".toList ++ a, "p:".toList ++ b, "med. rel. error: ".toList ++ c,
      "max. rel. error: ".toList ++ d, e ++ " % complete".toList] ∧
    Count a f ∧ Count b p ∧ Displays c med ∧ Displays d mx ∧
    Shows e (100 * ((Finset.univ.filter fun i => ∃ y, x i = some y ∧ y < stop).card : ℝ) / N) 1 ∧
    ((∃ i, x i = none) → med = none ∧ mx = none) ∧
    ((∀ i, x i ≠ none) → ∃ y : Fin N → EReal, (∀ i, x i = some (y i)) ∧
      (∃ m, med = some m ∧ IsMedian (List.ofFn y) m) ∧ ∃ m, mx = some m ∧ IsGreatest (Set.range y) m)

/-- A duration in seconds, minutes and hours. -/
def TimeText (t : List Char) (x : ℝ) : Prop :=
  ∃ a b c, t = a ++ " s / ".toList ++ b ++ " min / ".toList ++ c ++ " hrs".toList ∧
    Shows a x 2 ∧ Shows b (x / 60) 2 ∧ Shows c (x / 3600) 2

/-- The lines about the errors after `j` corrections, for `F` tones with `P` harmonics each, and about the next correction if there is
one (the progress bar is overwritten until it is full). -/
def PassLines {N : ℕ} (L : List (List Char)) (j F P : ℕ) (x : ℕ → ℕ → Fin N → Option EReal) (stop : ℝ) (next : Prop) : Prop :=
  ∃ a R C, L = ("Error after ".toList ++ a ++ " iteration(s):".toList) :: R ++ C ∧ Count a j ∧ R.length = F * P ∧
    (∀ f p, 1 ≤ f → f ≤ F → 1 ≤ p → p ≤ P → ∃ t, R[(f - 1) * P + (p - 1)]? = some t ∧ SignalLine t f p (x f p) stop) ∧
    (next → ∃ pre pct, C = [pre ++ "\rCalculating inverse Jacobian |--------------------| ".toList ++ pct ++ "% Complete".toList,
      "Applying correction".toList]) ∧ (¬ next → C = [])

/-- The lines about the problem. -/
def Opening (L : List (List Char)) (F P : ℕ) (maxIt : ℤ) : Prop :=
  ∃ a b c d, L = ["Running harmonic balance:".toList, " - ".toList ++ a ++ " tone(s) and ".toList ++ b ++ " harmonic(s)".toList,
      " - ".toList ++ c ++ " calls to the quasiparticle tunneling current (qtc) function per iteration".toList,
      " - max. iterations: ".toList ++ d] ∧
    Count a F ∧ Count b P ∧ Count c ((2 * (F * P) + 1 : ℕ) : ℤ) ∧ Count d maxIt

/-- The lines with the estimated times, if one evaluation of the current takes `call`. -/
def Estimate (L : List (List Char)) (F P : ℕ) (maxIt : ℤ) (call : ℝ) : Prop :=
  ∃ a b c, L = ["Estimated time:".toList, " - time per qtc call:  ".toList ++ a, " - time per iteration: ".toList ++ b,
      " - max sim time:       ".toList ++ c] ∧
    TimeText a call ∧ TimeText b (call * (2 * (F * P) + 1)) ∧ TimeText c (call * (2 * (F * P) + 1) * maxIt)

/-- The lines in the end: the duration, and the number of iterations unless it is 0. -/
def Closing (L : List (List Char)) (it : ℕ) (total : ℝ) : Prop :=
  ∃ a L', L = (" - sim time:\t\t".toList ++ a) :: L' ∧ TimeText a total ∧ (it = 0 → L' = []) ∧
    (1 ≤ it → ∃ b c, L' = [" - ".toList ++ b ++ " iterations required".toList, " - time per iteration:\t".toList ++ c] ∧
      Count b it ∧ TimeText c (total / it))

/-- The line of a check of one signal, tone `f` and harmonic `p`: the greatest of the relative errors `x` in the format `sci`, and the
verdict. -/
def CheckLine {N : ℕ} (sci : Option EReal → List Char) (t : List Char) (f p : ℕ) (x : Fin N → Option EReal) (answer : List Char) : Prop :=
  ∃ a b mx, t = "\tf:".toList ++ a ++ ",\tp:".toList ++ b ++ ",\tmax rel. error: ".toList ++ sci mx ++ ",\tPass? ".toList ++ answer ∧
    Count a f ∧ Count b p ∧ ((∃ i, x i = none) → mx = none) ∧
    ((∀ i, x i ≠ none) → ∃ m, mx = some m ∧ IsGreatest {y | ∃ i, x i = some y} m)

/-- All relative errors are defined and less than `stop`. -/
def Passes {N : ℕ} (x : Fin N → Option EReal) (stop : ℝ) : Prop := ∀ i, ∃ y, x i = some y ∧ y < stop

end QMix.Spec
