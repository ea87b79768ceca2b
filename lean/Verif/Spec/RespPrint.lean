import Verif.Spec.HbPrint

/-!
# Specification: reports on interpolations, and curves in figures

Nothing here refers to the model of the code.
-/

namespace QMix.Spec

/-- The text stands for `x` to `d + 1` digits in the notation `1.2345E-03`. -/
def Sci (t : List Char) (x : ℝ) (d : ℕ) : Prop :=
  ∃ a sg ds m, ∃ e : ℤ, t = a ++ 'E' :: sg :: ds ∧ numeral a = some m ∧ 2 ≤ ds.length ∧ ds.all digit = true ∧
    (sg = '+' ∧ e = digitsNum ds ∨ sg = '-' ∧ e = -(digitsNum ds : ℤ)) ∧
    |m - x / 10 ^ e| ≤ 5 / 10 ^ (d + 1) ∧ (1 ≤ |m| ∧ |m| < 10 ∨ x = 0 ∧ m = 0 ∧ e = 0)

open Classical in
/-- The errors of a curve `f` at the data `(v, i)` with voltages of a size less than `c`: pairs of a voltage and an error. -/
noncomputable def deviations (c : ℝ) (v i : List ℝ) (f : ℝ → ℝ) : List (ℝ × ℝ) :=
  ((v.zip i).filter fun q => |q.1| < c).map fun q => (q.1, q.2 - f q.1)

/-- The four lines about one curve that is interpolated at `n` points; the pairs are voltages and the errors there. -/
def CurveLines (L : List (List Char)) (title count : String) (n : ℕ) (pairs : List (ℝ × ℝ)) : Prop :=
  ∃ a b c d v m, L = [title.toList, count.toList ++ a, "\t\t- avg. error: ".toList ++ b,
      "\t\t- max. error: ".toList ++ c ++ " at v=".toList ++ d] ∧
    Count a n ∧ Sci b ((pairs.map fun q => |q.2|).sum / pairs.length) 4 ∧ Shows c m 4 ∧ Shows d v 2 ∧
    (v, m) ∈ pairs ∧ ∀ q ∈ pairs, q.2 ≤ m

end QMix.Spec
