import Verif.Model.RespFn
import Verif.Spec.Binary64

/-!
# The voltages of the I-V models in double precision

`int(1 / VSTEP)` truncates a rounded quotient, and the perfect I-V curve tests for the gap voltage: neither may be upset by the rounding of
0.005.
-/

namespace QMix.Props

open QMix.Spec QMix.RespFn

/-- A number between `2 ^ e` and `2 ^ (e + 1)` is rounded to the multiple of `2 ^ (e - 52)` that is nearer than half of this. -/
theorem fl_eq {x : ℝ} (e : ℤ) (n : ℤ) (h1 : (2 : ℝ) ^ e ≤ x) (h2 : x < 2 ^ (e + 1)) (h3 : |x / 2 ^ (e - 52) - n| < 1 / 2) :
    fl x = n * 2 ^ (e - 52) := by
  have hx : 0 < x := lt_of_lt_of_le (by positivity) h1
  have hlog : Int.log 2 |x| = e := by
    rw [abs_of_pos hx]
    have a := (Int.zpow_le_iff_le_log (b := 2) (R := ℝ) (x := e) (by norm_num) hx).1 (by exact_mod_cast h1)
    have b := (Int.lt_zpow_iff_log_lt (b := 2) (R := ℝ) (x := e + 1) (by norm_num) hx).1 (by exact_mod_cast h2)
    omega
  have hu : ulp x = 2 ^ (e - 52) := by
    unfold ulp
    rw [hlog]
  unfold fl
  rw [hu]
  have h4 := abs_roundHalfEven_sub_le (x / 2 ^ (e - 52))
  have h5 : |((roundHalfEven (x / 2 ^ (e - 52)) - n : ℤ) : ℝ)| < 1 := by
    have := abs_add_le ((roundHalfEven (x / 2 ^ (e - 52)) : ℝ) - x / 2 ^ (e - 52)) (x / 2 ^ (e - 52) - n)
    rw [sub_add_sub_cancel] at this
    push_cast
    linarith
  have h6 : |roundHalfEven (x / 2 ^ (e - 52)) - n| < 1 := by exact_mod_cast h5
  have h7 : roundHalfEven (x / 2 ^ (e - 52)) = n := by
    rw [abs_lt] at h6
    omega
  rw [h7]

/-- `VSTEP`, `qmix/respfn.py:111-112`: the second point of `np.linspace` is the rounded quotient. -/
theorem step_double : fl (35 / 7000) = 5764607523034235 * 2 ^ (-60 : ℤ) := by
  have := fl_eq (x := 35 / 7000) (-8) 5764607523034235 (by norm_num) (by norm_num) (by norm_num [abs_lt])
  rw [this]
  norm_num

/-- C38. The number of steps `int(1 / VSTEP)` and the spacing `int(1 / VSTEP / 10)` of the additional samples are 200 and 20 in double
precision as well. -/
theorem C38_steps : ⌊fl (1 / fl (35 / 7000))⌋ = NSTEP ∧ ⌊fl (fl (1 / fl (35 / 7000)) / 10)⌋ = 20 := by
  have h1 : fl (1 / fl (35 / 7000)) = 200 := by
    rw [step_double]
    have := fl_eq (x := 1 / (5764607523034235 * 2 ^ (-60 : ℤ))) 7 (200 * 2 ^ 45) (by norm_num) (by norm_num) (by norm_num [abs_lt])
    rw [this]
    norm_num
  have h2 : fl (200 / 10) = 20 := by
    have := fl_eq (x := 200 / 10) 4 (20 * 2 ^ 48) (by norm_num) (by norm_num) (by norm_num [abs_lt])
    rw [this]
    norm_num
  rw [h1, h2]
  refine ⟨?_, ?_⟩
  · rw [show (200 : ℝ) = ((200 : ℤ) : ℝ) by norm_num, Int.floor_intCast]
    rfl
  · rw [show (20 : ℝ) = ((20 : ℤ) : ℝ) by norm_num, Int.floor_intCast]

/-- C44. The gap voltage is one of the voltages of the I-V models in double precision: `200 * VSTEP` is rounded to 1. -/
theorem C44_gap_sampled : fl (200 * fl (35 / 7000)) = 1 := by
  rw [step_double]
  have := fl_eq (x := 200 * (5764607523034235 * 2 ^ (-60 : ℤ))) 0 (2 ^ 52) (by norm_num) (by norm_num) (by norm_num [abs_lt])
  rw [this]
  norm_num

end QMix.Props
