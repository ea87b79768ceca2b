import Verif.Props.HbPrint2
import Verif.Props.MaxPower
import Verif.Props.RespFn
import Verif.Props.Tucker
import Verif.Props.Options
import Verif.Props.MathFn
import Verif.Props.Terminal
import Verif.Props.CircuitCut

/-!
# Concrete cases, continued

Cases that meet the hypotheses of theorems which have no example next to them.
-/

namespace QMix.Witnesses

open QMix Np Fl

/-! ## C32, C141, C128: runs of harmonic balance -/

section
open HB Qt Spec Props

/-- A run that meets the target at once returns the voltage and leaves the circuit as it was. -/
example (zj : ℂ) : ∃ run, harmonicBalance (cct1 1) (fun _ => 0) (.int 1) 10 0.001 (some (volt1 1)) 1 .x zj = .ok run ∧
    run.cct.vt 1 1 = 1 ∧ run.vjInit = some (volt1 1) := by
  obtain ⟨run, h, hc, -, s, hs, -, hu⟩ := cct1_run_target 1 1 1 (cct1_clamp 1 (by simp)) one_ne_zero 0.001 1 10 (by norm_num)
    (by norm_num) (by norm_num) zj
  obtain ⟨-, -, -, h4⟩ := C32_inputs_unchanged_partial _ _ _ _ _ _ _ _ _ _ h
  refine ⟨run, h, ?_, h4 fun s' hs' => ?_⟩
  · rw [hc]
    exact cct1_clamp 1 (by simp)
  · rw [hs] at hs'
    cases hs'
    exact hu

/-- A run that meets the target at once prints nothing with `verbose=False`. -/
example (str : ℝ → List Char) (hstr : ∀ x, '\n' ∉ str x) (clock : HbPrint.Clock) (zj : ℂ) : ∃ run out,
    HbPrint.harmonicBalance false str clock (cct1 1) (fun _ => 0) (.int 1) 10 0.001 (some (volt1 1)) 1 .x zj = .ok (run, out) ∧
    Spec.linesOf out = [] := by
  obtain ⟨run, h, -, -, s, hs, ht, -⟩ := cct1_run_target 1 1 1 (cct1_clamp 1 (by simp)) one_ne_zero 0.001 1 10 (by norm_num)
    (by norm_num) (by norm_num) zj
  have hm := HbPrint.C128_same_result hstr false clock (cct1 1) le_rfl le_rfl (fun _ => 0) (.int 1) 10 0.001 (some (volt1 1)) 1 .x zj
  rw [h] at hm
  cases hq : HbPrint.harmonicBalance false str clock (cct1 1) (fun _ => 0) (.int 1) 10 0.001 (some (volt1 1)) 1 .x zj with
  | error e => rw [hq] at hm; cases hm
  | ok q =>
    rw [hq] at hm
    have e : q.1 = run := by simpa [Except.map] using hm
    refine ⟨q.1, q.2, rfl, ?_⟩
    rw [HbPrint.C128_quiet_partial hstr clock _ _ _ _ _ _ _ _ _ q.1 q.2 hq, if_neg]
    rintro ⟨s', hs', hl⟩
    rw [e, hs] at hs'
    cases hs'
    rw [ht] at hl
    cases hl

end

/-! ## C39: the line -/

section
open RespFn

/-- The bound on the number of points that are kept of the line, for a limit of 101. -/
example : ∃ r, sampleCurve (reflected line) (reflected line) 101 0.25 = .ok r ∧ (r.length : ℝ) ≤
    101 + ((reflected line).getD ((reflected line).length - 1) 0 - (reflected line).getD 0 0)
      + ((reflected line).filter fun v => |v| < 0.05 ∨ |v - 1| < 0.1 ∨ |v + 1| < 0.1).length + 87 := by
  obtain ⟨r, hr⟩ := line_sample 0.25 30 (by norm_num) (by norm_num) (by norm_num) 101
  refine ⟨r, hr, C39_limit_partial (by norm_num) ?_ hr⟩
  unfold line
  exact grid_sorted (by norm_num)

end

/-! ## C26: the tone itself -/

section
open Qt Spec Props Complex

/-- The current at the tone, for a voltage of twice the photon voltage. -/
example (resp : ℝ → ℂ) : ∃ r,
    qtcurrentList (fun _ _ _ => ((2 * 0.3 : ℝ) : ℂ)) { demo with numF := 1, numP := 1 } resp [0.3] (.int 5) none = .ok [r] := by
  have h := C26_ac (fun _ _ _ => ((2 * 0.3 : ℝ) : ℂ)) { demo with numF := 1, numP := 1 } resp (.int 5) 5
    (fun _ => 2) (demo_one_valid 5) rfl rfl rfl (by norm_num [demo]) (fun i => by
      rw [norm_real, Real.norm_of_nonneg (by norm_num)]
      simp [demo])
  exact ⟨_, by simpa [demo] using h⟩

end

/-! ## C09, C10: the demonstration file -/

section
open Props IO

/-- The file that is written of the circuit that was read is the file that was read. -/
example : ∃ text c', save fileDemo = .ok text ∧ read fixedFormat text = .ok c' ∧ save c' = .ok text := by
  obtain ⟨text, c', h1, h2, -⟩ := C09_read_back fixedFormat fileDemo fileDemo_ok
  exact ⟨text, c', h1, h2, (C10_idempotent fixedFormat fileDemo fileDemo_ok h1 h2).1⟩

/-- A number that is written with four decimals. -/
example {x : IO.Flt} (hx : x.mag ∈ fixedFormat.mags) : ∃ y, ReadBack fixedFormat 4 x y ∧ |y.toReal - x.toReal| ≤ 1 / 10 ^ 4 :=
  ⟨_, rd_readBack fixedFormat 4 hx, (C09_error (rd_readBack fixedFormat 4 hx) hx).1⟩

end

/-! ## C44, C62, C108 -/

example : ∃ i, MathFn.perfect (.flt 1) = .num i ∧ i = 1 / 2 := by
  obtain ⟨⟨i, h, -, -, -, h1, -⟩, -⟩ := Props.C44_perfect_partial 1
  exact ⟨i, h, h1 rfl⟩

section
open Opt Exp

/-- The range of the fit given by the two cuts. -/
noncomputable def cuts : Dict := setKey (setKey (setKey PARAMS "fit_range" .none) "cut_low" (.num 0.25)) "cut_high" (.num 0.2)

example : ∃ o, zembOpts PARAMS cuts = .ok o ∧ Zemb.fitPoints o 0.5 [0.4, 0.7, 0.95] [1, 2, 3] =
    IvData.masked ([0.4, 0.7, 0.95].map fun v : ℝ => decide (1 - 0.5 + 0.5 * 0.25 ≤ v ∧ v ≤ 1 - 0.5 * 0.2)) [0.4, 0.7, 0.95] [1, 2, 3] := by
  have ho : ∃ o, zembOpts PARAMS cuts = .ok o := ⟨_, rfl⟩
  obtain ⟨o, ho⟩ := ho
  exact ⟨o, ho, C62_cut_partial PARAMS cuts (.num 0.25) (.num 0.2) 0.25 0.2 0.5 o rfl rfl rfl rfl rfl ho _ _⟩

end

/-- Without elements to count there is no bar. -/
example (str : ℝ → List Char) : ∃ e, Term.progressBar str 3 0 "a".toList "b".toList 1 20 = .error e :=
  (Term.C108_zero str _ _ 1 20 3 0).2 rfl

end QMix.Witnesses
