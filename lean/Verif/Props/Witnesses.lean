import Verif.Props.CleanData
import Verif.Props.IfResponse
import Verif.Props.IfData
import Verif.Props.KkTrans
import Verif.Props.MathFn
import Verif.Props.Classical
import Verif.Props.Options
import Verif.Props.Report
import Verif.Props.Terminal
import Verif.Props.Tucker
import Verif.Props.ZembRec
import Verif.Props.DcOnly
import Verif.Props.RespPrint
import Verif.Props.SeparateTone
import Verif.Props.GaussFp
import Verif.Props.Results

/-!
# Concrete cases

Cases that meet the hypotheses of theorems which have no example next to them.
-/

namespace QMix.Witnesses

open QMix Np Fl Clean

/-! ## C51, C79, C58: tables of numbers -/

/-- A table with two columns and a repeated voltage. -/
noncomputable def table : Mat := ⟨2, [[num 1, num 5], [num 1, num 6], [num 2, num 7]]⟩

example : (do let m ← xyToMatrix [num 1, num 2] [num 5, num 6]; matrixToXy m) = .ok ([num 1, num 2], [num 5, num 6]) :=
  C51_roundtrip _ _ rfl

example (S : Sorter) := C51_matrix S table rfl

example (S : Sorter) : ∃ m', sortMatrix S table 1 = .ok m' ∧ m'.ncol = 2 ∧ m'.rows.Perm table.rows ∧
    (m'.rows.map fun r => r.getD 1 none).Pairwise Flt.le := (C51_sort S table 1).1 1 rfl

example : ∃ m', removeDoublesMatrix table 0 true = .ok m' ∧ m'.rows.Sublist table.rows := by
  have hn : ∀ r ∈ table.rows, r.getD 0 none ≠ none := by simp [table, num]
  obtain ⟨h1, -, h3⟩ := C51_doubles_partial table 0 0 rfl (by simp [table, num, Flt.le]; exact_mod_cast (by norm_num : (1 : ℝ) ≤ 2)) hn
  obtain ⟨m', h⟩ := h3 rfl (by simp [table]) (by
    intro r hr
    simp only [table, List.mem_cons, List.not_mem_nil, or_false] at hr
    rcases hr with rfl | rfl | rfl
    · exact ⟨1, rfl⟩
    · exact ⟨1, rfl⟩
    · exact ⟨2, rfl⟩)
  exact ⟨m', h, (h1 true m' h).2.1⟩

/-- A spectrum of two frequencies, given as rows and as columns. -/
example : IfResp.ifResponse (.matrix (IfResp.transpose ⟨3, [[num 4, num 9, num 5], [num 5, num 8, num 5]]⟩)) 293 77 1000 =
    IfResp.ifResponse (.matrix ⟨3, [[num 4, num 9, num 5], [num 5, num 8, num 5]]⟩) 293 77 1000 :=
  IfResp.C79_orientation_partial _ (by simp [Mat.WF]) rfl (by simp) _ _ _

/-- A table with two columns is no spectrum. -/
example := IfResp.C79_refused ⟨2, [[num 4, num 9]]⟩ (by simp) (by simp) 293 77 1000

example := IfData.C58_degenerate 230e9 4 (by norm_num)

/-! ## C104: the transform of the ideal curve at half the gap voltage -/

example := MathFn.C104_perfect (a := -2) (b := 2) (V := 1 / 2) (by norm_num) (by norm_num) (by norm_num) (by norm_num)
  (by norm_num) 100 (η := 1 / 100) (by norm_num)

/-! ## C45 -/

example := Props.C45_shape_partial (r := 50) (by norm_num)

example : ∃ i j, MathFn.polynomial 0.5 (50 : ℕ) = .ok i ∧ MathFn.polynomial 0.9 (50 : ℕ) = .ok j ∧ i < j := by
  obtain ⟨i, h, -⟩ := Props.C45_limit 0.5
  obtain ⟨j, h', -⟩ := Props.C45_limit 0.9
  exact ⟨i 50, j 50, h 50, h' 50, Props.C45_strictly_increasing_partial 50 (by norm_num) (h 50) (h' 50)⟩

/-! ## C127, C26, C99: a tone at 0.3 -/

/-- One tone with one harmonic. -/
noncomputable def oneTone : Qt.Cct (Fin 2) := ⟨1, 1, fun f => if f = 0 then 0 else 0.3, fun i => i⟩

example := Props.C127_dc_partial (fun _ _ _ => 0.2) oneTone (le_refl 1)
  (fun f h _ => by simp [oneTone, Nat.one_le_iff_ne_zero.1 h]; norm_num) (ε := 0.01) (by norm_num)

example (S : RespFn.Splines) : ∃ r, RespFn.respPerfect S {} = .ok r ∧ ∃ N, ∀ nb, Qt.Valid (Props.oneTone 0.3 2 fun i : Fin 2 => (i : ℝ)) nb →
    Props.AtLeast (Props.oneTone 0.3 2 fun i : Fin 2 => (i : ℝ)) nb N → ∃ cur,
      Qt.qtcurrentList (fun _ _ _ => 0.2) (Props.oneTone 0.3 2 fun i : Fin 2 => (i : ℝ)) r.resp [0] nb none = .ok [cur] := by
  obtain ⟨r, hr, -⟩ := RespFn.C77_false_perfect S {} rfl
  obtain ⟨N, hN⟩ := Props.C99_perfect_dc (fun _ _ _ => 0.2) (Props.oneTone 0.3 2 fun i : Fin 2 => (i : ℝ)) rfl hr le_rfl
    (Props.oneTone_dcAlone (by norm_num) _ _) (ε := 0.01) (by norm_num)
  refine ⟨r, hr, N, fun nb h1 h2 => ?_⟩
  obtain ⟨cur, hc, -⟩ := hN nb h1 h2
  exact ⟨cur, hc⟩

/-! ## C62, C92: options -/

open Opt Exp in
example : zembOpts PARAMS (setKey (setKey PARAMS "fit_range" .none) "cut_high" .none) = .error .type :=
  C62_no_high _ _ rfl (.inr rfl)

open Opt Exp in
example (R : IvData.Routines) (S : RespFn.Splines) (data : IfResp.Input) (kw : Dict) :
    (dcData R S [PARAMS] data none (setKey kw "vmax_plot" (.num 5))).1 = (dcData R S [PARAMS] data none kw).1 :=
  (C92_unread "vmax_plot" (.num 5) (by simp) R S [PARAMS] (by simp) kw).1 _ _

/-! ## C124: a recovered circuit -/

open Report in
example (bad : List Char) (other : Flt) := C124_report_partial bad other (vph := 0.3) (vgap := 2.8e-3) (rn := 14) (by norm_num)
  ⟨⟨0.5, -0.25⟩, some 0.4, true, some ⟨0.6, 0.1⟩, num 1.1, []⟩ rfl rfl rfl (by norm_num) (by norm_num)

/-! ## C107, C108 -/

open Term in
example := C107_colour "Results".toList (by decide) 50 (name := "RED".toList) (style := "[91".toList) (c := "red".toList)
  (by simp [QMix.Spec.styles]) (by decide)

open Term in
example (str : ℝ → List Char) := C108_monotone str [] [] 1 50 3 7 10 (by norm_num) (by norm_num)

open Term in
example (str : ℝ → List Char) := C108_sequence str [] [] 1 50 10 (by norm_num)

/-! ## C63: one point on the photon step -/

open Zemb in
/-- The options of a recovery. -/
noncomputable def opts : ZembOpts := ⟨0.25, 0.8, (0, 1), (-1, 1), none, 1.5, 20⟩

open Zemb in
theorem opts_step : onStep opts.fitLow opts.fitHigh 0.3 [0.85] [0.2] ≠ [] := by
  unfold onStep opts
  norm_num

open Zemb in
example (idc ikk : ℝ → ℝ) := C63_result opts idc ikk 0.3 [0.85] [0.2] rfl rfl opts_step

open Zemb in
example (idc ikk : ℝ → ℝ) (z : ℂ) : ∃ r, recoverZemb { opts with zemb := some z } idc ikk 0.3 [0.85] [0.2] = .ok r ∧ r.zt = z := by
  obtain ⟨r, _, _, h, -⟩ := C63_result opts idc ikk 0.3 [0.85] [0.2] rfl rfl opts_step
  obtain ⟨vt, -, e⟩ := C63_forced opts idc ikk 0.3 [0.85] [0.2] z r rfl h
  exact ⟨_, e, rfl⟩

/-! ## C131 -/

example (S : RespFn.Splines) := Props.C131_perfect S (p := {}) rfl

/-! ## C192 -/

example (K : GaussFp.Kit (1 / 2)) := GaussFp.C192_verge (u := 1 / 2) (by norm_num) K [1, 2, 3] rfl

/-! ## C117: two measurements at 230 and 240 GHz -/

open Results in
example (d : Exp.DCData) (q q' : Point) (h : q.e.freqText = "230.0".toList) (h' : q'.e.freqText = "240.0".toList) :
    RecoveredTable d [q, q'] ([q, q'].flatMap (embLine d)) := C117_recovered d [q, q'] (by simp [h, h'])

open Results in
example (d : Exp.DCData) (q q' : Point) (h : q.e.freqText = "230.0".toList) (h' : q'.e.freqText = "240.0".toList) :
    ResultsTable (fun _ => "1.5".toList) d [q, q'] (resultsText (fun _ => "1.5".toList) d [q, q']) :=
  C117_results _ d [q, q'] (by simp [h, h']) (by simp)

end QMix.Witnesses
