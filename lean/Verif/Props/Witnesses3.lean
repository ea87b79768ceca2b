import Verif.Props.KkTrans
import Verif.Props.RespFn2
import Verif.Props.Options

/-!
# Concrete cases, continued

Cases that meet the hypotheses of theorems which have no example next to them.
-/

namespace QMix.Witnesses

open QMix Np Fl

/-! ## C104, C105: the perfect junction between -2 and 2, at zero -/

section
open MathFn Spec

/-- On grids with an odd number of points, both transforms approach the closed form of the perfect junction. -/
example {η : ℝ} (hη : 0 < η) : ∃ N₀ : ℕ, ∀ m : ℕ, N₀ ≤ 2 * m + 3 →
    (∃ r, kkTrans (tab (2 * m + 3) fun t => -2 + (2 - -2) / (((2 * m + 3 : ℕ) : ℝ) - 1) * t)
      (tab (2 * m + 3) fun t => perfectElem (-2 + (2 - -2) / (((2 * m + 3 : ℕ) : ℝ) - 1) * t)) 50 = .ok r ∧
      |r.getD (m + 1) 0 - perfectKkElem 0 0| ≤ 5 * 1 / 50 ^ 2 + η) ∧
    ∃ r, kkTransTrapz (tab (2 * m + 3) fun t => -2 + (2 - -2) / (((2 * m + 3 : ℕ) : ℝ) - 1) * t)
      (tab (2 * m + 3) fun t => perfectElem (-2 + (2 - -2) / (((2 * m + 3 : ℕ) : ℝ) - 1) * t)) = .ok r ∧
      |r.getD (m + 1) 0 - perfectKkElem 0 0| ≤ η := by
  have hr : Regular perfectElem (-2) 2 0 1 := perfect_regular (by norm_num) (by norm_num) (by norm_num)
  have hk : IsKk perfectElem (-2) 2 0 (perfectKkElem 0 0) := perfect_isKk 0 (by norm_num) (by norm_num) (by norm_num)
  obtain ⟨N₁, h1⟩ := C104_transform hr hk hη
  obtain ⟨N₂, h2⟩ := C105_transform hr hk hη
  refine ⟨max N₁ N₂, fun m hm => ?_⟩
  have e : (0 : ℝ) = -2 + (2 - -2) / (((2 * m + 3 : ℕ) : ℝ) - 1) * (m + 1 : ℕ) := by
    have : (m : ℝ) + 1 ≠ 0 := by positivity
    push_cast
    rw [show (2 * (m : ℝ) + 3 - 1) = 2 * (m + 1) by ring]
    field_simp
    ring
  constructor
  · obtain ⟨r, a, -, b⟩ := h1 (2 * m + 3) ((le_max_left _ _).trans hm) (m + 1) (by omega) e 50 (by norm_num)
    refine ⟨r, a, ?_⟩
    simpa using b
  · obtain ⟨r, a, -, b⟩ := h2 (2 * m + 3) ((le_max_right _ _).trans hm) (m + 1) (by omega) e
    exact ⟨r, a, b⟩

end

/-! ## C77: derivatives of the response function of a straight line -/

section
open RespFn

example (S : Splines) : ∃ r, respInit S line line {} = .ok r ∧ ∃ xd yd xk yk k,
    (∀ t, r.idc t = S.eval xd yd k t ∧ r.didc t = .ok (S.deriv xd yd k t)) ∧
    ∀ t, r.ikk t = S.eval xk yk k t ∧ r.dikk t = .ok (S.deriv xk yk k t) := by
  obtain ⟨r, hr⟩ := grid_init S (M := 40) (N := 240) (by norm_num) (by norm_num) (by norm_num) (by norm_num)
    (c := line) (tab_length _ _) (p := {}) (by rintro s ⟨⟩) (by norm_num) (by norm_num) rfl
  exact ⟨r, hr, C77_partial hr⟩

end

/-! ## C92: options that are not read -/

section
open Exp Opt

/-- A misspelt option, and one of pumped data, change nothing. -/
example (R : IvData.Routines) (S : RespFn.Splines) (d : Dict) (data : IfResp.Input) :
    (dcData R S [d] data none fun k => List.lookup k [("vgap", .num 0.0028)]).1 =
    (dcData R S [d] data none fun k => List.lookup k [("vgap", .num 0.0028), ("vgapp", .num 3), ("best_pt", .str "Min Tn")]).1 := by
  refine C92_dc R S [d] (by simp) data none _ _ fun k hk => ?_
  have h1 : k ≠ "vgapp" := by rintro rfl; exact absurd hk (by decide)
  have h2 : k ≠ "best_pt" := by rintro rfl; exact absurd hk (by decide)
  simp [List.lookup, beq_eq_false_iff_ne.2 h1, beq_eq_false_iff_ne.2 h2]

end

end QMix.Witnesses
