import Verif.Props.Report3
import Verif.Props.ShotPoints

/-!
# When the warning about the shot noise is printed (C125)
-/

namespace QMix.Report

open QMix Np Fl IvData IfData Opt Exp Results Spec

/-- The warning belongs to the mask: fewer than five points. -/
theorem shotWarning_mask {R : Routines} {o : IfOpts} {dc : DCIV} {x y : List ℝ} {m : List Bool}
    (h : shotMask R o dc.vgap x y = .ok m) :
    ∃ out, shotWarning R o dc x y = .ok out ∧ report out = if m.count true < 5 then shotRows else [] := by
  obtain ⟨a, ha, ha'⟩ := report_colour (c := "RED".toList) (e := "[91".toList) (w := "\t\tShot noise fit failed.".toList)
    (by decide) (by decide) (by decide) (by decide)
  obtain ⟨b, hb, hb'⟩ := report_colour (c := "RED".toList) (e := "[91".toList)
    (w := "\t\tSelecting all voltages above 2*Vgap.".toList) (by decide) (by decide) (by decide) (by decide)
  unfold shotWarning
  rw [h, py_bind]
  split_ifs with h5
  · rw [ha, hb]
    simp only [py_bind]
    refine ⟨_, rfl, ?_⟩
    have := hb' []
    rw [List.append_nil] at this
    rw [ha', this]
    rfl
  · exact ⟨_, rfl, rfl⟩

open Classical in
/-- C125: with ranges given by the user, `_find_if_noise` warns that the fit failed exactly if fewer than five samples lie inside them,
that is, exactly if the samples above twice the gap voltage are used instead (C162). -/
theorem C125_shot_warning (R : Routines) {o : IfOpts} (dc : DCIV) (x y : List ℝ) {l : List (ℝ × ℝ)} (hl : Given o l) :
    ∃ out, shotWarning R o dc x y = .ok out ∧
      report out = if (x.filter fun t => decide (∃ r ∈ l, r.1 < t * dc.vgap ∧ t * dc.vgap < r.2)).length < 5
        then shotRows else [] := by
  obtain ⟨out, h1, h2⟩ := shotWarning_mask (shotMask_given (R := R) hl dc.vgap x y)
  refine ⟨out, h1, ?_⟩
  rw [h2, List.count, List.countP_map, ← List.countP_eq_length_filter]
  congr 2
  refine List.countP_congr fun t _ => ?_
  simp [Inside]

/-- Four samples inside the range give a warning, five do not. -/
example (R : Routines) (o : IfOpts) (dc : DCIV) (ho : o.vshot = .flat [0, 9]) (hg : dc.vgap = 1) (y : List ℝ) :
    (∃ out, shotWarning R o dc [1, 2, 3, 4, 10] y = .ok out ∧ report out = shotRows) ∧
    ∃ out, shotWarning R o dc [1, 2, 3, 4, 5, 10] y = .ok out ∧ report out = [] := by
  have hl : Given o [(0, 9)] := Or.inr ⟨0, 9, ho, rfl⟩
  obtain ⟨a, ha, ha'⟩ := C125_shot_warning R dc [1, 2, 3, 4, 10] y hl
  obtain ⟨b, hb, hb'⟩ := C125_shot_warning R dc [1, 2, 3, 4, 5, 10] y hl
  refine ⟨⟨a, ha, ?_⟩, b, hb, ?_⟩
  · rw [ha', hg]
    norm_num
  · rw [hb', hg]
    norm_num

end QMix.Report
