import Verif.Model.Figures
import Verif.Spec.Figures
import Verif.Props.ExpData4
import Verif.Props.IvData4

/-!
# Lemmas about figures
-/

namespace QMix.Exp

open QMix Np Fl IvData IfData Opt Spec

theorem drawF_ok {a : ℕ} {l : Label} {xs ys : List Flt} {c : Cmd} :
    drawF a l xs ys = .ok c ↔ xs.length = ys.length ∧ c = .plot a l xs ys := by
  unfold drawF
  simp only [bind_ok_iff, raiseIf_ok, ne_eq, not_not, pure_ok_iff]
  constructor
  · rintro ⟨_, h, rfl⟩; exact ⟨h, rfl⟩
  · rintro ⟨h, rfl⟩; exact ⟨(), h, rfl⟩

theorem draw_ok {a : ℕ} {l : Label} {xs ys : List ℝ} {c : Cmd} :
    draw a l xs ys = .ok c ↔ xs.length = ys.length ∧ c = .plot a l (xs.map num) (ys.map num) := by
  unfold draw
  rw [drawF_ok, List.length_map, List.length_map]

theorem draw_eq {a : ℕ} {l : Label} {xs ys : List ℝ} (h : xs.length = ys.length) :
    draw a l xs ys = .ok (.plot a l (xs.map num) (ys.map num)) := draw_ok.2 ⟨h, rfl⟩

theorem drawF_eq {a : ℕ} {l : Label} {xs ys : List Flt} (h : xs.length = ys.length) :
    drawF a l xs ys = .ok (.plot a l xs ys) := drawF_ok.2 ⟨h, rfl⟩

theorem fdiv_ok {x y r : ℝ} : Np.fdiv x y = .ok r ↔ y ≠ 0 ∧ r = x / y := by
  unfold Np.fdiv
  split
  · simp_all
  · simp_all [eq_comm]

theorem interpVal_ok {x y : ℝ} {xp fp : List ℝ} : interpVal x xp fp = .ok y ↔
    xp.length = fp.length ∧ xp ≠ [] ∧ y = interpAt (xp.zip fp) x := by
  constructor
  · intro h
    unfold interpVal at h
    obtain ⟨l, hl, h⟩ := bind_ok_iff.1 h
    obtain ⟨L, hne, rfl, rfl, rfl⟩ := interp_ok hl
    refine ⟨by simp, by simpa using hne, ?_⟩
    have := pyGet_mem h
    simp only [List.map_cons, List.map_nil, List.mem_singleton] at this
    rw [this, ← List.unzip_fst, ← List.unzip_snd, List.zip_unzip]
  · rintro ⟨hl, hne, rfl⟩
    obtain ⟨L, rfl, rfl⟩ := exists_points hl
    unfold interpVal
    rw [interp_points (by simpa using hne), py_bind, ← List.unzip_fst, ← List.unzip_snd, List.zip_unzip]
    rfl

/-- The current–voltage curve of a `DCData` object, in volts and amperes. -/
noncomputable def siCurve (d : DCData) : List (ℝ × ℝ) :=
  (d.voltage.zip d.current).map fun p => (p.1 * d.dc.vgap, p.2 * d.dc.igap)

/-- What is drawn with lines and markers: the axes, the label and the points. -/
def curves (fig : Drawing) : List (ℕ × Label × List (Flt × Flt)) :=
  fig.cmds.filterMap fun c => match c with
    | .plot a l xs ys => some (a, l, xs.zip ys)
    | _ => none

/-- Real points as they are drawn. -/
noncomputable def numPts (l : List (ℝ × ℝ)) : List (Flt × Flt) := l.map fun p => (num p.1, num p.2)

/-- The curve is measured from `-vmax` to `vmax`. -/
theorem siCurve_grid {R : Routines} {S : RespFn.Splines} {h : Heap} (hh : h ≠ []) (hP : deref h sharedAt = PARAMS)
    {data : IfResp.Input} {dcif : Option IfResp.Input} {kw : Dict} {d : DCData} {vm : ℝ}
    (e : (dcData R S h data dcif kw).1 = .ok d) (hg : 0 < d.dc.vgap) (hu : Uses kw "vmax" asReal 6e-3 vm)
    (hvm : 0 < vm) (hn : 2 ≤ d.voltage.length) :
    Incr (siCurve d) ∧ Incr (d.voltage.zip d.current) ∧
    ∀ x, -vm ≤ x → x ≤ vm →
      (∃ p ∈ d.voltage.zip d.current, p.1 ≤ x / d.dc.vgap) ∧ ∃ p ∈ d.voltage.zip d.current, x / d.dc.vgap ≤ p.1 := by
  obtain ⟨hs, hl⟩ := dc_sorted hh hP e hg hu hvm
  obtain ⟨-, -, ⟨w, hw, hgrid⟩, -⟩ := C41_dc R S h hh hP data dcif kw d e
  obtain rfl := uses_unique hu hw
  have hI : Incr (d.voltage.zip d.current) := by
    have hp := hs.pairwise
    have e : (d.voltage.zip d.current).map Prod.fst = d.voltage := List.map_fst_zip (by omega)
    rw [← e, List.pairwise_map] at hp
    exact hp
  have mem : ∀ j, j < d.voltage.length → (d.voltage.getD j 0, d.current.getD j 0) ∈ d.voltage.zip d.current := by
    intro j hj
    rw [List.mem_iff_getElem?]
    refine ⟨j, ?_⟩
    rw [List.getElem?_zip_eq_some]
    rw [List.getD_eq_getElem?_getD, List.getD_eq_getElem?_getD, List.getElem?_eq_getElem hj,
      List.getElem?_eq_getElem (by omega)]
    exact ⟨rfl, rfl⟩
  refine ⟨?_, hI, fun x h1 h2 => ⟨⟨_, mem 0 (by omega), ?_⟩, ⟨_, mem (d.voltage.length - 1) (by omega), ?_⟩⟩⟩
  · unfold siCurve Incr
    rw [List.pairwise_map]
    exact hI.imp fun hab => mul_lt_mul_of_pos_right hab hg
  · rw [le_div_iff₀ hg, hgrid 0 (by omega)]
    simpa using h1
  · rw [div_le_iff₀ hg, hgrid _ (by omega)]
    have : (1 : ℝ) < d.voltage.length := by exact_mod_cast (by omega : 1 < d.voltage.length)
    rw [Nat.cast_sub (by omega)]
    have h3 : ((d.voltage.length : ℝ) - (1 : ℕ)) * (2 * vm / ((d.voltage.length : ℝ) - 1)) = 2 * vm := by
      push_cast
      rw [mul_div_assoc', mul_div_cancel_left₀ _ (by linarith)]
    rw [h3]
    linarith

end QMix.Exp
