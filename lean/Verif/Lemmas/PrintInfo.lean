import Verif.Model.PrintInfo
import Verif.Lemmas.Circuit

/-!
# Lemmas: shapes of the arrays of a circuit, and what `print_info` prints
-/

namespace QMix.Cct

open QMix.Spec

/-- A two-dimensional array. -/
def Rect {α : Type} (n m : ℕ) (a : List (List α)) : Prop := a.length = n ∧ ∀ r ∈ a, r.length = m

/-- All arrays have the shape that the constructor gives them. -/
structure Shape (c : Circuit) : Prop where
  freq : c.freq.length = c.numF + 1
  vt : Rect (c.numF + 1) (c.numP + 1) c.vt
  zt : Rect (c.numF + 1) (c.numP + 1) c.zt
  comment : Rect (c.numF + 1) (c.numP + 1) c.comment

/-- Entry `(f, p)`, with a default outside. -/
def at2 {α : Type} (d : α) (a : List (List α)) (f p : ℕ) : α := (a.getD f []).getD p d

theorem rect_set2 {α : Type} {n m : ℕ} {a a' : List (List α)} (h : Rect n m a) {f p : ℤ} {x : α}
    (hs : set2 a f p x = .ok a') : Rect n m a' := by
  obtain ⟨i, j, row, hi, hrow, hj, rfl⟩ := set2_ok hs
  refine ⟨by rw [List.length_set]; exact h.1, fun r hr => ?_⟩
  rcases List.mem_or_eq_of_mem_set hr with hr | hr
  · exact h.2 r hr
  · rw [hr, List.length_set]
    exact h.2 row (List.mem_of_getElem? hrow)

theorem get2_rect {α : Type} {n m : ℕ} {a : List (List α)} (h : Rect n m a) (d : α) {f p : ℕ}
    (hf : f < n) (hp : p < m) : get2 a f p = .ok (at2 d a f p) := by
  have hf' : f < a.length := by rw [h.1]; exact hf
  have hrow : a[f]? = some (a.getD f []) := by
    rw [List.getD_eq_getElem?_getD, List.getElem?_eq_getElem hf']; rfl
  have hlen := h.2 _ (List.mem_of_getElem? hrow)
  have hp' : p < (a.getD f []).length := by rw [hlen]; exact hp
  have hx : (a.getD f [])[p]? = some (at2 d a f p) := by
    unfold at2
    rw [List.getD_eq_getElem?_getD (l := a.getD f []), List.getElem?_eq_getElem hp']; rfl
  have e1 : pyGet a (f : ℤ) = .ok (a.getD f []) := pyGet_ok_of_getElem? (i := f)
    (by unfold pyIndex; rw [if_pos ⟨by omega, by omega⟩]; simp) hrow
  have e2 : pyGet (a.getD f []) (p : ℤ) = .ok (at2 d a f p) := pyGet_ok_of_getElem? (i := p)
    (by unfold pyIndex; rw [if_pos ⟨by omega, by omega⟩]; simp) hx
  unfold get2
  rw [e1, ok_bind', e2]

theorem get_freq {c : Circuit} (h : Shape c) {f : ℕ} (hf : f < c.numF + 1) :
    pyGet c.freq f = .ok (c.freq.getD f 0) := by
  have hf' : f < c.freq.length := by rw [h.freq]; exact hf
  refine pyGet_ok_of_getElem? (i := f)
    (by unfold pyIndex; rw [if_pos ⟨by omega, by omega⟩]; simp) ?_
  rw [List.getD_eq_getElem?_getD, List.getElem?_eq_getElem hf']; rfl

theorem rect_replicate {α : Type} (n m : ℕ) (x : α) :
    Rect n m (List.replicate n (List.replicate m x)) :=
  ⟨by simp, fun r hr => by rw [List.eq_of_mem_replicate hr]; simp⟩

theorem shape_new {numF numP npts : ℤ} {lo hi : ℝ} {fg vg rn : Option ℝ} {name : String} {c : Circuit}
    (h : Cct.new numF numP lo hi npts fg vg rn name = .ok c) : Shape c := by
  obtain ⟨h1, h2, h3, h4, ig, h5, rfl⟩ := new_ok h
  exact ⟨by simp [fresh], rect_replicate _ _ _, rect_replicate _ _ _, rect_replicate _ _ _⟩

theorem shape_writeVt {c c' : Circuit} (h : Shape c) {f p : ℤ} {x : ℂ} (hw : writeVt c f p x = .ok c') :
    Shape c' := by
  obtain ⟨_, a, ha, rfl⟩ := writeVt_ok hw
  exact ⟨h.freq, rect_set2 h.vt ha, h.zt, h.comment⟩

theorem shape_writeFreq {c c' : Circuit} (h : Shape c) {f : ℤ} {x : ℝ} (hw : writeFreq c f x = .ok c') :
    Shape c' := by
  obtain ⟨_, a, ha, rfl⟩ := writeFreq_ok hw
  obtain ⟨i, _, rfl⟩ := pySet_ok ha
  exact ⟨by simpa using h.freq, h.vt, h.zt, h.comment⟩

theorem rect_mapIdx {α : Type} {n m : ℕ} {a : List (List α)} (h : Rect n m a) (g : ℕ → ℕ → α → α) :
    Rect n m (a.mapIdx fun f row => row.mapIdx fun p x => g f p x) := by
  refine ⟨by simpa using h.1, fun r hr => ?_⟩
  rw [List.mem_mapIdx] at hr
  obtain ⟨i, hi, rfl⟩ := hr
  rw [List.length_mapIdx]
  exact h.2 _ (List.getElem_mem hi)

theorem shape_call {c c' : Circuit} (h : Shape c) (o : Op) (hc : o.call c = .ok c') : Shape c' := by
  cases o with
  | power x f p u =>
    obtain ⟨vg, rn, zt, u, _, _, _, _, _, _, _, hw⟩ := setAvailablePower_ok hc
    exact shape_writeVt h hw
  | alpha x f p z =>
    obtain ⟨zt, w, _, _, _, _, _, hw⟩ := setAlpha_ok hc
    exact shape_writeVt h hw
  | freq x f u =>
    obtain ⟨y, hw⟩ := setFreq_ok hc
    exact shape_writeFreq h hw
  | name s f p =>
    obtain ⟨a, ha, rfl⟩ := setName_ok hc
    exact ⟨h.freq, h.vt, h.zt, rect_set2 h.comment ha⟩
  | putFreq f x => exact shape_writeFreq h hc
  | putVt f p x => exact shape_writeVt h hc
  | putZt f p x =>
    obtain ⟨_, a, ha, rfl⟩ := writeZt_ok hc
    exact ⟨h.freq, h.vt, rect_set2 h.zt ha, h.comment⟩
  | putVb i x =>
    obtain ⟨_, a, ha, rfl⟩ := writeVb_ok hc
    exact ⟨h.freq, h.vt, h.zt, h.comment⟩
  | hb =>
    replace hc : hbTouch c = .ok c' := hc
    unfold hbTouch at hc
    split at hc
    · cases hc; exact h
    · split at hc
      · cases hc
        exact ⟨h.freq, rect_mapIdx h.vt fun f p (x : ℂ) =>
          if f = 0 ∨ p = 0 then 0 else if ‖x‖ < 1e-10 then 1e-10 else x, h.zt, h.comment⟩
      · cases hc
  | lock => cases hc; exact ⟨h.freq, h.vt, h.zt, h.comment⟩
  | unlock => cases hc; exact ⟨h.freq, h.vt, h.zt, h.comment⟩

theorem shape_run {c : Circuit} (h : Shape c) (l : List Op) : Shape (run c l) := by
  unfold run
  induction l generalizing c with
  | nil => exact h
  | cons o l ih =>
    apply ih
    unfold Op.step
    split
    · rename_i c' hc
      exact shape_call h o hc
    · exact h

theorem pyFor_append {α : Type} {κ : Type} {l : List κ} {body : List α → κ → Py (List α)}
    {g : κ → List α} (h : ∀ k ∈ l, ∀ out, body out k = .ok (out ++ g k)) (out : List α) :
    pyFor l out body = .ok (out ++ l.flatMap g) := by
  induction l generalizing out with
  | nil => simp [pyFor]
  | cons k l ih =>
    rw [pyFor, h k (by simp)]
    simp only
    rw [ih fun k hk => h k (List.mem_cons_of_mem _ hk)]
    simp

theorem pyRange_one (n : ℕ) :
    pyRange 1 ((n : ℤ) + 1) = (List.range n).map fun (i : ℕ) => ((i + 1 : ℕ) : ℤ) := by
  unfold pyRange
  rw [show ((n : ℤ) + 1 - 1).toNat = n by omega]
  exact List.map_congr_left fun i _ => by push_cast; ring

/-- If no signal fails, the lines are those of the signals in order. -/
theorem printInfo_eq {c : Circuit} {g : ℕ → ℕ → List Line}
    (h : ∀ f p, 1 ≤ f → f ≤ c.numF → 1 ≤ p → p ≤ c.numP → blockOf c f p = .ok (g f p)) :
    printInfo c = .ok (headLine c :: ((List.range c.numF).flatMap fun i =>
      (List.range c.numP).flatMap fun j => g (i + 1) (j + 1)) ++ [.blank]) := by
  have inner : ∀ k ∈ pyRange 1 ((c.numF : ℤ) + 1), ∀ out : List Line,
      (pyFor (pyRange 1 ((c.numP : ℤ) + 1)) out fun out p => do
        let block ← blockOf c k p
        pure (out ++ block)) =
      .ok (out ++ (List.range c.numP).flatMap fun j => g k.toNat (j + 1)) := by
    intro k hk out
    rw [pyRange_one, List.mem_map] at hk
    obtain ⟨i, hi, rfl⟩ := hk
    rw [List.mem_range] at hi
    rw [pyFor_append (g := fun p => g (i + 1) p.toNat), pyRange_one, List.flatMap_map]
    · rfl
    · intro p hp out
      rw [pyRange_one, List.mem_map] at hp
      obtain ⟨j, hj, rfl⟩ := hp
      rw [List.mem_range] at hj
      rw [h (i + 1) (j + 1) (by omega) (by omega) (by omega) (by omega)]
      rfl
  have outer := pyFor_append inner [headLine c]
  unfold printInfo
  rw [outer, pyRange_one, List.flatMap_map]
  rfl

end QMix.Cct
