import Verif.Model.IvData
import Verif.Lemmas.CleanData
import Mathlib.Tactic.Ring
import Mathlib.Tactic.Linarith
import Mathlib.Tactic.FieldSimp

/-!
# Least-squares lines
-/

namespace QMix.IvData

open Np Fl Clean

/-- The sum of the squared residuals over a list of points. -/
noncomputable def resid (L : List (ℝ × ℝ)) (p : ℝ × ℝ) : ℝ :=
  (L.map fun q => (q.2 - (p.1 * q.1 + p.2)) ^ 2).sum

theorem residual_map (L : List (ℝ × ℝ)) (p : ℝ × ℝ) :
    residual (L.map Prod.fst) (L.map Prod.snd) p = resid L p := by
  unfold residual resid
  congr 1
  induction L with
  | nil => rfl
  | cons a l ih => simp [ih]

theorem resid_nonneg (L : List (ℝ × ℝ)) (p : ℝ × ℝ) : 0 ≤ resid L p :=
  List.sum_nonneg (by simp only [List.mem_map]; rintro x ⟨q, -, rfl⟩; positivity)

theorem resid_zero_iff {L : List (ℝ × ℝ)} {p : ℝ × ℝ} :
    resid L p = 0 ↔ ∀ q ∈ L, q.2 = p.1 * q.1 + p.2 := by
  induction L with
  | nil => simp [resid]
  | cons a l ih =>
    have e : resid (a :: l) p = (a.2 - (p.1 * a.1 + p.2)) ^ 2 + resid l p := by simp [resid]
    have h1 := resid_nonneg l p
    have h2 := sq_nonneg (a.2 - (p.1 * a.1 + p.2))
    rw [e]
    constructor
    · intro h q hq
      have h3 : resid l p = 0 := by linarith
      have h4 : (a.2 - (p.1 * a.1 + p.2)) ^ 2 = 0 := by linarith
      rcases List.mem_cons.1 hq with rfl | hq
      · have := pow_eq_zero_iff (two_ne_zero) |>.1 h4; linarith
      · exact ih.1 h3 q hq
    · intro h
      rw [ih.2 fun q hq => h q (by simp [hq]), h a (by simp)]
      ring

/-- Sums over the points. -/
noncomputable def sm (L : List (ℝ × ℝ)) (f : ℝ × ℝ → ℝ) : ℝ := (L.map f).sum

theorem resid_expand (L : List (ℝ × ℝ)) (p : ℝ × ℝ) :
    resid L p = sm L (fun q => q.2 ^ 2) - 2 * p.1 * sm L (fun q => q.1 * q.2)
      - 2 * p.2 * sm L (fun q => q.2) + p.1 ^ 2 * sm L (fun q => q.1 ^ 2)
      + 2 * p.1 * p.2 * sm L (fun q => q.1) + p.2 ^ 2 * L.length := by
  induction L with
  | nil => simp [resid, sm]
  | cons a l ih =>
    simp only [resid, sm, List.map_cons, List.sum_cons, List.length_cons] at *
    rw [ih]; push_cast; ring

/-- The sum of the squared distances from the mean, times the number of points, is not negative. -/
theorem spread_nonneg (L : List (ℝ × ℝ)) :
    0 ≤ L.length * sm L (fun q => q.1 ^ 2) - sm L (fun q => q.1) ^ 2 := by
  induction L with
  | nil => simp [sm]
  | cons a l ih =>
    simp only [sm, List.map_cons, List.sum_cons, List.length_cons] at *
    have h : 0 ≤ (l.map fun q => (q.1 - a.1) ^ 2).sum :=
      List.sum_nonneg (by simp only [List.mem_map]; rintro x ⟨q, -, rfl⟩; positivity)
    have e : (l.map fun q => (q.1 - a.1) ^ 2).sum = (l.map fun q => q.1 ^ 2).sum
        - 2 * a.1 * (l.map fun q => q.1).sum + a.1 ^ 2 * l.length := by
      clear ih h
      induction l with
      | nil => simp
      | cons b l ih =>
        simp only [List.map_cons, List.sum_cons, List.length_cons]
        rw [ih]; push_cast; ring
    rw [e] at h
    push_cast
    nlinarith

/-- If all the voltages are equal there is no spread, and otherwise there is. -/
theorem spread_zero {L : List (ℝ × ℝ)}
    (h : L.length * sm L (fun q => q.1 ^ 2) - sm L (fun q => q.1) ^ 2 = 0) :
    ∀ p ∈ L, ∀ q ∈ L, p.1 = q.1 := by
  induction L with
  | nil => simp
  | cons a l ih =>
    have hs := spread_nonneg l
    simp only [sm, List.map_cons, List.sum_cons, List.length_cons] at *
    have e : (l.map fun q => (q.1 - a.1) ^ 2).sum = (l.map fun q => q.1 ^ 2).sum
        - 2 * a.1 * (l.map fun q => q.1).sum + a.1 ^ 2 * l.length := by
      clear ih h hs
      induction l with
      | nil => simp
      | cons b l ih =>
        simp only [List.map_cons, List.sum_cons, List.length_cons]
        rw [ih]; push_cast; ring
    have h0 : 0 ≤ (l.map fun q => (q.1 - a.1) ^ 2).sum :=
      List.sum_nonneg (by simp only [List.mem_map]; rintro x ⟨q, -, rfl⟩; positivity)
    push_cast at h
    have h1 : (l.map fun q => (q.1 - a.1) ^ 2).sum = 0 := by rw [e] at h0 ⊢; nlinarith
    have h2 : ∀ q ∈ l, q.1 = a.1 := by
      intro q hq
      have := List.all_zero_of_le_zero_le_of_sum_eq_zero
        (by simp only [List.mem_map]; rintro x ⟨q, -, rfl⟩; positivity) h1
        (List.mem_map.2 ⟨q, hq, rfl⟩)
      have := pow_eq_zero_iff (two_ne_zero) |>.1 this
      linarith
    intro p hp q hq
    have key : ∀ p ∈ a :: l, p.1 = a.1 := by
      intro p hp
      rcases List.mem_cons.1 hp with rfl | hp
      · rfl
      · exact h2 p hp
    rw [key p hp, key q hq]

/-- The line of the closed form. -/
noncomputable def closedForm (L : List (ℝ × ℝ)) : ℝ × ℝ :=
  let n := (L.length : ℝ)
  let d := n * sm L (fun q => q.1 ^ 2) - sm L (fun q => q.1) ^ 2
  let a := if d = 0 then 0
    else (n * sm L (fun q => q.1 * q.2) - sm L (fun q => q.1) * sm L (fun q => q.2)) / d
  (a, (sm L (fun q => q.2) - a * sm L (fun q => q.1)) / n)

theorem sm_congr {L : List (ℝ × ℝ)} {f g : ℝ × ℝ → ℝ} (h : ∀ q ∈ L, f q = g q) : sm L f = sm L g := by
  unfold sm; rw [List.map_congr_left h]

theorem sm_smul (L : List (ℝ × ℝ)) (c : ℝ) (f : ℝ × ℝ → ℝ) : sm L (fun q => c * f q) = c * sm L f := by
  unfold sm
  induction L with
  | nil => simp
  | cons a l ih => simp only [List.map_cons, List.sum_cons, ih]; ring

theorem sm_one (L : List (ℝ × ℝ)) (c : ℝ) : sm L (fun _ => c) = L.length * c := by
  unfold sm; simp

/-- The closed form is a best line. -/
theorem closedForm_best (L : List (ℝ × ℝ)) (p : ℝ × ℝ) : resid L (closedForm L) ≤ resid L p := by
  rcases L.eq_nil_or_concat' with rfl | hne
  · simp [resid]
  have hL : L ≠ [] := by obtain ⟨a, b, rfl⟩ := hne; simp
  have hn : (0 : ℝ) < L.length := by exact_mod_cast List.length_pos_iff.2 hL
  have hd := spread_nonneg L
  by_cases hz : L.length * sm L (fun q => q.1 ^ 2) - sm L (fun q => q.1) ^ 2 = 0
  · obtain ⟨c, hc⟩ : ∃ c, ∀ q ∈ L, q.1 = c := by
      obtain ⟨q, hq⟩ := List.exists_mem_of_ne_nil L hL
      exact ⟨q.1, fun r hr => spread_zero hz r hr q hq⟩
    have e : closedForm L = (0, sm L (fun q => q.2) / L.length) := by
      unfold closedForm; simp [hz]
    rw [e, resid_expand, resid_expand]
    have e1 : sm L (fun q => q.1) = L.length * c := by rw [sm_congr hc, sm_one]
    have e2 : sm L (fun q => q.1 ^ 2) = L.length * c ^ 2 := by
      rw [sm_congr (g := fun _ => c ^ 2) fun q hq => by rw [hc q hq], sm_one]
    have e3 : sm L (fun q => q.1 * q.2) = c * sm L (fun q => q.2) := by
      rw [← sm_smul, sm_congr fun q hq => by rw [hc q hq]]
    rw [e1, e2, e3]
    set t := sm L (fun q => q.2)
    set m := (L.length : ℝ)
    have e4 : t = m * (t / m) := by field_simp
    set u := t / m
    rw [e4]
    nlinarith [mul_nonneg hn.le (sq_nonneg (p.1 * c + p.2 - u))]
  · have e : closedForm L = ((L.length * sm L (fun q => q.1 * q.2) -
        sm L (fun q => q.1) * sm L (fun q => q.2)) /
        (L.length * sm L (fun q => q.1 ^ 2) - sm L (fun q => q.1) ^ 2),
        (sm L (fun q => q.2) - (L.length * sm L (fun q => q.1 * q.2) -
        sm L (fun q => q.1) * sm L (fun q => q.2)) /
        (L.length * sm L (fun q => q.1 ^ 2) - sm L (fun q => q.1) ^ 2) * sm L (fun q => q.1)) /
        L.length) := by
      unfold closedForm; simp [hz]
    rw [e, resid_expand, resid_expand]
    set m := (L.length : ℝ)
    set sx := sm L (fun q => q.1)
    set sy := sm L (fun q => q.2)
    set sxx := sm L (fun q => q.1 ^ 2)
    set sxy := sm L (fun q => q.1 * q.2)
    have hd' : 0 < m * sxx - sx ^ 2 := lt_of_le_of_ne hd (Ne.symm hz)
    set a := (m * sxy - sx * sy) / (m * sxx - sx ^ 2) with ha
    have ha' : a * (m * sxx - sx ^ 2) = m * sxy - sx * sy := by rw [ha]; field_simp
    set b := (sy - a * sx) / m with hb
    have hb' : b * m = sy - a * sx := by rw [hb]; field_simp
    have h1 : sxy = a * sxx + b * sx := by
      have : m * (sxy - (a * sxx + b * sx)) = 0 := by linear_combination -ha' - sx * hb'
      have := (mul_eq_zero.1 this).resolve_left hn.ne'
      linarith
    have h2 : sy = b * m + a * sx := by linarith
    have h3 : m * ((p.1 - a) ^ 2 * sxx + 2 * (p.1 - a) * (p.2 - b) * sx + (p.2 - b) ^ 2 * m) =
        (p.1 - a) ^ 2 * (m * sxx - sx ^ 2) + ((p.1 - a) * sx + (p.2 - b) * m) ^ 2 := by ring
    have h4 : 0 ≤ (p.1 - a) ^ 2 * sxx + 2 * (p.1 - a) * (p.2 - b) * sx + (p.2 - b) ^ 2 * m := by
      have : 0 ≤ m * ((p.1 - a) ^ 2 * sxx + 2 * (p.1 - a) * (p.2 - b) * sx + (p.2 - b) ^ 2 * m) := by
        rw [h3]; positivity
      exact nonneg_of_mul_nonneg_right this hn
    rw [h1, h2]
    nlinarith [h4]

/-- A best line through points that lie on a line is this line, if two voltages differ. -/
theorem best_unique {L : List (ℝ × ℝ)} {p r : ℝ × ℝ} (hb : ∀ q, resid L p ≤ resid L q)
    (hl : ∀ q ∈ L, q.2 = r.1 * q.1 + r.2) (h2 : ∃ a ∈ L, ∃ b ∈ L, a.1 ≠ b.1) : p = r := by
  have h0 : resid L p = 0 := le_antisymm ((hb r).trans (resid_zero_iff.2 hl).le) (resid_nonneg _ _)
  have h1 := resid_zero_iff.1 h0
  obtain ⟨a, ha, b, hb, hne⟩ := h2
  have e : p.1 = r.1 := by
    have : (p.1 - r.1) * (a.1 - b.1) = 0 := by
      linear_combination h1 b hb - h1 a ha + hl a ha - hl b hb
    rcases mul_eq_zero.1 this with h | h
    · linarith
    · exact absurd (by linarith) hne
  refine Prod.ext e ?_
  have := h1 a ha
  rw [hl a ha, e] at this
  linarith

theorem exists_points {α β : Type*} {v : List α} {i : List β} (h : v.length = i.length) :
    ∃ L : List (α × β), L.map Prod.fst = v ∧ L.map Prod.snd = i :=
  ⟨v.zip i, List.map_fst_zip (by omega), List.map_snd_zip (by omega)⟩

theorem masked_points {α β : Type} (c : α → Bool) (L : List (α × β)) :
    masked ((L.map Prod.fst).map c) (L.map Prod.fst) (L.map Prod.snd) =
      .ok ((L.filter fun p => c p.1).map Prod.fst, (L.filter fun p => c p.1).map Prod.snd) := by
  unfold masked
  rw [List.map_map]
  have e : (c ∘ Prod.fst : α × β → Bool) = fun p => c p.1 := rfl
  rw [e, select_map, py_bind, select_map, py_bind]
  rfl

theorem polyfit_best {R : Routines} {L : List (ℝ × ℝ)} {p : ℝ × ℝ}
    (h : polyfit R (L.map Prod.fst) (L.map Prod.snd) = .ok p) (q : ℝ × ℝ) :
    resid L p ≤ resid L q := by
  unfold polyfit at h
  obtain ⟨_, _, h⟩ := bind_ok_iff.1 h
  obtain ⟨_, _, h⟩ := bind_ok_iff.1 h
  obtain rfl := Except.ok.inj h
  rw [← residual_map, ← residual_map]
  exact R.fitLine_best _ _ _

theorem polyfit_line {R : Routines} {L : List (ℝ × ℝ)} {r : ℝ × ℝ}
    (hl : ∀ q ∈ L, q.2 = r.1 * q.1 + r.2) (h2 : ∃ a ∈ L, ∃ b ∈ L, a.1 ≠ b.1) :
    polyfit R (L.map Prod.fst) (L.map Prod.snd) = .ok r := by
  have hne : L.map Prod.fst ≠ [] := by
    obtain ⟨a, ha, -⟩ := h2
    intro h
    rw [List.map_eq_nil_iff.1 h] at ha
    cases ha
  have e : polyfit R (L.map Prod.fst) (L.map Prod.snd) =
      .ok (R.fitLine (L.map Prod.fst) (L.map Prod.snd)) := by
    unfold polyfit
    rw [raiseIf_neg hne, raiseIf_neg (by simp)]; rfl
  rw [e, best_unique (polyfit_best e) hl h2]

theorem pyGet_mem {α : Type*} {l : List α} {k : ℤ} {a : α} (h : pyGet l k = .ok a) : a ∈ l := by
  unfold pyGet at h
  split at h
  · cases h
  · split at h
    · rename_i hx; cases h; exact List.mem_of_getElem? hx
    · cases h

end QMix.IvData
