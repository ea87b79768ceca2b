import Verif.Model.Circuit
import Verif.Lemmas.Py
import Verif.Spec.Circuit
import Mathlib.Tactic.NormNum
import Mathlib.Tactic.FieldSimp
import Mathlib.Tactic.Positivity

/-! Array access lemmas for the circuit model. -/

namespace QMix.Cct

open QMix.Spec

variable {α : Type}

theorem ok_bind' {β γ : Type} (a : β) (f : β → Py γ) : (Except.ok a >>= f) = f a := rfl

theorem throw_bind {β γ : Type} (e : PyErr) (f : β → Py γ) :
    ((throw e : Py β) >>= f) = .error e := rfl

/-- Entry `(i, j)` of a nested list. -/
def entry2 (a : List (List α)) (i j : ℕ) : Option α := (a[i]?).bind (·[j]?)

theorem pyGet_ok {l : List α} {k : ℤ} {x : α} (h : pyGet l k = .ok x) :
    ∃ i, pyIndex l.length k = .ok i ∧ l[i]? = some x := by
  unfold pyGet at h
  cases e : pyIndex l.length k with
  | error e' => rw [e] at h; cases h
  | ok i =>
    rw [e] at h
    simp only at h
    cases e2 : l[i]? with
    | none => rw [e2] at h; cases h
    | some y => rw [e2] at h; cases h; exact ⟨i, rfl, e2⟩

theorem pySet_ok {l l' : List α} {k : ℤ} {x : α} (h : pySet l k x = .ok l') :
    ∃ i, pyIndex l.length k = .ok i ∧ l' = l.set i x := by
  unfold pySet at h
  cases e : pyIndex l.length k with
  | error e' => rw [e] at h; cases h
  | ok i => rw [e] at h; cases h; exact ⟨i, rfl, rfl⟩

theorem set2_ok {a a' : List (List α)} {f p : ℤ} {x : α} (h : set2 a f p x = .ok a') :
    ∃ i j row, pyIndex a.length f = .ok i ∧ a[i]? = some row ∧ pyIndex row.length p = .ok j ∧
      a' = a.set i (row.set j x) := by
  unfold set2 at h
  cases e1 : pyGet a f with
  | error e => rw [e1] at h; cases h
  | ok row =>
    rw [e1, ok_bind'] at h
    obtain ⟨i, hi, hrow⟩ := pyGet_ok e1
    cases e2 : pySet row p x with
    | error e => rw [e2] at h; cases h
    | ok row' =>
      rw [e2, ok_bind'] at h
      obtain ⟨j, hj, rfl⟩ := pySet_ok e2
      obtain ⟨i', hi', rfl⟩ := pySet_ok h
      rw [hi] at hi'; cases hi'
      exact ⟨i, j, row, hi, hrow, hj, rfl⟩

theorem get2_set2 {a a' : List (List α)} {f p : ℤ} {x : α} (h : set2 a f p x = .ok a') :
    get2 a' f p = .ok x := by
  obtain ⟨i, j, row, hi, hrow, hj, rfl⟩ := set2_ok h
  have hi2 := pyIndex_lt hi
  have hj2 := pyIndex_lt hj
  have e1 : pyGet (a.set i (row.set j x)) f = .ok (row.set j x) :=
    pyGet_ok_of_getElem? (by rw [List.length_set]; exact hi) (by simp [hi2])
  have e2 : pyGet (row.set j x) p = .ok x :=
    pyGet_ok_of_getElem? (by rw [List.length_set]; exact hj) (by simp [hj2])
  unfold get2
  rw [e1, ok_bind', e2]

theorem set2_of_get2 {β : Type} {a : List (List α)} {f p : ℤ} {y : α} (h : get2 a f p = .ok y)
    {b : List (List β)} (hb : b.map List.length = a.map List.length) (x : β) :
    ∃ b', set2 b f p x = .ok b' := by
  unfold get2 at h
  cases e1 : pyGet a f with
  | error e => rw [e1] at h; cases h
  | ok row =>
    rw [e1, ok_bind'] at h
    obtain ⟨i, hi, hrow⟩ := pyGet_ok e1
    obtain ⟨j, hj, hy⟩ := pyGet_ok h
    have hl : b.length = a.length := by simpa using congrArg List.length hb
    have hi2 := pyIndex_lt hi
    have hr : (b[i]'(by omega)).length = row.length := by
      have e : (b.map List.length)[i]? = (a.map List.length)[i]? := by rw [hb]
      rw [List.getElem?_map, List.getElem?_map, hrow, List.getElem?_eq_getElem (by omega)] at e
      simpa using e
    have g1 : pyGet b f = .ok (b[i]'(by omega)) :=
      pyGet_ok_of_getElem? (by rw [hl]; exact hi) (by simp)
    have g2 : pySet (b[i]'(by omega)) p x = .ok ((b[i]'(by omega)).set j x) :=
      pySet_eq x (by rw [hr]; exact hj)
    exact ⟨_, by unfold set2; rw [g1, ok_bind', g2, ok_bind', pySet_eq _ (by rw [hl]; exact hi)]⟩

theorem entry2_set_ne {a : List (List α)} {i j : ℕ} {row : List α} (hrow : a[i]? = some row) (x : α)
    {i' j' : ℕ} (h : ¬ (i' = i ∧ j' = j)) :
    entry2 (a.set i (row.set j x)) i' j' = entry2 a i' j' := by
  unfold entry2
  by_cases hi : i' = i
  · subst hi
    have hlt : i' < a.length := by
      by_contra hc
      rw [List.getElem?_eq_none (by omega)] at hrow
      cases hrow
    have hj : j ≠ j' := fun e => h ⟨rfl, e.symm⟩
    simp only [List.getElem?_set_self hlt, hrow, Option.bind_some, List.getElem?_set_ne hj]
  · rw [List.getElem?_set_ne (fun e => hi e.symm)]

theorem entry2_set_same {a : List (List α)} {i j : ℕ} {row : List α} (hrow : a[i]? = some row)
    (hj : j < row.length) (x : α) : entry2 (a.set i (row.set j x)) i j = some x := by
  have hlt : i < a.length := by
    by_contra hc
    rw [List.getElem?_eq_none (by omega)] at hrow
    cases hrow
  unfold entry2
  simp [List.getElem?_set_self hlt, hj]

theorem planck_pos : 0 < planck := by unfold planck; norm_num
theorem charge_pos : 0 < charge := by unfold charge; norm_num

/-- What `available_power` computes: the source power in the given unit. -/
theorem availablePower_eq {c : Circuit} {vg rn : ℝ} {f p : ℤ} {vt zt : ℂ} {s : String} {u : PowerUnit}
    (hv : c.vgap = some vg) (hr : c.rn = some rn) (h1 : get2 c.vt f p = .ok vt)
    (h2 : get2 c.zt f p = .ok zt) (hs : s.toLower = u.spelling) (hR : 0 < zt.re * rn)
    (hpos : u.logarithmic → 0 < sourcePower (vt * vg) (zt.re * rn)) :
    ∃ x, availablePower c f p s = .ok x ∧ u.watts x = sourcePower (vt * vg) (zt.re * rn) := by
  have hP : ‖vt * (vg : ℂ)‖ ^ 2 / (zt.re * rn) / 8 = sourcePower (vt * vg) (zt.re * rn) := by
    unfold sourcePower; rw [div_div]; ring_nf
  unfold availablePower
  rw [hv, hr, h1, h2]
  simp only [getOpt, pure_bind, ok_bind', ne_eq, hR.ne', not_false_eq_true, if_true, hP]
  set P := sourcePower (vt * vg) (zt.re * rn)
  unfold fromWatts
  cases u <;> simp [hs, PowerUnit.spelling, PowerUnit.watts, pure, Except.pure] <;>
    (try norm_num [Except.pure]) <;>
    simp only [PowerUnit.logarithmic, forall_const] at hpos
  · refine ⟨10 * Real.logb 10 (P * 1000), by simp [decibel, hpos], ?_⟩
    rw [mul_div_cancel_left₀ _ (by norm_num : (10 : ℝ) ≠ 0),
      Real.rpow_logb (by norm_num) (by norm_num) (by positivity)]
    ring
  · refine ⟨10 * Real.logb 10 P, by simp [decibel, hpos], ?_⟩
    rw [mul_div_cancel_left₀ _ (by norm_num : (10 : ℝ) ≠ 0),
      Real.rpow_logb (by norm_num) (by norm_num) hpos]

/-- Readings in one unit with the same wattage are equal. -/
theorem watts_injective (u : PowerUnit) : Function.Injective u.watts := by
  intro x y h
  cases u <;> simp only [PowerUnit.watts] at h
  case W => exact h
  case dBm =>
    have : (10 : ℝ) ^ (x / 10) = 10 ^ (y / 10) := by linarith
    have := (Real.rpow_right_inj (by norm_num) (by norm_num)).1 this
    linarith
  case dBW =>
    have := (Real.rpow_right_inj (by norm_num) (by norm_num)).1 h
    linarith
  all_goals linarith

theorem inWatts_eq {s : String} {u : PowerUnit} (hs : s.toLower = u.spelling) (x : ℝ) :
    inWatts s x = .ok (u.watts x) := by
  unfold inWatts
  have hd : PowerUnit.dBm.watts x = (10 : ℝ) ^ (x / 10) * 1e-3 := by simp only [PowerUnit.watts]; ring
  cases u
  case dBm => rw [hd]; simp [hs, PowerUnit.spelling, pure, Except.pure]
  all_goals simp [hs, PowerUnit.spelling, PowerUnit.watts, pure, Except.pure]

theorem inWatts_ok {s : String} {x y : ℝ} (h : inWatts s x = .ok y) :
    ∃ u, s.toLower = PowerUnit.spelling u ∧ y = u.watts x := by
  by_cases hu : ∃ u, s.toLower = PowerUnit.spelling u
  · obtain ⟨u, hu⟩ := hu
    rw [inWatts_eq hu] at h
    cases h
    exact ⟨u, hu, rfl⟩
  · exfalso
    have hn : ∀ u, s.toLower ≠ PowerUnit.spelling u := fun u e => hu ⟨u, e⟩
    have h1 := hn .W; have h2 := hn .mW; have h3 := hn .uW; have h4 := hn .nW
    have h5 := hn .pW; have h6 := hn .fW; have h7 := hn .dBm; have h8 := hn .dBW
    simp only [PowerUnit.spelling] at h1 h2 h3 h4 h5 h6 h7 h8
    unfold inWatts at h
    simp only [h1, h2, h3, h4, h5, h6, h7, h8, if_false] at h
    cases h

/-- What `set_available_power` does when it succeeds. -/
theorem setAvailablePower_ok {c c' : Circuit} {x : ℝ} {f p : ℤ} {s : String}
    (h : setAvailablePower c x f p s = .ok c') :
    ∃ vg rn zt u, c.vgap = some vg ∧ c.rn = some rn ∧ get2 c.zt f p = .ok zt ∧ vg ≠ 0 ∧ zt ≠ 0 ∧
      s.toLower = PowerUnit.spelling u ∧ 0 ≤ 8 * u.watts x * (zt.re * rn) ∧
      writeVt c f p ((Real.sqrt (8 * u.watts x * (zt.re * rn)) / vg : ℝ) : ℂ) = .ok c' := by
  unfold setAvailablePower at h
  obtain ⟨vg, hv, h⟩ := bind_ok_iff.1 h
  obtain ⟨rn, hr, h⟩ := bind_ok_iff.1 h
  obtain ⟨zt, hz, h⟩ := bind_ok_iff.1 h
  obtain ⟨_, hz0, h⟩ := bind_ok_iff.1 h
  obtain ⟨y, hy, h⟩ := bind_ok_iff.1 h
  obtain ⟨_, hx, h⟩ := bind_ok_iff.1 h
  obtain ⟨_, hg, h⟩ := bind_ok_iff.1 h
  obtain ⟨u, hu, rfl⟩ := inWatts_ok hy
  exact ⟨vg, rn, zt, u, getOpt_ok.1 hv, getOpt_ok.1 hr, hz, raiseIf_ok.1 hg, pyAssert_ok.1 hz0, hu,
    not_lt.1 (raiseIf_ok.1 hx), h⟩

theorem writeVt_ok {c c' : Circuit} {f p : ℤ} {x : ℂ} (h : writeVt c f p x = .ok c') :
    c.vtW = true ∧ ∃ a, set2 c.vt f p x = .ok a ∧ c' = { c with vt := a } := by
  unfold writeVt at h
  by_cases hw : c.vtW
  · rw [if_pos hw] at h
    cases e : set2 c.vt f p x with
    | error e' => rw [e] at h; cases h
    | ok a => rw [e] at h; cases h; exact ⟨hw, a, rfl, rfl⟩
  · rw [if_neg hw] at h; cases h

/-- After a successful `set_available_power` the source power is the requested one. -/
theorem sourcePower_set {c c' : Circuit} {x : ℝ} {f p : ℤ} {s : String}
    (h : setAvailablePower c x f p s = .ok c') {rn : ℝ} {zt : ℂ} (hr : c.rn = some rn)
    (hz : get2 c.zt f p = .ok zt) (hR : 0 < zt.re * rn) :
    ∃ vg vt u, c'.vgap = some vg ∧ c'.rn = some rn ∧ get2 c'.zt f p = .ok zt ∧
      get2 c'.vt f p = .ok vt ∧ s.toLower = PowerUnit.spelling u ∧ 0 ≤ u.watts x ∧
      sourcePower (vt * vg) (zt.re * rn) = u.watts x := by
  obtain ⟨vg, rn', zt', u, hv, hr', hz', hvg, hz0, hs, hpos, hw⟩ := setAvailablePower_ok h
  rw [hr] at hr'; cases hr'
  rw [hz] at hz'; cases hz'
  obtain ⟨_, a, ha, rfl⟩ := writeVt_ok hw
  have hx : 0 ≤ u.watts x := by
    by_contra hc
    have : 8 * u.watts x * (zt.re * rn) < 0 := mul_neg_of_neg_of_pos (by linarith) hR
    linarith
  refine ⟨vg, _, u, hv, hr, hz, get2_set2 ha, hs, hx, ?_⟩
  unfold sourcePower
  have hm : ∀ y : ℝ, ((y / vg : ℝ) : ℂ) * (vg : ℂ) = ((y : ℝ) : ℂ) := by
    intro y
    rw [← Complex.ofReal_mul, div_mul_cancel₀ _ hvg]
  rw [hm, Complex.norm_real, Real.norm_eq_abs, sq_abs, Real.sq_sqrt hpos]
  rw [div_eq_iff (by positivity)]
  ring

theorem writeFreq_ok {c c' : Circuit} {f : ℤ} {x : ℝ} (h : writeFreq c f x = .ok c') :
    c.freqW = true ∧ ∃ a, pySet c.freq f x = .ok a ∧ c' = { c with freq := a } := by
  unfold writeFreq at h
  by_cases hw : c.freqW
  · rw [if_pos hw] at h
    cases e : pySet c.freq f x with
    | error e' => rw [e] at h; cases h
    | ok a => rw [e] at h; cases h; exact ⟨hw, a, rfl, rfl⟩
  · rw [if_neg hw] at h; cases h

theorem writeZt_ok {c c' : Circuit} {f p : ℤ} {x : ℂ} (h : writeZt c f p x = .ok c') :
    c.ztW = true ∧ ∃ a, set2 c.zt f p x = .ok a ∧ c' = { c with zt := a } := by
  unfold writeZt at h
  by_cases hw : c.ztW
  · rw [if_pos hw] at h
    obtain ⟨a, ha, h⟩ := bind_ok_iff.1 h
    cases h
    exact ⟨hw, a, ha, rfl⟩
  · rw [if_neg hw] at h; cases h

theorem writeVb_ok {c c' : Circuit} {i : ℤ} {x : ℝ} (h : writeVb c i x = .ok c') :
    c.vbW = true ∧ ∃ a, pySet c.vb i x = .ok a ∧ c' = { c with vb := a } := by
  unfold writeVb at h
  by_cases hw : c.vbW
  · rw [if_pos hw] at h
    obtain ⟨a, ha, h⟩ := bind_ok_iff.1 h
    cases h
    exact ⟨hw, a, ha, rfl⟩
  · rw [if_neg hw] at h; cases h

theorem setAlpha_ok {c c' : Circuit} {α : ℝ} {f p : ℤ} {zj : ℂ} (h : setAlpha c α f p zj = .ok c') :
    ∃ zt w, get2 c.zt f p = .ok zt ∧ pyGet c.freq f = .ok w ∧ zt ≠ 0 ∧ w ≠ 0 ∧ zj ≠ 0 ∧
      writeVt c f p (α * w * (zt / zj + 1)) = .ok c' := by
  unfold setAlpha at h
  obtain ⟨zt, hz, h⟩ := bind_ok_iff.1 h
  obtain ⟨_, hz0, h⟩ := bind_ok_iff.1 h
  obtain ⟨w, hw, h⟩ := bind_ok_iff.1 h
  obtain ⟨_, hw0, h⟩ := bind_ok_iff.1 h
  obtain ⟨_, hj, h⟩ := bind_ok_iff.1 h
  exact ⟨zt, w, hz, hw, pyAssert_ok.1 hz0, pyAssert_ok.1 hw0, raiseIf_ok.1 hj, h⟩

theorem setFreq_ok {c c' : Circuit} {x : ℝ} {f : ℤ} {s : String} (h : setFreq c x f s = .ok c') :
    ∃ y, writeFreq c f y = .ok c' := by
  unfold setFreq at h
  obtain ⟨_, _, h⟩ := bind_ok_iff.1 h
  obtain ⟨y, _, h⟩ := bind_ok_iff.1 h
  exact ⟨y, h⟩

theorem setName_ok {c c' : Circuit} {f p : ℤ} {s : String} (h : setName c s f p = .ok c') :
    ∃ a, set2 c.comment f p s = .ok a ∧ c' = { c with comment := a } := by
  unfold setName at h
  cases e : set2 c.comment f p s with
  | error e' => rw [e] at h; cases h
  | ok a => rw [e] at h; cases h; exact ⟨a, rfl, rfl⟩

/-- The circuit that the constructor returns, given the gap current. -/
noncomputable def fresh (numF numP : ℤ) (lo hi : ℝ) (npts : ℤ) (fg vg rn : Option ℝ) (name : String)
    (ig : Option ℝ) : Circuit :=
  { numF := numF.toNat, numP := numP.toNat, fgap := newFgap fg vg, vgap := newVgap fg vg, igap := ig
    rn := rn
    freq := List.replicate (numF.toNat + 1) 0
    vt := List.replicate (numF.toNat + 1) (List.replicate (numP.toNat + 1) 0)
    zt := List.replicate (numF.toNat + 1) (List.replicate (numP.toNat + 1) 0)
    vb := linspace lo hi npts.toNat
    name := name
    comment := List.replicate (numF.toNat + 1) (List.replicate (numP.toNat + 1) "")
    freqW := true, vtW := true, ztW := true, vbW := true }

theorem new_ok {numF numP npts : ℤ} {lo hi : ℝ} {fg vg rn : Option ℝ} {name : String}
    {c : Circuit} (h : Cct.new numF numP lo hi npts fg vg rn name = .ok c) :
    (numF = 1 ∨ numF = 2 ∨ numF = 3 ∨ numF = 4) ∧ 1 ≤ numP ∧ 1 ≤ npts ∧ lo ≤ hi ∧
      ∃ ig, newIgap vg rn = .ok ig ∧ c = fresh numF numP lo hi npts fg vg rn name ig := by
  unfold Cct.new at h
  obtain ⟨_, h1, h⟩ := bind_ok_iff.1 h
  obtain ⟨_, h2, h⟩ := bind_ok_iff.1 h
  obtain ⟨_, h3, h⟩ := bind_ok_iff.1 h
  obtain ⟨_, h4, h⟩ := bind_ok_iff.1 h
  obtain ⟨ig, h5, h⟩ := bind_ok_iff.1 h
  cases h
  exact ⟨pyAssert_ok.1 h1, pyAssert_ok.1 h2, pyAssert_ok.1 h3, pyAssert_ok.1 h4, ig, h5, rfl⟩

theorem new_eq {numF numP npts : ℤ} {lo hi : ℝ} {fg vg rn : Option ℝ} {name : String}
    {ig : Option ℝ} (h1 : numF = 1 ∨ numF = 2 ∨ numF = 3 ∨ numF = 4) (h2 : 1 ≤ numP) (h3 : 1 ≤ npts)
    (h4 : lo ≤ hi) (h5 : newIgap vg rn = .ok ig) :
    Cct.new numF numP lo hi npts fg vg rn name = .ok (fresh numF numP lo hi npts fg vg rn name ig) := by
  unfold Cct.new
  rw [pyAssert_pos h1, pyAssert_pos h2, pyAssert_pos h3, pyAssert_pos h4, h5]
  rfl

end QMix.Cct
