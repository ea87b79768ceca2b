import Verif.Props.DriveLevel

/-!
# Impedance recovery: the search
-/

namespace QMix.Zemb

open Np Fl IvData

/-! ## Specification -/

/-- The grid point in row `i` (of 101) and column `j` (of 201). -/
noncomputable def gridPoint (remb xemb : ℝ × ℝ) (i j : ℕ) : ℂ :=
  ((remb.1 + i * ((remb.2 - remb.1) / 100) : ℝ) : ℂ)
    + Complex.I * ((xemb.1 + j * ((xemb.2 - xemb.1) / 200) : ℝ) : ℂ)

open Classical in
/-- The measured points (voltage, current) on the part of the first photon step that is fitted: between
the fractions `fit_low` and `fit_high` of the step, which ends at the gap and is `vph` wide. -/
noncomputable def onStep (low high vph : ℝ) (voltage current : List ℝ) : List (ℝ × ℝ) :=
  (voltage.zip current).filter fun p =>
    decide ((1 - vph) + low * vph ≤ p.1 ∧ p.1 ≤ (1 - vph) + high * vph)

/-- The drive levels of measured points. -/
noncomputable def drives (o : ZembOpts) (idc : ℝ → ℝ) (vph : ℝ) (l : List (ℝ × ℝ)) : List Flt :=
  l.map fun p => findAlpha idc vph o.alphaMax o.numB p.1 p.2

/-- The ac voltages of measured points: drive level times photon voltage. -/
noncomputable def acVolts (o : ZembOpts) (idc : ℝ → ℝ) (vph : ℝ) (l : List (ℝ × ℝ)) :
    List (Option ℂ) :=
  (drives o idc vph l).map fun a => (finite a).map fun a => ((a * vph : ℝ) : ℂ)

/-- The ac impedances of measured points: ac voltage over ac current. -/
noncomputable def acImps (o : ZembOpts) (idc ikk : ℝ → ℝ) (vph : ℝ) (l : List (ℝ × ℝ)) :
    List (Option ℂ) :=
  l.map fun p => cdiv ((finite (findAlpha idc vph o.alphaMax o.numB p.1 p.2)).map
      fun a => ((a * vph : ℝ) : ℂ))
    ((finite (findAlpha idc vph o.alphaMax o.numB p.1 p.2)).map
      fun a => acCurrent idc ikk p.1 vph o.numB a)

/-! ## Lemmas -/

theorem flatMap_tab {α β γ : Type} (n m : ℕ) (hm : 0 < m) (f : ℕ → α) (g : ℕ → β) (h : α → β → γ) :
    (tab n f).flatMap (fun r => (tab m g).map (h r)) = tab (n * m) fun k => h (f (k / m)) (g (k % m)) := by
  induction n with
  | zero => simp [tab]
  | succ n ih =>
    have e1 : tab (n + 1) f = tab n f ++ [f n] := by simp [tab, List.range_succ]
    have e2 : tab ((n + 1) * m) (fun k => h (f (k / m)) (g (k % m)))
        = tab (n * m) (fun k => h (f (k / m)) (g (k % m))) ++ (tab m g).map (h (f n)) := by
      rw [Nat.succ_mul]
      unfold tab
      rw [List.range_add, List.map_append, List.map_map, List.map_map]
      congr 1
      refine List.map_congr_left fun k hk => ?_
      have hk := List.mem_range.1 hk
      have a1 : (n * m + k) / m = n := by
        rw [Nat.mul_comm, Nat.mul_add_div hm, Nat.div_eq_of_lt hk, add_zero]
      have a2 : (n * m + k) % m = k := by
        rw [Nat.mul_comm, Nat.mul_add_mod, Nat.mod_eq_of_lt hk]
      simp only [Function.comp_apply, a1, a2]
    rw [e1, List.flatMap_append, ih, e2]
    simp

theorem linspace_eq (a b : ℝ) (n : ℕ) :
    linspace a b (n + 1 : ℕ) = .ok (tab (n + 1) fun i => a + i * ((b - a) / n)) := by
  unfold linspace
  rw [raiseIf_neg (by omega)]
  simp
  rfl

theorem grid_eq (remb xemb : ℝ × ℝ) :
    grid remb xemb = .ok (tab (101 * 201) fun k => gridPoint remb xemb (k / 201) (k % 201)) := by
  unfold grid
  have h1 := linspace_eq remb.1 remb.2 100
  have h2 := linspace_eq xemb.1 xemb.2 200
  norm_num at h1 h2
  rw [h1, h2]
  simp only [py_bind]
  rw [flatMap_tab 101 201 (by norm_num) _ _ (fun (r x : ℝ) => ((r : ℂ) + Complex.I * (x : ℂ)))]
  rfl

theorem errorFunction_ok {v z : List (Option ℂ)} (h : v.length = z.length) (zs : ℂ) :
    ∃ e, errorFunction v z zs = .ok e := by
  unfold errorFunction
  rw [show zip (matched zs) v z = .ok (List.zipWith (matched zs) v z) by
    unfold Np.zip; rw [if_pos h]]
  exact ⟨_, rfl⟩

theorem sourceVoltage_ok {v z : List (Option ℂ)} (h : v.length = z.length) (zs : ℂ) :
    ∃ e, sourceVoltage v z zs = .ok e := by
  unfold sourceVoltage
  rw [show zip (matched zs) v z = .ok (List.zipWith (matched zs) v z) by
    unfold Np.zip; rw [if_pos h]]
  exact ⟨_, rfl⟩

theorem mapM_tab {α β : Type} {f : α → Py β} {g : ℕ → α} {e : ℕ → β} (n : ℕ)
    (h : ∀ k, f (g k) = .ok (e k)) : (tab n g).mapM f = .ok (tab n e) := by
  have : ∀ l : List ℕ, (l.map g).mapM f = .ok (l.map e) := by
    intro l
    induction l with
    | nil => rfl
    | cons a l ih => rw [List.map_cons, List.mapM_cons, h, ih]; rfl
  exact this _

theorem select_map {α β : Type} (f : α → β) (m : α → Bool) (l : List α) :
    select (l.map f) (l.map m) = .ok ((l.filter m).map f) := by
  unfold select
  rw [if_pos (by simp), List.zip, List.zipWith_map, List.zipWith_self, List.filter_map, List.map_map]
  rfl

open Classical in
theorem fitPoints_eq (o : ZembOpts) (vph : ℝ) (voltage current : List ℝ)
    (h : voltage.length = current.length) :
    fitPoints o vph voltage current = .ok ((onStep o.fitLow o.fitHigh vph voltage current).map Prod.fst,
      (onStep o.fitLow o.fitHigh vph voltage current).map Prod.snd) := by
  obtain ⟨l, rfl, rfl⟩ : ∃ l : List (ℝ × ℝ), voltage = l.map Prod.fst ∧ current = l.map Prod.snd :=
    ⟨voltage.zip current, by rw [List.map_fst_zip (by omega)], by rw [List.map_snd_zip (by omega)]⟩
  unfold onStep
  have hz : (l.map Prod.fst).zip (l.map Prod.snd) = l := by
    rw [List.zip, List.zipWith_map, List.zipWith_self]
    simp
  rw [hz]
  have hb : (fun p : ℝ × ℝ => decide ((1 - vph) + o.fitLow * vph ≤ p.1 ∧ p.1 ≤ (1 - vph) + o.fitHigh * vph))
      = fun p => decide (1 - vph + vph * o.fitLow ≤ p.1 ∧ p.1 ≤ 1 - vph * (1 - o.fitHigh)) := by
    funext p
    rw [decide_eq_decide]
    constructor <;> rintro ⟨a, b⟩ <;> constructor <;> nlinarith
  rw [hb]
  change masked ((l.map Prod.fst).map _) _ _ = _
  unfold masked
  rw [List.map_map]
  simp only [Function.comp_def]
  rw [select_map Prod.fst, select_map Prod.snd]
  rfl

theorem fitPoints_length (o : ZembOpts) (vph : ℝ) (voltage current : List ℝ)
    (h : voltage.length ≠ current.length) :
    fitPoints o vph voltage current = .error .index := by
  change masked _ _ _ = _
  unfold masked select
  rw [if_pos (by simp), if_neg (by simpa using Ne.symm h)]
  rfl

theorem getNat {α : Type} {l : List α} {i : ℕ} {a : α} (h : l[i]? = some a) : pyGet l (i : ℤ) = .ok a := by
  have hi := (List.getElem?_eq_some_iff.1 h).1
  refine pyGet_ok_of_getElem? (i := i) ?_ h
  have := pyIndex_nonneg (n := l.length) (k := (i : ℤ)) (by omega) (by omega)
  simpa using this

theorem getNat_tab {α : Type} {n i : ℕ} (f : ℕ → α) (h : i < n) : pyGet (tab n f) (i : ℤ) = .ok (f i) :=
  getNat (by rw [tab_get?, if_pos h])

theorem zip_map_map {α β γ δ : Type} (f : β → γ → δ) (g : α → β) (h : α → γ) (l : List α) :
    Np.zip f (l.map g) (l.map h) = .ok (l.map fun a => f (g a) (h a)) := by
  unfold Np.zip
  rw [if_pos (by simp), List.zipWith_map, List.zipWith_self]

theorem argFrom_first {better : Flt → Flt → Prop} (hi : ∀ a, ¬ better a a)
    (ht : ∀ a b c, better a b → better b c → better a c)
    (hneg : ∀ a b c, better a c → better a b ∨ better b c) (l pre : List Flt) (best : Flt) (besti : ℕ)
    (hb : pre[besti]? = some best) (hp : ∀ a ∈ pre, ¬ better a best)
    (hf : ∀ j a, j < besti → pre[j]? = some a → better best a) :
    ∀ b, (pre ++ l)[argFrom better best besti pre.length l]? = some b →
      ∀ j a, j < argFrom better best besti pre.length l → (pre ++ l)[j]? = some a → better b a := by
  induction l generalizing pre best besti with
  | nil =>
    intro b hb'
    simp only [argFrom, List.append_nil] at *
    rw [hb] at hb'
    obtain rfl := Option.some.inj hb'
    exact hf
  | cons x l ih =>
    unfold argFrom
    have e : pre ++ x :: l = (pre ++ [x]) ++ l := by simp
    have el : pre.length + 1 = (pre ++ [x]).length := by simp
    have hlt : besti < pre.length := (List.getElem?_eq_some_iff.1 hb).1
    split_ifs with h
    · rw [e, el]
      refine ih (pre ++ [x]) x pre.length (by simp) ?_ ?_
      · intro a ha hc
        rcases List.mem_append.1 ha with ha | ha
        · exact hp a ha (ht _ _ _ hc h)
        · rw [List.mem_singleton.1 ha] at hc
          exact hi x hc
      · intro j a hj ha
        have ha' : a ∈ pre := by
          rw [List.getElem?_append_left hj] at ha
          exact List.mem_of_getElem? ha
        rcases hneg _ a _ h with h1 | h1
        · exact h1
        · exact absurd h1 (hp a ha')
    · rw [e, el]
      refine ih (pre ++ [x]) best besti ?_ ?_ ?_
      · rw [List.getElem?_append_left hlt]; exact hb
      · intro a ha
        rcases List.mem_append.1 ha with ha | ha
        · exact hp a ha
        · rw [List.mem_singleton.1 ha]; exact h
      · intro j a hj ha
        rw [List.getElem?_append_left (by omega)] at ha
        exact hf j a hj ha

theorem worse_neg (a b c : Flt) (h : (a = none ∧ c ≠ none) ∨ flt a c) :
    ((a = none ∧ b ≠ none) ∨ flt a b) ∨ ((b = none ∧ c ≠ none) ∨ flt b c) := by
  cases a with
  | none =>
    cases b with
    | none =>
      rcases h with h | h
      · exact Or.inr (Or.inl ⟨rfl, h.2⟩)
      · exact absurd h (flt_none_left _)
    | some b => exact Or.inl (Or.inl ⟨rfl, by simp⟩)
  | some a =>
    cases c with
    | none => rcases h with h | h <;> simp [flt] at h
    | some c =>
      have h : a < c := by simpa [flt] using h
      cases b with
      | none => exact Or.inr (Or.inl ⟨rfl, by simp⟩)
      | some b =>
        rcases lt_or_ge a b with h1 | h1
        · exact Or.inl (Or.inr h1)
        · exact Or.inr (Or.inr (lt_of_le_of_lt h1 h))

/-- `argmin` with NaN: the entry found is NaN if there is one, else the minimum; it is the first. -/
theorem argminF_full {l : List Flt} {i : ℕ} (h : argminF l = .ok i) :
    ∃ b, l[i]? = some b ∧ (none ∈ l → b = none) ∧ (∀ a ∈ l, ¬ flt a b) ∧
      ∀ j a, j < i → l[j]? = some a → (b = none ∧ a ≠ none) ∨ flt b a := by
  have hi : ∀ a : Flt, ¬ ((a = none ∧ a ≠ none) ∨ flt a a) := fun a h => by
    rcases h with ⟨h, h'⟩ | h
    · exact h' h
    · exact flt_irrefl a h
  have ht : ∀ a b c : Flt, (a = none ∧ b ≠ none) ∨ flt a b → (b = none ∧ c ≠ none) ∨ flt b c →
      (a = none ∧ c ≠ none) ∨ flt a c := fun a b c h h' => by
    rcases h with ⟨h, hb⟩ | h <;> rcases h' with ⟨h2, h3⟩ | h'
    · exact absurd h2 hb
    · exact Or.inl ⟨h, fun e => by rw [e] at h'; exact flt_none_right _ h'⟩
    · rw [h2] at h; exact absurd h (flt_none_right _)
    · exact Or.inr (flt_trans h h')
  obtain ⟨b, hb, hm⟩ := argBest_spec (better := fun a b => (a = none ∧ b ≠ none) ∨ flt a b) hi ht h
  refine ⟨b, hb, ?_, fun a ha hc => hm a ha (Or.inr hc), ?_⟩
  · intro hn
    by_contra hb'
    exact hm none hn (Or.inl ⟨rfl, hb'⟩)
  · cases l with
    | nil => cases h
    | cons x l =>
      obtain rfl := Except.ok.inj h
      exact argFrom_first hi ht worse_neg l [x] x 0 rfl (by
        intro a ha; rw [List.mem_singleton.1 ha]; exact hi x) (by intro j a hj; omega) b hb

/-- The position of the bias voltage closest to the middle of the step, and what comes out. -/
theorem recover_eq (o : ZembOpts) (idc ikk : ℝ → ℝ) (vph : ℝ) (voltage current : List ℝ)
    (hlen : voltage.length = current.length) {N : ℕ} (hN : N = 101 * 201)
    (hne : onStep o.fitLow o.fitHigh vph voltage current ≠ []) :
    ∃ (mid best : ℕ) (err : ℕ → Option ℝ) (vt : Option ℝ) (pm : ℝ × ℝ),
      argmin ((onStep o.fitLow o.fitHigh vph voltage current).map
        fun p => |p.1 - (1 - vph / 2)|) = .ok mid ∧
      (onStep o.fitLow o.fitHigh vph voltage current)[mid]? = some pm ∧
      (∀ p ∈ onStep o.fitLow o.fitHigh vph voltage current,
        |pm.1 - (1 - vph / 2)| ≤ |p.1 - (1 - vph / 2)|) ∧
      (∀ k, errorFunction (acVolts o idc vph (onStep o.fitLow o.fitHigh vph voltage current))
        (acImps o idc ikk vph (onStep o.fitLow o.fitHigh vph voltage current))
        (gridPoint o.remb o.xemb (k / 201) (k % 201)) = .ok (err k)) ∧
      argminF (tab N fun k => toFlt (err k)) = .ok best ∧ best < N ∧
      sourceVoltage (acVolts o idc vph (onStep o.fitLow o.fitHigh vph voltage current))
        (acImps o idc ikk vph (onStep o.fitLow o.fitHigh vph voltage current))
        (o.zemb.getD (gridPoint o.remb o.xemb (best / 201) (best % 201))) = .ok vt ∧
      recoverZemb o idc ikk vph voltage current = .ok
        { zt := o.zemb.getD (gridPoint o.remb o.xemb (best / 201) (best % 201)), vt := vt,
          fitGood := @decide (fle (toFlt (err best)) (num goodError)) (Classical.propDecidable _),
          zw := (acImps o idc ikk vph [pm]).getD 0 none,
          alpha := findAlpha idc vph o.alphaMax o.numB pm.1 pm.2,
          errSurf := tab N err } := by
  set l := onStep o.fitLow o.fitHigh vph voltage current with hl
  have hlen' : (acVolts o idc vph l).length = (acImps o idc ikk vph l).length := by
    simp [acVolts, acImps, drives]
  choose err herr using fun k => errorFunction_ok hlen' (gridPoint o.remb o.xemb (k / 201) (k % 201))
  obtain ⟨best, hbest⟩ : ∃ best, argminF (tab N fun k => toFlt (err k)) = .ok best := by
    apply argBest_ok
    intro h
    have := congrArg List.length h
    rw [tab_length] at this
    simp only [List.length_nil] at this
    omega
  have hlt : best < N := by
    obtain ⟨b, hb, -⟩ := argminF_full hbest
    have := (List.getElem?_eq_some_iff.1 hb).1
    rwa [tab_length] at this
  obtain ⟨vt, hvt⟩ := sourceVoltage_ok hlen'
    (o.zemb.getD (gridPoint o.remb o.xemb (best / 201) (best % 201)))
  obtain ⟨mid, hmid⟩ : ∃ mid, argmin (l.map fun p => |p.1 - (1 - vph / 2)|) = .ok mid := by
    cases hc : l with
    | nil => exact absurd hc hne
    | cons a t => exact ⟨_, rfl⟩
  obtain ⟨m, hm, hmin, -⟩ := argmin_spec hmid
  rw [List.getElem?_map] at hm
  obtain ⟨pm, hpm, rfl⟩ := Option.map_eq_some_iff.1 hm
  refine ⟨mid, best, err, vt, pm, hmid, hpm, ?_, herr, hbest, hlt, hvt, ?_⟩
  · intro p hp
    exact hmin _ (List.mem_map.2 ⟨p, hp, rfl⟩)
  · unfold recoverZemb
    rw [fitPoints_eq o vph voltage current hlen, ← hl]
    simp only [py_bind, List.map_map]
    simp only [Function.comp_def]
    rw [hmid]
    simp only [py_bind]
    rw [zip_map_map]
    simp only [py_bind]
    rw [zip_map_map]
    simp only [py_bind, List.map_map]
    simp only [Function.comp_def]
    have hv : (l.map fun p => (junction idc ikk vph o.numB p.1
        (findAlpha idc vph o.alphaMax o.numB p.1 p.2)).1) = acVolts o idc vph l := by
      unfold acVolts drives
      rw [List.map_map]
      rfl
    have hz : (l.map fun p => (junction idc ikk vph o.numB p.1
        (findAlpha idc vph o.alphaMax o.numB p.1 p.2)).2) = acImps o idc ikk vph l := rfl
    rw [hv, hz]
    have hzw : pyGet (acImps o idc ikk vph l) (mid : ℤ) = .ok ((acImps o idc ikk vph [pm]).getD 0 none) := by
      apply getNat
      unfold acImps
      rw [List.getElem?_map, hpm]
      rfl
    rw [hzw, grid_eq, ← hN]
    simp only [py_bind]
    rw [mapM_tab N herr]
    simp only [py_bind]
    rw [map_tab, hbest]
    simp only [py_bind]
    rw [getNat_tab _ hlt, getNat_tab _ hlt]
    simp only [py_bind]
    rw [hvt]
    have ha : pyGet (l.map fun p => findAlpha idc vph o.alphaMax o.numB p.1 p.2) (mid : ℤ)
        = .ok (findAlpha idc vph o.alphaMax o.numB pm.1 pm.2) := by
      apply getNat
      rw [List.getElem?_map, hpm]
      rfl
    simp only [py_bind]
    rw [ha]
    rfl

/-- The error of an embedding impedance for measured points. -/
noncomputable def errAt (o : ZembOpts) (idc ikk : ℝ → ℝ) (vph : ℝ) (l : List (ℝ × ℝ)) (z : ℂ) :
    Py (Option ℝ) :=
  errorFunction (acVolts o idc vph l) (acImps o idc ikk vph l) z

theorem row_col {i j : ℕ} (hj : j < 201) : (201 * i + j) / 201 = i ∧ (201 * i + j) % 201 = j := by
  omega

/-! ## C63 -/

/-- C63. Without data on the step there is no recovery. -/
theorem C63_no_data (o : ZembOpts) (idc ikk : ℝ → ℝ) (vph : ℝ) (voltage current : List ℝ)
    (hlen : voltage.length = current.length)
    (hne : onStep o.fitLow o.fitHigh vph voltage current = []) :
    recoverZemb o idc ikk vph voltage current = .error .value := by
  unfold recoverZemb
  rw [fitPoints_eq o vph voltage current hlen, hne]
  rfl

/-- C63. Otherwise there is always a result. Its impedance is a grid point (unless the user has given
one), and the voltage reported is the source voltage that goes with it. The saved surface holds the
error of every grid point. The drive level and junction impedance reported are those of the measured
point closest to the middle of the step. -/
theorem C63_result (o : ZembOpts) (idc ikk : ℝ → ℝ) (vph : ℝ) (voltage current : List ℝ)
    (hlen : voltage.length = current.length) (hz : o.zemb = none)
    (hne : onStep o.fitLow o.fitHigh vph voltage current ≠ []) :
    ∃ r i j, recoverZemb o idc ikk vph voltage current = .ok r ∧ i < 101 ∧ j < 201 ∧
      r.zt = gridPoint o.remb o.xemb i j ∧
      sourceVoltage (acVolts o idc vph (onStep o.fitLow o.fitHigh vph voltage current))
        (acImps o idc ikk vph (onStep o.fitLow o.fitHigh vph voltage current)) r.zt = .ok r.vt ∧
      r.errSurf.length = 101 * 201 ∧
      (∀ i j, i < 101 → j < 201 → ∃ e, r.errSurf[201 * i + j]? = some e ∧
        errAt o idc ikk vph (onStep o.fitLow o.fitHigh vph voltage current)
          (gridPoint o.remb o.xemb i j) = .ok e) ∧
      ∃ p ∈ onStep o.fitLow o.fitHigh vph voltage current,
        (∀ q ∈ onStep o.fitLow o.fitHigh vph voltage current,
          |p.1 - (1 - vph / 2)| ≤ |q.1 - (1 - vph / 2)|) ∧
        r.alpha = findAlpha idc vph o.alphaMax o.numB p.1 p.2 ∧
        acImps o idc ikk vph [p] = [r.zw] := by
  obtain ⟨N, hN⟩ : ∃ N, N = 101 * 201 := ⟨_, rfl⟩
  obtain ⟨mid, best, err, vt, pm, hmid, hpm, hclose, herr, hbest, hlt, hvt, h⟩ :=
    recover_eq o idc ikk vph voltage current hlen hN hne
  rw [hz] at hvt h
  rw [← hN]
  refine ⟨_, best / 201, best % 201, h, by omega, by omega, rfl, hvt, tab_length _ _, ?_, pm,
    List.mem_of_getElem? hpm, hclose, rfl, rfl⟩
  intro i j hi hj
  obtain ⟨h1, h2⟩ := row_col (i := i) hj
  refine ⟨err (201 * i + j), ?_, ?_⟩
  · change (tab N err)[201 * i + j]? = _
    rw [tab_get?, if_pos (by omega)]
  · have := herr (201 * i + j)
    rwa [h1, h2] at this

/-- C63. Part of the claim: that the impedance found has the smallest error on the grid. Missing: the
case in which the error of some grid point is NaN, for which the claim is false (`C63_false`,
`C63_nan`). If the error of every grid point is a number, then the impedance found has the smallest, and
it is the first with this error; the fit is good if the error is at most `7e-7`. -/
theorem C63_best_partial (o : ZembOpts) (idc ikk : ℝ → ℝ) (vph : ℝ) (voltage current : List ℝ)
    (hlen : voltage.length = current.length) (hz : o.zemb = none)
    (hne : onStep o.fitLow o.fitHigh vph voltage current ≠ [])
    (hnum : ∀ i j, i < 101 → j < 201 → errAt o idc ikk vph
      (onStep o.fitLow o.fitHigh vph voltage current) (gridPoint o.remb o.xemb i j) ≠ .ok none) :
    ∃ r i j e, recoverZemb o idc ikk vph voltage current = .ok r ∧ i < 101 ∧ j < 201 ∧
      r.zt = gridPoint o.remb o.xemb i j ∧
      errAt o idc ikk vph (onStep o.fitLow o.fitHigh vph voltage current) r.zt = .ok (some e) ∧
      (r.fitGood = true ↔ e ≤ 7 / 10 ^ 7) ∧
      ∀ i' j', i' < 101 → j' < 201 → ∃ e', errAt o idc ikk vph
        (onStep o.fitLow o.fitHigh vph voltage current) (gridPoint o.remb o.xemb i' j') = .ok (some e') ∧
        e ≤ e' ∧ ((i' < i ∨ (i' = i ∧ j' < j)) → e < e') := by
  obtain ⟨N, hN⟩ : ∃ N, N = 101 * 201 := ⟨_, rfl⟩
  obtain ⟨mid, best, err, vt, pm, hmid, hpm, hclose, herr, hbest, hlt, hvt, h⟩ :=
    recover_eq o idc ikk vph voltage current hlen hN hne
  rw [hz] at hvt h
  have hsome : ∀ k, k < N → ∃ e, err k = some e := by
    intro k hk
    cases hc : err k with
    | some e => exact ⟨e, rfl⟩
    | none =>
      exact absurd (by rw [← hc]; exact herr k) (hnum (k / 201) (k % 201) (by omega) (by omega))
  obtain ⟨b, hb, hb1, hb2, hb3⟩ := argminF_full hbest
  rw [tab_get?, if_pos hlt] at hb
  obtain ⟨e, he⟩ := hsome best hlt
  obtain rfl := Option.some.inj hb
  refine ⟨_, best / 201, best % 201, e, h, by omega, by omega, rfl, ?_, ?_, ?_⟩
  · rw [← he]; exact herr best
  · simp only [decide_eq_true_eq, he]
    change fle (num e) (num goodError) ↔ _
    rw [fle_num]
    unfold goodError
    norm_num
  · intro i' j' hi' hj'
    obtain ⟨h1, h2⟩ := row_col (i := i') hj'
    have hk : 201 * i' + j' < N := by omega
    obtain ⟨e', he'⟩ := hsome (201 * i' + j') hk
    have hk' : (tab N fun k => toFlt (err k))[201 * i' + j']? = some (num e') := by
      rw [tab_get?, if_pos hk, he']; rfl
    refine ⟨e', ?_, ?_, ?_⟩
    · have := herr (201 * i' + j')
      rw [h1, h2, he'] at this
      exact this
    · have := hb2 _ (List.mem_of_getElem? hk')
      rw [he] at this
      change ¬ flt (num e') (num e) at this
      rw [flt_num] at this
      exact not_lt.1 this
    · intro hbefore
      have := hb3 (201 * i' + j') (num e') (by omega) hk'
      rw [he] at this
      rcases this with ⟨h, _⟩ | h
      · exact absurd h (num_ne_none e)
      · exact flt_num.1 h

/-- C63. If the error of some grid point is NaN then the impedance found is the first such point,
and the fit is bad. -/
theorem C63_nan (o : ZembOpts) (idc ikk : ℝ → ℝ) (vph : ℝ) (voltage current : List ℝ)
    (hlen : voltage.length = current.length) (hz : o.zemb = none)
    (hne : onStep o.fitLow o.fitHigh vph voltage current ≠ [])
    (hnan : ∃ i j, i < 101 ∧ j < 201 ∧ errAt o idc ikk vph
      (onStep o.fitLow o.fitHigh vph voltage current) (gridPoint o.remb o.xemb i j) = .ok none) :
    ∃ r i j, recoverZemb o idc ikk vph voltage current = .ok r ∧ i < 101 ∧ j < 201 ∧
      r.zt = gridPoint o.remb o.xemb i j ∧ r.fitGood = false ∧
      errAt o idc ikk vph (onStep o.fitLow o.fitHigh vph voltage current) r.zt = .ok none ∧
      ∀ i' j', i' < 101 → j' < 201 → (i' < i ∨ (i' = i ∧ j' < j)) → errAt o idc ikk vph
        (onStep o.fitLow o.fitHigh vph voltage current) (gridPoint o.remb o.xemb i' j') ≠ .ok none := by
  obtain ⟨N, hN⟩ : ∃ N, N = 101 * 201 := ⟨_, rfl⟩
  obtain ⟨mid, best, err, vt, pm, hmid, hpm, hclose, herr, hbest, hlt, hvt, h⟩ :=
    recover_eq o idc ikk vph voltage current hlen hN hne
  rw [hz] at hvt h
  obtain ⟨b, hb, hb1, hb2, hb3⟩ := argminF_full hbest
  rw [tab_get?, if_pos hlt] at hb
  obtain rfl := Option.some.inj hb
  have hnone : err best = none := by
    obtain ⟨i, j, hi, hj, hij⟩ := hnan
    obtain ⟨h1, h2⟩ := row_col (i := i) hj
    have h3 := herr (201 * i + j)
    rw [h1, h2] at h3
    have h4 : err (201 * i + j) = none := Except.ok.inj (h3.symm.trans hij)
    have h5 : (none : Flt) ∈ tab N fun k => toFlt (err k) :=
      (mem_tab).2 ⟨201 * i + j, by omega, by rw [h4]; rfl⟩
    have h6 := hb1 h5
    cases hc : err best with
    | none => rfl
    | some e => rw [hc] at h6; exact absurd h6 (num_ne_none e)
  refine ⟨_, best / 201, best % 201, h, by omega, by omega, rfl, ?_, ?_, ?_⟩
  · simp only [hnone, decide_eq_false_iff_not]
    exact fle_none_left _
  · have := herr best
    rw [hnone] at this
    exact this
  · intro i' j' hi' hj' hbefore hc
    obtain ⟨h1, h2⟩ := row_col (i := i') hj'
    have hk : 201 * i' + j' < N := by omega
    have h3 := herr (201 * i' + j')
    rw [h1, h2] at h3
    have h4 : err (201 * i' + j') = none := Except.ok.inj (h3.symm.trans hc)
    have hk' : (tab N fun k => toFlt (err k))[201 * i' + j']? = some none := by
      rw [tab_get?, if_pos hk, h4]; rfl
    rcases hb3 (201 * i' + j') none (by omega) hk' with ⟨_, h⟩ | h
    · exact h rfl
    · exact flt_none_right _ h

/-- C63. The impedance found lies within the ranges asked for. -/
theorem C63_range (o : ZembOpts) (idc ikk : ℝ → ℝ) (vph : ℝ) (voltage current : List ℝ) (r : Result)
    (hlen : voltage.length = current.length) (hz : o.zemb = none) (hr : o.remb.1 ≤ o.remb.2)
    (hx : o.xemb.1 ≤ o.xemb.2) (h : recoverZemb o idc ikk vph voltage current = .ok r) :
    o.remb.1 ≤ r.zt.re ∧ r.zt.re ≤ o.remb.2 ∧ o.xemb.1 ≤ r.zt.im ∧ r.zt.im ≤ o.xemb.2 := by
  by_cases hne : onStep o.fitLow o.fitHigh vph voltage current = []
  · rw [C63_no_data o idc ikk vph voltage current hlen hne] at h
    cases h
  obtain ⟨r', i, j, h', hi, hj, hzt, -⟩ := C63_result o idc ikk vph voltage current hlen hz hne
  rw [h] at h'
  cases h'
  rw [hzt]
  have hi' : (i : ℝ) ≤ 100 := by exact_mod_cast Nat.lt_succ_iff.1 hi
  have hj' : (j : ℝ) ≤ 200 := by exact_mod_cast Nat.lt_succ_iff.1 hj
  have hi0 : (0 : ℝ) ≤ i := Nat.cast_nonneg i
  have hj0 : (0 : ℝ) ≤ j := Nat.cast_nonneg j
  have e1 : (gridPoint o.remb o.xemb i j).re = o.remb.1 + i * ((o.remb.2 - o.remb.1) / 100) := by
    simp [gridPoint, Complex.ofReal_re, Complex.ofReal_im]
  have e2 : (gridPoint o.remb o.xemb i j).im = o.xemb.1 + j * ((o.xemb.2 - o.xemb.1) / 200) := by
    simp [gridPoint, Complex.ofReal_re, Complex.ofReal_im]
  rw [e1, e2]
  refine ⟨?_, ?_, ?_, ?_⟩ <;> nlinarith

/-- C63. An impedance given by the user replaces the one found, and the source voltage goes with it,
but everything else stays: in particular the fit is called good or bad by the error of the best grid
point, whatever the error of the impedance reported. -/
theorem C63_forced (o : ZembOpts) (idc ikk : ℝ → ℝ) (vph : ℝ) (voltage current : List ℝ) (z : ℂ)
    (r : Result) (hlen : voltage.length = current.length)
    (h : recoverZemb { o with zemb := none } idc ikk vph voltage current = .ok r) :
    ∃ vt, sourceVoltage (acVolts o idc vph (onStep o.fitLow o.fitHigh vph voltage current))
        (acImps o idc ikk vph (onStep o.fitLow o.fitHigh vph voltage current)) z = .ok vt ∧
      recoverZemb { o with zemb := some z } idc ikk vph voltage current
        = .ok { r with zt := z, vt := vt } := by
  obtain ⟨N, hN⟩ : ∃ N, N = 101 * 201 := ⟨_, rfl⟩
  by_cases hne : onStep o.fitLow o.fitHigh vph voltage current = []
  · rw [C63_no_data { o with zemb := none } idc ikk vph voltage current hlen hne] at h
    cases h
  have hlen' : (acVolts o idc vph (onStep o.fitLow o.fitHigh vph voltage current)).length =
      (acImps o idc ikk vph (onStep o.fitLow o.fitHigh vph voltage current)).length := by
    simp [acVolts, acImps, drives]
  obtain ⟨vt, hvt⟩ := sourceVoltage_ok hlen' z
  refine ⟨vt, hvt, ?_⟩
  obtain ⟨mid, best, err, v1, pm, hmid, hpm, -, herr, hbest, -, -, h1⟩ :=
    recover_eq { o with zemb := none } idc ikk vph voltage current hlen hN hne
  obtain ⟨mid', best', err', v2, pm', hmid', hpm', -, herr', hbest', -, hv2, h2⟩ :=
    recover_eq { o with zemb := some z } idc ikk vph voltage current hlen hN hne
  have e1 : err' = err := by
    funext k
    exact Except.ok.inj ((herr' k).symm.trans (herr k))
  subst e1
  obtain rfl : best' = best := Except.ok.inj (hbest'.symm.trans hbest)
  obtain rfl : mid' = mid := Except.ok.inj (hmid'.symm.trans hmid)
  obtain rfl : pm' = pm := Option.some.inj (hpm'.symm.trans hpm)
  obtain rfl : v2 = vt := Except.ok.inj (hv2.symm.trans hvt)
  obtain rfl := Except.ok.inj (h.symm.trans h1)
  exact h2

/-- C63. Data that fits an impedance on the grid is recognised: if with some grid point and some source
voltage the voltage divider gives the ac voltage of every measured point, then the fit is good, and the
impedance and the voltage found give every ac voltage as well (they need not be the same ones). -/
theorem C63_consistent (o : ZembOpts) (idc ikk : ℝ → ℝ) (vph : ℝ) (voltage current : List ℝ)
    (v z : List ℂ) (i₀ j₀ : ℕ) (w : ℝ) (hlen : voltage.length = current.length) (hz : o.zemb = none)
    (hv : acVolts o idc vph (onStep o.fitLow o.fitHigh vph voltage current) = v.map some)
    (hzi : acImps o idc ikk vph (onStep o.fitLow o.fitHigh vph voltage current) = z.map some)
    (hne : ∃ x ∈ z, x ≠ 0)
    (hgrid : ∀ i j, i < 101 → j < 201 → ∀ x ∈ z, gridPoint o.remb o.xemb i j + x ≠ 0)
    (hi₀ : i₀ < 101) (hj₀ : j₀ < 201)
    (hfit : ∀ p ∈ v.zip z, ‖p.1‖ = w * ‖p.2 / (gridPoint o.remb o.xemb i₀ j₀ + p.2)‖) :
    ∃ r vt, recoverZemb o idc ikk vph voltage current = .ok r ∧ r.fitGood = true ∧ r.vt = some vt ∧
      ∀ p ∈ v.zip z, ‖p.1‖ = vt * ‖p.2 / (r.zt + p.2)‖ := by
  have hlv : v.length = z.length := by
    have h1 := congrArg List.length hv
    have h2 := congrArg List.length hzi
    simp only [acVolts, acImps, drives, List.length_map] at h1 h2
    omega
  have hstep : onStep o.fitLow o.fitHigh vph voltage current ≠ [] := by
    intro h
    rw [h] at hzi
    obtain ⟨x, hx, _⟩ := hne
    have : z = [] := by simpa [acImps] using hzi.symm
    rw [this] at hx
    simp at hx
  have hls := fun i j hi hj => C60_least_squares v z (gridPoint o.remb o.xemb i j) hlv
    (hgrid i j hi hj) hne
  obtain ⟨r, i, j, e, hr, hi, hj, hzt, he, hgood, hall⟩ := C63_best_partial o idc ikk vph voltage current hlen hz
    hstep (by
      intro i j hi hj
      unfold errAt
      rw [hv, hzi]
      obtain ⟨e, w, h1, -⟩ := hls i j hi hj
      rw [h1]
      simp)
  obtain ⟨e', h1, hle, -⟩ := hall i₀ j₀ hi₀ hj₀
  have h2 := (C60_zero_iff v z (gridPoint o.remb o.xemb i₀ j₀) hlv (hgrid i₀ j₀ hi₀ hj₀) hne).2 ⟨w, hfit⟩
  unfold errAt at h1 he
  rw [hv, hzi] at h1 he
  obtain rfl : e' = 0 := Option.some.inj (Except.ok.inj (h1.symm.trans h2))
  rw [hzt] at he
  obtain ⟨e2, vt, h3, hvt, -, h0, -⟩ := hls i j hi hj
  obtain rfl : e2 = e := Option.some.inj (Except.ok.inj (h3.symm.trans he))
  have he0 : e2 = 0 := le_antisymm hle h0
  rw [he0] at he
  obtain ⟨r', i', j', hr', -, -, -, hsv, -⟩ := C63_result o idc ikk vph voltage current hlen hz hstep
  obtain rfl := Except.ok.inj (hr.symm.trans hr')
  rw [hv, hzi, hzt] at hsv
  have hvt' : r.vt = some vt := Except.ok.inj (hsv.symm.trans hvt)
  refine ⟨r, vt, hr, hgood.2 (by rw [he0]; norm_num), hvt', ?_⟩
  obtain ⟨w', hw'⟩ := (C60_zero_iff v z (gridPoint o.remb o.xemb i j) hlv (hgrid i j hi hj) hne).1 he
  obtain ⟨e3, w3, h4, h5, h6, -, -, -, huniq⟩ := hls i j hi hj
  obtain rfl : w3 = vt := Option.some.inj (Except.ok.inj (h5.symm.trans hvt))
  have h7 : e3 = 0 := Option.some.inj (Except.ok.inj (h4.symm.trans he))
  have h8 : mismatch (gridPoint o.remb o.xemb i j) v z w' = e3 := by
    rw [h7]
    unfold mismatch
    rw [List.sum_eq_zero]
    · simp
    · intro x hx
      rw [← List.map_uncurry_zip_eq_zipWith] at hx
      obtain ⟨p, hp, rfl⟩ := List.mem_map.1 hx
      have := hw' p hp
      simp [Function.uncurry, this]
  rw [← huniq w' h8, hzt]
  exact hw'

/-! ## C90 -/

/-- With a measured current below the unpumped current, the drive level found is zero. -/
theorem findAlpha_zero (idc : ℝ → ℝ) (vph alphaMax : ℝ) {nb : ℤ} (hnb : 0 ≤ nb) (vb i : ℝ)
    (hmax : 0 < alphaMax) (hup : idc vb < tuckerDc idc vb vph nb alphaMax) (hi : i < idc vb) :
    findAlpha idc vph alphaMax nb vb i = num 0 := by
  rw [findAlpha_eq idc vph alphaMax nb vb i hup.ne']
  have hs : start idc vph alphaMax nb vb i = 0 := by
    unfold start
    apply max_eq_left
    apply mul_nonpos_of_nonpos_of_nonneg _ hmax.le
    exact div_nonpos_of_nonpos_of_nonneg (by linarith) (by linarith)
  rw [hs]
  have h : ∀ k, ((pass (tuckerDc idc vb vph nb) i)^[k] (0, alphaMax / 4)).1 = 0 := by
    intro k
    induction k with
    | zero => rfl
    | succ k ih =>
      have h2 := pass_step (tuckerDc idc vb vph nb) i (0, alphaMax / 4) k
      rw [Function.iterate_succ_apply']
      set s := (pass (tuckerDc idc vb vph nb) i)^[k] (0, alphaMax / 4)
      unfold pass
      simp only [ih]
      rw [tuckerDc_zero idc vb vph hnb, if_pos hi, h2]
      apply max_eq_left
      have : 0 < alphaMax / 4 / 2 ^ k := by positivity
      simp only
      linarith
  rw [h 15]

theorem acCurrent_zero (idc ikk : ℝ → ℝ) (vb vph : ℝ) (nb : ℤ) : acCurrent idc ikk vb vph nb 0 = 0 := by
  unfold acCurrent
  have h : ∀ n : ℤ, besselJ n 0 * (besselJ (n - 1) 0 + besselJ (n + 1) 0) = 0 ∧
      besselJ n 0 * (besselJ (n - 1) 0 - besselJ (n + 1) 0) = 0 := by
    intro n
    by_cases hn : n = 0
    · subst hn
      rw [besselJ_zero_right (n := 0 - 1) (by norm_num), besselJ_zero_right (n := 0 + 1) (by norm_num)]
      simp
    · rw [besselJ_zero_right hn]
      simp
  have : ∀ (l : List ℤ), l.foldl (fun (s : ℂ) n =>
      s + (besselJ n 0 * (besselJ (n - 1) 0 + besselJ (n + 1) 0) * idc (vb + n * vph) : ℝ)
        + Complex.I *
          (besselJ n 0 * (besselJ (n - 1) 0 - besselJ (n + 1) 0) * ikk (vb + n * vph) : ℝ)) 0 = 0 := by
    intro l
    induction l with
    | nil => rfl
    | cons a l ih =>
      rw [List.foldl_cons, (h a).1, (h a).2]
      simpa using ih
  exact this _

/-- An impedance of a measured point that is not finite makes the corner of the grid win. -/
theorem corner (o : ZembOpts) (idc ikk : ℝ → ℝ) (vph : ℝ) (voltage current : List ℝ)
    (hlen : voltage.length = current.length) (hz : o.zemb = none)
    (h : none ∈ acImps o idc ikk vph (onStep o.fitLow o.fitHigh vph voltage current)) :
    ∃ r, recoverZemb o idc ikk vph voltage current = .ok r ∧
      r.zt = (o.remb.1 : ℂ) + Complex.I * (o.xemb.1 : ℂ) ∧ r.vt = none ∧ r.fitGood = false := by
  have hne : onStep o.fitLow o.fitHigh vph voltage current ≠ [] := by
    intro hc
    rw [hc] at h
    simp [acImps] at h
  have hlen' : (acVolts o idc vph (onStep o.fitLow o.fitHigh vph voltage current)).length =
      (acImps o idc ikk vph (onStep o.fitLow o.fitHigh vph voltage current)).length := by
    simp [acVolts, acImps, drives]
  have hall : ∀ z, errAt o idc ikk vph (onStep o.fitLow o.fitHigh vph voltage current) z = .ok none :=
    fun z => C60_nan _ _ z hlen' (Or.inr (Or.inl h))
  obtain ⟨r, i, j, hr, hi, hj, hzt, hgood, -, hfirst⟩ := C63_nan o idc ikk vph voltage current hlen hz hne
    ⟨0, 0, by norm_num, by norm_num, hall _⟩
  have h0 : i = 0 ∧ j = 0 := by
    by_contra hc
    apply hfirst 0 0 (by norm_num) (by norm_num) (by omega)
    exact hall _
  obtain ⟨rfl, rfl⟩ := h0
  obtain ⟨r', i', j', hr', -, -, -, hsv, -⟩ := C63_result o idc ikk vph voltage current hlen hz hne
  obtain rfl := Except.ok.inj (hr.symm.trans hr')
  refine ⟨r, hr, ?_, ?_, hgood⟩
  · rw [hzt]
    simp [gridPoint]
  · unfold sourceVoltage at hsv
    rw [show zip (matched r.zt) _ _ = .ok (List.zipWith (matched r.zt)
      (acVolts o idc vph (onStep o.fitLow o.fitHigh vph voltage current))
      (acImps o idc ikk vph (onStep o.fitLow o.fitHigh vph voltage current))) by
        unfold Np.zip; rw [if_pos hlen']] at hsv
    simp only [py_bind, pure_ok_iff] at hsv
    have : none ∈ (acImps o idc ikk vph
        (onStep o.fitLow o.fitHigh vph voltage current)).map (divider r.zt) :=
      List.mem_map.2 ⟨none, h, rfl⟩
    rw [sumAbs_none this] at hsv
    rw [← hsv]
    unfold rdiv
    split <;> simp_all

/-- C90. One measured point on the step with a current below the unpumped current (where pumping
raises the current) spoils the recovery: whatever the other points are, the impedance reported is the
corner of the search grid, the source voltage is NaN and the fit is bad. -/
theorem C90_one_low_point (o : ZembOpts) (idc ikk : ℝ → ℝ) (vph : ℝ) (voltage current : List ℝ)
    (p : ℝ × ℝ) (hlen : voltage.length = current.length) (hz : o.zemb = none) (hnb : 0 ≤ o.numB)
    (hmax : 0 < o.alphaMax) (hp : p ∈ onStep o.fitLow o.fitHigh vph voltage current)
    (hup : idc p.1 < tuckerDc idc p.1 vph o.numB o.alphaMax) (hi : p.2 < idc p.1) :
    ∃ r, recoverZemb o idc ikk vph voltage current = .ok r ∧
      r.zt = (o.remb.1 : ℂ) + Complex.I * (o.xemb.1 : ℂ) ∧ r.vt = none ∧ r.fitGood = false := by
  apply corner o idc ikk vph voltage current hlen hz
  refine List.mem_map.2 ⟨p, hp, ?_⟩
  rw [findAlpha_zero idc vph o.alphaMax hnb p.1 p.2 hmax hup hi, finite_num]
  simp [cdiv, acCurrent_zero]

/-- C90. So does a point where pumping (at the maximum drive level) does not change the current, if
the measured current is not below the unpumped current: the drive level is then not a number. -/
theorem C90_flat_point (o : ZembOpts) (idc ikk : ℝ → ℝ) (vph : ℝ) (voltage current : List ℝ)
    (p : ℝ × ℝ) (hlen : voltage.length = current.length) (hz : o.zemb = none)
    (hmax : 0 < o.alphaMax) (hp : p ∈ onStep o.fitLow o.fitHigh vph voltage current)
    (hflat : tuckerDc idc p.1 vph o.numB o.alphaMax = idc p.1) (hi : idc p.1 ≤ p.2) :
    ∃ r, recoverZemb o idc ikk vph voltage current = .ok r ∧
      r.zt = (o.remb.1 : ℂ) + Complex.I * (o.xemb.1 : ℂ) ∧ r.vt = none ∧ r.fitGood = false := by
  apply corner o idc ikk vph voltage current hlen hz
  refine List.mem_map.2 ⟨p, hp, ?_⟩
  rw [C61_undefined idc vph o.alphaMax o.numB p.1 p.2 hmax hflat hi]
  split_ifs <;> simp [finite, cdiv]

/-! Concrete cases: a junction with constant dc current `-1` and constant Kramers-Kronig transform
`-1`, driven with the level `1/2` at the middle of the step. -/

/-- The options of the example. -/
noncomputable def demoOpts : ZembOpts :=
  { fitLow := 0, fitHigh := 1, remb := (1, 2), xemb := (-1, 1), zemb := none, alphaMax := 1, numB := 0 }

theorem demo_step (i : ℝ) : onStep demoOpts.fitLow demoOpts.fitHigh 1 [1 / 2] [i] = [(1 / 2, i)] := by
  unfold onStep demoOpts
  norm_num

theorem demo_acCurrent (a : ℝ) :
    acCurrent (fun _ => -1) (fun _ => -1) (1 / 2) 1 0 a = Complex.I * (2 * besselJ 0 a * besselJ 1 a : ℝ) := by
  have h : besselJ (-1) a = -besselJ 1 a := by rw [besselJ_neg]; simp
  simp [acCurrent, pyRange, h]
  ring

theorem demo_fit : ∃ v z : ℂ, z.re = 0 ∧ z ≠ 0 ∧
    acVolts demoOpts (fun _ => -1) 1 (onStep demoOpts.fitLow demoOpts.fitHigh 1 [1 / 2]
      [-besselJ 0 (1 / 2) ^ 2]) = [v].map some ∧
    acImps demoOpts (fun _ => -1) (fun _ => -1) 1 (onStep demoOpts.fitLow demoOpts.fitHigh 1 [1 / 2]
      [-besselJ 0 (1 / 2) ^ 2]) = [z].map some := by
  obtain ⟨a, ha, hclose⟩ := demo_alpha (1 / 2) 1
  rw [abs_le] at hclose
  have h0 : 0 < a := by norm_num at hclose; linarith [hclose.1]
  have h1 : a ≤ 1 := by norm_num at hclose; linarith [hclose.2]
  have p0 := besselJ_zero_pos h0.le h1
  have p1 := besselJ_one_pos h0 (by linarith [Real.pi_gt_three])
  have pr : 0 < 2 * besselJ 0 a * besselJ 1 a := by positivity
  have hne : Complex.I * ((2 * besselJ 0 a * besselJ 1 a : ℝ) : ℂ) ≠ 0 :=
    mul_ne_zero Complex.I_ne_zero (Complex.ofReal_ne_zero.2 pr.ne')
  refine ⟨((a * 1 : ℝ) : ℂ), ((a * 1 : ℝ) : ℂ) / (Complex.I * ((2 * besselJ 0 a * besselJ 1 a : ℝ) : ℂ)),
    ?_, ?_, ?_, ?_⟩
  · rw [mul_comm Complex.I, ← div_div, Complex.div_I, ← Complex.ofReal_div, Complex.neg_re, Complex.mul_I_re,
      Complex.ofReal_im]
    simp
  · exact div_ne_zero (Complex.ofReal_ne_zero.2 (by linarith)) hne
  · rw [demo_step]
    unfold acVolts drives
    simp only [List.map_cons, List.map_nil]
    change [(finite (findAlpha (fun _ => -1) 1 1 0 (1 / 2) (-besselJ 0 (1 / 2) ^ 2))).map _] = _
    rw [ha, finite_num]
    rfl
  · rw [demo_step]
    unfold acImps
    simp only [List.map_cons, List.map_nil]
    change [cdiv ((finite (findAlpha (fun _ => -1) 1 1 0 (1 / 2) (-besselJ 0 (1 / 2) ^ 2))).map _)
      ((finite (findAlpha (fun _ => -1) 1 1 0 (1 / 2) (-besselJ 0 (1 / 2) ^ 2))).map
        fun a => acCurrent (fun _ => -1) (fun _ => -1) (1 / 2) 1 0 a)] = _
    rw [ha, finite_num]
    simp only [Option.map_some]
    rw [demo_acCurrent]
    unfold cdiv
    simp only [if_neg hne]

theorem demo_grid (z : ℂ) (hz : z.re = 0) (i j : ℕ) : gridPoint demoOpts.remb demoOpts.xemb i j + z ≠ 0 := by
  intro h
  have h := congrArg Complex.re h
  simp [gridPoint, demoOpts, hz] at h
  have : (0 : ℝ) ≤ i := Nat.cast_nonneg i
  linarith

/-- A point that any impedance fits: the hypotheses of `C63_consistent`, and so of `C63_best_partial`, can be
met. -/
example : ∃ r vt, recoverZemb demoOpts (fun _ => -1) (fun _ => -1) 1 [1 / 2] [-besselJ 0 (1 / 2) ^ 2]
    = .ok r ∧ r.fitGood = true ∧ r.vt = some vt ∧ 1 ≤ r.zt.re := by
  obtain ⟨v, z, hre, hz, hv, hzi⟩ := demo_fit
  have hd : z / (gridPoint demoOpts.remb demoOpts.xemb 3 4 + z) ≠ 0 :=
    div_ne_zero hz (demo_grid z hre 3 4)
  obtain ⟨r, vt, hr, hg, hvt, -⟩ := C63_consistent demoOpts (fun _ => -1) (fun _ => -1) 1 [1 / 2]
    [-besselJ 0 (1 / 2) ^ 2] [v] [z] 3 4
    (‖v‖ / ‖z / (gridPoint demoOpts.remb demoOpts.xemb 3 4 + z)‖) rfl rfl hv hzi
    ⟨z, by simp, hz⟩ (by
      intro i j _ _ x hx
      rw [List.mem_singleton.1 hx]
      exact demo_grid z hre i j) (by norm_num) (by norm_num) (by
      intro p hp
      rw [List.mem_singleton.1 hp]
      exact (div_mul_cancel₀ _ (norm_ne_zero_iff.2 hd)).symm)
  refine ⟨r, vt, hr, hg, hvt, ?_⟩
  exact (C63_range demoOpts (fun _ => -1) (fun _ => -1) 1 [1 / 2] [-besselJ 0 (1 / 2) ^ 2] r rfl rfl
    (by norm_num [demoOpts]) (by norm_num [demoOpts]) hr).1

/-- C63 is false in general: a single measured point which every impedance fits, but for which the
corner of the grid is in resonance with the junction. The error there is NaN and so it is the corner
that is returned, with a bad fit, although the error of other grid points is zero. -/
theorem C63_false : ∃ (o : ZembOpts) (idc ikk : ℝ → ℝ) (vph : ℝ) (voltage current : List ℝ) (r : Result),
    o.zemb = none ∧ o.remb = (0, 1) ∧ recoverZemb o idc ikk vph voltage current = .ok r ∧
    errAt o idc ikk vph (onStep o.fitLow o.fitHigh vph voltage current) r.zt = .ok none ∧
    r.fitGood = false ∧
    errAt o idc ikk vph (onStep o.fitLow o.fitHigh vph voltage current)
      (gridPoint o.remb o.xemb 1 0) = .ok (some 0) := by
  obtain ⟨v, z, hre, hz, hv, hzi⟩ := demo_fit
  have hv' : acVolts { demoOpts with remb := (0, 1), xemb := (-z.im, -z.im + 1) } (fun _ => -1) 1
      (onStep demoOpts.fitLow demoOpts.fitHigh 1 [1 / 2] [-besselJ 0 (1 / 2) ^ 2]) = [v].map some := hv
  have hzi' : acImps { demoOpts with remb := (0, 1), xemb := (-z.im, -z.im + 1) } (fun _ => -1)
      (fun _ => -1) 1
      (onStep demoOpts.fitLow demoOpts.fitHigh 1 [1 / 2] [-besselJ 0 (1 / 2) ^ 2]) = [z].map some := hzi
  obtain ⟨r, i, j, hr, hi, hj, hzt, hgood, hnan, -⟩ := C63_nan
    { demoOpts with remb := (0, 1), xemb := (-z.im, -z.im + 1) } (fun _ => -1) (fun _ => -1) 1 [1 / 2]
    [-besselJ 0 (1 / 2) ^ 2] rfl rfl (by
      intro h
      have := demo_step (-besselJ 0 (1 / 2) ^ 2)
      rw [h] at this
      cases this) ⟨0, 0, by norm_num, by norm_num, by
        unfold errAt
        simp only [hv', hzi']
        apply C60_nan
        · rfl
        · refine Or.inr (Or.inr (Or.inl ?_))
          simp only [List.map_cons, List.map_nil, List.mem_singleton, Option.some.injEq]
          apply Complex.ext <;> simp [gridPoint, hre]⟩
  refine ⟨_, _, _, _, _, _, r, rfl, rfl, hr, hnan, hgood, ?_⟩
  have hd : gridPoint (0, 1) (-z.im, -z.im + 1) 1 0 + z ≠ 0 := by
    intro h
    have h := congrArg Complex.re h
    simp [gridPoint, hre] at h
  unfold errAt
  simp only [hv', hzi']
  refine (C60_zero_iff [v] [z] _ rfl ?_ ⟨z, by simp, hz⟩).2
    ⟨‖v‖ / ‖z / (gridPoint (0, 1) (-z.im, -z.im + 1) 1 0 + z)‖, ?_⟩
  · intro x hx
    rw [List.mem_singleton.1 hx]
    exact hd
  · intro p hp
    rw [List.mem_singleton.1 hp]
    exact (div_mul_cancel₀ _ (norm_ne_zero_iff.2 (div_ne_zero hz hd))).symm

/-- With a second point of too low a current the corner `1 - i` is reported instead. -/
example : ∃ r, recoverZemb demoOpts (fun _ => -1) (fun _ => -1) 1 [1 / 2, 3 / 4]
      [-besselJ 0 (1 / 2) ^ 2, -2] = .ok r ∧
    r.zt = ((1 : ℝ) : ℂ) + Complex.I * ((-1 : ℝ) : ℂ) ∧ r.vt = none ∧ r.fitGood = false := by
  apply C90_one_low_point demoOpts (fun _ => -1) (fun _ => -1) 1 [1 / 2, 3 / 4]
    [-besselJ 0 (1 / 2) ^ 2, -2] (3 / 4, -2) rfl rfl le_rfl one_pos
  · unfold onStep demoOpts
    norm_num
  · have h := demo_mono (3 / 4) 1 (a := 0) (b := 1) ⟨le_rfl, by norm_num⟩ ⟨by norm_num, le_rfl⟩ one_pos
    rw [tuckerDc_zero _ _ _ le_rfl] at h
    exact h
  · norm_num

/-- No current at all: pumping changes nothing. -/
example : ∃ r, recoverZemb demoOpts (fun _ => 0) (fun _ => -1) 1 [1 / 2] [1] = .ok r ∧
    r.zt = ((1 : ℝ) : ℂ) + Complex.I * ((-1 : ℝ) : ℂ) ∧ r.vt = none ∧ r.fitGood = false := by
  apply C90_flat_point demoOpts (fun _ => 0) (fun _ => -1) 1 [1 / 2] [1] (1 / 2, 1) rfl rfl one_pos
  · rw [demo_step]; simp
  · simp [tuckerDc]
  · norm_num

/-- No point on the step. -/
example : recoverZemb demoOpts (fun _ => 0) (fun _ => -1) 1 [3] [1] = .error .value := by
  apply C63_no_data demoOpts (fun _ => 0) (fun _ => -1) 1 [3] [1] rfl
  unfold onStep demoOpts
  norm_num

end QMix.Zemb
