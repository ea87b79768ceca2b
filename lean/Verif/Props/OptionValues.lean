import Verif.Props.ExpData

/-!
# Options: what the values given by the user mean (C41, C94)
-/

namespace QMix.Exp

open QMix Np Fl IvData IfData Opt

/-! ## Specification -/

/-- A value is the number `z`. Booleans are numbers. -/
inductive IsNumber : Val → ℂ → Prop
  | int (n : ℤ) : IsNumber (.int n) n
  | num (r : ℝ) : IsNumber (.num r) r
  | cplx (z : ℂ) : IsNumber (.cplx z) z
  | yes : IsNumber (.bool true) 1
  | no : IsNumber (.bool false) 0

/-- The values that count as false: `None`, `False`, zero, the empty string, the empty list. -/
inductive Falsy : Val → Prop
  | none : Falsy .none
  | number {v : Val} : IsNumber v 0 → Falsy v
  | str : Falsy (.str "")
  | seq : Falsy (.seq [])

/-- A list of real numbers. -/
def IsReals (l : List Val) (r : List ℝ) : Prop := List.Forall₂ (fun v (x : ℝ) => IsNumber v x ∧ ∀ z, v ≠ .cplx z) l r

/-! ## Lemmas -/

theorem truth_iff (v : Val) : truth v = true ↔ ¬ Falsy v := by
  cases v with
  | none => simp [truth, Falsy.none]
  | bool b =>
    cases b
    · simp [truth, Falsy.number IsNumber.no]
    · simp only [truth, true_iff]
      rintro (_ | h)
      generalize hz : (0 : ℂ) = z at h
      cases h
      simp at hz
  | int n =>
    simp only [truth, decide_eq_true_eq]
    constructor
    · rintro hn (_ | h)
      generalize hz : (0 : ℂ) = z at h
      cases h
      exact hn (by exact_mod_cast hz.symm)
    · rintro h rfl
      exact h (.number (by simpa using IsNumber.int 0))
  | num r =>
    simp only [truth, decide_eq_true_eq]
    constructor
    · rintro hn (_ | h)
      generalize hz : (0 : ℂ) = z at h
      cases h
      exact hn (by exact_mod_cast hz.symm)
    · rintro h rfl
      exact h (.number (by simpa using IsNumber.num 0))
  | str s =>
    simp only [truth, decide_eq_true_eq]
    constructor
    · rintro hn (_ | h | _)
      · cases h
      · exact hn rfl
    · rintro h rfl
      exact h .str
  | cplx z =>
    simp only [truth, decide_eq_true_eq]
    constructor
    · rintro hn (_ | h)
      generalize hz : (0 : ℂ) = w at h
      cases h
      exact hn hz.symm
    · rintro h rfl
      exact h (.number (.cplx 0))
  | seq l =>
    simp only [truth, decide_eq_true_eq]
    constructor
    · rintro hn (_ | h | _ | _)
      · cases h
      · exact hn rfl
    · rintro h rfl
      exact h .seq

theorem asReal_iff (v : Val) (x : ℝ) : asReal v = .ok x ↔ IsNumber v x ∧ ∀ z, v ≠ .cplx z := by
  constructor
  · intro h
    cases v with
    | num r => cases h; exact ⟨.num _, by simp⟩
    | int n => cases h; exact ⟨by simpa using IsNumber.int n, by simp⟩
    | bool b =>
      cases b <;> cases h
      · exact ⟨by simpa using IsNumber.no, by simp⟩
      · exact ⟨by simpa using IsNumber.yes, by simp⟩
    | none => cases h
    | str s => cases h
    | cplx z => cases h
    | seq l => cases h
  · rintro ⟨h, hc⟩
    generalize hz : (x : ℂ) = z at h
    cases h with
    | int n => simp only [asReal]; congr 1; exact_mod_cast hz.symm
    | num r => simp only [asReal]; congr 1; exact_mod_cast hz.symm
    | cplx z => exact absurd rfl (hc z)
    | yes => simp only [asReal]; congr 1; simp only [if_true]; exact_mod_cast hz.symm
    | no => simp only [asReal]; congr 1; simp; exact_mod_cast hz.symm

theorem asOptCplx_number {v : Val} {z : ℂ} (h : IsNumber v z) : asOptCplx v = .ok (some z) := by
  cases h <;> simp [asOptCplx, asReal, py_bind, pure, Except.pure]

theorem mapM_asReal {l : List Val} {r : List ℝ} (h : IsReals l r) : l.mapM asReal = .ok r := by
  induction h with
  | nil => rfl
  | cons h _ ih => rw [List.mapM_cons, (asReal_iff _ _).2 h, ih]; rfl

theorem uses_value {α : Type} {kw : Dict} {k : String} {rd : Val → Py α} {d x y : α} {v : Val} (h : Uses kw k rd d x)
    (hv : kw k = some v) (hy : rd v = .ok y) : x = y :=
  Except.ok.inj ((h.1 v hv).symm.trans hy)

/-! ## C41 -/

/-- C41. An embedding impedance given by the user is the one used, whether it is given as an integer, a float or a complex number. -/
theorem C41_zemb_value (kw : Dict) (o : Zemb.ZembOpts) (h : zembOpts PARAMS (update PARAMS kw) = .ok o) {v : Val} {z : ℂ}
    (hv : kw "zemb" = some v) (hz : IsNumber v z) : o.zemb = some z :=
  uses_value (C41_zemb kw o h).2.2.1 hv (asOptCplx_number hz)

/-- C41. The intervals of the shot-noise fit: a list of numbers is one interval; a list that begins with a list is a list of intervals;
`None` lets the code choose. -/
theorem C41_vshot_value (kw : Dict) (o : IfOpts) (h : ifOpts PARAMS (update PARAMS kw) = .ok o) :
    (kw "vshot" = some .none → o.vshot = .auto) ∧
    (∀ l r, IsReals l r → kw "vshot" = some (.seq l) → o.vshot = .flat r) ∧
    ∀ (a : List Val) (l : List (List Val)) (r : List (List ℝ)), List.Forall₂ IsReals (a :: l) r →
      kw "vshot" = some (.seq ((a :: l).map .seq)) → o.vshot = .nested r := by
  have hu := (C41_if kw o h).2.2.2.2.2.2
  refine ⟨fun hv => uses_value hu hv rfl, fun l r hr hv => uses_value hu hv ?_, fun a l r hr hv => uses_value hu hv ?_⟩
  · cases l with
    | nil =>
      cases hr
      rfl
    | cons v l =>
      cases v with
      | seq a =>
        cases hr with
        | cons h1 _ => cases h1.1
      | _ =>
        simp only [asVshot]
        rw [mapM_asReal hr]
        rfl
  · have hm : ∀ {l : List (List Val)} {r : List (List ℝ)}, List.Forall₂ IsReals l r → (l.map Val.seq).mapM asReals = .ok r := by
      intro l r hr
      induction hr with
      | nil => rfl
      | cons h _ ih =>
        rw [List.map_cons, List.mapM_cons, ih]
        simp only [asReals]
        rw [mapM_asReal h]
        rfl
    have := hm hr
    rw [List.map_cons] at this ⊢
    simp only [asVshot]
    rw [this]
    rfl

/-- C41. The filter of I-V data is on unless the value given counts as false. -/
theorem C41_filter_value (kw : Dict) (o : Opts) (h : ivOpts PARAMS (update PARAMS kw) = .ok o) {v : Val}
    (hv : kw "filter_data" = some v) : o.filterData = true ↔ ¬ Falsy v := by
  rw [uses_value (C41_iv kw o h).2.2.2.2.2.2.2.2.2.2.1 hv rfl]
  exact truth_iff v

/-- C94. The impedance recovery and the analysis of IF data are left out only for values that count as false: any other number, also
a negative one, any text and any list switch them on. -/
theorem C94_switches (R : Routines) (h : Heap) (hh : h ≠ []) (hP : deref h sharedAt = PARAMS) (data : IfResp.Input)
    (d : DCData) (hot cold : Option IfResp.Input) (kw : Dict) (r : PumpedData)
    (e : (pumpedData R h data d hot cold kw).1 = .ok r) :
    (∀ v, kw "analyze_if" = some v → (r.ifs.isSome ↔ hot.isSome ∧ cold.isSome ∧ ¬ Falsy v)) ∧
    ∀ v, kw "analyze_iv" = some v → (r.zemb.isSome ↔ ¬ Falsy v) := by
  obtain ⟨⟨on, h1, h2⟩, on', h3, h4⟩ := C94_left_out R h hh hP data d hot cold kw r e
  refine ⟨fun v hv => ?_, fun v hv => ?_⟩
  · rw [h2, uses_value h1 hv rfl, truth_iff]
  · rw [h4, uses_value h3 hv rfl, truth_iff]

/-- A complex impedance, a list of two intervals, and a negative number as a switch. -/
example : ∃ o p q, zembOpts PARAMS (update PARAMS fun k => if k = "zemb" then some (.cplx ⟨0.3, -0.1⟩) else none) = .ok o ∧
    o.zemb = some ⟨0.3, -0.1⟩ ∧
    ifOpts PARAMS (update PARAMS fun k => if k = "vshot" then
      some (.seq [.seq [.num 4e-3, .num 5e-3], .seq [.int (-5), .int (-4)]]) else none) = .ok p ∧
    p.vshot = .nested [[4e-3, 5e-3], [-5, -4]] ∧
    ivOpts PARAMS (update PARAMS fun k => if k = "filter_data" then some (.int (-1)) else none) = .ok q ∧ q.filterData = true := by
  obtain ⟨o, ho⟩ : ∃ o, zembOpts PARAMS (update PARAMS fun k => if k = "zemb" then some (.cplx ⟨0.3, -0.1⟩) else none) = .ok o :=
    ⟨_, rfl⟩
  obtain ⟨p, hp⟩ : ∃ p, ifOpts PARAMS (update PARAMS fun k => if k = "vshot" then
      some (.seq [.seq [.num 4e-3, .num 5e-3], .seq [.int (-5), .int (-4)]]) else none) = .ok p := ⟨_, rfl⟩
  obtain ⟨q, hq⟩ : ∃ q, ivOpts PARAMS (update PARAMS fun k => if k = "filter_data" then some (.int (-1)) else none) = .ok q := ⟨_, rfl⟩
  refine ⟨o, p, q, ho, C41_zemb_value _ o ho (v := .cplx ⟨0.3, -0.1⟩) (by simp) (.cplx _), hp, ?_, hq, ?_⟩
  · refine (C41_vshot_value _ p hp).2.2 [.num 4e-3, .num 5e-3] [[.int (-5), .int (-4)]] _ ?_ (by simp)
    have hn : ∀ r : ℝ, IsNumber (.num r) r ∧ ∀ z, Val.num r ≠ .cplx z := fun r => ⟨.num r, by simp⟩
    have hi : ∀ n : ℤ, IsNumber (.int n) ((n : ℝ) : ℂ) ∧ ∀ z, Val.int n ≠ .cplx z := fun n => ⟨by simpa using IsNumber.int n, by simp⟩
    have h5 := hi (-5)
    have h4 := hi (-4)
    norm_num at h5 h4
    exact .cons (.cons (hn _) (.cons (hn _) .nil)) (.cons (.cons (by simpa using h5) (.cons (by simpa using h4) .nil)) .nil)
  · rw [C41_filter_value _ q hq (v := .int (-1)) (by simp)]
    rintro (_ | h)
    generalize hz : (0 : ℂ) = z at h
    cases h
    norm_num at hz

end QMix.Exp
