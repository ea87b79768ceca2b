import Verif.Lemmas.HbPrint3

/-!
# The text of `check_hb_error`
-/

namespace QMix.HbPrint

open QMix Np Fl HB Qt Spec Results Report

variable {N : ℕ}

/-- The line of one signal. -/
noncomputable def checkText (sci : Flt → List Char) (m : Rel) (x : ℕ × ℕ) (answer : List Char) : List Char :=
  "\tf:".toList ++ IO.natChars x.1 ++ ",\tp:".toList ++ IO.natChars x.2 ++ ",\tmax rel. error: ".toList ++ sci (toFlt m) ++
    ",\tPass? ".toList ++ answer

theorem checkText_nl {sci : Flt → List Char} (hsci : ∀ x, '\n' ∉ sci x) (m : Rel) (x : ℕ × ℕ) {answer : List Char} (ha : '\n' ∉ answer) :
    '\n' ∉ checkText sci m x answer := by
  unfold checkText
  simp only [List.mem_append, not_or]
  exact ⟨⟨⟨⟨⟨⟨⟨by decide, not_nl (plain_nat _)⟩, by decide⟩, not_nl (plain_nat _)⟩, by decide⟩, hsci _⟩, by decide⟩, ha⟩

theorem checkSignals_all (sci : Flt → List Char) (stop : ℝ) (rel : ℕ → ℕ → Fin N → Rel) (hN : 0 < N) (l : List (ℕ × ℕ)) :
    ((∀ x ∈ l, ∀ i, (rel x.1 x.2 i).lt (.fin stop)) → ∃ m : ℕ × ℕ → Rel, (∀ x ∈ l, npMax (List.ofFn (rel x.1 x.2)) = .ok (m x)) ∧
      checkSignals sci stop rel l = (l.flatMap fun x => line (checkText sci (m x) x "Yes".toList), none)) ∧
    ∀ l1 x l2, l = l1 ++ x :: l2 → (∀ y ∈ l1, ∀ i, (rel y.1 y.2 i).lt (.fin stop)) → ¬ (∀ i, (rel x.1 x.2 i).lt (.fin stop)) →
      ∃ m : ℕ × ℕ → Rel, (∀ y ∈ l1 ++ [x], npMax (List.ofFn (rel y.1 y.2)) = .ok (m y)) ∧
      checkSignals sci stop rel l = ((l1.flatMap fun x => line (checkText sci (m x) x "Yes".toList)) ++
        line (checkText sci (m x) x "No".toList), some .assertion) := by
  classical
  have hmax : ∀ x : ℕ × ℕ, ∃ m, npMax (List.ofFn (rel x.1 x.2)) = .ok m := fun x =>
    npMax_ok (by intro h; have := congrArg List.length h; simp at this; omega)
  choose m hm using hmax
  have hgood : ∀ x : ℕ × ℕ, (m x).lt (.fin stop) ↔ ∀ i, (rel x.1 x.2 i).lt (.fin stop) := by
    intro x
    rw [npMax_lt (hm x)]
    simp
  constructor
  · intro h
    refine ⟨m, fun x _ => hm x, ?_⟩
    induction l with
    | nil => rfl
    | cons x l ih =>
      obtain ⟨f, p⟩ := x
      unfold checkSignals
      have h1 := hm (f, p)
      dsimp only at h1
      rw [h1]
      dsimp only
      have h2 : (m (f, p)).lt (.fin stop) := (hgood _).2 (h (f, p) (by simp))
      simp only [h2, if_true]
      rw [ih fun y hy => h y (by simp [hy]), List.flatMap_cons]
      rfl
  · intro l1 x l2 hl h1 h2
    refine ⟨m, fun x _ => hm x, ?_⟩
    subst hl
    induction l1 with
    | nil =>
      obtain ⟨f, p⟩ := x
      simp only [List.nil_append]
      unfold checkSignals
      have h3 := hm (f, p)
      dsimp only at h3
      rw [h3]
      dsimp only
      have h4 : ¬ (m (f, p)).lt (.fin stop) := fun h => h2 ((hgood _).1 h)
      simp only [h4, if_false]
      rfl
    | cons y l1 ih =>
      obtain ⟨f, p⟩ := y
      simp only [List.cons_append]
      unfold checkSignals
      have h3 := hm (f, p)
      dsimp only at h3
      rw [h3]
      dsimp only
      have h4 : (m (f, p)).lt (.fin stop) := (hgood _).2 (h1 (f, p) (by simp))
      simp only [h4, if_true]
      rw [ih fun y hy => h1 y (by simp [hy]), List.flatMap_cons]
      refine Prod.ext ?_ rfl
      exact (List.append_assoc _ _ _).symm

theorem signals_eq (F P : ℕ) : signals F P = (List.range (F * P)).map fun k => (k / P + 1, k % P + 1) := by
  unfold signals
  induction F with
  | zero => simp
  | succ F ih =>
    rw [List.range_succ, List.flatMap_append, ih, Nat.add_mul, one_mul, List.range_add, List.map_append]
    congr 1
    simp only [List.flatMap_cons, List.flatMap_nil, List.append_nil, List.map_map]
    refine List.map_congr_left fun p hp => ?_
    rw [List.mem_range] at hp
    have e1 : (F * P + p) / P = F := by
      rw [mul_comm, Nat.mul_add_div (by omega), Nat.div_eq_of_lt (by omega), add_zero]
    have e2 : (F * P + p) % P = p := by
      rw [mul_comm, Nat.mul_add_mod, Nat.mod_eq_of_lt (by omega)]
    simp [e1, e2]

/-- The exception of a computation, if any. -/
def raised {α : Type} : Py α → Option PyErr
  | .ok _ => none
  | .error e => some e

theorem pyFor_unit_cons {κ : Type} (k : κ) (l : List κ) (b : κ → Py Unit) :
    pyFor (k :: l) () (fun _ k => b k) = b k >>= fun _ => pyFor l () fun _ k => b k := by
  conv_lhs => unfold pyFor
  cases b k with
  | error e => rfl
  | ok u => rfl

theorem pyFor_unit_append {κ : Type} (l l' : List κ) (b : κ → Py Unit) :
    pyFor (l ++ l') () (fun _ k => b k) = (pyFor l () fun _ k => b k) >>= fun _ => pyFor l' () fun _ k => b k := by
  induction l with
  | nil => rfl
  | cons k l ih =>
    rw [List.cons_append, pyFor_unit_cons, pyFor_unit_cons, ih]
    cases b k with
    | error e => rfl
    | ok u => rfl

theorem pyFor_nested {κ κ' : Type} (l : List κ) (l' : List κ') (b : κ → κ' → Py Unit) :
    pyFor l () (fun _ k => pyFor l' () fun _ k' => b k k') =
      pyFor (l.flatMap fun k => l'.map fun k' => (k, k')) () fun _ x => b x.1 x.2 := by
  have hmap : ∀ (k : κ) (l' : List κ'), pyFor (l'.map fun k' => (k, k')) () (fun _ x => b x.1 x.2) = pyFor l' () fun _ k' => b k k' := by
    intro k l'
    induction l' with
    | nil => rfl
    | cons k' l' ih =>
      simp only [List.map_cons]
      unfold pyFor
      cases b k k' with
      | error e => rfl
      | ok u => exact ih
  induction l with
  | nil => rfl
  | cons k l ih =>
    rw [List.flatMap_cons, pyFor_unit_append, hmap, ← ih, pyFor_unit_cons]

open Classical in
theorem checkSignals_raised (sci : Flt → List Char) (stop : ℝ) (rel : ℕ → ℕ → Fin N → Rel) (l : List (ℕ × ℕ)) :
    (checkSignals sci stop rel (l.map fun x => (x.1 + 1, x.2 + 1))).2 = raised (pyFor l () fun _ x => do
      let m ← npMax (List.ofFn (rel (x.1 + 1) (x.2 + 1)))
      pyAssert (m.lt (.fin stop))) := by
  induction l with
  | nil => rfl
  | cons x l ih =>
    obtain ⟨f, p⟩ := x
    rw [pyFor_unit_cons, List.map_cons]
    unfold checkSignals
    dsimp only
    cases npMax (List.ofFn (rel (f + 1) (p + 1))) with
    | error e => rfl
    | ok m =>
      rw [py_bind]
      dsimp only
      by_cases h : m.lt (.fin stop)
      · simp only [h, if_true]
        rw [ih]
        unfold pyAssert
        simp only [h, if_true]
        rfl
      · simp only [h, if_false]
        unfold pyAssert
        simp only [h, if_false]
        rfl

end QMix.HbPrint
