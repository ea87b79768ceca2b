import Verif.Model.QtRound
import Verif.Lemmas.Py

/-! # The kernels preserve relations between arithmetics -/

namespace QMix.Rnd

open QMix.Qt

/-- Two results: related values, or the same exception. -/
def PyRel {α β : Type} (R : α → β → Prop) : Py α → Py β → Prop
  | .ok a, .ok b => R a b
  | .error e, .error e' => e = e'
  | _, _ => False

section
variable {α β α' β' : Type} {R : α → β → Prop} {S : α' → β' → Prop}

theorem PyRel.pure {a : α} {b : β} (h : R a b) : PyRel R (pure a : Py α) (pure b : Py β) := h

theorem PyRel.bind {x : Py α} {y : Py β} {f : α → Py α'} {g : β → Py β'} (h : PyRel R x y)
    (hf : ∀ a b, R a b → PyRel S (f a) (g b)) : PyRel S (x >>= f) (y >>= g) := by
  match x, y, h with
  | .ok a, .ok b, h => exact hf a b h
  | .error e, .error e', h => exact h

theorem PyRel.for {κ : Type} {l : List κ} {s : α} {t : β} {f : α → κ → Py α} {g : β → κ → Py β} (h : R s t)
    (hf : ∀ k ∈ l, ∀ a b, R a b → PyRel R (f a k) (g b k)) : PyRel R (pyFor l s f) (pyFor l t g) := by
  induction l generalizing s t with
  | nil => exact h
  | cons k l ih =>
    simp only [pyFor]
    have h1 := hf k (by simp) s t h
    match f s k, g t k, h1 with
    | .ok a, .ok b, h1 => exact ih h1 fun k hk => hf k (by simp [hk])
    | .error e, .error e', h1 => exact h1

theorem PyRel.get {l : List α} {l' : List β} (h : List.Forall₂ R l l') (k : ℤ) : PyRel R (pyGet l k) (pyGet l' k) := by
  unfold pyGet
  rw [h.length_eq]
  match pyIndex l'.length k with
  | .error e => exact rfl
  | .ok i =>
    simp only
    by_cases hi : i < l'.length
    · have hi' : i < l.length := by rw [h.length_eq]; exact hi
      rw [List.getElem?_eq_getElem hi, List.getElem?_eq_getElem hi']
      exact List.forall₂_iff_get.1 h |>.2 i hi' hi
    · have hl := h.length_eq
      rw [List.getElem?_eq_none (by omega), List.getElem?_eq_none (by omega)]
      exact rfl

theorem PyRel.set {l : List α} {l' : List β} (h : List.Forall₂ R l l') (k : ℤ) {a : α} {b : β} (hab : R a b) :
    PyRel (List.Forall₂ R) (pySet l k a) (pySet l' k b) := by
  unfold pySet
  rw [h.length_eq]
  match pyIndex l'.length k with
  | .error e => exact rfl
  | .ok i =>
    show List.Forall₂ R (l.set i a) (l'.set i b)
    rw [List.forall₂_iff_get]
    refine ⟨by simp [h.length_eq], fun j h1 h2 => ?_⟩
    simp only [List.get_eq_getElem, List.getElem_set]
    by_cases hj : i = j
    · simp [hj, hab]
    · simp only [hj, if_false]
      simp only [List.length_set] at h1 h2
      exact List.forall₂_iff_get.1 h |>.2 j h1 h2

theorem PyRel.ite {c : Prop} [Decidable c] {x x' : Py α} {y y' : Py β} (h : PyRel R x y) (h' : PyRel R x' y') :
    PyRel R (if c then x else x') (if c then y else y') := by
  split_ifs
  · exact h
  · exact h'

theorem PyRel.ite' {c c' : Prop} [Decidable c] [Decidable c'] (hc : c ↔ c') {x x' : Py α} {y y' : Py β} (h : PyRel R x y)
    (h' : PyRel R x' y') : PyRel R (if c then x else x') (if c' then y else y') := by
  by_cases h0 : c
  · rw [if_pos h0, if_pos (hc.1 h0)]; exact h
  · rw [if_neg h0, if_neg fun h1 => h0 (hc.2 h1)]; exact h'

theorem PyRel.mapM {κ κ' : Type} {H : κ → κ' → Prop} {l : List κ} {l' : List κ'} {f : κ → Py α} {g : κ' → Py β} (hl : List.Forall₂ H l l')
    (h : ∀ k k', H k k' → PyRel R (f k) (g k')) : PyRel (List.Forall₂ R) (l.mapM f) (l'.mapM g) := by
  induction hl with
  | nil => exact .nil
  | cons hk _ ih =>
    rw [List.mapM_cons, List.mapM_cons]
    refine (h _ _ hk).bind fun a b hab => ih.bind fun as bs h2 => ?_
    exact List.Forall₂.cons hab h2

theorem PyRel.of_ok {x : Py α} {y : Py β} (h : PyRel R x y) {b : β} (hy : y = .ok b) : ∃ a, x = .ok a ∧ R a b := by
  subst hy
  match x, h with
  | .ok a, h => exact ⟨a, rfl, h⟩

theorem PyRel.of_ok_left {x : Py α} {y : Py β} (h : PyRel R x y) {a : α} (hx : x = .ok a) : ∃ b, y = .ok b ∧ R a b := by
  subst hx
  match y, h with
  | .ok b, h => exact ⟨b, rfl, h⟩

end

variable {γ ρ σ γ' ρ' σ' : Type}

/-- Relations that the operations preserve. -/
structure Respects (O : Ops γ ρ σ) (O' : Ops γ' ρ' σ') (C : γ → γ' → Prop) (R : ρ → ρ' → Prop) (S : σ → σ' → Prop) : Prop where
  zeroC : C O.zeroC O'.zeroC
  addC : ∀ {x x' y y'}, C x x' → C y y' → C (O.addC x y) (O'.addC x' y')
  mulC : ∀ {x x' y y'}, C x x' → C y y' → C (O.mulC x y) (O'.mulC x' y')
  conj : ∀ {x x'}, C x x' → C (O.conj x) (O'.conj x')
  zeroR : R O.zeroR O'.zeroR
  addR : ∀ {x x' y y'}, R x x' → R y y' → R (O.addR x y) (O'.addR x' y')
  act : ∀ {x x' y y'}, C x x' → R y y' → R (O.act x y) (O'.act x' y')
  zeroO : S O.zeroO O'.zeroO
  addO : ∀ {x x' y y'}, S x x' → S y y' → S (O.addO x y) (O'.addO x' y')
  fin : ∀ dc {x x' y y'}, R x x' → R y y' → S (O.fin dc x y) (O'.fin dc x' y')

/-- Two outcomes of the comparison of frequencies that agree for all products that are tried. -/
def SameHits (numF numP : ℕ) (hit hit' : List ℤ → Prop) : Prop :=
  ∀ as : List ℤ, as.length = numF → (∀ a ∈ as, |a| ≤ (numP : ℤ)) → (hit as ↔ hit' as)

/-- Related response matrices. -/
def MatRel (R : ρ → ρ' → Prop) : Mat ρ → Mat ρ' → Prop
  | .m1 m, .m1 m' => List.Forall₂ R m m'
  | .m2 m, .m2 m' => List.Forall₂ (List.Forall₂ R) m m'
  | .m3 m, .m3 m' => List.Forall₂ (List.Forall₂ (List.Forall₂ R)) m m'
  | .m4 m, .m4 m' => List.Forall₂ (List.Forall₂ (List.Forall₂ (List.Forall₂ R))) m m'
  | _, _ => False

section
variable {O : Ops γ ρ σ} {O' : Ops γ' ρ' σ'} {C : γ → γ' → Prop} {R : ρ → ρ' → Prop} {S : σ → σ' → Prop} (h : Respects O O' C R S)
include h

theorem convStep_rel (p : ℕ) {last jp : List γ} {last' jp' : List γ'} (h1 : List.Forall₂ C last last') (h2 : List.Forall₂ C jp jp') :
    PyRel (List.Forall₂ C) (convStep O p last jp) (convStep O' p last' jp') := by
  unfold convStep
  rw [h2.length_eq, h1.length_eq]
  refine PyRel.for (List.forall₂_iff_get.2 ⟨by simp, fun i h3 h4 => by simp [h.zeroC]⟩) fun k _ nxt nxt' hn => ?_
  refine PyRel.for hn fun l _ nxt nxt' hn => ?_
  exact (PyRel.get hn k).bind fun _ _ a1 => (PyRel.get h1 _).bind fun _ _ a2 => (PyRel.get h2 l).bind fun _ _ a3 =>
    PyRel.set hn k (h.addC a1 (h.mulC a2 a3))

theorem convolve_rel (numP : ℕ) {jac : ℕ → List γ} {jac' : ℕ → List γ'} (hj : ∀ p, 1 ≤ p → p ≤ numP → List.Forall₂ C (jac p) (jac' p))
    (hP : 1 ≤ numP) : PyRel (List.Forall₂ C) (convolve O numP jac) (convolve O' numP jac') := by
  unfold convolve
  refine PyRel.ite (hj 1 le_rfl hP) (PyRel.for (hj 1 le_rfl hP) fun p hp _ _ hl => ?_)
  rw [mem_pyRange] at hp
  exact convStep_rel h _ hl (hj _ (by omega) (by omega))

theorem convTones_rel (numP : ℕ) {jac : ℕ → ℕ → List γ} {jac' : ℕ → ℕ → List γ'} (hP : 1 ≤ numP) (n : ℕ)
    (hj : ∀ f p, 1 ≤ f → f ≤ n → 1 ≤ p → p ≤ numP → List.Forall₂ C (jac f p) (jac' f p)) :
    PyRel (fun c c' => ∀ f, List.Forall₂ C (c f) (c' f)) (convTones O numP jac n) (convTones O' numP jac' n) := by
  induction n with
  | zero => exact fun _ => .nil
  | succ n ih =>
    simp only [convTones]
    refine (ih fun f p h1 h2 => hj f p h1 (by omega)).bind fun c c' hc => ?_
    refine (convolve_rel h numP (fun p => hj (n + 1) p (by omega) le_rfl) hP).bind fun d d' hd => ?_
    refine PyRel.pure fun f => ?_
    by_cases hf : f = n + 1
    · rw [if_pos hf, if_pos hf]; exact hd
    · rw [if_neg hf, if_neg hf]; exact hc f

theorem coeff1_rel (a : ℤ) {c1 : List γ} {c1' : List γ'} {r : List ρ} {r' : List ρ'} (nb1 : ℕ) (h1 : List.Forall₂ C c1 c1')
    (hr : List.Forall₂ R r r') : PyRel S (coeff1 O a c1 r nb1) (coeff1 O' a c1' r' nb1) := by
  unfold coeff1
  have hc : List.Forall₂ C (c1.map O.conj) (c1'.map O'.conj) := by
    rw [List.forall₂_map_left_iff, List.forall₂_map_right_iff]
    exact h1.imp fun _ _ => h.conj
  refine (PyRel.for (R := fun s t => R s.1 t.1 ∧ R s.2 t.2) ⟨h.zeroR, h.zeroR⟩ fun k _ s t hs => ?_).bind
    fun s t hs => PyRel.pure (h.fin _ hs.1 hs.2)
  refine PyRel.ite ((PyRel.get h1 _).bind fun _ _ a1 => (PyRel.get hc _).bind fun _ _ a2 => (PyRel.get hr _).bind fun _ _ a3 =>
      (PyRel.pure (h.addR hs.1 (h.act (h.mulC a1 a2) a3))).bind ?snd) ((PyRel.pure hs.1).bind ?snd)
  intro _ _ hp
  exact PyRel.ite ((PyRel.get h1 _).bind fun _ _ a1 => (PyRel.get hc _).bind fun _ _ a2 => (PyRel.get hr _).bind fun _ _ a3 =>
      (PyRel.pure (h.addR hs.2 (h.act (h.mulC a1 a2) a3))).bind fun _ _ hm => PyRel.pure ⟨hp, hm⟩) ((PyRel.pure hs.2).bind fun _ _ hm => PyRel.pure ⟨hp, hm⟩)

theorem coeff2_rel (a b : ℤ) {c1 c2 : List γ} {c1' c2' : List γ'} {r : List (List ρ)} {r' : List (List ρ')} (nb1 nb2 : ℕ)
    (h1 : List.Forall₂ C c1 c1') (h2 : List.Forall₂ C c2 c2') (hr : List.Forall₂ (List.Forall₂ R) r r') :
    PyRel S (coeff2 O a b c1 c2 r nb1 nb2) (coeff2 O' a b c1' c2' r' nb1 nb2) := by
  unfold coeff2
  refine (PyRel.for (R := fun s t => R s.1 t.1 ∧ R s.2 t.2) ⟨h.zeroR, h.zeroR⟩ fun k _ s t hs =>
    PyRel.for hs fun l _ s t hs => ?_).bind fun s t hs => PyRel.pure (h.fin _ hs.1 hs.2)
  refine PyRel.ite ((PyRel.get h1 _).bind fun _ _ a1 => (PyRel.get h1 _).bind fun _ _ a2 => (PyRel.get h2 _).bind fun _ _ a3 =>
      (PyRel.get h2 _).bind fun _ _ a4 => (PyRel.get hr _).bind fun _ _ a5 => (PyRel.get a5 _).bind fun _ _ a6 =>
      (PyRel.pure (h.addR hs.1 (h.act (h.mulC (h.mulC (h.mulC a1 (h.conj a2)) a3) (h.conj a4)) a6))).bind ?snd) ((PyRel.pure hs.1).bind ?snd)
  intro _ _ hp
  exact PyRel.ite ((PyRel.get h1 _).bind fun _ _ a1 => (PyRel.get h1 _).bind fun _ _ a2 => (PyRel.get h2 _).bind fun _ _ a3 =>
      (PyRel.get h2 _).bind fun _ _ a4 => (PyRel.get hr _).bind fun _ _ a5 => (PyRel.get a5 _).bind fun _ _ a6 =>
      (PyRel.pure (h.addR hs.2 (h.act (h.mulC (h.mulC (h.mulC a1 (h.conj a2)) a3) (h.conj a4)) a6))).bind fun _ _ hm => PyRel.pure ⟨hp, hm⟩) ((PyRel.pure hs.2).bind fun _ _ hm => PyRel.pure ⟨hp, hm⟩)

theorem coeff3_rel (a b c : ℤ) {c1 c2 c3 : List γ} {c1' c2' c3' : List γ'} {r : List (List (List ρ))} {r' : List (List (List ρ'))}
    (nb1 nb2 nb3 : ℕ) (h1 : List.Forall₂ C c1 c1') (h2 : List.Forall₂ C c2 c2') (h3 : List.Forall₂ C c3 c3')
    (hr : List.Forall₂ (List.Forall₂ (List.Forall₂ R)) r r') :
    PyRel S (coeff3 O a b c c1 c2 c3 r nb1 nb2 nb3) (coeff3 O' a b c c1' c2' c3' r' nb1 nb2 nb3) := by
  unfold coeff3
  refine (PyRel.for (R := fun s t => R s.1 t.1 ∧ R s.2 t.2) ⟨h.zeroR, h.zeroR⟩ fun k _ s t hs =>
    PyRel.for hs fun l _ s t hs => PyRel.for hs fun m _ s t hs => ?_).bind fun s t hs => PyRel.pure (h.fin _ hs.1 hs.2)
  refine (PyRel.get h1 _).bind fun _ _ a1 => (PyRel.get h2 _).bind fun _ _ a2 => (PyRel.get h3 _).bind fun _ _ a3 => ?_
  refine (PyRel.get hr _).bind fun _ _ z1 => (PyRel.get z1 _).bind fun _ _ z2 => (PyRel.get z2 _).bind fun _ _ z => ?_
  refine PyRel.ite ((PyRel.get h1 _).bind fun _ _ b1 => (PyRel.get h2 _).bind fun _ _ b2 => (PyRel.get h3 _).bind fun _ _ b3 =>
      (PyRel.pure (h.addR hs.1 (h.act (h.mulC (h.conj (h.mulC (h.mulC b1 b2) b3)) (h.mulC (h.mulC a1 a2) a3)) z))).bind ?snd) ((PyRel.pure hs.1).bind ?snd)
  intro _ _ hp
  exact PyRel.ite ((PyRel.get h1 _).bind fun _ _ b1 => (PyRel.get h2 _).bind fun _ _ b2 => (PyRel.get h3 _).bind fun _ _ b3 =>
      (PyRel.pure (h.addR hs.2 (h.act (h.mulC (h.conj (h.mulC (h.mulC b1 b2) b3)) (h.mulC (h.mulC a1 a2) a3)) z))).bind fun _ _ hm => PyRel.pure ⟨hp, hm⟩) ((PyRel.pure hs.2).bind fun _ _ hm => PyRel.pure ⟨hp, hm⟩)

theorem coeff4_rel (a b c d : ℤ) {c1 c2 c3 c4 : List γ} {c1' c2' c3' c4' : List γ'} {r : List (List (List (List ρ)))}
    {r' : List (List (List (List ρ')))} (nb1 nb2 nb3 nb4 : ℕ) (h1 : List.Forall₂ C c1 c1') (h2 : List.Forall₂ C c2 c2')
    (h3 : List.Forall₂ C c3 c3') (h4 : List.Forall₂ C c4 c4') (hr : List.Forall₂ (List.Forall₂ (List.Forall₂ (List.Forall₂ R))) r r') :
    PyRel S (coeff4 O a b c d c1 c2 c3 c4 r nb1 nb2 nb3 nb4) (coeff4 O' a b c d c1' c2' c3' c4' r' nb1 nb2 nb3 nb4) := by
  unfold coeff4
  refine (PyRel.for (R := fun s t => R s.1 t.1 ∧ R s.2 t.2) ⟨h.zeroR, h.zeroR⟩ fun k _ s t hs =>
    PyRel.for hs fun l _ s t hs => PyRel.for hs fun m _ s t hs => PyRel.for hs fun n _ s t hs => ?_).bind
    fun s t hs => PyRel.pure (h.fin _ hs.1 hs.2)
  refine (PyRel.get h1 _).bind fun _ _ a1 => (PyRel.get h2 _).bind fun _ _ a2 => (PyRel.get h3 _).bind fun _ _ a3 =>
    (PyRel.get h4 _).bind fun _ _ a4 => ?_
  refine (PyRel.get hr _).bind fun _ _ z1 => (PyRel.get z1 _).bind fun _ _ z2 => (PyRel.get z2 _).bind fun _ _ z3 =>
    (PyRel.get z3 _).bind fun _ _ z => ?_
  refine PyRel.ite ((PyRel.get h1 _).bind fun _ _ b1 => (PyRel.get h2 _).bind fun _ _ b2 => (PyRel.get h3 _).bind fun _ _ b3 =>
      (PyRel.get h4 _).bind fun _ _ b4 => (PyRel.pure (h.addR hs.1 (h.act (h.mulC (h.conj (h.mulC (h.mulC (h.mulC b1 b2) b3) b4))
        (h.mulC (h.mulC (h.mulC a1 a2) a3) a4)) z))).bind ?snd) ((PyRel.pure hs.1).bind ?snd)
  intro _ _ hp
  exact PyRel.ite ((PyRel.get h1 _).bind fun _ _ b1 => (PyRel.get h2 _).bind fun _ _ b2 => (PyRel.get h3 _).bind fun _ _ b3 =>
      (PyRel.get h4 _).bind fun _ _ b4 => (PyRel.pure (h.addR hs.2 (h.act (h.mulC (h.conj (h.mulC (h.mulC (h.mulC b1 b2) b3) b4))
        (h.mulC (h.mulC (h.mulC a1 a2) a3) a4)) z))).bind fun _ _ hm => PyRel.pure ⟨hp, hm⟩) ((PyRel.pure hs.2).bind fun _ _ hm => PyRel.pure ⟨hp, hm⟩)

theorem currentAt_rel (numF numP : ℕ) {ccc : ℕ → List γ} {ccc' : ℕ → List γ'} {r : Mat ρ} {r' : Mat ρ'} (nbl : List ℕ)
    {hit hit' : List ℤ → Prop} (hh : SameHits numF numP hit hit') (hc : ∀ f, List.Forall₂ C (ccc f) (ccc' f)) (hr : MatRel R r r') :
    PyRel S (currentAt O numF numP ccc r nbl hit) (currentAt O' numF numP ccc' r' nbl hit') := by
  classical
  have hm : ∀ {a}, a ∈ mixRange numP → |a| ≤ (numP : ℤ) := by
    intro a ha
    unfold mixRange at ha
    rw [mem_pyRangeDown] at ha
    rw [abs_le]
    omega
  match r, r', hr with
  | .m1 m, .m1 m', hr =>
    unfold currentAt
    split
    · rename_i heq _
      simp only [Mat.m1.injEq] at *
      subst_vars
      exact PyRel.for h.zeroO fun a ha o o' ho => PyRel.ite' (hh _ rfl (by simp [hm ha])) ((coeff1_rel h a _ (hc 1) hr).bind fun _ _ hx =>
        PyRel.pure (h.addO ho hx)) (PyRel.pure ho)
    all_goals simp_all [PyRel]
  | .m2 m, .m2 m', hr =>
    unfold currentAt
    split
    · simp_all
    · simp only [Mat.m2.injEq] at *
      subst_vars
      exact PyRel.for h.zeroO fun a ha o o' ho => PyRel.for ho fun b hb o o' ho =>
        PyRel.ite' (hh _ rfl (by simp [hm ha, hm hb])) ((coeff2_rel h a b _ _ (hc 1) (hc 2) hr).bind fun _ _ hx => PyRel.pure (h.addO ho hx)) (PyRel.pure ho)
    all_goals simp_all [PyRel]
  | .m3 m, .m3 m', hr =>
    unfold currentAt
    split
    · simp_all
    · simp_all
    · simp only [Mat.m3.injEq] at *
      subst_vars
      exact PyRel.for h.zeroO fun a ha o o' ho => PyRel.for ho fun b hb o o' ho => PyRel.for ho fun c hc' o o' ho =>
        PyRel.ite' (hh _ rfl (by simp [hm ha, hm hb, hm hc'])) ((coeff3_rel h a b c _ _ _ (hc 1) (hc 2) (hc 3) hr).bind fun _ _ hx => PyRel.pure (h.addO ho hx)) (PyRel.pure ho)
    all_goals simp_all [PyRel]
  | .m4 m, .m4 m', hr =>
    unfold currentAt
    split
    · simp_all
    · simp_all
    · simp_all
    · simp only [Mat.m4.injEq] at *
      subst_vars
      exact PyRel.for h.zeroO fun a ha o o' ho => PyRel.for ho fun b hb o o' ho => PyRel.for ho fun c hc' o o' ho =>
        PyRel.for ho fun d hd o o' ho => PyRel.ite' (hh _ rfl (by simp [hm ha, hm hb, hm hc', hm hd])) ((coeff4_rel h a b c d _ _ _ _ (hc 1) (hc 2) (hc 3) (hc 4) hr).bind fun _ _ hx =>
          PyRel.pure (h.addO ho hx)) (PyRel.pure ho)
    all_goals simp_all [PyRel]

theorem qtcurrent_rel (numF numP : ℕ) (hP : 1 ≤ numP) {jac : ℕ → ℕ → List γ} {jac' : ℕ → ℕ → List γ'} {r : Mat ρ} {r' : Mat ρ'}
    (nb : NumB) {hits hits' : List (List ℤ → Prop)} (hh : List.Forall₂ (SameHits numF numP) hits hits')
    (hj : ∀ f p, 1 ≤ f → f ≤ numF → 1 ≤ p → p ≤ numP → List.Forall₂ C (jac f p) (jac' f p)) (hr : MatRel R r r') :
    PyRel (List.Forall₂ S) (qtcurrent O numF numP jac r nb hits) (qtcurrent O' numF numP jac' r' nb hits') := by
  unfold qtcurrent
  refine PyRel.bind (R := fun a b => a = b) (by match unpackNumB nb numF with | .ok a => exact rfl | .error e => exact rfl) ?_
  rintro nbl _ rfl
  exact (convTones_rel h numP hP numF hj).bind fun c c' hc => PyRel.mapM hh fun _ _ hit => currentAt_rel h numF numP nbl hit hc hr

end

end QMix.Rnd
