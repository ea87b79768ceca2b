import Verif.Lemmas.RoundOps

/-! # The number of roundings -/

namespace QMix.Rnd

open QMix.Qt

/-- Every value returned satisfies `P`. -/
def PyAll {α : Type} (P : α → Prop) (x : Py α) : Prop := ∀ a, x = .ok a → P a

section
variable {α β : Type} {P Q : α → Prop} {R : β → Prop}

theorem PyAll.pure {a : α} (h : P a) : PyAll P (pure a : Py α) := by
  intro b hb
  cases hb
  exact h

theorem PyAll.imp {x : Py α} (h : PyAll P x) (h' : ∀ a, P a → Q a) : PyAll Q x := fun a ha => h' a (h a ha)

theorem PyAll.bind {x : Py α} {f : α → Py β} (h : PyAll P x) (hf : ∀ a, P a → PyAll R (f a)) : PyAll R (x >>= f) := by
  intro b hb
  match x, h, hb with
  | .ok a, h, hb => exact hf a (h a rfl) b hb
  | .error e, _, hb => cases hb

theorem PyAll.ite {c : Prop} [Decidable c] {x y : Py α} (h : PyAll P x) (h' : PyAll P y) : PyAll P (if c then x else y) := by
  split_ifs
  · exact h
  · exact h'

/-- A bound that grows by at most `c` in every pass. -/
theorem PyAll.for {κ : Type} {I : ℕ → α → Prop} {l : List κ} {s : α} {f : α → κ → Py α} {n c : ℕ} (h : I n s)
    (hf : ∀ k ∈ l, ∀ n a, I n a → PyAll (I (n + c)) (f a k)) : PyAll (I (n + l.length * c)) (pyFor l s f) := by
  induction l generalizing s n with
  | nil =>
    intro a ha
    cases ha
    simpa using h
  | cons k l ih =>
    simp only [pyFor]
    have h1 := hf k (by simp) n s h
    match hx : f s k with
    | .ok a =>
      have := ih (h1 a hx) fun k hk => hf k (by simp [hk])
      refine this.imp fun b hb => ?_
      rw [List.length_cons, show n + (l.length + 1) * c = n + c + l.length * c by ring]
      exact hb
    | .error e =>
      intro b hb
      cases hb

theorem PyAll.get {l : List α} (h : ∀ x ∈ l, P x) (k : ℤ) : PyAll P (pyGet l k) := by
  intro a ha
  unfold pyGet at ha
  match hi : pyIndex l.length k, ha with
  | .ok i, ha =>
    simp only at ha
    match hj : l[i]?, ha with
    | some x, ha =>
      cases ha
      exact h _ (List.mem_of_getElem? hj)

theorem PyAll.set {l : List α} (h : ∀ x ∈ l, P x) (k : ℤ) {b : α} (hb : P b) : PyAll (fun l => ∀ x ∈ l, P x) (pySet l k b) := by
  intro a ha
  unfold pySet at ha
  match hi : pyIndex l.length k, ha with
  | .ok i, ha =>
    cases ha
    intro x hx
    rcases List.mem_or_eq_of_mem_set hx with h1 | h1
    · exact h x h1
    · exact h1 ▸ hb

end

theorem len_sym (n : ℕ) : (pyRange (-(n : ℤ)) (n + 1)).length = 2 * n + 1 := by rw [pyRange_length]; omega

theorem len_mix (n : ℕ) : (mixRange n).length = 2 * n + 1 := by
  unfold mixRange pyRangeDown
  simp
  omega

/-- All entries at most `n`. -/
def Le (n : ℕ) (l : List ℕ) : Prop := ∀ x ∈ l, x ≤ n

theorem convStep_count {M : ℕ} (p : ℕ) {last jp : List ℕ} {a b : ℕ} (h1 : Le a last) (h2 : Le b jp) (hj : jp.length = 2 * M + 1) :
    PyAll (Le (a + b + 1 + (2 * M + 1) * (2 * M + 1))) (convStep count p last jp) := by
  unfold convStep
  have hM : (jp.length - 1) / 2 = M := by omega
  rw [hM]
  have h0 : ∀ x ∈ List.replicate last.length count.zeroC, x ≤ a + b + 1 := by
    intro x hx
    rw [List.eq_of_mem_replicate hx]
    exact Nat.zero_le _
  have := PyAll.for (I := fun n l => ∀ x ∈ l, x ≤ n ∧ a + b + 1 ≤ n) (l := pyRange (-(M : ℤ)) (M + 1)) (n := a + b + 1) (c := 2 * M + 1)
    (s := List.replicate last.length count.zeroC)
    (f := fun nxt k =>
      pyFor (pyRange (max (-(M : ℤ)) (Int.tdiv (k - M) p)) (min (M : ℤ) (Int.tdiv (k + M) p) + 1)) nxt fun nxt l => do
        let cur ← pyGet nxt k
        let a ← pyGet last (k - p * l)
        let b ← pyGet jp l
        pySet nxt k (count.addC cur (count.mulC a b))) (fun x hx => ⟨h0 x hx, le_rfl⟩) ?_
  · refine this.imp fun l hl x hx => ?_
    have := (hl x hx).1
    rwa [len_sym] at this
  · intro k _ n nxt hn
    refine (PyAll.for (I := fun n l => ∀ x ∈ l, x ≤ n ∧ a + b + 1 ≤ n) (c := 1) hn ?_).imp ?_
    · intro l _ n nxt hn
      refine (PyAll.get hn k).bind fun cur hc => (PyAll.get h1 _).bind fun x hx => (PyAll.get h2 _).bind fun y hy => ?_
      refine PyAll.set (fun z hz => ⟨(hn z hz).1.trans (by omega), (hn z hz).2.trans (by omega)⟩) k ?_
      simp only [count]
      omega
    · intro l hl x hx
      have := hl x hx
      rw [pyRange_length] at this
      omega

/-- The roundings in a phase-factor coefficient. -/
def convCount (M n0 P : ℕ) : ℕ := P * n0 + (P - 1) * (1 + (2 * M + 1) * (2 * M + 1))

theorem convStep_length (p : ℕ) {last jp nxt : List ℕ} (h : convStep count p last jp = .ok nxt) : nxt.length = last.length := by
  have : PyAll (fun l => l.length = last.length) (convStep count p last jp) := by
    unfold convStep
    refine (PyAll.for (I := fun _ l => l.length = last.length) (n := 0) (c := 0) (by simp) fun k _ n nxt hn => ?_).imp fun _ h => h
    refine (PyAll.for (I := fun _ l => l.length = last.length) (n := 0) (c := 0) hn fun l _ n nxt hn => ?_).imp fun _ h => h
    refine (PyAll.get (P := fun _ => True) (by simp) k).bind fun cur _ => (PyAll.get (P := fun _ => True) (by simp) _).bind fun x _ =>
      (PyAll.get (P := fun _ => True) (by simp) _).bind fun y _ => ?_
    intro m hm
    unfold pySet at hm
    match hi : pyIndex nxt.length k, hm with
    | .ok i, hm =>
      cases hm
      simpa using hn
  exact this nxt h

theorem convolve_count {M P n0 : ℕ} {jac : ℕ → List ℕ} (hP : 1 ≤ P) (h : ∀ p, 1 ≤ p → p ≤ P → Le n0 (jac p) ∧ (jac p).length = 2 * M + 1) :
    PyAll (Le (convCount M n0 P)) (convolve count P jac) := by
  unfold convolve
  split_ifs with h1
  · subst h1
    refine PyAll.pure (P := Le (convCount M n0 1)) ?_
    have := (h 1 le_rfl le_rfl).1
    simpa [convCount] using this
  · refine (PyAll.for (I := fun n l => Le n l) (n := n0) (c := n0 + 1 + (2 * M + 1) * (2 * M + 1)) (h 1 le_rfl hP).1 ?_).imp ?_
    · intro p hp n last hl
      rw [mem_pyRange] at hp
      obtain ⟨ha, hb⟩ := h p.toNat (by omega) (by omega)
      exact (convStep_count p.toNat hl ha hb).imp fun l hl x hx => (hl x hx).trans (by omega)
    · intro l hl x hx
      refine (hl x hx).trans (le_of_eq ?_)
      rw [pyRange_length]
      unfold convCount
      obtain ⟨Q, rfl⟩ : ∃ Q, P = Q + 1 := ⟨P - 1, by omega⟩
      have : ((((Q + 1 : ℕ) : ℤ) + 1 - 2).toNat) = Q := by omega
      rw [this, Nat.add_sub_cancel]
      ring

theorem convTones_count {M P n0 : ℕ} {jac : ℕ → ℕ → List ℕ} (hP : 1 ≤ P) (n : ℕ)
    (h : ∀ f p, 1 ≤ f → f ≤ n → 1 ≤ p → p ≤ P → Le n0 (jac f p) ∧ (jac f p).length = 2 * M + 1) :
    PyAll (fun c => ∀ f, Le (convCount M n0 P) (c f)) (convTones count P jac n) := by
  induction n with
  | zero =>
    refine PyAll.pure fun f x hx => ?_
    cases hx
  | succ n ih =>
    simp only [convTones]
    refine (ih fun f p h1 h2 => h f p h1 (by omega)).bind fun c hc => ?_
    refine (convolve_count hP fun p => h (n + 1) p (by omega) le_rfl).bind fun d hd => ?_
    refine PyAll.pure fun f => ?_
    by_cases hf : f = n + 1
    · rw [if_pos hf]; exact hd
    · rw [if_neg hf]; exact hc f

/-- Pairs of sums of at most `n` roundings. -/
def Le2 (n : ℕ) (s : ℕ × ℕ) : Prop := s.1 ≤ n ∧ s.2 ≤ n

theorem coeff1_count (a : ℤ) {c1 r : List ℕ} (nb1 : ℕ) {n m : ℕ} (h1 : Le n c1) (hr : Le m r) :
    PyAll (· ≤ 2 * (n + 1) + m + (2 * nb1 + 1) + 1) (coeff1 count a c1 r nb1) := by
  unfold coeff1
  have hc : Le n (c1.map count.conj) := by
    intro x hx
    obtain ⟨y, hy, rfl⟩ := List.mem_map.1 hx
    exact h1 y hy
  refine (PyAll.for (I := fun k s => Le2 k s ∧ 2 * (n + 1) + m ≤ k) (n := 2 * (n + 1) + m) (c := 1) ⟨⟨Nat.zero_le _, Nat.zero_le _⟩, le_rfl⟩
    fun k _ N s hs => ?_).bind fun s hs => PyAll.pure ?_
  · obtain ⟨⟨hs1, hs2⟩, hN⟩ := hs
    refine PyAll.ite ((PyAll.get h1 _).bind fun _ a1 => (PyAll.get hc _).bind fun _ a2 => (PyAll.get hr _).bind fun _ a3 =>
      (PyAll.pure (P := (· ≤ N + 1)) (by simp only [count]; omega)).bind ?snd) ((PyAll.pure (P := (· ≤ N + 1)) (by omega)).bind ?snd)
    intro _ hp
    exact PyAll.ite ((PyAll.get h1 _).bind fun _ a1 => (PyAll.get hc _).bind fun _ a2 => (PyAll.get hr _).bind fun _ a3 =>
      (PyAll.pure (P := (· ≤ N + 1)) (by simp only [count]; omega)).bind fun _ hm => PyAll.pure ⟨⟨hp, hm⟩, by omega⟩)
      ((PyAll.pure (P := (· ≤ N + 1)) (by omega)).bind fun _ hm => PyAll.pure ⟨⟨hp, hm⟩, by omega⟩)
  · obtain ⟨⟨hs1, hs2⟩, hN⟩ := hs
    rw [len_sym] at hs1 hs2
    simp only [count]
    split_ifs <;> omega

theorem coeff2_count (a b : ℤ) {c1 c2 : List ℕ} {r : List (List ℕ)} (nb1 nb2 : ℕ) {n m : ℕ} (h1 : Le n c1) (h2 : Le n c2)
    (hr : ∀ x ∈ r, Le m x) :
    PyAll (· ≤ 4 * (n + 1) + m + (2 * nb1 + 1) * (2 * nb2 + 1) + 1) (coeff2 count a b c1 c2 r nb1 nb2) := by
  unfold coeff2
  refine (PyAll.for (I := fun k s => Le2 k s ∧ 4 * (n + 1) + m ≤ k) (n := 4 * (n + 1) + m) (c := 2 * nb2 + 1)
    ⟨⟨Nat.zero_le _, Nat.zero_le _⟩, le_rfl⟩ fun k _ N s hs => ?_).bind fun s hs => PyAll.pure ?_
  · refine (PyAll.for (I := fun k s => Le2 k s ∧ 4 * (n + 1) + m ≤ k) (c := 1) hs fun l _ N s hs => ?_).imp
      fun s hs => by rw [len_sym, mul_one] at hs; exact hs
    obtain ⟨⟨hs1, hs2⟩, hN⟩ := hs
    refine PyAll.ite ((PyAll.get h1 _).bind fun _ a1 => (PyAll.get h1 _).bind fun _ a2 => (PyAll.get h2 _).bind fun _ a3 =>
      (PyAll.get h2 _).bind fun _ a4 => (PyAll.get hr _).bind fun _ a5 => (PyAll.get a5 _).bind fun _ a6 =>
      (PyAll.pure (P := (· ≤ N + 1)) (by simp only [count]; omega)).bind ?snd) ((PyAll.pure (P := (· ≤ N + 1)) (by omega)).bind ?snd)
    intro _ hp
    exact PyAll.ite ((PyAll.get h1 _).bind fun _ a1 => (PyAll.get h1 _).bind fun _ a2 => (PyAll.get h2 _).bind fun _ a3 =>
      (PyAll.get h2 _).bind fun _ a4 => (PyAll.get hr _).bind fun _ a5 => (PyAll.get a5 _).bind fun _ a6 =>
      (PyAll.pure (P := (· ≤ N + 1)) (by simp only [count]; omega)).bind fun _ hm => PyAll.pure ⟨⟨hp, hm⟩, by omega⟩)
      ((PyAll.pure (P := (· ≤ N + 1)) (by omega)).bind fun _ hm => PyAll.pure ⟨⟨hp, hm⟩, by omega⟩)
  · obtain ⟨⟨hs1, hs2⟩, hN⟩ := hs
    rw [len_sym] at hs1 hs2
    simp only [count]
    split_ifs <;> omega

theorem coeff3_count (a b c : ℤ) {c1 c2 c3 : List ℕ} {r : List (List (List ℕ))} (nb1 nb2 nb3 : ℕ) {n m : ℕ} (h1 : Le n c1) (h2 : Le n c2)
    (h3 : Le n c3) (hr : ∀ x ∈ r, ∀ y ∈ x, Le m y) :
    PyAll (· ≤ 6 * (n + 1) + m + (2 * nb1 + 1) * ((2 * nb2 + 1) * (2 * nb3 + 1)) + 1) (coeff3 count a b c c1 c2 c3 r nb1 nb2 nb3) := by
  unfold coeff3
  refine (PyAll.for (I := fun k s => Le2 k s ∧ 6 * (n + 1) + m ≤ k) (n := 6 * (n + 1) + m) (c := (2 * nb2 + 1) * (2 * nb3 + 1))
    ⟨⟨Nat.zero_le _, Nat.zero_le _⟩, le_rfl⟩ fun k _ N s hs => ?_).bind fun s hs => PyAll.pure ?_
  · refine (PyAll.for (I := fun k s => Le2 k s ∧ 6 * (n + 1) + m ≤ k) (c := 2 * nb3 + 1) hs fun l _ N s hs => ?_).imp
      fun s hs => by rw [len_sym] at hs; exact hs
    refine (PyAll.for (I := fun k s => Le2 k s ∧ 6 * (n + 1) + m ≤ k) (c := 1) hs fun l _ N s hs => ?_).imp
      fun s hs => by rw [len_sym, mul_one] at hs; exact hs
    obtain ⟨⟨hs1, hs2⟩, hN⟩ := hs
    refine (PyAll.get h1 _).bind fun _ a1 => (PyAll.get h2 _).bind fun _ a2 => (PyAll.get h3 _).bind fun _ a3 => ?_
    refine (PyAll.get hr _).bind fun _ z1 => (PyAll.get z1 _).bind fun _ z2 => (PyAll.get z2 _).bind fun _ z => ?_
    refine PyAll.ite ((PyAll.get h1 _).bind fun _ b1 => (PyAll.get h2 _).bind fun _ b2 => (PyAll.get h3 _).bind fun _ b3 =>
      (PyAll.pure (P := (· ≤ N + 1)) (by simp only [count]; omega)).bind ?snd) ((PyAll.pure (P := (· ≤ N + 1)) (by omega)).bind ?snd)
    intro _ hp
    exact PyAll.ite ((PyAll.get h1 _).bind fun _ b1 => (PyAll.get h2 _).bind fun _ b2 => (PyAll.get h3 _).bind fun _ b3 =>
      (PyAll.pure (P := (· ≤ N + 1)) (by simp only [count]; omega)).bind fun _ hm => PyAll.pure ⟨⟨hp, hm⟩, by omega⟩)
      ((PyAll.pure (P := (· ≤ N + 1)) (by omega)).bind fun _ hm => PyAll.pure ⟨⟨hp, hm⟩, by omega⟩)
  · obtain ⟨⟨hs1, hs2⟩, hN⟩ := hs
    rw [len_sym] at hs1 hs2
    simp only [count]
    split_ifs <;> omega

theorem coeff4_count (a b c d : ℤ) {c1 c2 c3 c4 : List ℕ} {r : List (List (List (List ℕ)))} (nb1 nb2 nb3 nb4 : ℕ) {n m : ℕ}
    (h1 : Le n c1) (h2 : Le n c2) (h3 : Le n c3) (h4 : Le n c4) (hr : ∀ x ∈ r, ∀ y ∈ x, ∀ z ∈ y, Le m z) :
    PyAll (· ≤ 8 * (n + 1) + m + (2 * nb1 + 1) * ((2 * nb2 + 1) * ((2 * nb3 + 1) * (2 * nb4 + 1))) + 1)
      (coeff4 count a b c d c1 c2 c3 c4 r nb1 nb2 nb3 nb4) := by
  unfold coeff4
  refine (PyAll.for (I := fun k s => Le2 k s ∧ 8 * (n + 1) + m ≤ k) (n := 8 * (n + 1) + m)
    (c := (2 * nb2 + 1) * ((2 * nb3 + 1) * (2 * nb4 + 1)))
    ⟨⟨Nat.zero_le _, Nat.zero_le _⟩, le_rfl⟩ fun k _ N s hs => ?_).bind fun s hs => PyAll.pure ?_
  · refine (PyAll.for (I := fun k s => Le2 k s ∧ 8 * (n + 1) + m ≤ k) (c := (2 * nb3 + 1) * (2 * nb4 + 1)) hs fun l _ N s hs => ?_).imp
      fun s hs => by rw [len_sym] at hs; exact hs
    refine (PyAll.for (I := fun k s => Le2 k s ∧ 8 * (n + 1) + m ≤ k) (c := 2 * nb4 + 1) hs fun l _ N s hs => ?_).imp
      fun s hs => by rw [len_sym] at hs; exact hs
    refine (PyAll.for (I := fun k s => Le2 k s ∧ 8 * (n + 1) + m ≤ k) (c := 1) hs fun l _ N s hs => ?_).imp
      fun s hs => by rw [len_sym, mul_one] at hs; exact hs
    obtain ⟨⟨hs1, hs2⟩, hN⟩ := hs
    refine (PyAll.get h1 _).bind fun _ a1 => (PyAll.get h2 _).bind fun _ a2 => (PyAll.get h3 _).bind fun _ a3 =>
      (PyAll.get h4 _).bind fun _ a4 => ?_
    refine (PyAll.get hr _).bind fun _ z1 => (PyAll.get z1 _).bind fun _ z2 => (PyAll.get z2 _).bind fun _ z3 =>
      (PyAll.get z3 _).bind fun _ z => ?_
    refine PyAll.ite ((PyAll.get h1 _).bind fun _ b1 => (PyAll.get h2 _).bind fun _ b2 => (PyAll.get h3 _).bind fun _ b3 =>
      (PyAll.get h4 _).bind fun _ b4 => (PyAll.pure (P := (· ≤ N + 1)) (by simp only [count]; omega)).bind ?snd)
      ((PyAll.pure (P := (· ≤ N + 1)) (by omega)).bind ?snd)
    intro _ hp
    exact PyAll.ite ((PyAll.get h1 _).bind fun _ b1 => (PyAll.get h2 _).bind fun _ b2 => (PyAll.get h3 _).bind fun _ b3 =>
      (PyAll.get h4 _).bind fun _ b4 => (PyAll.pure (P := (· ≤ N + 1)) (by simp only [count]; omega)).bind fun _ hm =>
        PyAll.pure ⟨⟨hp, hm⟩, by omega⟩)
      ((PyAll.pure (P := (· ≤ N + 1)) (by omega)).bind fun _ hm => PyAll.pure ⟨⟨hp, hm⟩, by omega⟩)
  · obtain ⟨⟨hs1, hs2⟩, hN⟩ := hs
    rw [len_sym] at hs1 hs2
    simp only [count]
    split_ifs <;> omega

/-- All entries of a matrix at most `m`. -/
def MatLe (m : ℕ) : Mat ℕ → Prop
  | .m1 r => Le m r
  | .m2 r => ∀ x ∈ r, Le m x
  | .m3 r => ∀ x ∈ r, ∀ y ∈ x, Le m y
  | .m4 r => ∀ x ∈ r, ∀ y ∈ x, ∀ z ∈ y, Le m z

/-- The roundings in a current: `n` in the coefficients, `m` in the responses. -/
def currentCount (n m F P : ℕ) (nbl : List ℕ) : ℕ := 2 * F * (n + 1) + m + (nbl.map fun x => 2 * x + 1).prod + 1 + (2 * P + 1) ^ F

theorem currentAt_count (F P : ℕ) {ccc : ℕ → List ℕ} {r : Mat ℕ} (nbl : List ℕ) (hit : List ℤ → Prop) {n m : ℕ}
    (hc : ∀ f, Le n (ccc f)) (hr : MatLe m r) : PyAll (· ≤ currentCount n m F P nbl) (currentAt count F P ccc r nbl hit) := by
  classical
  unfold currentAt
  split
  · rename_i n1 m1
    have hr : Le m m1 := hr
    unfold current1
    refine (PyAll.for (I := fun k (s : ℕ) => s ≤ k ∧ 2 * (n + 1) + m + (2 * n1 + 1) + 1 ≤ k) (n := 2 * (n + 1) + m + (2 * n1 + 1) + 1) (c := 1)
      ⟨Nat.zero_le _, le_rfl⟩ fun k _ N s hs => ?_).imp fun s hs => ?_
    · refine PyAll.ite ((coeff1_count k n1 (hc 1) hr).bind fun x hx => PyAll.pure ?_) (PyAll.pure ?_)
      · simp only [count]; omega
      · omega
    · rw [len_mix] at hs
      simp only [currentCount, List.map_cons, List.map_nil, List.prod_cons, List.prod_nil]
      refine hs.1.trans (le_of_eq (by ring))
  · rename_i n1 n2 m2
    have hr : ∀ x ∈ m2, Le m x := hr
    unfold current2
    generalize hB : 4 * (n + 1) + m + (2 * n1 + 1) * (2 * n2 + 1) + 1 = B
    refine (PyAll.for (I := fun k (s : ℕ) => s ≤ k ∧ B ≤ k) (n := B) (c := 2 * P + 1) ⟨Nat.zero_le _, le_rfl⟩ fun k _ N s hs => ?_).imp
      fun s hs => ?_
    · refine (PyAll.for (I := fun k (s : ℕ) => s ≤ k ∧ B ≤ k) (c := 1) hs fun l _ N s hs => ?_).imp
        fun s hs => by rw [len_mix, mul_one] at hs; exact hs
      refine PyAll.ite ((coeff2_count k l n1 n2 (hc 1) (hc 2) hr).bind fun x hx => PyAll.pure ?_) (PyAll.pure ?_)
      · simp only [count]; omega
      · omega
    · rw [len_mix] at hs
      simp only [currentCount, List.map_cons, List.map_nil, List.prod_cons, List.prod_nil]
      refine hs.1.trans (le_of_eq ?_)
      rw [← hB]
      ring
  · rename_i n1 n2 n3 m3
    have hr : ∀ x ∈ m3, ∀ y ∈ x, Le m y := hr
    unfold current3
    generalize hB : 6 * (n + 1) + m + (2 * n1 + 1) * ((2 * n2 + 1) * (2 * n3 + 1)) + 1 = B
    refine (PyAll.for (I := fun k (s : ℕ) => s ≤ k ∧ B ≤ k) (n := B) (c := (2 * P + 1) * (2 * P + 1)) ⟨Nat.zero_le _, le_rfl⟩
      fun k _ N s hs => ?_).imp fun s hs => ?_
    · refine (PyAll.for (I := fun k (s : ℕ) => s ≤ k ∧ B ≤ k) (c := 2 * P + 1) hs fun l _ N s hs => ?_).imp
        fun s hs => by rw [len_mix] at hs; exact hs
      refine (PyAll.for (I := fun k (s : ℕ) => s ≤ k ∧ B ≤ k) (c := 1) hs fun o _ N s hs => ?_).imp
        fun s hs => by rw [len_mix, mul_one] at hs; exact hs
      refine PyAll.ite ((coeff3_count k l o n1 n2 n3 (hc 1) (hc 2) (hc 3) hr).bind fun x hx => PyAll.pure ?_) (PyAll.pure ?_)
      · simp only [count]; omega
      · omega
    · rw [len_mix] at hs
      simp only [currentCount, List.map_cons, List.map_nil, List.prod_cons, List.prod_nil]
      refine hs.1.trans (le_of_eq ?_)
      rw [← hB]
      ring
  · rename_i n1 n2 n3 n4 m4
    have hr : ∀ x ∈ m4, ∀ y ∈ x, ∀ z ∈ y, Le m z := hr
    unfold current4
    generalize hB : 8 * (n + 1) + m + (2 * n1 + 1) * ((2 * n2 + 1) * ((2 * n3 + 1) * (2 * n4 + 1))) + 1 = B
    refine (PyAll.for (I := fun k (s : ℕ) => s ≤ k ∧ B ≤ k) (n := B) (c := (2 * P + 1) * ((2 * P + 1) * (2 * P + 1)))
      ⟨Nat.zero_le _, le_rfl⟩ fun k _ N s hs => ?_).imp fun s hs => ?_
    · refine (PyAll.for (I := fun k (s : ℕ) => s ≤ k ∧ B ≤ k) (c := (2 * P + 1) * (2 * P + 1)) hs fun l _ N s hs => ?_).imp
        fun s hs => by rw [len_mix] at hs; exact hs
      refine (PyAll.for (I := fun k (s : ℕ) => s ≤ k ∧ B ≤ k) (c := 2 * P + 1) hs fun o _ N s hs => ?_).imp
        fun s hs => by rw [len_mix] at hs; exact hs
      refine (PyAll.for (I := fun k (s : ℕ) => s ≤ k ∧ B ≤ k) (c := 1) hs fun q _ N s hs => ?_).imp
        fun s hs => by rw [len_mix, mul_one] at hs; exact hs
      refine PyAll.ite ((coeff4_count k l o q n1 n2 n3 n4 (hc 1) (hc 2) (hc 3) (hc 4) hr).bind fun x hx => PyAll.pure ?_) (PyAll.pure ?_)
      · simp only [count]; omega
      · omega
    · rw [len_mix] at hs
      simp only [currentCount, List.map_cons, List.map_nil, List.prod_cons, List.prod_nil]
      refine hs.1.trans (le_of_eq ?_)
      rw [← hB]
      ring
  · intro a ha
    cases ha

theorem mapM_all {κ α : Type} {P : α → Prop} {f : κ → Py α} (l : List κ) (h : ∀ k ∈ l, PyAll P (f k)) :
    PyAll (fun r => ∀ x ∈ r, P x) (l.mapM f) := by
  induction l with
  | nil => exact PyAll.pure (by simp)
  | cons k l ih =>
    rw [List.mapM_cons]
    refine (h k (by simp)).bind fun a ha => (ih fun j hj => h j (by simp [hj])).bind fun as has => PyAll.pure ?_
    intro x hx
    rcases List.mem_cons.1 hx with rfl | hx
    · exact ha
    · exact has x hx

theorem qtcurrent_count {M F P n0 n1 : ℕ} (hP : 1 ≤ P) {jac : ℕ → ℕ → List ℕ} {r : Mat ℕ} {nb : NumB} {nbl : List ℕ}
    (hits : List (List ℤ → Prop)) (hn : unpackNumB nb F = .ok nbl)
    (hj : ∀ f p, 1 ≤ f → f ≤ F → 1 ≤ p → p ≤ P → Le n0 (jac f p) ∧ (jac f p).length = 2 * M + 1) (hr : MatLe n1 r) :
    PyAll (fun l => ∀ x ∈ l, x ≤ currentCount (convCount M n0 P) n1 F P nbl) (qtcurrent count F P jac r nb hits) := by
  unfold qtcurrent
  rw [hn]
  change PyAll _ (convTones count P jac F >>= fun c => hits.mapM (currentAt count F P c r nbl))
  exact (convTones_count hP F hj).bind fun c hc => mapM_all _ fun hit _ => currentAt_count F P nbl hit hc hr

end QMix.Rnd
