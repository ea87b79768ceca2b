import Verif.Model.HarmonicBalance
import Verif.Spec.HarmonicBalance
import Verif.Lemmas.QtApi

/-!
# Lemmas about the harmonic balance model
-/

namespace QMix.HB

open Complex QMix.Qt

/-! ## Relative errors -/

@[simp] theorem fin_lt_fin (x y : ℝ) : (Rel.fin x).lt (.fin y) ↔ x < y := Iff.rfl
@[simp] theorem fin_lt_inf (x : ℝ) : (Rel.fin x).lt .inf ↔ True := Iff.rfl
@[simp] theorem inf_lt (r : Rel) : Rel.inf.lt r ↔ False := by cases r <;> rfl
@[simp] theorem nan_lt (r : Rel) : Rel.nan.lt r ↔ False := by cases r <;> rfl
@[simp] theorem lt_nan (r : Rel) : r.lt .nan ↔ False := by cases r <;> rfl
@[simp] theorem fin_le_fin (x y : ℝ) : (Rel.fin x).le (.fin y) ↔ x ≤ y := Iff.rfl
@[simp] theorem inf_le_fin (y : ℝ) : Rel.inf.le (.fin y) ↔ False := Iff.rfl
@[simp] theorem nan_le (r : Rel) : Rel.nan.le r ↔ False := by cases r <;> rfl

theorem ite_fin (x y : ℝ) : (if x < y then Rel.fin y else .fin x) = .fin (max x y) := by
  split_ifs with h
  · rw [max_eq_right h.le]
  · rw [max_eq_left (not_lt.1 h)]

theorem npMax2_le (a b : Rel) (c : ℝ) :
    (npMax2 a b).le (.fin c) ↔ a.le (.fin c) ∧ b.le (.fin c) := by
  cases a <;> cases b <;> simp [npMax2, ite_fin]

theorem npMax2_lt (a b : Rel) (c : ℝ) :
    (npMax2 a b).lt (.fin c) ↔ a.lt (.fin c) ∧ b.lt (.fin c) := by
  cases a <;> cases b <;> simp [npMax2, ite_fin]

theorem npMax2_nan (a b : Rel) : npMax2 a b = .nan ↔ a = .nan ∨ b = .nan := by
  cases a <;> cases b <;> simp [npMax2, ite_fin]

theorem foldl_npMax2_le (l : List Rel) (x : Rel) (c : ℝ) :
    (l.foldl npMax2 x).le (.fin c) ↔ x.le (.fin c) ∧ ∀ y ∈ l, y.le (.fin c) := by
  induction l generalizing x with
  | nil => simp
  | cons y l ih => rw [List.foldl_cons, ih, npMax2_le]; simp [and_assoc]

theorem foldl_npMax2_lt (l : List Rel) (x : Rel) (c : ℝ) :
    (l.foldl npMax2 x).lt (.fin c) ↔ x.lt (.fin c) ∧ ∀ y ∈ l, y.lt (.fin c) := by
  induction l generalizing x with
  | nil => simp
  | cons y l ih => rw [List.foldl_cons, ih, npMax2_lt]; simp [and_assoc]

theorem foldl_npMax2_nan (l : List Rel) (x : Rel) :
    l.foldl npMax2 x = .nan ↔ x = .nan ∨ .nan ∈ l := by
  induction l generalizing x with
  | nil => simp
  | cons y l ih => rw [List.foldl_cons, ih, npMax2_nan]; simp [or_assoc, eq_comm]

theorem npMax_le {l : List Rel} {m : Rel} (h : npMax l = .ok m) (c : ℝ) :
    m.le (.fin c) ↔ ∀ y ∈ l, y.le (.fin c) := by
  cases l with
  | nil => cases h
  | cons x l => cases h; rw [foldl_npMax2_le]; simp

theorem npMax_lt {l : List Rel} {m : Rel} (h : npMax l = .ok m) (c : ℝ) :
    m.lt (.fin c) ↔ ∀ y ∈ l, y.lt (.fin c) := by
  cases l with
  | nil => cases h
  | cons x l => cases h; rw [foldl_npMax2_lt]; simp

theorem npMax_nan {l : List Rel} {m : Rel} (h : npMax l = .ok m) : m = .nan ↔ .nan ∈ l := by
  cases l with
  | nil => cases h
  | cons x l => cases h; rw [foldl_npMax2_nan]; simp [eq_comm]

theorem npMax_ok {l : List Rel} (h : l ≠ []) : ∃ m, npMax l = .ok m := by
  cases l with
  | nil => exact absurd rfl h
  | cons x l => exact ⟨_, rfl⟩

theorem pyMax2_le {a b : Rel} (ha : a ≠ .nan) (hb : b ≠ .nan) (c : ℝ) :
    (pyMax2 a b).le (.fin c) ↔ a.le (.fin c) ∧ b.le (.fin c) := by
  cases a <;> cases b <;> simp [pyMax2, ite_fin] at *

theorem pyMax2_nan_left (b : Rel) : pyMax2 .nan b = .nan := by simp [pyMax2]

theorem pyMax2_nan_right (a : Rel) : pyMax2 a .nan = a := by simp [pyMax2]

theorem pyMax2_ne_nan {a : Rel} (ha : a ≠ .nan) (b : Rel) : pyMax2 a b ≠ .nan := by
  cases a <;> cases b <;> simp [pyMax2, ite_fin] at *

theorem le_or_lt {r : Rel} (h : r ≠ .nan) (c : ℝ) : r.le (.fin c) ∨ (Rel.fin c).lt r := by
  cases r with
  | nan => exact absurd rfl h
  | fin x => exact le_or_gt x c
  | inf => exact .inr trivial

theorem relDiv_le {a b c : ℝ} (hb : 0 ≤ b) (h : (relDiv a b).le (.fin c)) : a ≤ c * b := by
  unfold relDiv at h
  split_ifs at h with h0 h1
  · exact h.elim
  · exact h.elim
  · exact (div_le_iff₀ (lt_of_le_of_ne hb (Ne.symm h0))).1 h

theorem relDiv_le_iff {a b c : ℝ} (hb : 0 < b) : (relDiv a b).le (.fin c) ↔ a ≤ c * b := by
  unfold relDiv
  rw [if_neg hb.ne']
  exact div_le_iff₀ hb

theorem relDiv_lt_iff {a b c : ℝ} (hb : 0 < b) : (relDiv a b).lt (.fin c) ↔ a < c * b := by
  unfold relDiv
  rw [if_neg hb.ne']
  exact div_lt_iff₀ hb

theorem relDiv_nan {a b : ℝ} : relDiv a b = .nan ↔ a = 0 ∧ b = 0 := by
  unfold relDiv
  split_ifs with h0 h1 <;> simp [*]

theorem lt_imp_le {r : Rel} {c : ℝ} (h : r.lt (.fin c)) : r.le (.fin c) := by
  cases r with
  | nan => exact h
  | fin x => exact le_of_lt h
  | inf => exact h

theorem relDiv_lt_pos {a b c : ℝ} (ha : 0 ≤ a) (hb : 0 ≤ b) (h : (relDiv a b).lt (.fin c)) :
    0 < c := by
  unfold relDiv at h
  split_ifs at h with h0 h1
  · exact h.elim
  · exact h.elim
  · exact lt_of_le_of_lt (div_nonneg ha hb) h

/-! ## The loop over the signals -/

section Signals

variable {n N : ℕ} {rel : Fin n → Fin N → Rel} {stop : ℝ}

/-- The loop of `signalLoop` over any list of signals, from any state. -/
noncomputable abbrev sigFor (stop : ℝ) (rel : Fin n → Fin N → Rel) (l : List (Fin n))
    (s : Rel × (Fin N → Prop)) : Py (Rel × (Fin N → Prop)) :=
  pyFor l s fun s k => do
    let m ← npMax (List.ofFn (rel k))
    pure (pyMax2 m s.1, fun i => s.2 i ∧ (rel k i).lt (.fin stop))

theorem sigFor_cons {k : Fin n} {l : List (Fin n)} {s r : Rel × (Fin N → Prop)}
    (h : sigFor stop rel (k :: l) s = .ok r) : ∃ m, npMax (List.ofFn (rel k)) = .ok m ∧
      sigFor stop rel l (pyMax2 m s.1, fun i => s.2 i ∧ (rel k i).lt (.fin stop)) = .ok r := by
  unfold sigFor pyFor at h
  cases hm : npMax (List.ofFn (rel k)) with
  | error e => rw [hm] at h; cases h
  | ok m => rw [hm] at h; exact ⟨m, rfl, h⟩

theorem sigFor_step {k : Fin n} {l : List (Fin n)} {s : Rel × (Fin N → Prop)} {m : Rel}
    (hm : npMax (List.ofFn (rel k)) = .ok m) : sigFor stop rel (k :: l) s
      = sigFor stop rel l (pyMax2 m s.1, fun i => s.2 i ∧ (rel k i).lt (.fin stop)) := by
  conv_lhs => unfold sigFor pyFor
  rw [hm]
  rfl

theorem sigFor_total (hN : 0 < N) (l : List (Fin n)) (s : Rel × (Fin N → Prop)) :
    ∃ r, sigFor stop rel l s = .ok r := by
  induction l generalizing s with
  | nil => exact ⟨s, rfl⟩
  | cons k l ih =>
    obtain ⟨m, hm⟩ := npMax_ok (l := List.ofFn (rel k)) (by
      intro h; have := congrArg List.length h; simp at this; omega)
    obtain ⟨r, hr⟩ := ih (pyMax2 m s.1, fun i => s.2 i ∧ (rel k i).lt (.fin stop))
    refine ⟨r, ?_⟩
    unfold sigFor pyFor
    rw [hm]
    exact hr

theorem sigFor_mask {l : List (Fin n)} {s r : Rel × (Fin N → Prop)}
    (h : sigFor stop rel l s = .ok r) (i : Fin N) :
    r.2 i ↔ s.2 i ∧ ∀ k ∈ l, (rel k i).lt (.fin stop) := by
  induction l generalizing s with
  | nil => cases h; simp
  | cons k l ih =>
    obtain ⟨m, -, h⟩ := sigFor_cons h
    rw [ih h]
    simp [and_assoc]

theorem sigFor_append {l l' : List (Fin n)} {s r : Rel × (Fin N → Prop)}
    (h : sigFor stop rel (l ++ l') s = .ok r) :
    ∃ s', sigFor stop rel l s = .ok s' ∧ sigFor stop rel l' s' = .ok r := by
  induction l generalizing s with
  | nil => exact ⟨s, rfl, h⟩
  | cons k l ih =>
    obtain ⟨m, hm, h⟩ := sigFor_cons h
    obtain ⟨s', h1, h2⟩ := ih h
    refine ⟨s', ?_, h2⟩
    unfold sigFor pyFor
    rw [hm]
    exact h1

/-- Signals without NaN, following anything. -/
theorem sigFor_le {l : List (Fin n)} {s r : Rel × (Fin N → Prop)}
    (h : sigFor stop rel l s = .ok r) (hl : ∀ k ∈ l, ∀ i, rel k i ≠ .nan) (c : ℝ)
    (hr : r.1.le (.fin c)) :
    (s.1 = .nan ∨ s.1.le (.fin c)) ∧ ∀ k ∈ l, ∀ i, (rel k i).le (.fin c) := by
  induction l generalizing s with
  | nil => cases h; exact ⟨.inr hr, by simp⟩
  | cons k l ih =>
    obtain ⟨m, hm, h⟩ := sigFor_cons h
    obtain ⟨h1, h2⟩ := ih h (fun k' hk' => hl k' (by simp [hk']))
    have hmn : m ≠ .nan := by
      rw [Ne, npMax_nan hm, List.mem_ofFn]
      rintro ⟨i, hi⟩
      exact hl k (by simp) i hi
    have h1 := h1.resolve_left (pyMax2_ne_nan hmn _)
    have hm' : m.le (.fin c) ∧ (s.1 = .nan ∨ s.1.le (.fin c)) := by
      by_cases hs : s.1 = .nan
      · simp only [hs, pyMax2_nan_right] at h1; exact ⟨h1, .inl hs⟩
      · rw [pyMax2_le hmn hs] at h1; exact ⟨h1.1, .inr h1.2⟩
    refine ⟨hm'.2, ?_⟩
    simp only [List.mem_cons, forall_eq_or_imp]
    refine ⟨fun i => (npMax_le hm c).1 hm'.1 _ (List.mem_ofFn.2 ⟨i, rfl⟩), h2⟩

/-- Without any NaN the running maximum is the maximum. -/
theorem sigFor_le_iff {l : List (Fin n)} {s r : Rel × (Fin N → Prop)}
    (h : sigFor stop rel l s = .ok r) (hl : ∀ k ∈ l, ∀ i, rel k i ≠ .nan) (hs : s.1 ≠ .nan) (c : ℝ) :
    r.1 ≠ .nan ∧ (r.1.le (.fin c) ↔ s.1.le (.fin c) ∧ ∀ k ∈ l, ∀ i, (rel k i).le (.fin c)) := by
  induction l generalizing s with
  | nil => cases h; exact ⟨hs, by simp⟩
  | cons k l ih =>
    obtain ⟨m, hm, h⟩ := sigFor_cons h
    have hmn : m ≠ .nan := by
      rw [Ne, npMax_nan hm, List.mem_ofFn]
      rintro ⟨i, hi⟩
      exact hl k (by simp) i hi
    obtain ⟨h1, h2⟩ := ih h (fun k' hk' => hl k' (by simp [hk'])) (pyMax2_ne_nan hmn _)
    refine ⟨h1, ?_⟩
    rw [h2, pyMax2_le hmn hs, npMax_le hm]
    simp only [List.forall_mem_ofFn_iff, List.mem_cons, forall_eq_or_imp]
    tauto

end Signals

section Signals

variable {n N : ℕ} {rel : Fin n → Fin N → Rel} {stop : ℝ}

/-- From signal `k0` on no NaN: the test of the code covers these signals. -/
theorem signalLoop_le_from {r : Rel × (Fin N → Prop)} (h : signalLoop stop rel = .ok r) (k0 : ℕ)
    (hk : ∀ k : Fin n, k0 ≤ k → ∀ i, rel k i ≠ .nan) {c : ℝ} (hr : r.1.le (.fin c)) :
    ∀ k : Fin n, k0 ≤ k → ∀ i, (rel k i).le (.fin c) := by
  have hsplit : List.finRange n = (List.finRange n).take k0 ++ (List.finRange n).drop k0 :=
    (List.take_append_drop _ _).symm
  have h' : sigFor stop rel (List.finRange n) (Rel.fin 0, fun _ => True) = .ok r := h
  rw [hsplit] at h'
  obtain ⟨s', -, h2⟩ := sigFor_append h'
  have hmem : ∀ k : Fin n, k ∈ (List.finRange n).drop k0 ↔ k0 ≤ k := by
    intro k
    rw [List.mem_iff_getElem]
    constructor
    · rintro ⟨j, hj, rfl⟩
      simp
    · intro hk
      refine ⟨k - k0, by simp; omega, ?_⟩
      ext
      simp [hk]
  have := sigFor_le h2 (fun k hk' i => hk k ((hmem k).1 hk') i) c hr
  exact fun k hk' i => this.2 k ((hmem k).2 hk') i

/-- The last signal is always covered, NaN or not. -/
theorem signalLoop_le_last {r : Rel × (Fin N → Prop)} (h : signalLoop stop rel = .ok r) {c : ℝ}
    (hr : r.1.le (.fin c)) (k : Fin n) (hk : (k : ℕ) + 1 = n) (i : Fin N) :
    (rel k i).le (.fin c) := by
  obtain ⟨m, rfl⟩ : ∃ m, n = m + 1 := ⟨k, hk.symm⟩
  have h' : sigFor stop rel (List.finRange (m + 1)) (Rel.fin 0, fun _ => True) = .ok r := h
  rw [List.finRange_succ_last] at h'
  obtain ⟨s', -, h2⟩ := sigFor_append h'
  obtain ⟨x, hx, h2⟩ := sigFor_cons h2
  cases h2
  have hk' : k = Fin.last m := by ext; simp; omega
  subst hk'
  have hxn : x ≠ .nan := by
    rintro rfl
    rw [show (pyMax2 Rel.nan s'.1) = .nan from pyMax2_nan_left _] at hr
    exact hr
  have hx' : x.le (.fin c) := by
    by_cases hs : s'.1 = .nan
    · simp only [hs, pyMax2_nan_right] at hr; exact hr
    · rw [pyMax2_le hxn hs] at hr; exact hr.1
  exact (npMax_le hx c).1 hx' _ (List.mem_ofFn.2 ⟨i, rfl⟩)

theorem signalLoop_le_iff {r : Rel × (Fin N → Prop)} (h : signalLoop stop rel = .ok r)
    (hk : ∀ k i, rel k i ≠ .nan) (c : ℝ) : r.1 ≠ .nan ∧
      (r.1.le (.fin c) ↔ 0 ≤ c ∧ ∀ k i, (rel k i).le (.fin c)) := by
  have := sigFor_le_iff (l := List.finRange n) (s := (Rel.fin 0, fun _ => True)) h
    (fun k _ => hk k) (by simp) c
  simpa [Rel.le] using this

theorem signalLoop_mask {r : Rel × (Fin N → Prop)} (h : signalLoop stop rel = .ok r) (i : Fin N) :
    r.2 i ↔ ∀ k, (rel k i).lt (.fin stop) := by
  have := sigFor_mask (l := List.finRange n) (s := (Rel.fin 0, fun _ => True)) h i
  simpa using this

theorem signalLoop_total (hN : 0 < N) : ∃ r, signalLoop stop rel = .ok r :=
  sigFor_total hN (List.finRange n) _

end Signals

/-! ## The iteration -/

section Loop

variable {S E : Type} {n N : ℕ} (ev : S → Py E) (rel : S → E → Fin n → Fin N → Rel)
  (upd : S → E → Py S) (stop : ℝ) (maxIt : ℤ)

/-- The error evaluated at `v`: its running maximum and its mask. -/
def Evaluated (v : S) (r : Rel × (Fin N → Prop)) : Prop :=
  ∃ e, ev v = .ok e ∧ signalLoop stop (rel v e) = .ok r

/-- One update leads from `v` to `w`. -/
def Next (v w : S) : Prop := ∃ e, ev v = .ok e ∧ upd v e = .ok w

/-- What the loop guarantees, from a state in which `it` passes have been completed. -/
structure LoopPost (left it : ℕ) (v0 : S) (s : Stopped S N) : Prop where
  steps : ∃ k, s.updates = it + k ∧ Spec.Steps (Next ev upd) k v0 s.vj
  cases : (s.exit = .target ∧ s.iteration = s.updates ∧ s.evals = s.updates + 1 ∧
      s.updates < it + left ∧ ∃ r, Evaluated ev rel stop s.vj r ∧ r.1.le (.fin stop) ∧
        s.mask = some r.2) ∨
    (s.exit = .limit ∧ s.iteration = s.updates ∧ s.evals = s.updates + 1 ∧
      (s.iteration : ℤ) = maxIt ∧ s.updates < it + left ∧ ∃ r, Evaluated ev rel stop s.vj r ∧
        (Rel.fin stop).lt r.1 ∧ s.mask = some r.2) ∨
    (s.exit = .exhausted ∧ s.updates = it + left ∧ s.evals = it + left ∧ (1 ≤ left →
      s.iteration + 1 = it + left ∧ ∃ v r, (∃ j, Spec.Steps (Next ev upd) j v0 v) ∧
        Evaluated ev rel stop v r ∧ Next ev upd v s.vj ∧
        ¬ r.1.le (.fin stop) ∧ ((s.iteration : ℤ) = maxIt → r.1 = .nan) ∧ s.mask = some r.2))

theorem loop_post (left it : ℕ) (st s : Stopped S N) (hit : st.updates = it) (hev : st.evals = it)
    (hex : st.exit = .exhausted) (h : loop ev rel upd stop maxIt left it st = .ok s) :
    LoopPost ev rel upd stop maxIt left it st.vj s := by
  induction left generalizing it st with
  | zero =>
    cases h
    exact ⟨⟨0, by omega, .zero _⟩, .inr (.inr ⟨hex, by omega, by omega, by omega⟩)⟩
  | succ left ih =>
    unfold loop at h
    obtain ⟨e, he, h⟩ := bind_ok_iff.1 h
    obtain ⟨r, hr, h⟩ := bind_ok_iff.1 h
    dsimp only at h
    by_cases h1 : r.1.le (.fin stop)
    · rw [if_pos h1] at h
      cases h
      exact ⟨⟨0, by simpa using hit, .zero _⟩, .inl ⟨rfl, by simp [hit], by simp [hev, hit],
        by simp [hit], r, ⟨e, he, hr⟩, h1, rfl⟩⟩
    · rw [if_neg h1] at h
      by_cases h2 : (Rel.fin stop).lt r.1 ∧ (it : ℤ) = maxIt
      · rw [if_pos h2] at h
        cases h
        exact ⟨⟨0, by simpa using hit, .zero _⟩, .inr (.inl ⟨rfl, by simp [hit], by simp [hev, hit],
          h2.2, by simp [hit], r, ⟨e, he, hr⟩, h2.1, rfl⟩)⟩
      · rw [if_neg h2] at h
        obtain ⟨w, hw, h⟩ := bind_ok_iff.1 h
        have ih' := ih (it + 1) _ (congrArg (· + 1) hit) (congrArg (· + 1) hev) (by exact hex) h
        obtain ⟨⟨k, hk, hs⟩, hc⟩ := ih'
        refine ⟨⟨k + 1, by omega, .succ ⟨e, he, hw⟩ hs⟩, ?_⟩
        rcases hc with hc | hc | hc
        · exact .inl (by refine ⟨hc.1, hc.2.1, hc.2.2.1, by have := hc.2.2.2.1; omega, hc.2.2.2.2⟩)
        · exact .inr (.inl ⟨hc.1, hc.2.1, hc.2.2.1, hc.2.2.2.1, by have := hc.2.2.2.2.1; omega,
            hc.2.2.2.2.2⟩)
        · refine .inr (.inr ⟨hc.1, by omega, by omega, fun _ => ?_⟩)
          by_cases hl : 1 ≤ left
          · obtain ⟨h3, v, r', ⟨j, hj⟩, h4⟩ := hc.2.2.2 hl
            exact ⟨by omega, v, r', ⟨j + 1, .succ ⟨e, he, hw⟩ hj⟩, h4⟩
          · obtain rfl : left = 0 := by omega
            cases h
            refine ⟨rfl, st.vj, r, ⟨0, .zero _⟩, ⟨e, he, hr⟩, ⟨e, he, hw⟩, h1, fun hm => ?_, rfl⟩
            by_contra hn
            rcases le_or_lt hn stop with h' | h'
            · exact h1 h'
            · exact h2 ⟨h', hm⟩

theorem iterate_post (v : S) (s : Stopped S N) (h : iterate ev rel upd stop maxIt v = .ok s) :
    LoopPost ev rel upd stop maxIt (maxIt + 1).toNat 0 v s :=
  loop_post ev rel upd stop maxIt _ 0 _ s rfl rfl rfl h

/-- The run that stops at once. -/
theorem iterate_target {v : S} {r : Rel × (Fin N → Prop)} (h0 : 0 ≤ maxIt)
    (hr : Evaluated ev rel stop v r) (hle : r.1.le (.fin stop)) :
    iterate ev rel upd stop maxIt v = .ok
      { vj := v, iteration := 0, exit := .target, mask := some r.2, evals := 1, updates := 0 } := by
  obtain ⟨e, he, hr⟩ := hr
  have : (maxIt + 1).toNat = maxIt.toNat + 1 := by omega
  unfold iterate
  rw [this]
  unfold loop
  dsimp only
  rw [he, py_bind, hr, py_bind, if_pos hle]
  rfl

/-- The run with one update. -/
theorem iterate_one {v w : S} {e : E} {r r' : Rel × (Fin N → Prop)} (h0 : 1 ≤ maxIt)
    (he : ev v = .ok e) (hr : signalLoop stop (rel v e) = .ok r) (hle : ¬ r.1.le (.fin stop))
    (hw : upd v e = .ok w) (hr' : Evaluated ev rel stop w r') (hle' : r'.1.le (.fin stop)) :
    iterate ev rel upd stop maxIt v = .ok
      { vj := w, iteration := 1, exit := .target, mask := some r'.2, evals := 2, updates := 1 } := by
  obtain ⟨e', he', hr'⟩ := hr'
  have : (maxIt + 1).toNat = (maxIt - 1).toNat + 1 + 1 := by omega
  unfold iterate
  rw [this]
  unfold loop
  dsimp only
  rw [he, py_bind, hr, py_bind, if_neg hle, if_neg (by push_cast; omega), hw, py_bind]
  unfold loop
  dsimp only
  rw [he', py_bind, hr', py_bind, if_pos hle']
  rfl

end Loop

/-! ## Shapes -/

section Shape

variable {ι : Type}

theorem to3d_in {F P : ℕ} (v : Fin (F * P) → Arr ι) {f p : ℕ} (h1 : f < F) (h2 : p < P)
    (h : f * P + p < F * P) : to3d F P v (f + 1) (p + 1) = v ⟨f * P + p, h⟩ := by
  funext i
  unfold to3d
  rw [dif_pos ⟨⟨by omega, by omega⟩, by omega, by omega⟩]
  simp

theorem idx_lt {F P f p : ℕ} (h1 : f < F) (h2 : p < P) : f * P + p < F * P :=
  calc f * P + p < f * P + P := by omega
    _ = (f + 1) * P := by ring
    _ ≤ F * P := Nat.mul_le_mul_right _ (by omega)

theorem to2d_to3d {F P : ℕ} (v : Fin (F * P) → Arr ι) : to2d F P (to3d F P v) = v := by
  funext k
  have hP : 0 < P := by
    rcases Nat.eq_zero_or_pos P with rfl | h
    · exact absurd k.2 (by simp)
    · exact h
  have hf : (k : ℕ) / P < F := (Nat.div_lt_iff_lt_mul hP).2 k.2
  unfold to2d
  rw [to3d_in v hf (Nat.mod_lt _ hP) (idx_lt hf (Nat.mod_lt _ hP))]
  congr 1
  ext
  exact Nat.div_add_mod' _ _

theorem to3d_to2d {F P : ℕ} (a : ℕ → ℕ → Arr ι) {f p : ℕ} (h1 : 1 ≤ f) (h2 : f ≤ F) (h3 : 1 ≤ p)
    (h4 : p ≤ P) : to3d F P (to2d F P a) f p = a f p := by
  obtain ⟨f, rfl⟩ : ∃ g, f = g + 1 := ⟨f - 1, by omega⟩
  obtain ⟨p, rfl⟩ : ∃ q, p = q + 1 := ⟨p - 1, by omega⟩
  rw [to3d_in _ (by omega) (by omega) (idx_lt (by omega) (by omega))]
  unfold to2d
  have e1 : (f * P + p) / P = f := by
    rw [mul_comm, Nat.mul_add_div (by omega), Nat.div_eq_of_lt (by omega), add_zero]
  have e2 : (f * P + p) % P = p := by
    rw [mul_comm, Nat.mul_add_mod, Nat.mod_eq_of_lt (by omega)]
  simp only [e1, e2]

theorem to3d_out {F P : ℕ} (v : Fin (F * P) → Arr ι) {f p : ℕ}
    (h : ¬ ((1 ≤ f ∧ f ≤ F) ∧ 1 ≤ p ∧ p ≤ P)) : to3d F P v f p = 0 := by
  funext i
  unfold to3d
  rw [dif_neg h]
  rfl

end Shape

/-! ## The current of all signals -/

theorem flatMap_range (F P : ℕ) (g : ℕ → ℕ → ℝ) :
    ((List.range F).flatMap fun (f : ℕ) => (List.range P).map fun (p : ℕ) => g f p)
      = (List.range (F * P)).map fun (k : ℕ) => g (k / P) (k % P) := by
  induction F with
  | zero => simp
  | succ F ih =>
    rw [List.range_succ, List.flatMap_append, ih, Nat.add_mul, one_mul, List.range_add,
      List.map_append]
    congr 1
    simp only [List.flatMap_cons, List.flatMap_nil, List.append_nil, List.map_map]
    refine List.map_congr_left fun p hp => ?_
    rw [List.mem_range] at hp
    have e1 : (F * P + p) / P = F := by
      rw [mul_comm, Nat.mul_add_div (by omega), Nat.div_eq_of_lt (by omega), add_zero]
    have e2 : (F * P + p) % P = p := by
      rw [mul_comm, Nat.mul_add_mod, Nat.mod_eq_of_lt (by omega)]
    simp [e1, e2]

theorem rowsToSig_map {n N : ℕ} (g : ℕ → Arr (Fin N)) :
    rowsToSig (n := n) ((List.range n).map g) = .ok fun k => g k := by
  unfold rowsToSig
  rw [dif_pos (by simp)]
  simp

/-- The specified current of all signals. -/
noncomputable def specCur {N : ℕ} (cct : HCct N) (resp : ℝ → ℂ) (nb : NumB)
    (v : ℕ → ℕ → Arr (Fin N)) (f p : ℕ) : Arr (Fin N) := fun i =>
  Spec.qt resp (fun f p => v f p i) cct.freq cct.numF cct.numP (nb.toTup cct.numF) (cct.vb i)
    (cct.freq f * p)

theorem matrix_same {N : ℕ} (cct : HCct N) (resp : ℝ → ℂ) (nb : NumB) (h : Valid cct.toCct nb) :
    ∃ m, interpolateRespfn cct.toCct resp nb = .ok m ∧ ∀ vj fl,
      qtcurrentList vj cct.toCct resp fl nb (some m) = qtcurrentList vj cct.toCct resp fl nb none := by
  have hl := h.limits
  obtain ⟨m, e, hd, ha⟩ := interpolate_adequate cct.toCct resp nb h.unpack h.tones_pos h.tones_le
    (nbl := (nb.toTup cct.numF).take cct.numF) (by
      rw [List.forall₂_iff_get]
      exact ⟨rfl, fun j h1 h2 => le_rfl⟩)
  refine ⟨m, e, fun vj fl => ?_⟩
  rw [qtcurrentList_eq _ _ _ _ _ h]
  exact qtcurrentList_spec vj cct.toCct resp fl nb (some m) h.freq_pos h.unpack h.pyMax h.tones_pos
    h.tones_le h.harmonics (by
      intro r hr
      cases hr
      exact ⟨hd, ha⟩)

theorem currentForHb_eq {N : ℕ} (cct : HCct N) (resp : ℝ → ℂ) (nb : NumB) (h : Valid cct.toCct nb)
    {m : RespMat (Fin N)} (hm : interpolateRespfn cct.toCct resp nb = .ok m)
    (vj : Sig (cct.numF * cct.numP) N) :
    currentForHb cct resp nb m vj = .ok (to2d cct.numF cct.numP
      (specCur cct resp nb (to3d cct.numF cct.numP vj))) := by
  obtain ⟨m', hm', hsame⟩ := matrix_same cct resp nb h
  rw [hm] at hm'
  cases hm'
  unfold currentForHb
  rw [hsame, qtcurrentList_eq _ _ _ _ _ h, py_bind, hbFreqs, flatMap_range, List.map_map,
    rowsToSig_map]
  congr 1
  funext k i
  simp only [Function.comp, to2d, specCur, Spec.qt]
  rw [current_round]

end QMix.HB
