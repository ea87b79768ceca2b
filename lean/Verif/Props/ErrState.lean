import Verif.Model.ErrState
import Verif.Props.Overflow

/-!
# C200: NumPy's error handling
-/

namespace QMix.Props

open QMix QMix.MathFn Fl

/-! ## Specification -/

/-- The calls that silence overflow: those of the two models with exponentials that return a current in exact arithmetic. -/
def Silences : Call → Prop
  | .exponential v vgap rn rsg agap model => ∃ i, MathFn.exponential v vgap rn rsg agap model = .ok i
  | .expanded v vgap rn rsg agap a0 ileak vnot inot anot ioff => ∃ i, MathFn.expanded v vgap rn rsg agap a0 ileak vnot inot anot ioff = .ok i
  | _ => False

/-! ## Lemmas -/

theorem call_over (big : ℝ) (st : ErrState) (c : Call) :
    ((callS big st c).2.over = st.over ∨ (callS big st c).2.over = .ignore) ∧ (callS big st c).2.under = st.under ∧
      ((callS big st c).2.divide = st.divide ∨ (callS big st c).2.divide = .ignore) ∧
      ((callS big st c).2.invalid = st.invalid ∨ (callS big st c).2.invalid = .ignore) := by
  cases c <;> simp only [callS]
  · simp
  · simp
  · split_ifs <;> simp
  · split_ifs <;> simp

theorem silences_over (big : ℝ) (st : ErrState) {c : Call} (h : Silences c) : (callS big st c).2.over = .ignore := by
  cases c with
  | load => exact h.elim
  | polynomial => exact h.elim
  | exponential v vgap rn rsg agap model =>
    obtain ⟨i, h⟩ := h
    unfold MathFn.exponential at h
    obtain ⟨_, h1, h⟩ := bind_ok_iff.1 h
    have hrn := not_of_raise h1
    dsimp only at h
    simp only [callS]
    rw [if_pos]
    refine ⟨hrn, ?_⟩
    split_ifs at h with a b
    · rcases a with a | a
      · exact .inl a
      · exact .inr (.inl a)
    · exact .inr (.inr b)
  | expanded v vgap rn rsg agap a0 ileak vnot inot anot ioff =>
    obtain ⟨i, h⟩ := h
    unfold MathFn.expanded at h
    dsimp only at h
    obtain ⟨_, h1, h⟩ := bind_ok_iff.1 h
    have hrn := not_of_raise h1
    simp only [callS]
    rw [if_pos hrn]

theorem after_cons (big : ℝ) (st : ErrState) (c : Call) (l : List Call) : afterS big st (c :: l) = afterS big (callS big st c).2 l := rfl

theorem after_ignore (big : ℝ) (l : List Call) : ∀ st : ErrState, st.over = .ignore → (afterS big st l).over = .ignore := by
  induction l with
  | nil => exact fun _ h => h
  | cons c l ih =>
    intro st h
    rw [after_cons]
    refine ih _ ?_
    rcases (call_over big st c).1 with e | e
    · rw [e, h]
    · exact e

/-! ## C200 -/

/-- C200 (partial): no sequence of calls changes how underflow is handled, and division by zero, overflow and invalid operations are handled as
before or ignored. -/
theorem C200_handling_partial (big : ℝ) (l : List Call) : ∀ st : ErrState, (afterS big st l).under = st.under ∧
    ((afterS big st l).over = st.over ∨ (afterS big st l).over = .ignore) ∧
    ((afterS big st l).divide = st.divide ∨ (afterS big st l).divide = .ignore) ∧
    ((afterS big st l).invalid = st.invalid ∨ (afterS big st l).invalid = .ignore) := by
  induction l with
  | nil => exact fun st => ⟨rfl, .inl rfl, .inl rfl, .inl rfl⟩
  | cons c l ih =>
    intro st
    rw [after_cons]
    obtain ⟨h1, h2, h3, h4⟩ := ih (callS big st c).2
    obtain ⟨k1, k2, k3, k4⟩ := call_over big st c
    refine ⟨h1.trans k2, ?_, ?_, ?_⟩
    · rcases h2 with e | e
      · rw [e]; exact k1
      · exact .inr e
    · rcases h3 with e | e
      · rw [e]; exact k3
      · exact .inr e
    · rcases h4 with e | e
      · rw [e]; exact k4
      · exact .inr e

/-- C200, how overflow is silenced: after one call of the exponential or the expanded model that returns a current, overflow is ignored for
the rest of the process, whatever is called before and after. -/
theorem C200_silenced (big : ℝ) (st : ErrState) {l l' : List Call} {c : Call} (h : Silences c) :
    (afterS big st (l ++ c :: l')).over = .ignore := by
  have e : afterS big st (l ++ c :: l') = afterS big (callS big (afterS big st l) c).2 l' := by
    unfold afterS
    rw [List.foldl_append, List.foldl_cons]
  rw [e]
  exact after_ignore big l' _ (silences_over big _ h)

/-- C200, the calls that leave the state alone: those of the polynomial model, and those that fail with a `ZeroDivisionError` or a `ValueError`
(no normal resistance, or no such model). -/
theorem C200_failed (big : ℝ) (st : ErrState) {c : Call}
    (h : (∃ v order, c = .polynomial v order) ∨ (callS big st c).1 = .error .zeroDiv ∨ (callS big st c).1 = .error .value) :
    (callS big st c).2 = st := by
  rcases h with ⟨v, order, rfl⟩ | h
  · rfl
  cases c with
  | load => rcases h with h | h <;> exact absurd h (by simp [callS])
  | polynomial => rfl
  | exponential v vgap rn rsg agap model =>
    simp only [callS] at h ⊢
    rw [if_neg]
    rintro ⟨hr, hm⟩
    unfold exponentialF at h
    rw [raiseIf_neg hr] at h
    dsimp only at h
    by_cases k : rsg = 0 ∨ vgap / rn = 0
    · have e : ∀ f : Unit → Py Flt, (raiseIf (rsg = 0 ∨ vgap / rn = 0) .nonFinite >>= f) = .error .nonFinite := fun f => by
        rw [raiseIf, if_pos k]; rfl
      rw [e, e] at h
      split_ifs at h with a b
      · rcases h with h | h <;> simp [ofPy] at h
      · rcases h with h | h <;> simp [ofPy] at h
      · exact a (hm.elim .inl fun x => x.elim .inr fun x => absurd x b)
    · rw [raiseIf_neg k, raiseIf_neg k] at h
      split_ifs at h with a b
      · rcases h with h | h <;> exact Ending.noConfusion h
      · rcases h with h | h <;> exact Ending.noConfusion h
      · exact a (hm.elim .inl fun x => x.elim .inr fun x => absurd x b)
  | expanded v vgap rn rsg agap a0 ileak vnot inot anot ioff =>
    simp only [callS] at h ⊢
    rw [if_neg]
    intro hr
    unfold expandedF at h
    dsimp only at h
    rw [raiseIf_neg hr] at h
    by_cases k : rsg = 0 ∨ vgap / rn = 0
    · have e : ∀ f : Unit → Py Flt, (raiseIf (rsg = 0 ∨ vgap / rn = 0) .nonFinite >>= f) = .error .nonFinite := fun f => by
        rw [raiseIf, if_pos k]; rfl
      rw [e] at h
      rcases h with h | h <;> simp [ofPy] at h
    · rw [raiseIf_neg k] at h
      rcases h with h | h <;> exact Ending.noConfusion h

/-- C200, the results of the exponential model do not depend on the state: it never raises a `FloatingPointError` because of an overflow. -/
theorem C200_exponential {big : ℝ} (hb : 0 < big) (st : ErrState) {v vgap rn rsg agap : ℝ} {model : String} {i : ℝ}
    (h : MathFn.exponential v vgap rn rsg agap model = .ok i) :
    ∃ f, (callS big st (.exponential v vgap rn rsg agap model)).1 = .result f ∧ NumNear f i (|v| * (2 * |rn / rsg| + 2) / big) := by
  obtain ⟨f, a, b⟩ := C199_exponential hb h
  refine ⟨f, ?_, b⟩
  simp only [callS]
  rw [a]
  rfl

/-- The exponential model with its default parameters at the gap. -/
noncomputable def defaultCall : Call := .exponential 1 2.8e-3 14 300 4e4 "fixed"

theorem defaultCall_silences : Silences defaultCall := by
  show ∃ i, MathFn.exponential 1 2.8e-3 14 300 4e4 "fixed" = .ok i
  unfold MathFn.exponential
  rw [raiseIf_neg (by norm_num)]
  dsimp only
  rw [if_pos (.inl (by decide)), raiseIf_neg (by norm_num)]
  exact ⟨_, rfl⟩

/-- C200 is false: with the defaults of NumPy, importing the package and one call of the exponential model change three of the four settings. -/
theorem C200_false : afterS (2 ^ 1024) ⟨.warn, .warn, .ignore, .warn⟩ [.load, defaultCall] = ⟨.ignore, .ignore, .ignore, .ignore⟩ := by
  have h := C200_silenced (2 ^ 1024) ⟨.warn, .warn, .ignore, .warn⟩ (l := [.load]) (l' := []) defaultCall_silences
  have e : (callS (2 ^ 1024) ⟨.ignore, .warn, .ignore, .ignore⟩ defaultCall).2 = ⟨.ignore, .ignore, .ignore, .ignore⟩ := by
    simp only [callS, defaultCall]
    rw [if_pos]
    exact ⟨by norm_num, .inl (by decide)⟩
  exact e

/-- C200 is false of results, too: told to raise an exception on overflow, NumPy does so in the polynomial model of order 100 at 35 gap
voltages; after one call of the exponential model the same call returns NaN without a word (importing the package has silenced the other
error). -/
theorem C200_false_result (st : ErrState) (h : st.over = .raise) :
    (callS (2 ^ 1024) (afterS (2 ^ 1024) st [.load]) (.polynomial 35 100)).1 = .floatError ∧
    (callS (2 ^ 1024) (afterS (2 ^ 1024) st [.load, defaultCall]) (.polynomial 35 100)).1 = .result none := by
  have p := C199_false_polynomial.1
  have hs : (afterS (2 ^ 1024) st [.load, defaultCall]).over = .ignore :=
    C200_silenced (2 ^ 1024) st (l := [.load]) (l' := []) defaultCall_silences
  have hi : (afterS (2 ^ 1024) st [.load, defaultCall]).invalid = .ignore := by
    show (callS (2 ^ 1024) { st with divide := .ignore, invalid := .ignore } defaultCall).2.invalid = .ignore
    rcases (call_over (2 ^ 1024) { st with divide := .ignore, invalid := .ignore } defaultCall).2.2.2 with e | e <;> exact e
  have n1 : npowF (2 ^ 1024) 35 (2 * 100 + 1) = .ok (some ⊤) := big_power (n := 201) (by norm_num) (by norm_num)
  have n2 : npowF (2 ^ 1024) 35 (2 * 100) = .ok (some ⊤) := big_power (n := 200) (by norm_num) (by norm_num)
  have q : Fl.fdiv (some ⊤) (fadd (num 1) (some ⊤)) = none := by
    unfold polynomialF at p
    rw [n1, n2] at p
    have := Except.ok.inj p
    exact this
  constructor
  · simp only [callS, polynomialS]
    rw [n1, n2]
    dsimp only
    rw [if_pos]
    exact ⟨h, .inl rfl⟩
  · simp only [callS, polynomialS]
    rw [n1, n2]
    dsimp only
    rw [if_neg (by rw [hs]; simp), if_neg (by rw [hi]; simp), q]

/-- A session: overflow is silenced by its second call. -/
example (big : ℝ) (st : ErrState) : (afterS big st [.load, defaultCall, .polynomial 35 100]).over = .ignore :=
  C200_silenced big st (l := [.load]) (l' := [.polynomial 35 100]) defaultCall_silences

/-- A model that does not exist. -/
example (big : ℝ) (st : ErrState) : (callS big st (.exponential 1 2.8e-3 14 300 4e4 "other")).2 = st := by
  refine C200_failed big st (.inr (.inr ?_))
  simp only [callS]
  unfold exponentialF
  rw [raiseIf_neg (by norm_num)]
  dsimp only
  rw [if_neg (by decide), if_neg (by decide)]
  rfl

/-- The state of NumPy told to raise on every error. -/
example := C200_false_result ⟨.raise, .raise, .raise, .raise⟩ rfl

example : ∃ f i, (callS (2 ^ 1024) ⟨.raise, .raise, .raise, .raise⟩ defaultCall).1 = .result f ∧
    NumNear f i (|1| * (2 * |14 / 300| + 2) / 2 ^ 1024) := by
  obtain ⟨i, h⟩ := defaultCall_silences
  obtain ⟨f, a, b⟩ := C200_exponential (big := 2 ^ 1024) (by positivity) ⟨.raise, .raise, .raise, .raise⟩ h
  exact ⟨f, i, a, b⟩

end QMix.Props
