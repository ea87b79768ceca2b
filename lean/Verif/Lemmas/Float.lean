import Verif.Py.Float
import Verif.Lemmas.Py

/-!
# Arithmetic on finite floating-point numbers
-/

namespace QMix.Fl

open Np

theorem num_inj {a b : ℝ} : num a = num b ↔ a = b := by
  unfold num
  rw [Option.some.injEq, EReal.coe_eq_coe_iff]

theorem num_ne_none (a : ℝ) : num a ≠ none := by simp [num]

theorem top_ne_num (a : ℝ) : (some ⊤ : Flt) ≠ num a := fun h =>
  EReal.coe_ne_top a (Option.some.inj h).symm

theorem bot_ne_num (a : ℝ) : (some ⊥ : Flt) ≠ num a := fun h =>
  EReal.coe_ne_bot a (Option.some.inj h).symm

theorem fsub_num (a b : ℝ) : fsub (num a) (num b) = num (a - b) := by
  unfold fsub num
  simp [EReal.coe_sub]

theorem fadd_num (a b : ℝ) : fadd (num a) (num b) = num (a + b) := by
  unfold fadd num
  simp [EReal.coe_add]

theorem fmul_num (a b : ℝ) : fmul (num a) (num b) = num (a * b) := by
  unfold fmul num
  simp [EReal.coe_mul]

theorem fdiv_num (a : ℝ) {b : ℝ} (h : b ≠ 0) : fdiv (num a) (num b) = num (a / b) := by
  unfold fdiv num
  simp [h, EReal.coe_div]

theorem fdiv_zero_pos {a : ℝ} (h : 0 < a) : fdiv (num a) (num 0) = some ⊤ := by
  unfold fdiv num
  simp [h, h.ne']

theorem fdiv_zero_neg {a : ℝ} (h : a < 0) : fdiv (num a) (num 0) = some ⊥ := by
  unfold fdiv num
  simp [h.ne, h.le]

theorem fdiv_zero_zero : fdiv (num 0) (num 0) = none := by
  unfold fdiv num
  simp

theorem fle_num {a b : ℝ} : fle (num a) (num b) ↔ a ≤ b := by
  unfold fle num
  exact EReal.coe_le_coe_iff

theorem flt_num {a b : ℝ} : flt (num a) (num b) ↔ a < b := by
  unfold flt num
  exact EReal.coe_lt_coe_iff

theorem fabs_num (a : ℝ) : fabs (num a) = num |a| := by
  change some (max (a : EReal) (-(a : EReal))) = some ((|a| : ℝ) : EReal)
  rw [← EReal.coe_neg, abs, EReal.coe_strictMono.monotone.map_max]

theorem fne_num {a b : ℝ} : fne (num a) (num b) = true ↔ a ≠ b := by
  unfold fne num
  simp

theorem notNan_num (a : ℝ) : notNan (num a) = true := rfl

theorem flt_none_left (a : Flt) : ¬ flt none a := by simp [flt]

theorem flt_none_right (a : Flt) : ¬ flt a none := by cases a <;> simp [flt]

theorem fle_none_left (a : Flt) : ¬ fle none a := by simp [fle]

theorem fdiv_none_left (a : Flt) : fdiv none a = none := by cases a <;> rfl

theorem fdiv_none_right (a : Flt) : fdiv a none = none := by cases a <;> rfl

theorem fsub_none_left (a : Flt) : fsub none a = none := by cases a <;> rfl

theorem fsub_none_right (a : Flt) : fsub a none = none := by cases a <;> rfl

theorem fmul_none_left (a : Flt) : fmul none a = none := by cases a <;> rfl

theorem fmul_none_right (a : Flt) : fmul a none = none := by cases a <;> rfl

theorem fadd_none_left (a : Flt) : fadd none a = none := by cases a <;> rfl

theorem fadd_none_right (a : Flt) : fadd a none = none := by cases a <;> rfl

theorem argFrom_spec {better : Flt → Flt → Prop} (hi : ∀ a, ¬ better a a)
    (ht : ∀ a b c, better a b → better b c → better a c) (l pre : List Flt) (best : Flt) (besti : ℕ)
    (hb : pre[besti]? = some best) (hp : ∀ a ∈ pre, ¬ better a best) :
    ∃ b, (pre ++ l)[argFrom better best besti pre.length l]? = some b ∧
      ∀ a ∈ pre ++ l, ¬ better a b := by
  induction l generalizing pre best besti with
  | nil =>
    refine ⟨best, ?_, ?_⟩
    · simpa [argFrom] using hb
    · simpa using hp
  | cons x l ih =>
    unfold argFrom
    have e : pre ++ x :: l = (pre ++ [x]) ++ l := by simp
    have el : pre.length + 1 = (pre ++ [x]).length := by simp
    have hlt : besti < pre.length := (List.getElem?_eq_some_iff.1 hb).1
    split_ifs with h
    · rw [e, el]
      apply ih
      · simp
      · intro a ha
        rcases List.mem_append.1 ha with ha | ha
        · exact fun hc => hp a ha (ht _ _ _ hc h)
        · rw [List.mem_singleton.1 ha]; exact hi x
    · rw [e, el]
      apply ih
      · rw [List.getElem?_append_left hlt]; exact hb
      · intro a ha
        rcases List.mem_append.1 ha with ha | ha
        · exact hp a ha
        · rw [List.mem_singleton.1 ha]; exact h

theorem argBest_spec {better : Flt → Flt → Prop} (hi : ∀ a, ¬ better a a)
    (ht : ∀ a b c, better a b → better b c → better a c) {l : List Flt} {i : ℕ}
    (h : argBest better l = .ok i) : ∃ b, l[i]? = some b ∧ ∀ a ∈ l, ¬ better a b := by
  cases l with
  | nil => cases h
  | cons x l =>
    obtain rfl := Except.ok.inj h
    exact argFrom_spec hi ht l [x] x 0 rfl (by simpa using hi x)

theorem argBest_ok {better : Flt → Flt → Prop} {l : List Flt} (h : l ≠ []) :
    ∃ i, argBest better l = .ok i := by
  cases l with
  | nil => exact absurd rfl h
  | cons x l => exact ⟨_, rfl⟩

theorem flt_irrefl (a : Flt) : ¬ flt a a := by
  cases a with
  | none => exact flt_none_left _
  | some x => exact lt_irrefl x

theorem flt_trans {a b c : Flt} (h : flt a b) (h' : flt b c) : flt a c := by
  cases a <;> cases b <;> cases c <;> simp only [flt] at * <;> exact lt_trans h h'

/-- The maximum of finite numbers. -/
theorem argmaxF_spec {l : List Flt} {i : ℕ} (h : argmaxF l = .ok i) (hn : none ∉ l) :
    ∃ b, l[i]? = some b ∧ ∀ a ∈ l, ¬ flt b a := by
  obtain ⟨b, hb, hm⟩ := argBest_spec (better := fun a b => (a = none ∧ b ≠ none) ∨ flt b a)
    (fun a h => by
      rcases h with ⟨h, h'⟩ | h
      · exact h' h
      · exact flt_irrefl a h)
    (fun a b c h h' => by
      rcases h with ⟨h, _⟩ | h <;> rcases h' with ⟨h2, h3⟩ | h'
      · exact Or.inl ⟨h, h3⟩
      · exact Or.inl ⟨h, fun e => by rw [e] at h'; exact flt_none_left _ h'⟩
      · rw [h2] at h; exact absurd h (flt_none_left _)
      · exact Or.inr (flt_trans h' h)) h
  exact ⟨b, hb, fun a ha hc => hm a ha (Or.inr hc)⟩

/-- The minimum of finite numbers. -/
theorem argminF_spec {l : List Flt} {i : ℕ} (h : argminF l = .ok i) (hn : none ∉ l) :
    ∃ b, l[i]? = some b ∧ ∀ a ∈ l, ¬ flt a b := by
  obtain ⟨b, hb, hm⟩ := argBest_spec (better := fun a b => (a = none ∧ b ≠ none) ∨ flt a b)
    (fun a h => by
      rcases h with ⟨h, h'⟩ | h
      · exact h' h
      · exact flt_irrefl a h)
    (fun a b c h h' => by
      rcases h with ⟨h, hb⟩ | h <;> rcases h' with ⟨h2, h3⟩ | h'
      · exact absurd h2 hb
      · exact Or.inl ⟨h, fun e => by rw [e] at h'; exact flt_none_right _ h'⟩
      · rw [h2] at h; exact absurd h (flt_none_right _)
      · exact Or.inr (flt_trans h h')) h
  exact ⟨b, hb, fun a ha hc => hm a ha (Or.inr hc)⟩

/-- The minimum of an array without NaN is an entry and a lower bound. -/
theorem amin_spec {l : List Flt} {m : Flt} (h : amin l = .ok m) (hn : none ∉ l) :
    m ∈ l ∧ ∀ a ∈ l, fle m a := by
  cases l with
  | nil => cases h
  | cons x l =>
    simp only [amin] at h
    rw [if_neg hn] at h
    obtain rfl := Except.ok.inj h
    have key : ∀ (l : List EReal) (t : EReal), (l.foldl min t = t ∨ l.foldl min t ∈ l) ∧
        l.foldl min t ≤ t ∧ ∀ a ∈ l, l.foldl min t ≤ a := by
      intro l
      induction l with
      | nil => intro t; simp
      | cons a l ih =>
        intro t
        obtain ⟨h1, h2, h3⟩ := ih (min t a)
        rw [List.foldl_cons]
        refine ⟨?_, h2.trans (min_le_left _ _), ?_⟩
        · rcases h1 with h1 | h1
          · rw [h1]
            rcases min_choice t a with h | h
            · exact Or.inl h
            · rw [h]; exact Or.inr (by simp)
          · exact Or.inr (List.mem_cons_of_mem _ h1)
        · intro b hb
          rcases List.mem_cons.1 hb with rfl | hb
          · exact h2.trans (min_le_right _ _)
          · exact h3 b hb
    obtain ⟨h1, -, h3⟩ := key ((x :: l).filterMap id) ⊤
    obtain ⟨y, rfl⟩ := Option.ne_none_iff_exists'.1 (fun e => hn (e ▸ List.mem_cons_self))
    constructor
    · rcases h1 with h1 | h1
      · have : y = ⊤ := by
          have := h3 y (by simp)
          rw [h1] at this
          exact top_le_iff.1 this
        rw [h1, ← this]
        exact List.mem_cons_self
      · rw [List.mem_filterMap] at h1
        obtain ⟨a, ha, he⟩ := h1
        rw [id] at he
        rw [← he]
        exact ha
    · intro a ha
      obtain ⟨z, rfl⟩ := Option.ne_none_iff_exists'.1 (fun e => hn (e ▸ ha))
      exact h3 z (by rw [List.mem_filterMap]; exact ⟨_, ha, rfl⟩)

end QMix.Fl
