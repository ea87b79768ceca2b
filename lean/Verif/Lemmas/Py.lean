import Verif.Py.Basic
import Mathlib.Algebra.BigOperators.Intervals
import Mathlib.Algebra.BigOperators.Ring.Finset
import Mathlib.Order.Interval.Finset.Basic
import Mathlib.Tactic.FieldSimp
import Mathlib.Tactic.Positivity
import Mathlib.Tactic.NormNum

/-! Lemmas about the Python primitives. -/

namespace QMix

variable {α β σ κ : Type*}

theorem py_bind {β γ : Type} (a : β) (f : β → Py γ) : (Except.ok a >>= f) = f a := rfl

theorem bind_ok_iff {β γ : Type} {m : Py β} {f : β → Py γ} {y : γ} :
    (m >>= f) = .ok y ↔ ∃ x, m = .ok x ∧ f x = .ok y := by
  cases m with
  | error e => exact ⟨fun h => (by cases h), fun ⟨x, h, _⟩ => (by cases h)⟩
  | ok x => exact ⟨fun h => ⟨x, rfl, h⟩, fun ⟨x', h, h'⟩ => (by cases h; exact h')⟩

theorem raiseIf_ok {c : Prop} [Decidable c] {e : PyErr} {u : Unit} :
    raiseIf c e = .ok u ↔ ¬ c := by
  unfold raiseIf; split_ifs with h <;> simp [h]

theorem pyAssert_ok {c : Prop} [Decidable c] {u : Unit} : pyAssert c = .ok u ↔ c := by
  unfold pyAssert; split_ifs with h <;> simp [h]

theorem getOpt_ok {β : Type} {e : PyErr} {o : Option β} {x : β} :
    getOpt e o = .ok x ↔ o = some x := by
  cases o <;> simp [getOpt]

theorem pure_ok_iff {β : Type} {x y : β} : (pure x : Py β) = .ok y ↔ x = y := by
  constructor
  · intro h; cases h; rfl
  · rintro rfl; rfl

theorem raiseIf_neg {β : Type} {c : Prop} [Decidable c] {e : PyErr} (h : ¬ c) (f : Unit → Py β) :
    (raiseIf c e >>= f) = f () := by unfold raiseIf; rw [if_neg h]; rfl

theorem raiseIf_pos {β : Type} {c : Prop} [Decidable c] {e : PyErr} (h : c) (f : Unit → Py β) :
    (raiseIf c e >>= f) = .error e := by unfold raiseIf; rw [if_pos h]; rfl

theorem pyAssert_pos {β : Type} {c : Prop} [Decidable c] (h : c) (f : Unit → Py β) :
    (pyAssert c >>= f) = f () := by unfold pyAssert; rw [if_pos h]; rfl

theorem pyAssert_neg {β : Type} {c : Prop} [Decidable c] (h : ¬ c) (f : Unit → Py β) :
    (pyAssert c >>= f) = .error .assertion := by unfold pyAssert; rw [if_neg h]; rfl

theorem pyIndex_nonneg {n : ℕ} {k : ℤ} (h0 : 0 ≤ k) (h1 : k < n) : pyIndex n k = .ok k.toNat := by
  unfold pyIndex; rw [if_pos ⟨h0, h1⟩]

theorem pyIndex_neg {n : ℕ} {k : ℤ} (h0 : -(n : ℤ) ≤ k) (h1 : k < 0) :
    pyIndex n k = .ok (k + n).toNat := by
  unfold pyIndex; rw [if_neg (by omega), if_pos ⟨h0, h1⟩]

theorem pyIndex_lt {n : ℕ} {k : ℤ} {i : ℕ} (h : pyIndex n k = .ok i) : i < n := by
  unfold pyIndex at h
  split_ifs at h with h1 h2
  · cases h; omega
  · cases h; omega

theorem pyIndex_ok_iff {n : ℕ} {k : ℤ} :
    (∃ i, pyIndex n k = .ok i) ↔ -(n : ℤ) ≤ k ∧ k < n := by
  constructor
  · rintro ⟨i, h⟩
    unfold pyIndex at h
    split_ifs at h with h1 h2 <;> omega
  · rintro ⟨h1, h2⟩
    by_cases h0 : 0 ≤ k
    · exact ⟨_, pyIndex_nonneg h0 h2⟩
    · exact ⟨_, pyIndex_neg h1 (by omega)⟩

/-- On the symmetric range `[-nb, nb]` of an array of size `2*M+1 ≥ 2*nb+1`, index wrap-around is
injective. -/
theorem pyIndex_inj {M : ℕ} {k l : ℤ} {i : ℕ} (hk : |k| ≤ M) (hl : |l| ≤ M)
    (h1 : pyIndex (2 * M + 1) k = .ok i) (h2 : pyIndex (2 * M + 1) l = .ok i) : k = l := by
  rw [abs_le] at hk hl
  unfold pyIndex at h1 h2
  split_ifs at h1 h2 <;> cases h1 <;> simp only [Except.ok.injEq] at h2 <;> omega

theorem pyIndex_of_abs {M : ℕ} {k : ℤ} (hk : |k| ≤ M) : ∃ i, pyIndex (2 * M + 1) k = .ok i := by
  rw [abs_le] at hk
  exact pyIndex_ok_iff.2 (by constructor <;> push_cast <;> omega)

theorem pyGet_eq {l : List α} {k : ℤ} {i : ℕ} (h : pyIndex l.length k = .ok i) :
    ∃ (hi : i < l.length), pyGet l k = .ok l[i] := by
  have hi := pyIndex_lt h
  refine ⟨hi, ?_⟩
  unfold pyGet
  rw [h]
  simp [hi]

theorem pyGet_ok_of_getElem? {l : List α} {k : ℤ} {i : ℕ} {a : α}
    (h : pyIndex l.length k = .ok i) (ha : l[i]? = some a) : pyGet l k = .ok a := by
  unfold pyGet; rw [h]; simp only; rw [ha]

theorem pySet_eq {l : List α} {k : ℤ} {i : ℕ} (a : α) (h : pyIndex l.length k = .ok i) :
    pySet l k a = .ok (l.set i a) := by
  unfold pySet; rw [h]

theorem pySet_length {l l' : List α} {k : ℤ} {a : α} (h : pySet l k a = .ok l') :
    l'.length = l.length := by
  unfold pySet at h
  split at h
  · cases h
  · cases h; simp

theorem pyGet_set_same {l : List α} {k : ℤ} {i : ℕ} (a : α) (h : pyIndex l.length k = .ok i) :
    pyGet (l.set i a) k = .ok a := by
  have hi := pyIndex_lt h
  apply pyGet_ok_of_getElem? (i := i)
  · simpa using h
  · simp [hi]

theorem pyGet_set_ne {l : List α} {k : ℤ} {i j : ℕ} (a : α) (h : pyIndex l.length k = .ok i)
    (hij : j ≠ i) : pyGet (l.set j a) k = pyGet l k := by
  obtain ⟨hi, h2⟩ := pyGet_eq h
  rw [h2]
  apply pyGet_ok_of_getElem? (i := i)
  · simpa using h
  · simp [hij, hi]

/-! ### ranges -/

theorem mem_pyRange {lo hi k : ℤ} : k ∈ pyRange lo hi ↔ lo ≤ k ∧ k < hi := by
  unfold pyRange
  simp only [List.mem_map, List.mem_range]
  constructor
  · rintro ⟨i, hi', rfl⟩; omega
  · rintro ⟨h1, h2⟩; exact ⟨(k - lo).toNat, by omega, by omega⟩

theorem mem_pyRangeDown {lo hi k : ℤ} : k ∈ pyRangeDown hi lo ↔ lo < k ∧ k ≤ hi := by
  unfold pyRangeDown
  simp only [List.mem_map, List.mem_range]
  constructor
  · rintro ⟨i, hi', rfl⟩; omega
  · rintro ⟨h1, h2⟩; exact ⟨(hi - k).toNat, by omega, by omega⟩

theorem pyRange_nodup (lo hi : ℤ) : (pyRange lo hi).Nodup := by
  unfold pyRange
  refine List.Nodup.map ?_ List.nodup_range
  intro a b h; simpa using h

theorem pyRangeDown_nodup (lo hi : ℤ) : (pyRangeDown hi lo).Nodup := by
  unfold pyRangeDown
  refine List.Nodup.map ?_ List.nodup_range
  intro a b h; simpa using h

@[simp] theorem pyRange_length (lo hi : ℤ) : (pyRange lo hi).length = (hi - lo).toNat := by
  simp [pyRange]

theorem sum_nodup_eq [AddCommMonoid β] {l : List ℤ} (hl : l.Nodup) {s : Finset ℤ}
    (hs : ∀ k, k ∈ l ↔ k ∈ s) (g : ℤ → β) : (l.map g).sum = ∑ k ∈ s, g k := by
  have : s = l.toFinset := by ext k; simp [hs]
  rw [this, List.sum_toFinset _ hl]

theorem sum_pyRange [AddCommMonoid β] (lo hi : ℤ) (g : ℤ → β) :
    ((pyRange lo (hi + 1)).map g).sum = ∑ k ∈ Finset.Icc lo hi, g k :=
  sum_nodup_eq (pyRange_nodup _ _) (fun k => by rw [mem_pyRange, Finset.mem_Icc]; omega) g

theorem sum_pyRangeDown [AddCommMonoid β] (lo hi : ℤ) (g : ℤ → β) :
    ((pyRangeDown hi (lo - 1)).map g).sum = ∑ k ∈ Finset.Icc lo hi, g k :=
  sum_nodup_eq (pyRangeDown_nodup _ _) (fun k => by rw [mem_pyRangeDown, Finset.mem_Icc]; omega) g

/-! ### loops -/

/-- A loop whose body always succeeds and adds `g k` computes the sum. -/
theorem pyFor_add [AddCommMonoid σ] {l : List κ} {body : σ → κ → Py σ} {g : κ → σ}
    (h : ∀ k ∈ l, ∀ s, body s k = .ok (s + g k)) (s : σ) :
    pyFor l s body = .ok (s + (l.map g).sum) := by
  induction l generalizing s with
  | nil => simp [pyFor]
  | cons k ks ih =>
    unfold pyFor
    rw [h k (by simp)]
    simp only [List.map_cons, List.sum_cons]
    rw [ih (fun k' hk' => h k' (by simp [hk']))]
    rw [add_assoc]

/-- Loop invariant rule: if `inv` holds initially and every body execution from a state satisfying
the invariant for the processed prefix succeeds and re-establishes it, the loop succeeds. -/
theorem pyFor_inv {l : List κ} {body : σ → κ → Py σ} (inv : List κ → σ → Prop) (s : σ)
    (h0 : inv [] s)
    (hstep : ∀ pre k post s, l = pre ++ k :: post → inv pre s →
      ∃ s', body s k = .ok s' ∧ inv (pre ++ [k]) s') :
    ∃ s', pyFor l s body = .ok s' ∧ inv l s' := by
  suffices H : ∀ (post pre : List κ) (s : σ), l = pre ++ post → inv pre s →
      ∃ s', pyFor post s body = .ok s' ∧ inv l s' from H l [] s (by simp) h0
  intro post
  induction post with
  | nil => intro pre s hl hi; refine ⟨s, rfl, ?_⟩; rw [hl]; simpa using hi
  | cons k ks ih =>
    intro pre s hl hi
    obtain ⟨s', hb, hi'⟩ := hstep pre k ks s hl hi
    obtain ⟨s'', h1, h2⟩ := ih (pre ++ [k]) s' (by simp [hl]) hi'
    refine ⟨s'', ?_, h2⟩
    unfold pyFor
    rw [hb]
    exact h1

/-! ### rounding -/

theorem roundHalfEven_neg (x : ℝ) : roundHalfEven (-x) = -roundHalfEven x := by
  unfold roundHalfEven
  by_cases hz : Int.fract x = 0
  · have hx : x = (⌊x⌋ : ℝ) := by
      have := Int.floor_add_fract x; rw [hz] at this; linarith
    have hf : Int.fract (-x) = 0 := by rw [hx, ← Int.cast_neg]; exact Int.fract_intCast _
    have hfl : ⌊-x⌋ = -⌊x⌋ := by
      conv_lhs => rw [hx, ← Int.cast_neg]
      exact Int.floor_intCast _
    rw [hf, hz, if_pos (by norm_num), if_pos (by norm_num), hfl]
  · have hf : Int.fract (-x) = 1 - Int.fract x := Int.fract_neg hz
    have hfl : ⌊-x⌋ = -⌊x⌋ - 1 := by
      have h1 := Int.floor_add_fract x
      have h2 := Int.floor_add_fract (-x)
      rw [hf] at h2
      have : ((⌊-x⌋ : ℤ) : ℝ) = ((-⌊x⌋ - 1 : ℤ) : ℝ) := by push_cast; linarith
      exact_mod_cast this
    rw [hf, hfl]
    rcases lt_trichotomy (Int.fract x) (1 / 2) with h | h | h
    · rw [if_neg (by linarith), if_pos (by linarith), if_pos h]; ring
    · rw [h, show (1 : ℝ) - 1 / 2 = 1 / 2 by norm_num]
      simp only [lt_irrefl, if_false]
      by_cases he : Even ⌊x⌋
      · rw [if_pos he, if_neg]
        · ring
        · intro h'
          have h3 : Even (-⌊x⌋ - 1 + ⌊x⌋) := h'.add he
          have : (-⌊x⌋ - 1 + ⌊x⌋) = -1 := by ring
          rw [this] at h3
          exact absurd h3 (by decide)
      · rw [if_neg he, if_pos]
        · ring
        · rw [Int.not_even_iff_odd] at he
          obtain ⟨m, hm⟩ := he
          exact ⟨-m - 1, by omega⟩
    · rw [if_pos (by linarith), if_neg (by linarith), if_pos h]; ring

theorem abs_roundHalfEven_sub_le (x : ℝ) : |(roundHalfEven x : ℝ) - x| ≤ 1 / 2 := by
  unfold roundHalfEven
  have h := Int.floor_add_fract x
  have h0 := Int.fract_nonneg x
  have h1 := Int.fract_lt_one x
  split_ifs with a b c <;> rw [abs_le] <;> push_cast <;> constructor <;> linarith

theorem roundHalfEven_intCast (n : ℤ) : roundHalfEven (n : ℝ) = n := by
  unfold roundHalfEven; rw [Int.fract_intCast, if_pos (by norm_num), Int.floor_intCast]

theorem round4_neg (x : ℝ) : round4 (-x) = -round4 x := by
  unfold round4; rw [neg_mul, roundHalfEven_neg]; push_cast; ring

theorem round4_zero : round4 0 = 0 := by
  unfold round4
  have := roundHalfEven_intCast 0
  simp only [Int.cast_zero] at this
  rw [zero_mul, this]; simp

theorem abs_round4_sub_le (x : ℝ) : |round4 x - x| ≤ 1 / 2 * (1 / 10 ^ 4) := by
  unfold round4
  have h := abs_roundHalfEven_sub_le (x * 10 ^ 4)
  have : (roundHalfEven (x * 10 ^ 4) : ℝ) / 10 ^ 4 - x
      = ((roundHalfEven (x * 10 ^ 4) : ℝ) - x * 10 ^ 4) * (1 / 10 ^ 4) := by field_simp
  rw [this, abs_mul, abs_of_pos (show (0 : ℝ) < 1 / 10 ^ 4 by positivity)]
  exact mul_le_mul_of_nonneg_right h (by positivity)

theorem round4_round4 (x : ℝ) : round4 (round4 x) = round4 x := by
  have : ∀ n : ℤ, round4 ((n : ℝ) / 10 ^ 4) = (n : ℝ) / 10 ^ 4 := by
    intro n
    unfold round4
    rw [show (n : ℝ) / 10 ^ 4 * 10 ^ 4 = (n : ℝ) by field_simp, roundHalfEven_intCast]
  exact this _

end QMix
