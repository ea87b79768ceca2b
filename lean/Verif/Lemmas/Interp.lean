import Verif.Model.IvData
import Verif.Lemmas.Py
import Verif.Lemmas.NumPy
import Mathlib.Tactic.Linarith
import Mathlib.Tactic.FieldSimp
import Mathlib.Tactic.Ring

/-!
# Lemmas about `np.interp`

The samples are a list of points with increasing abscissas.
-/

namespace QMix.IvData

open Np RespFn

/-- `np.interp` of a list of points. -/
noncomputable abbrev interpAt (L : List (ℝ × ℝ)) (x : ℝ) : ℝ :=
  npInterp (L.map Prod.fst) (L.map Prod.snd) x

theorem interpAt_one (a : ℝ × ℝ) (x : ℝ) : interpAt [a] x = a.2 := by
  simp [interpAt, npInterp]

theorem interpAt_cons (a b : ℝ × ℝ) (l : List (ℝ × ℝ)) (x : ℝ) :
    interpAt (a :: b :: l) x = if ∃ c ∈ b :: l, c.1 ≤ x then interpAt (b :: l) x
      else if x < a.1 then a.2 else a.2 + (b.2 - a.2) / (b.1 - a.1) * (x - a.1) := by
  unfold interpAt
  simp only [List.map_cons]
  rw [npInterp]
  have : (∃ c ∈ b.1 :: l.map Prod.fst, c ≤ x) ↔ ∃ c ∈ b :: l, c.1 ≤ x := by
    rw [← List.map_cons]; simp
  by_cases h : ∃ c ∈ b :: l, c.1 ≤ x
  · rw [if_pos h, if_pos (this.2 h)]
  · rw [if_neg h, if_neg (fun hc => h (this.1 hc))]

/-- Increasing abscissas. -/
def Incr (L : List (ℝ × ℝ)) : Prop := L.Pairwise fun p q => p.1 < q.1

/-- Between two neighbours, or outside: the three cases of `np.interp`. -/
theorem interpAt_cases (L : List (ℝ × ℝ)) (hL : Incr L) (hne : L ≠ []) (x : ℝ) :
    (∃ a l, L = a :: l ∧ x < a.1 ∧ interpAt L x = a.2) ∨
    (∃ l a, L = l ++ [a] ∧ a.1 ≤ x ∧ interpAt L x = a.2) ∨
    (∃ l a b l', L = l ++ a :: b :: l' ∧ a.1 ≤ x ∧ x < b.1 ∧
      interpAt L x = a.2 + (b.2 - a.2) / (b.1 - a.1) * (x - a.1)) := by
  induction L with
  | nil => exact absurd rfl hne
  | cons a l ih =>
    cases l with
    | nil =>
      rcases lt_or_ge x a.1 with h | h
      · exact Or.inl ⟨a, [], rfl, h, interpAt_one a x⟩
      · exact Or.inr (Or.inl ⟨[], a, rfl, h, interpAt_one a x⟩)
    | cons b l =>
      rw [interpAt_cons]
      have hab : a.1 < b.1 := (List.pairwise_cons.1 hL).1 b (by simp)
      have hL' : Incr (b :: l) := (List.pairwise_cons.1 hL).2
      by_cases h : ∃ c ∈ b :: l, c.1 ≤ x
      · rw [if_pos h]
        have hbx : b.1 ≤ x := by
          obtain ⟨c, hc, hcx⟩ := h
          rcases List.mem_cons.1 hc with rfl | hc
          · exact hcx
          · exact ((List.pairwise_cons.1 hL').1 c hc).le.trans hcx
        rcases ih hL' (by simp) with ⟨c, l', e, h1, -⟩ | ⟨l', c, e, h1, h2⟩ | ⟨l', c, d, l2, e, h1, h2, h3⟩
        · obtain ⟨rfl, rfl⟩ := List.cons.inj e
          exact absurd h1 (not_lt.2 hbx)
        · exact Or.inr (Or.inl ⟨a :: l', c, by rw [e]; rfl, h1, h2⟩)
        · exact Or.inr (Or.inr ⟨a :: l', c, d, l2, by rw [e]; rfl, h1, h2, h3⟩)
      · rw [if_neg h]
        have hbx : x < b.1 := not_le.1 fun hc => h ⟨b, by simp, hc⟩
        by_cases hx : x < a.1
        · rw [if_pos hx]
          exact Or.inl ⟨a, b :: l, rfl, hx, rfl⟩
        · rw [if_neg hx]
          exact Or.inr (Or.inr ⟨[], a, b, l, rfl, not_lt.1 hx, hbx, rfl⟩)

/-- The result lies between two ordinates. -/
theorem interpAt_range (L : List (ℝ × ℝ)) (hL : Incr L) (hne : L ≠ []) (x lo hi : ℝ)
    (hlo : ∀ p ∈ L, lo ≤ p.2) (hhi : ∀ p ∈ L, p.2 ≤ hi) :
    lo ≤ interpAt L x ∧ interpAt L x ≤ hi := by
  rcases interpAt_cases L hL hne x with ⟨a, l, rfl, -, e⟩ | ⟨l, a, rfl, -, e⟩ |
    ⟨l, a, b, l', rfl, h1, h2, e⟩
  · rw [e]; exact ⟨hlo _ (by simp), hhi _ (by simp)⟩
  · rw [e]; exact ⟨hlo _ (by simp), hhi _ (by simp)⟩
  · rw [e]
    have ha := hlo a (by simp)
    have hb := hlo b (by simp)
    have ha' := hhi a (by simp)
    have hb' := hhi b (by simp)
    have hd : 0 < b.1 - a.1 := by linarith
    have e2 : a.2 + (b.2 - a.2) / (b.1 - a.1) * (x - a.1) =
        (a.2 * (b.1 - x) + b.2 * (x - a.1)) / (b.1 - a.1) := by field_simp; ring
    rw [e2, le_div_iff₀ hd, div_le_iff₀ hd]
    constructor <;> nlinarith

/-- On a straight line, inside. -/
theorem interpAt_line (L : List (ℝ × ℝ)) (hL : Incr L) (x c d : ℝ)
    (hline : ∀ p ∈ L, p.2 = c * p.1 + d) (h1 : ∃ p ∈ L, p.1 ≤ x) (h2 : ∃ p ∈ L, x ≤ p.1) :
    interpAt L x = c * x + d := by
  have hne : L ≠ [] := by rintro rfl; obtain ⟨p, hp, -⟩ := h1; cases hp
  rcases interpAt_cases L hL hne x with ⟨a, l, rfl, hx, -⟩ | ⟨l, a, rfl, hx, e⟩ |
    ⟨l, a, b, l', rfl, hx, hx', e⟩
  · obtain ⟨p, hp, hpx⟩ := h1
    rcases List.mem_cons.1 hp with rfl | hp
    · linarith
    · have := (List.pairwise_cons.1 hL).1 p hp
      linarith
  · rw [e]
    obtain ⟨p, hp, hpx⟩ := h2
    have hle : p.1 ≤ a.1 := by
      rcases List.mem_append.1 hp with hp | hp
      · exact ((List.pairwise_append.1 hL).2.2 p hp a (by simp)).le
      · rw [List.mem_singleton.1 hp]
    have : x = a.1 := le_antisymm (hpx.trans hle) hx
    rw [hline a (by simp), this]
  · rw [e, hline a (by simp), hline b (by simp)]
    have hd : b.1 - a.1 ≠ 0 := by linarith
    field_simp
    ring

/-- At a sample. -/
theorem interpAt_sample (L : List (ℝ × ℝ)) (hL : Incr L) (p : ℝ × ℝ) (hp : p ∈ L) :
    interpAt L p.1 = p.2 := by
  have hne : L ≠ [] := by rintro rfl; cases hp
  rcases interpAt_cases L hL hne p.1 with ⟨a, l, rfl, hx, -⟩ | ⟨l, a, rfl, hx, e⟩ |
    ⟨l, a, b, l', rfl, hx, hx', e⟩
  · rcases List.mem_cons.1 hp with rfl | hp
    · exact absurd hx (lt_irrefl _)
    · have := (List.pairwise_cons.1 hL).1 p hp
      linarith
  · rw [e]
    rcases List.mem_append.1 hp with hp | hp
    · have := (List.pairwise_append.1 hL).2.2 p hp a (by simp)
      linarith
    · rw [List.mem_singleton.1 hp]
  · rw [e]
    obtain ⟨h1, h2, h3⟩ := List.pairwise_append.1 hL
    rcases List.mem_append.1 hp with hp | hp
    · have := h3 p hp a (by simp)
      linarith
    · rcases List.mem_cons.1 hp with rfl | hp
      · ring
      · rcases List.mem_cons.1 hp with rfl | hp
        · exact absurd hx' (lt_irrefl _)
        · have := (List.pairwise_cons.1 (List.pairwise_cons.1 h2).2).1 p hp
          linarith

/-- Below the first sample. -/
theorem interpAt_below (a : ℝ × ℝ) (l : List (ℝ × ℝ)) (hL : Incr (a :: l)) (x : ℝ) (hx : x ≤ a.1) :
    interpAt (a :: l) x = a.2 := by
  rcases hx.lt_or_eq with hx | rfl
  · rcases interpAt_cases _ hL (by simp) x with ⟨b, l', e, -, h⟩ | ⟨l', b, e, h, -⟩ |
      ⟨l', b, c, l2, e, h, -, -⟩
    · obtain ⟨rfl, rfl⟩ := List.cons.inj e; exact h
    · have hb : b ∈ a :: l := by rw [e]; simp
      rcases List.mem_cons.1 hb with rfl | hb
      · linarith
      · have := (List.pairwise_cons.1 hL).1 b hb; linarith
    · have hb : b ∈ a :: l := by rw [e]; simp
      rcases List.mem_cons.1 hb with rfl | hb
      · linarith
      · have := (List.pairwise_cons.1 hL).1 b hb; linarith
  · exact interpAt_sample _ hL a (by simp)

/-- Above the last sample. -/
theorem interpAt_above (a : ℝ × ℝ) (l : List (ℝ × ℝ)) (hL : Incr (l ++ [a])) (x : ℝ) (hx : a.1 ≤ x) :
    interpAt (l ++ [a]) x = a.2 := by
  have hm : ∀ b ∈ l ++ [a], b.1 ≤ a.1 := by
    intro b hb
    rcases List.mem_append.1 hb with hb | hb
    · exact ((List.pairwise_append.1 hL).2.2 b hb a (by simp)).le
    · rw [List.mem_singleton.1 hb]
  rcases interpAt_cases _ hL (by simp) x with ⟨b, l', e, h, -⟩ | ⟨l', b, e, h, h'⟩ |
      ⟨l', b, c, l2, e, -, h, -⟩
  · have := (hm b (by rw [e]; simp)); linarith
  · have := List.append_inj_right' e rfl
    rw [h']; simpa using congrArg (fun l => (l.headD (0, 0)).2) this.symm
  · have := (hm c (by rw [e]; simp)); linarith

end QMix.IvData
